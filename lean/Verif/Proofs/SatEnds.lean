import Verif.Spec.SatEnds
import Verif.Proofs.Saturated
/-! Runs of saturating rules come to an end. -/
namespace Ruler
open Spec EGraph
variable {O C : Type} [Lang O] [LinearOrder C] {D : Domain O C} {E : Egg}

/-- No interval, no samples. -/
def SatOk (s : Signature O C) (_ : Unit) : Prop := s.interval = ⟨none, none⟩ ∧ s.cvec = []

/-- The invariant of e-graphs without samples and intervals. -/
abbrev SInv (g : EGraph O C) : Prop := InvS (emptySide (O := O)) (fun _ _ => True) (fun _ _ => ()) SatOk g (fun _ => ())

/-- Growth, without values. -/
abbrev UExt (g g' : EGraph O C) : Prop := Ext g (fun _ => ()) g' (fun _ => ())

theorem satInv (hD : NoFold D) (hE : EmptyVectors D) : DataInvS (emptySide (O := O)) D (fun _ _ => True) (fun _ _ => ()) SatOk where
  leaf := fun _ _ h => h.elim
  again := fun _ _ _ _ _ _ _ _ h => h.elim
  make := fun len nd get val s hl hp ha hc h =>
    ⟨(foldInv (NoFold.foldsIn hD (fun _ _ => True) (fun _ (_ : List Unit) => ()))).make len nd get val s (fun _ h => (by cases h)) (fun h => h.elim) ha
      (fun c hc' => (hc c hc').1) h, (emptyInv hE).make len nd get val s hl hp ha (fun c hc' => (hc c hc').2) h⟩
  merge := fun a b v m ha hb h =>
    ⟨(foldInv (NoFold.foldsIn hD (fun _ _ => True) (fun _ (_ : List Unit) => ()))).merge a b v m ha.1 hb.1 h, (emptyInv hE).merge a b v m ha.2 hb.2 h⟩
  const := fun s v c t h => (emptyInv hE).const s v c t h.2
  custom := (emptyInv hE).custom
  varTerms := (emptyInv hE).varTerms

omit [Lang O] [LinearOrder C] in
theorem SInv.free {g : EGraph O C} (h : SInv g) : Inv (fun _ _ => True) (fun _ _ => ()) Free g (fun _ => ()) :=
  ⟨h.find_lt, h.find_ge, h.idem, h.nodes_lt, h.nodes_ar, h.val_find, h.val_node, fun i hi => (h.data_ok i hi).1,
    fun _ h => (by cases h), fun _ h => h.elim⟩

omit [Lang O] [LinearOrder C] in
theorem SInv.defined {g : EGraph O C} (h : SInv g) : ∀ i, i < g.n → (g.dataOf i).isDefined = true := by
  intro i hi
  have := (h.data_ok i hi).2
  rw [EGraph.dataOf, Signature.isDefined, this]
  rfl

omit [Lang O] [LinearOrder C] in
theorem PRep.congr {g : EGraph O C} {σ : Subst} {p : Pat O} {i j : Nat} (h : PRep g σ p i) (he : g.find i = g.find j) : PRep g σ p j := by
  cases p with
  | var v =>
    obtain ⟨k, h1, h2⟩ := h
    exact ⟨k, h1, h2.trans he⟩
  | node o l =>
    obtain ⟨e, h1, h2, h3, h4⟩ := h
    exact ⟨e, h1, h2, h3.trans he, h4⟩

omit [Lang O] [LinearOrder C] in
theorem prep_children {g : EGraph O C} {σ : Subst} {l : List (Pat O)} {cs ds : List Nat} (h : List.Forall₂ (PRep g σ) l cs)
    (k : ds.map g.find = cs.map g.find) : List.Forall₂ (PRep g σ) l ds := by
  induction h generalizing ds with
  | nil =>
    cases ds with
    | nil => exact .nil
    | cons _ _ => simp at k
  | cons hab _ ih =>
    cases ds with
    | nil => simp at k
    | cons d ds =>
      simp only [List.map_cons, List.cons.injEq] at k
      exact .cons (PRep.congr hab k.1.symm) (ih k.2)

omit [Lang O] [LinearOrder C] in
/-- Represented patterns stay represented. -/
theorem PRep.ext {g g' : EGraph O C} (hg : SInv g) (hE : UExt g g') {σ : Subst} (hσ : SubstLt g σ) (p : Pat O) :
    ∀ i, i < g.n → PRep g σ p i → PRep g' σ p i := by
  induction p using Pat.ind with
  | hv v =>
    rintro i hi ⟨j, h1, h2⟩
    exact ⟨j, h1, hE.find_eq _ _ (hσ v j h1) hi h2⟩
  | hn o l ih =>
    rintro i hi ⟨e, h1, h2, h3, h4⟩
    obtain ⟨e', he', k1, k2, k3⟩ := hE.nodes e h1
    have r := hg.nodes_lt e h1
    refine ⟨e', he', k1.trans h2, k3.trans (hE.find_eq _ _ r.1 hi h3), ?_⟩
    rw [PRepL_iff] at h4 ⊢
    have h5 := forall2_imp_mem h4 fun a ha b hb hab => ih a ha b (r.2 b hb) hab
    exact prep_children h5 k2

omit [Lang O] [LinearOrder C] in
theorem PRep.sub_lt {g : EGraph O C} (hg : SInv g) {σ : Subst} {q p : Pat O} (h : PatSub q p) :
    ∀ {i}, i < g.n → PRep g σ p i → ∃ j, j < g.n ∧ PRep g σ q j := by
  induction h with
  | refl => intro i hi h; exact ⟨i, hi, h⟩
  | arg hm _ ih =>
    rintro i _ ⟨e, he, _, _, h4⟩
    rw [PRepL_iff] at h4
    obtain ⟨c, hc', hc⟩ := forall2_mem_left h4 hm
    exact ih ((hg.nodes_lt e he).2 c hc') hc

/-- In a closed e-graph a pattern is represented by one class. -/
theorem PRep.unique (D : Domain O C) (E : Egg) {g : EGraph O C} (hg : SInv g) (hc : g.closed = true) {σ : Subst} {p : Pat O} {i j : Nat}
    (hi : PRep g σ p i) (hj : PRep g σ p j) : g.find i = g.find j := by
  obtain ⟨a, h1, h2⟩ := addPat_rep (D := D) (E := E) hg.free hc p hi
  obtain ⟨b, h3, h4⟩ := addPat_rep (D := D) (E := E) hg.free hc p hj
  rw [h1] at h3
  cases h3
  rw [← h2, ← h4]

/-- What `add` does without constant folding. -/
theorem add_free (hD : NoFold D) {g g' : EGraph O C} {nd : FNode O} {k : Nat} (h : add D E g nd = some (g', k)) :
    (g' = g ∧ g.lookup nd = some k) ∨
      (g.lookup nd = none ∧ g'.n = g.n + 1 ∧ k = g.n ∧ g'.nodes = g.nodes ++ [(g.canon nd, g.n)] ∧
        ∀ i, g'.find i = if i = g.n then g.n else g.find i) := by
  simp only [EGraph.add, addWith] at h
  cases hlk : g.lookup nd with
  | some i =>
    rw [hlk] at h
    cases h
    exact .inl ⟨rfl, rfl⟩
  | none =>
    rw [hlk] at h
    simp only at h
    rw [Option.bind_eq_some_iff] at h
    obtain ⟨s, hsig, h⟩ := h
    rw [Option.map_eq_some_iff] at h
    obtain ⟨g2, hmod, h⟩ := h
    simp only [Prod.mk.injEq] at h
    obtain ⟨rfl, rfl⟩ := h
    have := modify_free hD (by simp only [EGraph.dataOf, if_true]; exact hD.1 _ _ _ (makeSig_some hsig).2.1) hmod
    subst this
    exact .inr ⟨rfl, rfl, by simp, rfl, fun _ => rfl⟩

omit [Lang O] [LinearOrder C] in
theorem SubstLt.ext {g g' : EGraph O C} {σ : Subst} (h : SubstLt g σ) (hE : g.n ≤ g'.n) : SubstLt g' σ :=
  fun v j hv => Nat.lt_of_lt_of_le (h v j hv) hE

/-- Inserting a pattern: the invariant, growth, and what the new ids stand for. -/
def Inserts (σ : Subst) (p : Pat O) (g g' : EGraph O C) (k : Nat) : Prop :=
  SInv g' ∧ UExt g g' ∧ k < g'.n ∧ PRep g' σ p k ∧ ∀ i, i < g'.n → i < g.n ∨ ∃ q, PatSub q p ∧ PRep g' σ q i

theorem addPat_inserts (hD : NoFold D) (hE : EmptyVectors D) {σ : Subst} (p : Pat O) :
    ∀ {g g' k}, SInv g → SubstLt g σ → addPat D E σ p g = some (g', k) → Inserts σ p g g' k := by
  induction p using Pat.ind with
  | hv v =>
    intro g g' k hg hσ h
    rw [addPat, Option.map_eq_some_iff] at h
    obtain ⟨j, hj, h⟩ := h
    cases h
    exact ⟨hg, Ext.refl _ _, hσ v k hj, ⟨k, hj, rfl⟩, fun i hi => .inl hi⟩
  | hn o l ih =>
    intro g g' k hg hσ h
    rw [addPat, Option.bind_eq_some_iff] at h
    obtain ⟨⟨g1, ks⟩, h1, h2⟩ := h
    have key : ∀ (l : List (Pat O)) (g : EGraph O C) (ks : List Nat),
        (∀ s ∈ l, ∀ {g g' k}, SInv g → SubstLt g σ → addPat D E σ s g = some (g', k) → Inserts σ s g g' k) →
        SInv g → SubstLt g σ → addPatL D E σ l g = some (g1, ks) →
        SInv g1 ∧ UExt g g1 ∧ (∀ k ∈ ks, k < g1.n) ∧ List.Forall₂ (PRep g1 σ) l ks ∧
          ∀ i, i < g1.n → i < g.n ∨ ∃ s ∈ l, ∃ q, PatSub q s ∧ PRep g1 σ q i := by
      intro l
      induction l with
      | nil =>
        intro g ks _ hg hσ h
        rw [addPatL] at h
        cases h
        exact ⟨hg, Ext.refl _ _, by simp, .nil, fun i hi => .inl hi⟩
      | cons a l ihl =>
        intro g ks hs hg hσ h
        rw [addPatL, Option.bind_eq_some_iff] at h
        obtain ⟨⟨g2, k⟩, k1, k2⟩ := h
        rw [Option.map_eq_some_iff] at k2
        obtain ⟨⟨g3, js⟩, k2, k3⟩ := k2
        cases k3
        obtain ⟨I2, E2, l2, r2, n2⟩ := hs a (by simp) hg hσ k1
        have hσ2 := hσ.ext E2.n_le
        obtain ⟨I3, E3, l3, r3, n3⟩ := ihl g2 js (fun s hs' => hs s (by simp [hs'])) I2 hσ2 k2
        refine ⟨I3, Ext.trans hg I2 E2 E3, ?_, .cons (PRep.ext I2 E3 hσ2 _ _ l2 r2) r3, ?_⟩
        · intro c hc
          rcases List.mem_cons.1 hc with rfl | hc
          · exact Nat.lt_of_lt_of_le l2 E3.n_le
          · exact l3 c hc
        · intro i hi
          rcases n3 i hi with h | ⟨s, hs', q, hq, hr⟩
          · rcases n2 i h with h' | ⟨q, hq, hr⟩
            · exact .inl h'
            · exact .inr ⟨a, by simp, q, hq, PRep.ext I2 E3 hσ2 _ _ h hr⟩
          · exact .inr ⟨s, by simp [hs'], q, hq, hr⟩
    obtain ⟨I1, E1, l1, r1, n1⟩ := key l g ks ih hg hσ h1
    obtain ⟨v2, I2, E2, lt2, f2, _, e, he, e1, e2, e3⟩ := add_ok (satInv hD hE) I1 trivial l1 h2
    have hσ1 := hσ.ext E1.n_le
    have hrep : PRep g' σ (.node o l) k := by
      refine ⟨e, he, e1, e3.trans f2.symm, ?_⟩
      rw [PRepL_iff]
      have h5 : List.Forall₂ (PRep g' σ) l ks := forall2_imp_mem r1 fun a _ b hb hab => PRep.ext I1 E2 hσ1 _ _ (l1 b hb) hab
      clear * - h5 e2
      simp only at e2
      generalize e.1.children = ds at *
      exact prep_children h5 e2
    refine ⟨I2, Ext.trans hg I1 E1 E2, lt2, hrep, ?_⟩
    intro i hi
    have hlast : i < g1.n ∨ i = k := by
      rcases add_free hD h2 with ⟨rfl, _⟩ | ⟨_, k1, k2, _⟩
      · exact .inl hi
      · rw [k1] at hi
        rw [k2]
        simp only at hi ⊢
        omega
    rcases hlast with h | rfl
    · rcases n1 i h with h' | ⟨s, hs, q, hq, hr⟩
      · exact .inl h'
      · exact .inr ⟨q, .arg hs hq, PRep.ext I1 E2 hσ1 _ _ h hr⟩
    · exact .inr ⟨_, .refl _, hrep⟩

omit [LinearOrder C] in
theorem search_prep {g : EGraph O C} (hg : SInv g) {r : Rule O} {m : Nat × Subst} (hm : m ∈ g.search r.lhs) :
    m.1 < g.n ∧ SubstLt g m.2 ∧ PRep g m.2 r.lhs m.1 := by
  have hmo := search_ok hg.free r m hm
  refine ⟨hmo.lt, hmo.bounded, ?_⟩
  unfold EGraph.search at hm
  simp only [List.mem_flatMap, List.mem_map] at hm
  obtain ⟨i, hi, σ, hσ, rfl⟩ := hm
  simp only [EGraph.classes, List.mem_filter, List.mem_range] at hi
  exact ematch_rep hg.free r.lhs i [] σ hi.1 (by intro v j hv; simp at hv) hσ

/-- The cases of one application in an e-graph without samples. -/
theorem applyOne_cases (hD : NoFold D) (hE : EmptyVectors D) {rhs : Pat O} {h h1 : EGraph O C} {m : Nat × Subst} (hh : SInv h) (hm : m.1 < h.n)
    (hσ : SubstLt h m.2) (ha : applyOne D E rhs h m = some h1) :
    ∃ h2 k, addPat D E m.2 rhs h = some (h2, k) ∧ Inserts m.2 rhs h h2 k ∧ SInv h1 ∧ UExt h2 h1 ∧ h1.n = h2.n ∧ h1.nodes = h2.nodes ∧
      h1.find k = h1.find m.1 ∧ (h2.find k = h2.find m.1 → h1 = h2) := by
  unfold applyOne at ha
  rw [hh.defined m.1 hm] at ha
  simp only [Bool.not_true, Bool.false_eq_true, if_false] at ha
  rw [Option.bind_eq_some_iff] at ha
  obtain ⟨⟨h2, k⟩, ha1, ha⟩ := ha
  have hins := addPat_inserts hD hE rhs hh hσ ha1
  obtain ⟨I2, E2, l2, _, _⟩ := id hins
  refine ⟨h2, k, ha1, hins, ?_⟩
  simp only at ha
  split at ha
  · rename_i hk
    cases ha
    exact ⟨I2, Ext.refl _ _, rfl, rfl, by rw [hk], fun _ => rfl⟩
  · rw [I2.defined k l2] at ha
    simp only [Bool.not_true, Bool.false_eq_true, if_false] at ha
    have hm2 : m.1 < h2.n := Nat.lt_of_lt_of_le hm E2.n_le
    obtain ⟨hS, hnod⟩ := union_free hD I2.free l2 hm2 ha
    obtain ⟨v, I3, E3, hf⟩ := union_ok (satInv hD hE) I2 l2 hm2 rfl ha
    refine ⟨I3, E3, hS.n_eq, hnod, hf, fun he => ?_⟩
    unfold EGraph.union unionWith at ha
    rw [if_pos he] at ha
    exact (Option.some.inj ha).symm

/-- Ids made by applying a saturating rule are equal to old ones, once the e-graph is rebuilt. -/
theorem applyOne_old (hD : NoFold D) (hE : EmptyVectors D) {r : Rule O} (hr : ArgsOccur r.lhs r.rhs) {g h h1 : EGraph O C} (hg : SInv g)
    (hh : SInv h) (hgh : UExt g h) {m : Nat × Subst} (hm : m ∈ g.search r.lhs) (ha : applyOne D E r.rhs h m = some h1) :
    SInv h1 ∧ UExt h h1 ∧ ∀ f : EGraph O C, SInv f → f.closed = true → UExt h1 f → ∀ i, i < h1.n →
      i < h.n ∨ ∃ j, j < g.n ∧ f.find j = f.find i := by
  obtain ⟨m1, m2, m3⟩ := search_prep hg hm
  obtain ⟨h2, k, _, ⟨I2, E2, l2, r2, n2⟩, I1, E1, en, _, hf, _⟩ :=
    applyOne_cases hD hE hh (Nat.lt_of_lt_of_le m1 hgh.n_le) (m2.ext hgh.n_le) ha
  have E12 := Ext.trans hh I2 E2 E1
  refine ⟨I1, E12, ?_⟩
  intro f If hc Ef i hi
  have σ2 : SubstLt h2 m.2 := (m2.ext hgh.n_le).ext E2.n_le
  have E2f := Ext.trans I2 I1 E1 Ef
  have Egf := Ext.trans hg hh hgh (Ext.trans hh I2 E2 E2f)
  rcases n2 i (en ▸ hi) with h' | ⟨q, hq, hrep⟩
  · exact .inl h'
  · right
    have hrf := PRep.ext I2 E2f σ2 q i (en ▸ hi) hrep
    by_cases hqr : q = r.rhs
    · subst hqr
      refine ⟨m.1, m1, ?_⟩
      have h3 := PRep.unique D E If hc hrf (PRep.ext I2 E2f σ2 _ k l2 r2)
      have h4 := Ef.find_eq k m.1 (en ▸ l2) (Nat.lt_of_lt_of_le (Nat.lt_of_lt_of_le m1 hgh.n_le) E12.n_le) hf
      rw [h3, h4]
    · obtain ⟨j, hj, hjr⟩ := PRep.sub_lt hg (hr q hq hqr) m1 m3
      exact ⟨j, hj, PRep.unique D E If hc (PRep.ext hg Egf m2 q j hj hjr) hrf⟩

/-- The same for the applications of one iteration. -/
theorem applies_old (hD : NoFold D) (hE : EmptyVectors D) {R : Rule O → Prop} (hR : ∀ r, R r → ArgsOccur r.lhs r.rhs) {g h h' : EGraph O C}
    (hg : SInv g) (ha : Applies D R g h h') : SInv h → UExt g h →
    SInv h' ∧ UExt h h' ∧ ∀ f : EGraph O C, SInv f → f.closed = true → UExt h' f → ∀ i, i < h'.n →
      i < h.n ∨ ∃ j, j < g.n ∧ f.find j = f.find i := by
  induction ha with
  | refl => exact fun hh _ => ⟨hh, Ext.refl _ _, fun _ _ _ _ i hi => .inl hi⟩
  | step hr hm h1 _ ih =>
    intro hh hgh
    obtain ⟨I1, E1, n1⟩ := applyOne_old hD hE (hR _ hr) hg hh hgh hm h1
    obtain ⟨I2, E2, n2⟩ := ih I1 (Ext.trans hg hh hgh E1)
    refine ⟨I2, Ext.trans hh I1 E1 E2, ?_⟩
    intro f If hc Ef i hi
    rcases n2 f If hc Ef i hi with h' | h'
    · exact n1 f If hc (Ext.trans I1 I2 E2 Ef) i h'
    · exact .inr h'

/-- An iteration of saturating rules. -/
theorem iteration_old (hD : NoFold D) (hE : EmptyVectors D) {R : Rule O → Prop} (hR : ∀ r, R r → ArgsOccur r.lhs r.rhs) {g h g' : EGraph O C}
    (hg : SInv g) (ha : Applies D R g g h) {steps : List Repair} (hb : EGraph.rebuild D E steps h = some g') :
    SInv h ∧ UExt g h ∧ SInv g' ∧ UExt h g' ∧ g'.closed = true ∧ ∀ i, i < g'.n → ∃ j, j < g.n ∧ g'.find j = g'.find i := by
  obtain ⟨I1, E1, n1⟩ := applies_old hD hE hR hg ha hg (Ext.refl _ _)
  obtain ⟨⟨v, I2, E2⟩, hc⟩ := rebuild_ok (satInv hD hE) I1 hb
  have hn := (rebuild_shrinks hD I1.free hb).2.n_eq
  refine ⟨I1, E1, I2, E2, hc, fun i hi => ?_⟩
  rcases n1 g' I2 hc E2 i (hn ▸ hi) with h' | h'
  · exact ⟨i, h', rfl⟩
  · exact h'

/-! ## What changes -/

/-- The class of `j` has a node with this operator and arguments. -/
def HasNode (g : EGraph O C) (o : O) (cs : List Nat) (j : Nat) : Prop :=
  ∃ e ∈ g.nodes, e.1.op = o ∧ e.1.children.map g.find = cs.map g.find ∧ g.find e.2 = g.find j

omit [Lang O] [LinearOrder C] in
theorem HasNode.congr {g : EGraph O C} {o : O} {cs ds : List Nat} {i j : Nat} (h : HasNode g o cs i) (hc : cs.map g.find = ds.map g.find)
    (hi : g.find i = g.find j) : HasNode g o ds j := by
  obtain ⟨e, h1, h2, h3, h4⟩ := h
  exact ⟨e, h1, h2, h3.trans hc, h4.trans hi⟩

omit [Lang O] [LinearOrder C] in
theorem HasNode.ext {g g' : EGraph O C} (hg : SInv g) (hE : UExt g g') {o : O} {cs : List Nat} {j : Nat} (hcs : ∀ c ∈ cs, c < g.n) (hj : j < g.n)
    (h : HasNode g o cs j) : HasNode g' o cs j := by
  obtain ⟨e, h1, h2, h3, h4⟩ := h
  obtain ⟨e', he', k1, k2, k3⟩ := hE.nodes e h1
  have r := hg.nodes_lt e h1
  refine ⟨e', he', k1.trans h2, k2.trans ?_, k3.trans (hE.find_eq _ _ r.1 hj h4)⟩
  exact map_find_of g.find g'.find _ _ (fun i hi j hj => hE.find_eq i j (r.2 i hi) (hcs j hj)) h3

/-- An application that changes a closed e-graph unites two classes or gives a class a new node. -/
theorem applyOne_change (hD : NoFold D) (hE : EmptyVectors D) {r : Rule O} (hr : ArgsOccur r.lhs r.rhs) {g h : EGraph O C} (hg : SInv g)
    (hc : g.closed = true) {m : Nat × Subst} (hm : m ∈ g.search r.lhs) (ha : applyOne D E r.rhs g m = some h) (hne : h ≠ g) :
    (∃ i j, i < g.n ∧ j < g.n ∧ g.find i ≠ g.find j ∧ h.find i = h.find j) ∨
      ∃ o args cs j, r.rhs = .node o args ∧ cs.length = args.length ∧ (∀ c ∈ cs, c < g.n) ∧ j < g.n ∧ ¬ HasNode g o cs j ∧ HasNode h o cs j := by
  obtain ⟨m1, m2, m3⟩ := search_prep hg hm
  obtain ⟨h2, k, hadd, ⟨I2, E2, l2, r2, n2⟩, I1, E1, en, enod, hf, hsame⟩ := applyOne_cases hD hE hg m1 m2 ha
  have hold : h2 = g → (∃ i j, i < g.n ∧ j < g.n ∧ g.find i ≠ g.find j ∧ h.find i = h.find j) := by
    rintro rfl
    exact ⟨k, m.1, l2, m1, fun he => hne (hsame he), hf⟩
  cases hrhs : r.rhs with
  | var v =>
    rw [hrhs, addPat, Option.map_eq_some_iff] at hadd
    obtain ⟨j, _, hadd⟩ := hadd
    cases hadd
    exact .inl (hold rfl)
  | node o args =>
    have hne' : ∀ p ∈ args, p ≠ r.rhs := by
      intro p hp he
      have h1 : TmSub p.instantiate p.instantiate := .refl _
      rw [hrhs] at he
      conv at h1 => lhs; rw [he]
      rw [Pat.instantiate, Pat.instantiateL_eq] at h1
      exact not_sub_arg (List.mem_map_of_mem hp) h1
    have hargs : ∀ p ∈ args, ∃ i, PRep g m.2 p i := fun p hp =>
      PRep.sub (hr p (by rw [hrhs]; exact .arg hp (.refl _)) (hne' p hp)) m3
    obtain ⟨js, hjs⟩ := addPatL_rep (D := D) (E := E) hg.free hc args hargs
    rw [hrhs, addPat, hjs, Option.bind_some] at hadd
    have hjlt : js.length = args.length ∧ ∀ c ∈ js, c < g.n := by
      clear * - hjs hg hD hE m2 hargs hc
      induction args generalizing js with
      | nil => rw [addPatL] at hjs; cases hjs; simp
      | cons a args ih =>
        obtain ⟨i, hi⟩ := hargs a (by simp)
        obtain ⟨j, j1, _⟩ := addPat_rep (D := D) (E := E) hg.free hc a hi
        have hjl := (addPat_inserts hD hE a hg m2 j1).2.2.1
        rw [addPatL, j1, Option.bind_some, Option.map_eq_some_iff] at hjs
        obtain ⟨⟨g3, ks⟩, k2, k3⟩ := hjs
        cases k3
        obtain ⟨h1, h2⟩ := ih (fun p hp => hargs p (by simp [hp])) ks k2
        refine ⟨by simp [h1], ?_⟩
        intro c hc'
        rcases List.mem_cons.1 hc' with rfl | hc'
        · exact hjl
        · exact h2 c hc'
    rcases add_free hD hadd with ⟨h3, _⟩ | ⟨hl, hn, hk, hnod, hfind⟩
    · exact .inl (hold h3)
    · right
      simp only at hl hn hk hnod hfind
      refine ⟨o, args, js, m.1, rfl, hjlt.1, hjlt.2, m1, ?_, ?_⟩
      · rintro ⟨e, he, e1, e2, e3⟩
        have := closed_lookup hc he (nd := ⟨o, js⟩) (by simp only [EGraph.canon, e2, e1])
        rw [hl] at this
        cases this
      · refine ⟨(g.canon ⟨o, js⟩, g.n), by rw [enod, hnod]; simp, rfl, ?_, ?_⟩
        · simp only [EGraph.canon, List.map_map]
          refine List.map_congr_left fun c hc' => ?_
          have hcl := hjlt.2 c hc'
          have h4 : h2.find (g.find c) = h2.find c := by
            rw [hfind, hfind, if_neg (Nat.ne_of_lt (hg.find_lt c hcl)), if_neg (Nat.ne_of_lt hcl), hg.idem]
          exact E1.find_eq _ _ (by have := hg.find_lt c hcl; omega) (by omega) h4
        · rw [← hk]
          exact hf

theorem applies_change (hD : NoFold D) (hE : EmptyVectors D) {R : Rule O → Prop} (hR : ∀ r, R r → ArgsOccur r.lhs r.rhs) {g h : EGraph O C}
    (hg : SInv g) (hc : g.closed = true) {a : EGraph O C} (ha : Applies D R g a h) : a = g → h ≠ g →
    (∃ i j, i < g.n ∧ j < g.n ∧ g.find i ≠ g.find j ∧ h.find i = h.find j) ∨
      ∃ r, R r ∧ ∃ o args cs j, r.rhs = .node o args ∧ cs.length = args.length ∧ (∀ c ∈ cs, c < g.n) ∧ j < g.n ∧
        ¬ HasNode g o cs j ∧ HasNode h o cs j := by
  induction ha with
  | refl => exact fun h1 h2 => absurd h1 h2
  | @step a h1 h2 E r m hr hm hap hrest ih =>
    rintro rfl hne
    by_cases he : h1 = a
    · exact ih he hne
    · obtain ⟨I1, E1, _⟩ := applyOne_old hD hE (hR _ hr) hg hg (Ext.refl _ _) hm hap
      obtain ⟨I2, E2, _⟩ := applies_old hD hE hR hg hrest I1 E1
      rcases applyOne_change hD hE (hR _ hr) hg hc hm hap he with ⟨i, j, hi, hj, h3, h4⟩ | ⟨o, args, cs, j, h3, h4, h5, h6, h7, h8⟩
      · exact .inl ⟨i, j, hi, hj, h3, E2.find_eq _ _ (Nat.lt_of_lt_of_le hi E1.n_le) (Nat.lt_of_lt_of_le hj E1.n_le) h4⟩
      · exact .inr ⟨r, hr, o, args, cs, j, h3, h4, h5, h6, h7, HasNode.ext I1 E2 (fun c hc' => Nat.lt_of_lt_of_le (h5 c hc') E1.n_le)
          (Nat.lt_of_lt_of_le h6 E1.n_le) h8⟩

/-! ## Counting -/

/-- All lists of `k` numbers below `n`. -/
def tuples (n : Nat) : Nat → List (List Nat)
  | 0 => [[]]
  | k + 1 => (List.range n).flatMap fun a => (tuples n k).map (a :: ·)

theorem tuples_length (n k : Nat) : (tuples n k).length = n ^ k := by
  induction k with
  | zero => rfl
  | succ k ih => simp [tuples, ih, List.length_flatMap, Nat.pow_succ, Nat.mul_comm]

theorem mem_tuples {n : Nat} (l : List Nat) (h : ∀ c ∈ l, c < n) : l ∈ tuples n l.length := by
  induction l with
  | nil => simp [tuples]
  | cons a l ih =>
    simp only [List.length_cons, tuples, List.mem_flatMap, List.mem_range, List.mem_map]
    exact ⟨a, h a (by simp), l, ih fun c hc => h c (by simp [hc]), rfl⟩

/-- Facts about ids: two are equal, or a class has a node. -/
inductive IdFact (O : Type)
  | eq (i j : Nat)
  | node (o : O) (cs : List Nat) (j : Nat)

/-- The fact is true in the e-graph. -/
def IdFact.True (g : EGraph O C) : IdFact O → Prop
  | .eq i j => g.find i = g.find j
  | .node o cs j => HasNode g o cs j

/-- The facts that a rule can add. -/
def ruleFacts (n : Nat) (r : Rule O) : List (IdFact O) :=
  match r.rhs with
  | .var _ => []
  | .node o args => (tuples n args.length).flatMap fun cs => (List.range n).map fun j => .node o cs j

/-- All facts that can be added. -/
def allFacts (rules : List (Rule O)) (n : Nat) : List (IdFact O) :=
  ((List.range n).flatMap fun i => (List.range n).map fun j => .eq i j) ++ rules.flatMap (ruleFacts n)

omit [Lang O] in
theorem allFacts_length (rules : List (Rule O)) (n : Nat) : (allFacts rules n).length ≤ workBound rules n := by
  unfold allFacts workBound
  rw [List.length_append]
  refine Nat.add_le_add ?_ ?_
  · simp [List.length_flatMap, Nat.pow_two]
  · rw [List.length_flatMap]
    have h1 : ∀ r : Rule O, (ruleFacts n r).length ≤ n ^ (rootArity r.rhs + 1) := by
      intro r
      unfold ruleFacts rootArity
      cases r.rhs with
      | var _ => simp
      | node o args => simp [List.length_flatMap, tuples_length, Nat.pow_succ]
    induction rules with
    | nil => simp
    | cons r rules ih =>
      simp only [List.map_cons, List.sum_cons]
      exact Nat.add_le_add (h1 r) ih

/-- Ids of `g` are equal to ids below `n`. -/
def OldIds (n : Nat) (g : EGraph O C) : Prop := n ≤ g.n ∧ ∀ i, i < g.n → ∃ j, j < n ∧ g.find j = g.find i

open Classical in
/-- How many of the facts are true. -/
noncomputable def known (rules : List (Rule O)) (n : Nat) (g : EGraph O C) : Nat := (allFacts rules n).countP fun f => decide (f.True g)

theorem tuples_lt {n k : Nat} {l : List Nat} (h : l ∈ tuples n k) : ∀ c ∈ l, c < n := by
  induction k generalizing l with
  | zero => simp only [tuples, List.mem_singleton] at h; subst h; simp
  | succ k ih =>
    simp only [tuples, List.mem_flatMap, List.mem_range, List.mem_map] at h
    obtain ⟨a, ha, l', hl', rfl⟩ := h
    intro c hc
    rcases List.mem_cons.1 hc with rfl | hc
    · exact ha
    · exact ih hl' c hc

omit [Lang O] in
theorem allFacts_lt {rules : List (Rule O)} {n : Nat} {f : IdFact O} (h : f ∈ allFacts rules n) :
    (∃ i j, i < n ∧ j < n ∧ f = .eq i j) ∨ ∃ o cs j, (∀ c ∈ cs, c < n) ∧ j < n ∧ f = .node o cs j := by
  unfold allFacts at h
  rcases List.mem_append.1 h with h | h
  · simp only [List.mem_flatMap, List.mem_map, List.mem_range] at h
    obtain ⟨i, hi, j, hj, rfl⟩ := h
    exact .inl ⟨i, j, hi, hj, rfl⟩
  · rw [List.mem_flatMap] at h
    obtain ⟨r, _, h⟩ := h
    unfold ruleFacts at h
    split at h
    · simp at h
    · simp only [List.mem_flatMap, List.mem_map, List.mem_range] at h
      obtain ⟨cs, hcs, j, hj, rfl⟩ := h
      exact .inr ⟨_, cs, j, tuples_lt hcs, hj, rfl⟩

omit [Lang O] [LinearOrder C] in
theorem IdFact.ext {g g' : EGraph O C} (hg : SInv g) (hE : UExt g g') {rules : List (Rule O)} {n : Nat} (hn : n ≤ g.n) {f : IdFact O}
    (hf : f ∈ allFacts rules n) (h : f.True g) : f.True g' := by
  rcases allFacts_lt hf with ⟨i, j, hi, hj, rfl⟩ | ⟨o, cs, j, hcs, hj, rfl⟩
  · exact hE.find_eq i j (Nat.lt_of_lt_of_le hi hn) (Nat.lt_of_lt_of_le hj hn) h
  · exact HasNode.ext hg hE (fun c hc => Nat.lt_of_lt_of_le (hcs c hc) hn) (Nat.lt_of_lt_of_le hj hn) h

theorem countP_lt {α : Type} {p q : α → Bool} {l : List α} (h : ∀ x ∈ l, p x = true → q x = true) {y : α} (hy : y ∈ l) (h1 : q y = true)
    (h2 : p y = false) : l.countP p < l.countP q := by
  induction l with
  | nil => cases hy
  | cons a l ih =>
    have hmono : l.countP p ≤ l.countP q := List.countP_mono_left fun x hx => h x (by simp [hx])
    rw [List.countP_cons, List.countP_cons]
    rcases List.mem_cons.1 hy with rfl | hy
    · rw [h1, h2]
      simp only [Bool.false_eq_true, if_false, if_true]
      omega
    · have := ih (fun x hx => h x (by simp [hx])) hy
      have ha := h a (by simp)
      by_cases hp : p a = true
      · rw [if_pos hp, if_pos (ha hp)]; omega
      · rw [if_neg hp]; omega

omit [Lang O] [LinearOrder C] in
theorem known_mono {g g' : EGraph O C} (hg : SInv g) (hE : UExt g g') {rules : List (Rule O)} {n : Nat} (hn : n ≤ g.n) :
    known rules n g ≤ known rules n g' := by
  classical
  unfold known
  refine List.countP_mono_left fun f hf h => ?_
  rw [decide_eq_true_eq] at h ⊢
  exact IdFact.ext hg hE hn hf h

omit [Lang O] [LinearOrder C] in
theorem known_lt {g g' : EGraph O C} (hg : SInv g) (hE : UExt g g') {rules : List (Rule O)} {n : Nat} (hn : n ≤ g.n) {f : IdFact O}
    (hf : f ∈ allFacts rules n) (h1 : f.True g') (h2 : ¬ f.True g) : known rules n g < known rules n g' := by
  classical
  unfold known
  refine countP_lt (fun f hf h => ?_) hf (by simpa using h1) (by simpa using h2)
  rw [decide_eq_true_eq] at h ⊢
  exact IdFact.ext hg hE hn hf h

omit [Lang O] [LinearOrder C] in
theorem oldIds_list {n : Nat} {g : EGraph O C} (h : OldIds n g) (cs : List Nat) (hcs : ∀ c ∈ cs, c < g.n) :
    ∃ ds : List Nat, ds.length = cs.length ∧ (∀ d ∈ ds, d < n) ∧ ds.map g.find = cs.map g.find := by
  induction cs with
  | nil => exact ⟨[], rfl, by simp, rfl⟩
  | cons c cs ih =>
    obtain ⟨ds, h1, h2, h3⟩ := ih fun d hd => hcs d (by simp [hd])
    obtain ⟨j, hj, hf⟩ := h.2 c (hcs c (by simp))
    refine ⟨j :: ds, by simp [h1], ?_, by simp [hf, h3]⟩
    intro d hd
    rcases List.mem_cons.1 hd with rfl | hd
    · exact hj
    · exact h2 d hd

/-- A busy iteration makes a further fact true. -/
theorem busy_known (hD : NoFold D) (hE : EmptyVectors D) {rules : List (Rule O)} (hR : ∀ r ∈ rules, ArgsOccur r.lhs r.rhs) {n : Nat}
    {g h g' : EGraph O C} (hg : SInv g) (hc : g.closed = true) (ho : OldIds n g) (ha : Applies D (· ∈ rules) g g h) (hne : h ≠ g)
    {steps : List Repair} (hb : EGraph.rebuild D E steps h = some g') : known rules n g < known rules n g' := by
  obtain ⟨I1, E1, I2, E2, _, _⟩ := iteration_old hD hE hR hg ha hb
  refine Nat.lt_of_lt_of_le ?_ (known_mono I1 E2 (Nat.le_trans ho.1 E1.n_le))
  rcases applies_change hD hE hR hg hc ha rfl hne with ⟨i, j, hi, hj, h3, h4⟩ | ⟨r, hr, o, args, cs, j, h3, h4, h5, h6, h7, h8⟩
  · obtain ⟨a, ha', fa⟩ := ho.2 i hi
    obtain ⟨b, hb', fb⟩ := ho.2 j hj
    have la := Nat.lt_of_lt_of_le ha' ho.1
    have lb := Nat.lt_of_lt_of_le hb' ho.1
    refine known_lt hg E1 ho.1 (f := .eq a b) ?_ ?_ ?_
    · unfold allFacts
      refine List.mem_append_left _ ?_
      simp only [List.mem_flatMap, List.mem_map, List.mem_range]
      exact ⟨a, ha', b, hb', rfl⟩
    · show h.find a = h.find b
      rw [E1.find_eq a i la hi fa, E1.find_eq b j lb hj fb, h4]
    · show ¬ g.find a = g.find b
      rw [fa, fb]
      exact h3
  · obtain ⟨ds, d1, d2, d3⟩ := oldIds_list ho cs h5
    obtain ⟨b, hb', fb⟩ := ho.2 j h6
    have lb := Nat.lt_of_lt_of_le hb' ho.1
    refine known_lt hg E1 ho.1 (f := .node o ds b) ?_ ?_ ?_
    · unfold allFacts
      refine List.mem_append_right _ (List.mem_flatMap.2 ⟨r, hr, ?_⟩)
      unfold ruleFacts
      rw [h3]
      simp only [List.mem_flatMap, List.mem_map, List.mem_range]
      exact ⟨ds, by rw [← h4, ← d1]; exact mem_tuples ds d2, b, hb', rfl⟩
    · refine HasNode.congr h8 ?_ (E1.find_eq j b h6 lb fb.symm)
      exact map_find_of g.find h.find _ _ (fun i hi k hk => E1.find_eq i k (h5 i hi) (Nat.lt_of_lt_of_le (d2 k hk) ho.1)) d3.symm
    · intro hn
      exact h7 (HasNode.congr hn d3 fb)

omit [Lang O] [LinearOrder C] in
theorem OldIds.next {n : Nat} {g g' : EGraph O C} (h : OldIds n g) (hE : UExt g g') (h' : ∀ i, i < g'.n → ∃ j, j < g.n ∧ g'.find j = g'.find i) :
    OldIds n g' := by
  refine ⟨Nat.le_trans h.1 hE.n_le, fun i hi => ?_⟩
  obtain ⟨j, hj, fj⟩ := h' i hi
  obtain ⟨a, ha, fa⟩ := h.2 j hj
  exact ⟨a, ha, by rw [hE.find_eq a j (Nat.lt_of_lt_of_le ha h.1) hj fa, fj]⟩

theorem works_bound (hD : NoFold D) (hE : EmptyVectors D) {rules : List (Rule O)} (hR : ∀ r ∈ rules, ArgsOccur r.lhs r.rhs) {n k : Nat}
    {g g' : EGraph O C} (hw : Works D (· ∈ rules) k g g') : SInv g → g.closed = true → OldIds n g →
    known rules n g + k ≤ known rules n g' ∧ SInv g' ∧ UExt g g' ∧ g'.closed = true ∧ OldIds n g' := by
  induction hw with
  | stop => exact fun hg hc ho => ⟨Nat.le_refl _, hg, Ext.refl _ _, hc, ho⟩
  | idle ha hb _ ih =>
    intro hg hc ho
    obtain ⟨I1, E1, I2, E2, c2, o2⟩ := iteration_old hD hE hR hg ha hb
    have E12 := Ext.trans hg I1 E1 E2
    obtain ⟨h1, h2, h3, h4, h5⟩ := ih I2 c2 (ho.next E12 o2)
    have := known_mono hg E12 (rules := rules) ho.1
    exact ⟨by omega, h2, Ext.trans hg I2 E12 h3, h4, h5⟩
  | busy ha hne hb _ ih =>
    intro hg hc ho
    obtain ⟨I1, E1, I2, E2, c2, o2⟩ := iteration_old hD hE hR hg ha hb
    have E12 := Ext.trans hg I1 E1 E2
    obtain ⟨h1, h2, h3, h4, h5⟩ := ih I2 c2 (ho.next E12 o2)
    have := busy_known hD hE hR hg hc ho ha hne hb
    exact ⟨by omega, h2, Ext.trans hg I2 E12 h3, h4, h5⟩

omit [Lang O] [LinearOrder C] in
theorem known_le (rules : List (Rule O)) (n : Nat) (g : EGraph O C) : known rules n g ≤ workBound rules n :=
  Nat.le_trans List.countP_le_length (allFacts_length rules n)

omit [Lang O] [LinearOrder C] in
/-- No more classes. -/
theorem oldIds_classes {g g' : EGraph O C} (hg : SInv g) (hE : UExt g g') (ho : OldIds g.n g') : g'.numClasses ≤ g.numClasses := by
  unfold EGraph.numClasses
  rw [← List.length_map (f := g'.find) (as := g.classes)]
  refine length_le_of_subset (classes_nodup _) fun i hi => ?_
  rw [mem_classes] at hi
  obtain ⟨j, hj, fj⟩ := ho.2 i hi.1
  refine List.mem_map.2 ⟨g.find j, mem_classes.2 ⟨hg.find_lt j hj, hg.idem j⟩, ?_⟩
  rw [hE.find_eq (g.find j) j (hg.find_lt j hj) hj (hg.idem j), fj, hi.2]

end Ruler
