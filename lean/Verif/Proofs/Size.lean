import Verif.Proofs.Reach
import Verif.Proofs.Progress
import Verif.Spec.Extract
import Verif.Spec.Vectors
/-! Every class of an e-graph built from certain terms and their subterms (such as small ones) has such a term, also after
classes were united. -/
namespace Ruler
open Spec EGraph
variable {O C : Type} [Lang O] [LinearOrder C] {D : Domain O C} {E : Egg} {P : Tm O → Prop}

/-- The structural part of the invariant. -/
abbrev UInv (g : EGraph O C) (val : Nat → Unit) : Prop := Inv (fun _ _ => True) (fun _ _ => ()) (fun _ _ => True) g val

/-- With a term its arguments belong to the set. -/
def ArgsIn (P : Tm O → Prop) : Prop := ∀ o l, P (.node o l) → ∀ a ∈ l, P a

/-- Every class has a term of the set. -/
def Within (P : Tm O → Prop) (g : EGraph O C) : Prop := (∃ val, UInv g val) ∧ ∀ i, i < g.n → ∃ t, Rep g t i ∧ P t

/-- Constants belong to the set, and nothing else is ever added by the domain. -/
structure AddsSmall (D : Domain O C) (P : Tm O → Prop) : Prop where
  args : ArgsIn P
  custom : ∀ nodes i, D.custom nodes i = []
  varTerms : ∀ x, D.varTerms x = []
  const : ∀ c t, D.mkConst c = some t → P t

/-- What the hook has to satisfy. -/
def ModWithin (P : Tm O → Prop) (mod : EGraph O C → Nat → Option (EGraph O C)) : Prop :=
  ModOk Side.free (fun _ _ => True) (fun _ _ => ()) (fun _ _ => True) mod ∧
  ∀ g i g', Within P g → i < g.n → mod g i = some g' → Within P g'

omit [Lang O] [LinearOrder C] in
theorem Within.ext {g g' : EGraph O C} {val val' : Nat → Unit} (hw : Within P g) (hI : UInv g val) (hI' : UInv g' val')
    (hE : Ext g val g' val') (hn : g'.n = g.n) : Within P g' :=
  ⟨⟨_, hI'⟩, fun i hi => by
    obtain ⟨t, h1, h2⟩ := hw.2 i (hn ▸ hi)
    exact ⟨t, Rep.ext hI hE t i (hn ▸ hi) h1, h2⟩⟩

omit [Lang O] [LinearOrder C] in
theorem tmSize_arg {o : O} {l : List (Tm O)} {a : Tm O} (h : a ∈ l) : tmSize a ≤ tmSize (.node o l) := by
  have : tmSize a ≤ tmSizeL l := by
    induction l with
    | nil => simp at h
    | cons b l ih =>
      rw [tmSizeL]
      rcases List.mem_cons.1 h with rfl | h
      · omega
      · have := ih h; omega
  rw [tmSize]
  omega

theorem addWith_within {mod : EGraph O C → Nat → Option (EGraph O C)} (hm : ModWithin P mod) {g g' : EGraph O C} (hg : Within P g)
    {nd : FNode O} {i : Nat} (hc : ∀ c ∈ nd.children, c < g.n) {args : List (Tm O)} (ha : RepL g args nd.children)
    (hQ : P (.node nd.op args)) (h : addWith D mod g nd = some (g', i)) : Within P g' := by
  obtain ⟨⟨val, hI⟩, hw⟩ := hg
  unfold addWith at h
  cases hl : g.lookup nd with
  | some j =>
    simp only [hl, Option.some.injEq, Prod.mk.injEq] at h
    obtain ⟨rfl, rfl⟩ := h
    exact ⟨⟨val, hI⟩, hw⟩
  | none =>
    simp only [hl, Option.bind_eq_some_iff, Option.map_eq_some_iff, Prod.mk.injEq] at h
    obtain ⟨s, hs, g2, h2, rfl, -⟩ := h
    have h1 : addWith D (fun g _ => some g) g nd = some ({ g with
        n := g.n + 1
        find := fun i => if i = g.n then g.n else g.find i
        nodes := g.nodes ++ [(g.canon nd, g.n)]
        data := fun i => if i = g.n then s else g.data i }, g.n) := by
      unfold addWith
      simp only [hl, hs, Option.bind_some, Option.map_some]
      simp
    obtain ⟨val1, hI1, hE1, -, hr, -, e, he, e1, e2, e3⟩ := addWith_ok (unitInv D) ModOk.id hI trivial hc h1
    refine hm.2 _ _ _ ⟨⟨val1, hI1⟩, fun j hj => ?_⟩ (Nat.lt_succ_self _) h2
    by_cases hj' : j < g.n
    · obtain ⟨t, k1, k2⟩ := hw j hj'
      exact ⟨t, Rep.ext hI hE1 t j hj' k1, k2⟩
    · obtain rfl : j = g.n := by have : j < g.n + 1 := hj; omega
      refine ⟨.node nd.op args, ⟨e, he, e1, e3.trans hr.symm, RepL.congr ?_ e2.symm⟩, hQ⟩
      rw [RepL_iff] at ha ⊢
      exact forall2_imp_mem ha fun a _ b hb hab => Rep.ext hI hE1 a b (hc b hb) hab

theorem addTmWith_within (hA : ArgsIn P) {mod : EGraph O C → Nat → Option (EGraph O C)} (hm : ModWithin P mod) (t : Tm O) : P t →
    ∀ (g g' : EGraph O C) i, Within P g → addTmWith D mod t g = some (g', i) → Within P g' := by
  induction t using Tm.ind with
  | hn o l ih =>
    intro hQ g g' i hg h
    rw [addTmWith, Option.bind_eq_some_iff] at h
    obtain ⟨⟨g1, ids⟩, h1, h⟩ := h
    have hL : ∀ (m : List (Tm O)), (∀ a ∈ m, a ∈ l) → ∀ (g g1 : EGraph O C) ids, Within P g →
        addTmWithL D mod m g = some (g1, ids) → Within P g1 := by
      intro m
      induction m with
      | nil => intro _ g g1 ids hg h; simp only [addTmWithL, Option.some.injEq, Prod.mk.injEq] at h; exact h.1 ▸ hg
      | cons a m ihm =>
        intro hml g g1 ids hg h
        simp only [addTmWithL, Option.bind_eq_some_iff, Option.map_eq_some_iff, Prod.mk.injEq] at h
        obtain ⟨⟨g2, j⟩, h2, ⟨g3, js⟩, h3, rfl, -⟩ := h
        exact ihm (fun b hb => hml b (by simp [hb])) _ _ _
          (ih a (hml a (by simp)) (hA o l hQ a (hml a (by simp))) _ _ _ hg h2) h3
    have hw1 := hL l (fun _ h => h) _ _ _ hg h1
    obtain ⟨val, hI⟩ := hg.1
    obtain ⟨val1, hI1, hE1, hl1, hn1, hm1, hf1⟩ :=
      accum_ok (addTmWith D mod) (addTmWithL D mod) (fun g => by rw [addTmWithL]) (fun a l g => by rw [addTmWithL])
        (fun _ _ => True) (fun _ _ _ _ _ _ _ => trivial) (Tm.fold fun _ _ => ()) (fun g a i => Rep g a i)
        (fun g val g' val' a i hI hE hi hr => Rep.ext hI hE a i hi hr) l
        (fun a ha g val g' i hI _ hs => by
          obtain ⟨val', k1, k2, k3, _, k5, k6⟩ := addTmWith_ok (unitInv D) hm.1 a (TmOk.any a) g val g' i hI hs
          exact ⟨val', k1, k2, k3, k5, k6⟩) g val g1 ids hI trivial h1
    exact addWith_within hm hw1 hn1 (RepL_iff _ _ _ |>.2 hf1) hQ h

theorem unionWith_within (D : Domain O C) {mod : EGraph O C → Nat → Option (EGraph O C)} (hm : ModWithin P mod) {g g' : EGraph O C} (hg : Within P g)
    {i j : Nat} (hi : i < g.n) (hj : j < g.n) (h : unionWith E mod g i j = some g') : Within P g' := by
  obtain ⟨val, hI⟩ := hg.1
  have hin := hI.find_lt i hi
  have hjn := hI.find_lt j hj
  have key : ∀ r s g1, g.find r = r → g.find s = s → r < g.n → s < g.n → r ≠ s → link g r s = some g1 → Within P g1 ∧ g1.n = g.n := by
    intro r s g1 hr hs hrn hsn hne hl
    obtain ⟨hI', hE', -⟩ := link_ok (unitInv D) hI hr hs hrn hsn hne rfl hl
    have hn : g1.n = g.n := by
      unfold link at hl
      rw [Option.map_eq_some_iff] at hl
      obtain ⟨m, -, rfl⟩ := hl
      rfl
    exact ⟨hg.ext hI hI' hE' hn, hn⟩
  unfold unionWith at h
  split at h
  · cases h; exact hg
  · rename_i he
    split at h
    · obtain ⟨g1, hl, h⟩ := Option.bind_eq_some_iff.1 h
      obtain ⟨k1, k2⟩ := key _ _ _ (hI.idem i) (hI.idem j) hin hjn he hl
      exact hm.2 _ _ _ k1 (k2 ▸ hin) h
    · obtain ⟨g1, hl, h⟩ := Option.bind_eq_some_iff.1 h
      obtain ⟨k1, k2⟩ := key _ _ _ (hI.idem j) (hI.idem i) hjn hin (Ne.symm he) hl
      exact hm.2 _ _ _ k1 (k2 ▸ hjn) h

theorem addUnion_within (hA : ArgsIn P) {mod : EGraph O C → Nat → Option (EGraph O C)} (hm : ModWithin P mod) {g g' : EGraph O C} (hg : Within P g)
    {i : Nat} (hi : i < g.n) {t : Tm O} (ht : P t) (h : addUnionWith D E mod i g t = some g') : Within P g' := by
  rw [addUnionWith, Option.bind_eq_some_iff] at h
  obtain ⟨⟨g1, j⟩, h1, h⟩ := h
  obtain ⟨val, hI⟩ := hg.1
  obtain ⟨val1, hI1, hE1, hj, _⟩ := addTmWith_ok (unitInv D) hm.1 t (TmOk.any t) g val g1 j hI h1
  exact unionWith_within D hm (addTmWith_within hA hm t ht g g1 j hg h1) (Nat.lt_of_lt_of_le hi hE1.n_le) hj h

theorem modifyD_within (hD : AddsSmall D P) (d : Nat) : ModWithin P (modifyD D E d) := by
  refine ⟨modifyD_ok (unitInv D) d, ?_⟩
  induction d with
  | zero => intro g i g' _ _ h; simp [modifyD] at h
  | succ d ih =>
    intro g i g' hg hi h
    rw [modifyD, hD.custom, List.foldlM_nil] at h
    simp only [Option.pure_def, Option.bind_some] at h
    split at h
    · split at h
      · obtain ⟨t, hc, h⟩ := Option.bind_eq_some_iff.1 h
        exact addUnion_within hD.args ⟨modifyD_ok (unitInv D) d, ih⟩ hg hi (hD.const _ _ hc) h
      · cases h; exact hg
    · cases h; exact hg

theorem union_within (hD : AddsSmall D P) {g g' : EGraph O C} (hg : Within P g) {i j : Nat} (hi : i < g.n) (hj : j < g.n)
    (h : EGraph.union D E g i j = some g') : Within P g' := unionWith_within D (modifyD_within hD _) hg hi hj h

theorem addTm_within (hD : AddsSmall D P) {g g' : EGraph O C} (hg : Within P g) {t : Tm O} (ht : P t) {i : Nat}
    (h : addTm D E t g = some (g', i)) : Within P g' := addTmWith_within hD.args (modifyD_within hD _) t ht g g' i hg h

omit [Lang O] [LinearOrder C] in
/-- Represented terms stay represented if nodes and equalities are kept. -/
theorem Rep.kept {g g' : EGraph O C} (hlt : ∀ e ∈ g.nodes, e.2 < g.n ∧ ∀ c ∈ e.1.children, c < g.n)
    (hf : ∀ i j, i < g.n → j < g.n → g.find i = g.find j → g'.find i = g'.find j)
    (hn : ∀ e ∈ g.nodes, ∃ e' ∈ g'.nodes, e'.1.op = e.1.op ∧ e'.1.children.map g'.find = e.1.children.map g'.find ∧
      g'.find e'.2 = g'.find e.2) (t : Tm O) : ∀ i, i < g.n → Rep g t i → Rep g' t i := by
  induction t using Tm.ind with
  | hn o l ih =>
    intro i hi ⟨e, h1, h2, h3, h4⟩
    obtain ⟨e', he', k1, k2, k3⟩ := hn e h1
    have r := hlt e h1
    refine ⟨e', he', k1.trans h2, k3.trans (hf _ _ r.1 hi h3), RepL.congr ?_ k2.symm⟩
    rw [RepL_iff] at h4 ⊢
    exact forall2_imp_mem h4 fun a ha b hb hab => ih a ha b (r.2 b hb) hab

theorem repair_within (hD : AddsSmall D P) {g g' : EGraph O C} (hg : Within P g) {r : Repair} (h : repair D E g r = some g') :
    Within P g' := by
  obtain ⟨val, hI⟩ := hg.1
  cases r with
  | congr i =>
    have hok := repair_ok (unitInv D) hI h
    rw [repair] at h
    cases hn : g.nodes[i]? with
    | none =>
      simp only [hn, Option.some.injEq] at h
      exact h ▸ hg
    | some e =>
      obtain ⟨nd, c⟩ := e
      simp only [hn] at h
      have hmem : (nd, c) ∈ g.nodes := List.mem_of_getElem? hn
      have rr := hI.nodes_lt _ hmem
      have hidem : (g.canon nd).children.map g.find = nd.children.map g.find := by
        simp only [EGraph.canon, List.map_map]
        exact List.map_congr_left fun c _ => hI.idem c
      cases hf : (g.nodes.eraseIdx i).find? fun e => decide (e.1 = g.canon nd) with
      | none =>
        simp only [hf, Option.some.injEq] at h
        obtain ⟨val', hI', hE'⟩ := hok
        exact hg.ext hI hI' hE' (by rw [← h])
      | some e' =>
        obtain ⟨nd', c'⟩ := e'
        simp only [hf] at h
        have hmem' := List.mem_of_find?_eq_some hf
        have heq : nd' = g.canon nd := by simpa using List.find?_some hf
        subst heq
        have rr' := hI.nodes_lt _ (List.mem_of_mem_eraseIdx hmem')
        have hI1 : UInv { g with nodes := g.nodes.eraseIdx i } val :=
          hI.setNodes _ (fun e he => Or.inl (List.mem_of_mem_eraseIdx he)) fun e he h0 => by
            rcases mem_eraseIdx_or _ i _ hn e he with he | rfl
            · exact ⟨e, he, rfl⟩
            · refine ⟨_, hmem', ?_⟩
              simp only at h0
              cases nd
              simp_all [EGraph.canon]
        -- the terms are represented once the two classes are one
        have key : ∀ g1 : EGraph O C, g1.nodes = g.nodes.eraseIdx i → g1.n = g.n → (∃ val1, UInv g1 val1) →
            (∀ i j, i < g.n → j < g.n → g.find i = g.find j → g1.find i = g1.find j) → g1.find c' = g1.find c →
            Within P g1 := by
          intro g1 hnod hnn hI2 hfe hcc
          refine ⟨hI2, fun j hj => ?_⟩
          obtain ⟨t, k1, k2⟩ := hg.2 j (hnn ▸ hj)
          refine ⟨t, Rep.kept hI.nodes_lt hfe (fun e he => ?_) t j (hnn ▸ hj) k1, k2⟩
          rw [hnod]
          rcases mem_eraseIdx_or _ i _ hn e he with he | rfl
          · exact ⟨e, he, rfl, rfl, rfl⟩
          · refine ⟨_, hmem', rfl, ?_, hcc⟩
            exact map_find_of _ _ _ _ (fun a ha b hb => hfe a b (rr'.2 a ha) (rr.2 b hb)) hidem
        unfold EGraph.union unionWith at h
        split at h
        · rename_i hcc
          cases h
          exact key _ rfl rfl ⟨val, hI1⟩ (fun _ _ _ _ h => h) hcc
        · rename_i hne
          have fin : ∀ r s g1, g.find r = r → g.find s = s → r < g.n → s < g.n → r ≠ s →
              (r = g.find c ∧ s = g.find c' ∨ r = g.find c' ∧ s = g.find c) →
              link { g with nodes := g.nodes.eraseIdx i } r s = some g1 → Within P g1 ∧ g1.n = g.n := by
            intro r s g1 hr hs hrn hsn hrs hor hl
            obtain ⟨hI2, hE2, hrs'⟩ := link_ok (unitInv D) hI1 (by exact hr) (by exact hs) (by exact hrn) (by exact hsn) hrs rfl hl
            have hfe : ∀ i j, i < g.n → j < g.n → g.find i = g.find j → g1.find i = g1.find j := hE2.find_eq
            have hnod : g1.nodes = g.nodes.eraseIdx i ∧ g1.n = g.n := by
              unfold link at hl
              rw [Option.map_eq_some_iff] at hl
              obtain ⟨m, -, rfl⟩ := hl
              exact ⟨rfl, rfl⟩
            have e1 := hfe _ _ (hI.find_lt c rr.1) rr.1 (hI.idem c)
            have e2 := hfe _ _ (hI.find_lt c' rr'.1) rr'.1 (hI.idem c')
            refine ⟨key g1 hnod.1 hnod.2 ⟨_, hI2⟩ hfe ?_, hnod.2⟩
            rcases hor with ⟨rfl, rfl⟩ | ⟨rfl, rfl⟩
            · rw [← e1, ← e2, hrs']
            · rw [← e1, ← e2, hrs']
          split at h
          · obtain ⟨g1, hl, h⟩ := Option.bind_eq_some_iff.1 h
            obtain ⟨k1, k2⟩ := fin _ _ _ (hI.idem c') (hI.idem c) (hI.find_lt _ rr'.1) (hI.find_lt _ rr.1) hne (.inr ⟨rfl, rfl⟩) hl
            exact (modifyD_within hD _).2 _ _ _ k1 (k2 ▸ hI.find_lt _ rr'.1) h
          · obtain ⟨g1, hl, h⟩ := Option.bind_eq_some_iff.1 h
            obtain ⟨k1, k2⟩ := fin _ _ _ (hI.idem c) (hI.idem c') (hI.find_lt _ rr.1) (hI.find_lt _ rr'.1) (Ne.symm hne)
              (.inl ⟨rfl, rfl⟩) hl
            exact (modifyD_within hD _).2 _ _ _ k1 (k2 ▸ hI.find_lt _ rr.1) h
  | analyse i =>
    rw [repair] at h
    cases hn : g.nodes[i]? with
    | none =>
      simp only [hn, Option.some.injEq] at h
      exact h ▸ hg
    | some e =>
      obtain ⟨nd, c⟩ := e
      simp only [hn, Option.bind_eq_some_iff] at h
      obtain ⟨s, hs, m, hm, h⟩ := h
      have rr := hI.nodes_lt _ (List.mem_of_getElem? hn)
      have hw : Within P { g with data := fun i => if i = g.find c then m.1 else g.data i } := by
        refine ⟨⟨val, ⟨hI.find_lt, hI.find_ge, hI.idem, hI.nodes_lt, hI.nodes_ar, hI.val_find, hI.val_node, fun _ _ => trivial,
          hI.side_len, hI.side_nodes⟩⟩, fun j hj => ?_⟩
        obtain ⟨t, k1, k2⟩ := hg.2 j hj
        refine ⟨t, Rep.kept (g := g) hI.nodes_lt ?_ ?_ t j hj k1, k2⟩
        · exact fun _ _ _ _ h => h
        · exact fun e he => ⟨e, he, rfl, rfl, rfl⟩
      split at h
      · exact (modifyD_within hD _).2 _ _ _ hw (hI.find_lt _ rr.1) h
      · cases h; exact hw

theorem foldlM_within {α : Type} (f : EGraph O C → α → Option (EGraph O C)) (Pre : EGraph O C → α → Prop)
    (hf : ∀ g a g', Within P g → Pre g a → f g a = some g' → Within P g' ∧ ∀ b, Pre g b → Pre g' b) (l : List α) :
    ∀ g g', Within P g → (∀ a ∈ l, Pre g a) → l.foldlM f g = some g' → Within P g' ∧ ∀ b, Pre g b → Pre g' b := by
  induction l with
  | nil => intro g g' hg _ h; cases h; exact ⟨hg, fun _ h => h⟩
  | cons a l ih =>
    intro g g' hg hp h
    rw [List.foldlM_cons] at h
    obtain ⟨g1, h1, h2⟩ := Option.bind_eq_some_iff.1 h
    obtain ⟨k1, k2⟩ := hf _ _ _ hg (hp a (by simp)) h1
    obtain ⟨k3, k4⟩ := ih g1 g' k1 (fun b hb => k2 b (hp b (by simp [hb]))) h2
    exact ⟨k3, fun b hb => k4 b (k2 b hb)⟩

theorem rebuild_within (hD : AddsSmall D P) {g g' : EGraph O C} (hg : Within P g) {steps : List Repair}
    (h : rebuild D E steps g = some g') : Within P g' := by
  unfold rebuild at h
  obtain ⟨g1, h1, h⟩ := Option.bind_eq_some_iff.1 h
  split at h
  · cases h
    exact (foldlM_within (repair D E) (fun _ _ => True) (fun g a g' hg _ h => ⟨repair_within hD hg h, fun _ _ => trivial⟩) steps g _ hg
      (fun _ _ => trivial) h1).1
  · cases h

theorem uniteGroup_within (hD : AddsSmall D P) {g g' : EGraph O C} (hg : Within P g) {l : List Nat} (hl : ∀ i ∈ l, i < g.n)
    (h : uniteGroup D E g l = some g') : Within P g' ∧ g.n ≤ g'.n := by
  cases l with
  | nil => cases h; exact ⟨hg, Nat.le_refl _⟩
  | cons a l =>
    simp only [uniteGroup] at h
    have hstep : ∀ k, k ≤ g.n → Within P g' ∧ ∀ b, (k ≤ g.n ∧ a < g.n ∧ b < g.n) → (k ≤ g'.n ∧ a < g'.n ∧ b < g'.n) := fun k hk =>
      foldlM_within (fun g i => EGraph.union D E g a i) (fun g i => k ≤ g.n ∧ a < g.n ∧ i < g.n) (fun g i g' hg hp hu => by
        obtain ⟨val, hI⟩ := hg.1
        obtain ⟨val', -, hE, -⟩ := union_ok (unitInv D) hI hp.2.1 hp.2.2 rfl hu
        exact ⟨union_within hD hg hp.2.1 hp.2.2 hu, fun b hb => ⟨hb.1.trans hE.n_le, Nat.lt_of_lt_of_le hb.2.1 hE.n_le,
          Nat.lt_of_lt_of_le hb.2.2 hE.n_le⟩⟩) l g g' hg (fun i hi => ⟨hk, hl a (by simp), hl i (by simp [hi])⟩) h
    have := hstep g.n (Nat.le_refl _)
    exact ⟨this.1, (this.2 a ⟨Nat.le_refl _, hl a (by simp), hl a (by simp)⟩).1⟩

/-- `Compress` does not enlarge the smallest terms. -/
theorem runCompress_within (hD : AddsSmall D P) {g g' : EGraph O C} (hg : Within P g) {rules : Ruleset O} {l : Limits} {t : SchedTrace}
    (h : runCompress D E l rules t g = some g') : Within P g' := by
  unfold runCompress at h
  obtain ⟨out, -, h⟩ := Option.bind_eq_some_iff.1 h
  obtain ⟨g2, h2, h⟩ := Option.bind_eq_some_iff.1 h
  refine rebuild_within hD ?_ h
  refine (foldlM_within (uniteGroup D t.clone) (fun g l => ∀ i ∈ l, i < g.n) (fun g l g' hg hp hu => ?_) _ g g2 hg ?_ h2).1
  · obtain ⟨k1, k2⟩ := uniteGroup_within hD hg hp hu
    exact ⟨k1, fun b hb i hi => Nat.lt_of_lt_of_le (hb i hi) k2⟩
  · intro m hm i hi
    simp only [groupsBy, List.mem_map] at hm
    obtain ⟨k, -, rfl⟩ := hm
    have := List.mem_of_mem_filter hi
    simp only [EGraph.classes, List.mem_filter, List.mem_range] at this
    exact this.1

theorem initVar_within (hD : AddsSmall D P) {g g' : EGraph O C} (hg : Within P g) {p : String × CVec C}
    (hQ : P (.node (Lang.mkVar p.1) []))
    (h : initVar D E g p = some g') : Within P g' := by
  rw [initVar, Option.bind_eq_some_iff] at h
  obtain ⟨⟨g1, i⟩, h1, h2⟩ := h
  rw [hD.varTerms, List.foldlM_nil] at h2
  cases h2
  have hw := addTm_within (E := E) (t := .node (Lang.mkVar p.1) []) (i := i) hD hg hQ h1
  obtain ⟨val, hI⟩ := hw.1
  exact hw.ext hI (hI.setCvec (fun _ _ _ _ => trivial) i p.2) (hI.setCvec_ext i p.2) rfl

theorem termsToEGraph_within (hD : AddsSmall D P) {ts : List (Tm O)}
    (hQ : ∀ n tbl, D.initVars (collectVars ts) = some (n, tbl) → ∀ p ∈ tbl, P (.node (Lang.mkVar p.1) [])) (ht : ∀ t ∈ ts, P t) {g : EGraph O C}
    (h : termsToEGraph D E ts = some g) : Within P g := by
  rw [termsToEGraph, Option.bind_eq_some_iff] at h
  obtain ⟨g1, h1, h2⟩ := h
  rw [Option.map_eq_some_iff] at h2
  obtain ⟨⟨g2, ids⟩, h2, rfl⟩ := h2
  rw [initializeVars, Option.bind_eq_some_iff] at h1
  obtain ⟨r, h0, h1⟩ := h1
  have hQ' := hQ r.1 r.2 h0
  have hw1 : Within P g1 := by
    refine (foldlM_within (initVar D E) (fun _ p => P (.node (Lang.mkVar p.1) []))
      (fun g a g' hg hp h => ⟨initVar_within hD hg hp h, fun _ h => h⟩) r.2 _ g1 ?_ hQ' h1).1
    exact ⟨⟨fun _ => (), (Inv.empty _ _ _ _).setLen r.1⟩, fun i hi => absurd hi (Nat.not_lt_zero i)⟩
  clear h1 h0 hQ hQ'
  induction ts generalizing g1 ids with
  | nil => cases h2; exact hw1
  | cons t l ih =>
    rw [addTms, Option.bind_eq_some_iff] at h2
    obtain ⟨⟨g3, i⟩, h3, h4⟩ := h2
    rw [Option.map_eq_some_iff] at h4
    obtain ⟨⟨g4, is⟩, h5, h6⟩ := h4
    cases h6
    exact ih (fun t ht' => ht t (by simp [ht'])) _ is h5 (addTm_within hD hw1 (ht t (by simp)) h3)

end Ruler
