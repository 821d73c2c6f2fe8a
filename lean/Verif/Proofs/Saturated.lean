import Verif.Spec.Saturated
import Verif.Proofs.Saturating
import Verif.Proofs.Complete
/-! What a saturated e-graph represents. -/
namespace Ruler
open Spec EGraph
variable {O C : Type} [Lang O]

omit [Lang O] in
theorem patInstL_eq (σ : String → Tm O) (l : List (Pat O)) : patInstL σ l = l.map (patInst σ) := by
  induction l with
  | nil => rfl
  | cons p l ih => rw [patInstL, List.map_cons, ih]

variable [LinearOrder C] {D : Domain O C} {E : Egg} {V : Type} {ar : O → Nat → Prop} {I : O → List V → V} {S : Side O}
  {ok : Signature O C → V → Prop}

/-! ## Ids are never taken back -/

section
variable {mod : EGraph O C → Nat → Option (EGraph O C)} (hm : ∀ g i g', mod g i = some g' → g.n ≤ g'.n)

omit [LinearOrder C] in
include hm in
theorem addWith_n {g g' : EGraph O C} {nd : FNode O} {i : Nat} (h : addWith D mod g nd = some (g', i)) :
    (g' = g ∧ g.lookup nd = some i) ∨ g.n < g'.n := by
  unfold addWith at h
  cases hl : g.lookup nd with
  | some j =>
    rw [hl] at h
    cases h
    exact .inl ⟨rfl, rfl⟩
  | none =>
    rw [hl] at h
    simp only [Option.bind_eq_some_iff, Option.map_eq_some_iff, Prod.mk.injEq] at h
    obtain ⟨s, _, g'', h2, rfl, _⟩ := h
    exact .inr (hm _ _ _ h2)

omit [LinearOrder C] in
include hm in
theorem addTmWith_n (t : Tm O) : ∀ {g g' : EGraph O C} {i : Nat}, addTmWith D mod t g = some (g', i) → g.n ≤ g'.n := by
  induction t using Tm.ind with
  | hn o l ih =>
    intro g g' i h
    rw [addTmWith, Option.bind_eq_some_iff] at h
    obtain ⟨⟨g1, is⟩, h1, h2⟩ := h
    have h3 : g1.n ≤ g'.n := by
      rcases addWith_n hm h2 with ⟨rfl, _⟩ | h
      · exact Nat.le_refl _
      · exact Nat.le_of_lt h
    refine Nat.le_trans ?_ h3
    clear h2 h3
    induction l generalizing g is with
    | nil => cases h1; exact Nat.le_refl _
    | cons a l ihl =>
      rw [addTmWithL, Option.bind_eq_some_iff] at h1
      obtain ⟨⟨g2, j⟩, k1, k2⟩ := h1
      rw [Option.map_eq_some_iff] at k2
      obtain ⟨⟨g3, js⟩, k2, k3⟩ := k2
      cases k3
      exact Nat.le_trans (ih a (by simp) k1) (ihl (fun s hs => ih s (by simp [hs])) _ k2)

include hm in
theorem unionWith_n {g g' : EGraph O C} {i j : Nat} (h : unionWith E mod g i j = some g') : g.n ≤ g'.n := by
  have hl : ∀ {r s : Nat} {g1 : EGraph O C}, link g r s = some g1 → g1.n = g.n := by
    intro r s g1 h
    rw [link, Option.map_eq_some_iff] at h
    obtain ⟨_, _, rfl⟩ := h
    rfl
  unfold unionWith at h
  split at h
  · cases h; exact Nat.le_refl _
  · split at h <;>
    · rw [Option.bind_eq_some_iff] at h
      obtain ⟨g1, h1, h2⟩ := h
      rw [← hl h1]
      exact hm _ _ _ h2

include hm in
theorem addUnionWith_n {g g' : EGraph O C} {i : Nat} {t : Tm O} (h : addUnionWith D E mod i g t = some g') : g.n ≤ g'.n := by
  rw [addUnionWith, Option.bind_eq_some_iff] at h
  obtain ⟨⟨g1, j⟩, h1, h2⟩ := h
  exact Nat.le_trans (addTmWith_n hm t h1) (unionWith_n hm h2)
end

theorem modifyD_n (d : Nat) : ∀ (g : EGraph O C) (i : Nat) (g' : EGraph O C), modifyD D E d g i = some g' → g.n ≤ g'.n := by
  induction d with
  | zero => intro g i g' h; cases h
  | succ d ih =>
    intro g i g' h
    rw [modifyD, Option.bind_eq_some_iff] at h
    obtain ⟨g1, h1, h2⟩ := h
    have k1 : g.n ≤ g1.n := by
      generalize D.custom g.classNodes (g.find i) = l at h1
      induction l generalizing g with
      | nil => cases h1; exact Nat.le_refl _
      | cons a l ihl =>
        rw [List.foldlM_cons] at h1
        obtain ⟨g2, h3, h4⟩ := Option.bind_eq_some_iff.1 h1
        exact Nat.le_trans (addUnionWith_n ih h3) (ihl _ h4)
    refine Nat.le_trans k1 ?_
    split at h2
    · split at h2
      · rw [Option.bind_eq_some_iff] at h2
        obtain ⟨t, _, h2⟩ := h2
        exact addUnionWith_n ih h2
      · cases h2; exact Nat.le_refl _
    · cases h2; exact Nat.le_refl _

theorem add_n {g g' : EGraph O C} {nd : FNode O} {i : Nat} (h : add D E g nd = some (g', i)) :
    (g' = g ∧ g.lookup nd = some i) ∨ g.n < g'.n := addWith_n (modifyD_n _) h

theorem addPat_n {σ : Subst} (p : Pat O) : ∀ {g g1 : EGraph O C} {j : Nat}, addPat D E σ p g = some (g1, j) → g.n ≤ g1.n := by
  induction p using Pat.ind with
  | hv v =>
    intro g g1 j h
    rw [addPat, Option.map_eq_some_iff] at h
    obtain ⟨k, _, h2⟩ := h
    cases h2
    exact Nat.le_refl _
  | hn o l ih =>
    intro g g1 j h
    rw [addPat, Option.bind_eq_some_iff] at h
    obtain ⟨⟨g2, is⟩, h1, h2⟩ := h
    have h3 : g2.n ≤ g1.n := by
      rcases add_n h2 with ⟨rfl, _⟩ | h
      · exact Nat.le_refl _
      · exact Nat.le_of_lt h
    refine Nat.le_trans ?_ h3
    clear h2 h3
    induction l generalizing g is with
    | nil => cases h1; exact Nat.le_refl _
    | cons a l ihl =>
      rw [addPatL, Option.bind_eq_some_iff] at h1
      obtain ⟨⟨g3, k⟩, k1, k2⟩ := h1
      rw [Option.map_eq_some_iff] at k2
      obtain ⟨⟨g4, ks⟩, k2, k3⟩ := k2
      cases k3
      exact Nat.le_trans (ih a (by simp) k1) (ihl (fun s hs => ih s (by simp [hs])) _ k2)

theorem addPatL_n {σ : Subst} (l : List (Pat O)) {g g1 : EGraph O C} {js : List Nat} (h : addPatL D E σ l g = some (g1, js)) :
    g.n ≤ g1.n := by
  induction l generalizing g js with
  | nil => cases h; exact Nat.le_refl _
  | cons b l ihl =>
    rw [addPatL, Option.bind_eq_some_iff] at h
    obtain ⟨⟨g5, c⟩, c1, c2⟩ := h
    rw [Option.map_eq_some_iff] at c2
    obtain ⟨⟨g6, cs⟩, c2, c3⟩ := c2
    cases c3
    exact Nat.le_trans (addPat_n b c1) (ihl c2)

/-! ## Matching finds every instance -/

/-- The bindings are classes of the given terms. -/
def Binds (g : EGraph O C) (θ : String → Tm O) (σ : Subst) : Prop := ∀ v j, σ.lookup v = some j → Rep g (θ v) j

omit [LinearOrder C] in
theorem rep_unique {g : EGraph O C} {val : Nat → V} (hg : InvS S ar I ok g val) (hc : g.closed = true) {t : Tm O} {i j : Nat}
    (h1 : Rep g t i) (h2 : Rep g t j) : g.find i = g.find j := by
  have k1 := rep_lookupTm hg hc t i h1
  have k2 := rep_lookupTm hg hc t j h2
  rw [k1] at k2
  exact Option.some.inj k2

omit [LinearOrder C] in
theorem ematch_complete {g : EGraph O C} {val : Nat → V} (hg : InvS S ar I ok g val) (hc : g.closed = true) (θ : String → Tm O)
    (p : Pat O) : ∀ i σ, Rep g (patInst θ p) i → Binds g θ σ → ∃ σ' ∈ ematch g p i σ, Binds g θ σ' := by
  induction p using Pat.ind with
  | hv v =>
    intro i σ h hb
    rw [ematch]
    cases hl : σ.lookup v with
    | some j =>
      exact ⟨σ, by simp [rep_unique hg hc (hb v j hl) h], hb⟩
    | none =>
      refine ⟨(v, g.find i) :: σ, by simp, fun w j hw => ?_⟩
      rw [List.lookup_cons] at hw
      split at hw
      · rename_i he
        cases hw
        rw [beq_iff_eq] at he
        subst he
        exact Rep.congr h (hg.idem i).symm
      · exact hb w j hw
  | hn o l ih =>
    intro i σ h hb
    obtain ⟨e, h1, h2, h3, h4⟩ := h
    rw [patInstL_eq, RepL_iff] at h4
    have hlen := h4.length_eq
    rw [List.length_map] at hlen
    have key : ∀ (l : List (Pat O)) (cs : List Nat) (σ : Subst),
        (∀ s ∈ l, ∀ i σ, Rep g (patInst θ s) i → Binds g θ σ → ∃ σ' ∈ ematch g s i σ, Binds g θ σ') →
        List.Forall₂ (Rep g) (l.map (patInst θ)) cs → Binds g θ σ → ∃ σ' ∈ ematchL g l cs σ, Binds g θ σ' := by
      intro l
      induction l with
      | nil =>
        intro cs σ _ hf hb
        cases hf
        exact ⟨σ, by simp [ematchL], hb⟩
      | cons a l ihl =>
        intro cs σ ih hf hb
        rw [List.map_cons] at hf
        cases hf with
        | cons h5 h6 =>
          obtain ⟨σ1, m1, b1⟩ := ih a (by simp) _ σ h5 hb
          obtain ⟨σ2, m2, b2⟩ := ihl _ σ1 (fun s hs => ih s (by simp [hs])) h6 b1
          exact ⟨σ2, by rw [ematchL, List.mem_flatMap]; exact ⟨σ1, m1, m2⟩, b2⟩
    obtain ⟨σ', m, b⟩ := key l _ σ ih h4 hb
    refine ⟨σ', ?_, b⟩
    rw [ematch, List.mem_flatMap]
    exact ⟨e, by simp [h1, h2, h3, hlen], m⟩

omit [LinearOrder C] in
theorem search_complete {g : EGraph O C} {val : Nat → V} (hg : InvS S ar I ok g val) (hc : g.closed = true) (θ : String → Tm O)
    {p : Pat O} {i : Nat} (h : Rep g (patInst θ p) i) : ∃ σ, (g.find i, σ) ∈ g.search p ∧ Binds g θ σ := by
  obtain ⟨σ, m, b⟩ := ematch_complete hg hc θ p (g.find i) [] (Rep.congr h (hg.idem i).symm) (fun v j h => by cases h)
  refine ⟨σ, ?_, b⟩
  rw [search, List.mem_flatMap]
  exact ⟨g.find i, mem_classes.2 ⟨hg.find_lt i (Rep.lt hg h), hg.idem i⟩, List.mem_map.2 ⟨σ, m, rfl⟩⟩

/-! ## Adding what is there -/

theorem addPat_quiet {g : EGraph O C} {val : Nat → V} (hg : InvS S ar I ok g val) {θ : String → Tm O} {σ : Subst}
    (hb : Binds g θ σ) (p : Pat O) : ∀ {g1 : EGraph O C} {j : Nat}, addPat D E σ p g = some (g1, j) →
      (g1 = g ∧ Rep g (patInst θ p) j) ∨ g.n < g1.n := by
  induction p using Pat.ind with
  | hv v =>
    intro g1 j h
    rw [addPat, Option.map_eq_some_iff] at h
    obtain ⟨k, h1, h2⟩ := h
    cases h2
    exact .inl ⟨rfl, hb v _ h1⟩
  | hn o l ih =>
    intro g1 j h
    rw [addPat, Option.bind_eq_some_iff] at h
    obtain ⟨⟨g2, is⟩, h1, h2⟩ := h
    have key : ∀ (l : List (Pat O)) (g2 : EGraph O C) (is : List Nat),
        (∀ s ∈ l, ∀ {g1 : EGraph O C} {j : Nat}, addPat D E σ s g = some (g1, j) →
          (g1 = g ∧ Rep g (patInst θ s) j) ∨ g.n < g1.n) →
        addPatL D E σ l g = some (g2, is) → (g2 = g ∧ List.Forall₂ (Rep g) (l.map (patInst θ)) is) ∨ g.n < g2.n := by
      intro l
      induction l with
      | nil => intro g2 is _ h; cases h; exact .inl ⟨rfl, .nil⟩
      | cons a l ihl =>
        intro g2 is ih h
        rw [addPatL, Option.bind_eq_some_iff] at h
        obtain ⟨⟨g3, k⟩, k1, k2⟩ := h
        rw [Option.map_eq_some_iff] at k2
        obtain ⟨⟨g4, ks⟩, k2, k3⟩ := k2
        cases k3
        rcases ih a (by simp) k1 with ⟨rfl, r1⟩ | h3
        · rcases ihl _ _ (fun s hs => ih s (by simp [hs])) k2 with ⟨rfl, r2⟩ | h4
          · exact .inl ⟨rfl, .cons r1 r2⟩
          · exact .inr h4
        · refine .inr (Nat.lt_of_lt_of_le h3 ?_)
          exact addPatL_n l k2
    rcases key l g2 is ih h1 with ⟨rfl, r1⟩ | h3
    · rcases add_n h2 with ⟨rfl, h4⟩ | h4
      · refine .inl ⟨rfl, ?_⟩
        obtain ⟨e, he, k1, rfl⟩ := lookup_some h4
        refine ⟨e, he, by rw [k1]; rfl, (hg.idem _).symm, ?_⟩
        rw [patInstL_eq]
        refine RepL.congr ((RepL_iff _ _ _).2 r1) ?_
        rw [k1]
        simp only [EGraph.canon, List.map_map]
        exact List.map_congr_left fun c _ => (hg.idem c).symm
      · exact .inr h4
    · rcases add_n h2 with ⟨rfl, h4⟩ | h4
      · exact .inr h3
      · exact .inr (Nat.lt_trans h3 h4)

/-! ## Checking -/

/-- Tries all matches of all rules. -/
def saturatedB (D : Domain O C) (E : Egg) (rs : List (Rule O)) (g : EGraph O C) : Bool :=
  rs.all fun r => (g.search r.lhs).all fun m => match applyOne D E r.rhs g m with
    | some g' => decide (g'.n = g.n) && (List.range g.n).all fun i => decide (g'.find i = g.find i)
    | none => false

theorem saturatedB_ok {rs : List (Rule O)} {g : EGraph O C} (h : saturatedB D E rs g = true) : Saturated D E (· ∈ rs) g := by
  intro r hr m hm
  have h1 := List.all_eq_true.1 (List.all_eq_true.1 h r hr) m hm
  split at h1
  · rename_i g' hg'
    simp only [Bool.and_eq_true, decide_eq_true_eq, List.all_eq_true, List.mem_range] at h1
    exact ⟨g', hg', h1.1, h1.2⟩
  · cases h1

/-! ## Rewriting stays within a class -/

/-- In a saturated e-graph the class of a term represents everything the term can be rewritten to. -/
theorem saturated_step {g : EGraph O C} {val : Nat → Unit} (hg : Inv (fun _ _ => True) (fun _ _ => ()) (fun _ _ => True) g val)
    (hc : g.closed = true) (hd : ∀ i, i < g.n → (g.dataOf i).isDefined = true) {R : Rule O → Prop} (hs : Saturated D E R g)
    {t u : Tm O} (h : Rewrites R t u) : ∀ i, Rep g t i → Rep g u i := by
  induction h with
  | @rule r θ hr =>
    intro i hi
    obtain ⟨σ, hm, hb⟩ := search_complete hg hc θ hi
    have hin := Rep.lt hg hi
    have hfn := hg.find_lt i hin
    obtain ⟨g', h1, h2, h3⟩ := hs r hr _ hm
    have hdi := hd _ hfn
    simp only [applyOne, hdi, Bool.not_true, Bool.false_eq_true, if_false] at h1
    rw [Option.bind_eq_some_iff] at h1
    obtain ⟨⟨g1, j⟩, h4, h5⟩ := h1
    have hle : g1.n ≤ g'.n := by
      simp only at h5
      split at h5
      · cases h5; exact Nat.le_refl _
      · split at h5
        · cases h5; exact Nat.le_refl _
        · exact unionWith_n (modifyD_n _) h5
    rcases addPat_quiet hg hb _ h4 with ⟨rfl, hrep⟩ | hlt
    · refine Rep.congr hrep ?_
      have hj := Rep.lt hg hrep
      simp only at h5
      split at h5
      · rename_i he
        rw [he, hg.idem]
      · simp only [hd j hj, Bool.not_true, Bool.false_eq_true, if_false] at h5
        obtain ⟨_, _, _, hf⟩ := union_ok (unitInv D) hg hj hfn rfl h5
        rw [h3 j hj, h3 _ hfn, hg.idem] at hf
        exact hf
    · omega
  | @arg o l r t u _ ih =>
    rintro i ⟨e, h1, h2, h3, h4⟩
    refine ⟨e, h1, h2, h3, ?_⟩
    rw [RepL_iff] at h4 ⊢
    generalize e.1.children = cs at h4 ⊢
    clear h1
    induction l generalizing cs with
    | nil =>
      cases h4 with
      | cons h5 h6 => exact .cons (ih _ h5) h6
    | cons a l ihl =>
      cases h4 with
      | cons h5 h6 => exact .cons h5 (ihl _ h6)

theorem saturated_reps {g : EGraph O C} {val : Nat → Unit} (hg : Inv (fun _ _ => True) (fun _ _ => ()) (fun _ _ => True) g val)
    (hc : g.closed = true) (hd : ∀ i, i < g.n → (g.dataOf i).isDefined = true) {R : Rule O → Prop} (hs : Saturated D E R g)
    {t u : Tm O} (h : RewritesTo R t u) {i : Nat} (hi : Rep g t i) : Rep g u i := by
  induction h with
  | refl => exact hi
  | tail _ h2 ih => exact saturated_step hg hc hd hs h2 i ih

/-! ## Rewriting and proofs -/

omit [Lang O] in
theorem Spec.Rewrites.provable {R : Rule O → Prop} {F : Tm O → Tm O → Prop} {t u : Tm O} (h : Rewrites R t u) : Provable R F t u := by
  induction h with
  | rule σ hr => exact .rule σ hr
  | arg o l r _ ih => exact .arg o l r ih

omit [Lang O] in
theorem rewritesTo_provable {R : Rule O → Prop} {F : Tm O → Tm O → Prop} {t u : Tm O} (h : RewritesTo R t u) : Provable R F t u := by
  induction h with
  | refl => exact .refl _
  | tail _ h2 ih => exact .trans ih h2.provable

omit [Lang O] in
theorem Spec.Rewrites.back {R : Rule O → Prop} (hR : Reversible R) {t u : Tm O} (h : Rewrites R t u) : Rewrites R u t := by
  induction h with
  | rule σ hr =>
    obtain ⟨q, τ, hq, h1, h2⟩ := hR _ hr σ
    rw [← h1, ← h2]
    exact .rule τ hq
  | arg o l r _ ih => exact .arg o l r ih

omit [Lang O] in
theorem provable_iff_rewritesTo {R : Rule O → Prop} (hR : Reversible R) {t u : Tm O} :
    Provable R (fun _ _ => False) t u ↔ RewritesTo R t u := by
  refine ⟨fun h => ?_, rewritesTo_provable⟩
  induction h with
  | refl => exact .refl
  | symm _ ih =>
    clear * - ih hR
    induction ih with
    | refl => exact .refl
    | tail _ h2 ih => exact .head (h2.back hR) ih
  | trans _ _ ih1 ih2 => exact ih1.trans ih2
  | arg o l r _ ih =>
    clear * - ih
    induction ih with
    | refl => exact .refl
    | tail _ h2 ih => exact .tail ih (.arg o l r h2)
  | rule σ hr => exact .single (.rule σ hr)
  | given h => exact h.elim

/-- A rule that holds in the algebra of provable equality is provable. -/
theorem provable_of_holds {R : Rule O → Prop} {F : Tm O → Tm O → Prop} {r : Rule O} (h : Holds (provOp R F) r) :
    Provable R F r.lhs.instantiate r.rhs.instantiate := by
  have key : ∀ p : Pat O, patVal (fun v => provClass R F (.node (Lang.mkVar (dropQ v)) [])) (provOp R F) p =
      provClass R F p.instantiate := by
    intro p
    induction p using Pat.ind with
    | hv v => rfl
    | hn o l ih =>
      rw [patVal, Pat.instantiate, Pat.instantiateL_eq, ← provOp_map, List.map_map]
      congr 1
      induction l with
      | nil => rfl
      | cons p l ihl =>
        rw [patValL, List.map_cons, ih p (by simp), ihl fun s hs => ih s (by simp [hs])]
        rfl
  rw [← provClass_eq, ← key, ← key]
  exact h _

/-! ## Empty vectors -/

/-- All vectors have length zero. -/
def emptySide : Side O := ⟨some 0, fun _ => False⟩

theorem emptyInv (hD : EmptyVectors D) : DataInvS (emptySide (O := O)) D (fun _ _ => True) (fun _ _ => ()) (fun s _ => s.cvec = []) where
  leaf := fun _ _ h => h.elim
  again := fun _ _ _ _ _ _ _ _ h => h.elim
  make := by
    intro len nd get val s hl _ _ hc h
    have := hl 0 rfl
    subst this
    rw [makeSig, Option.bind_eq_some_iff] at h
    obtain ⟨cv, h1, h⟩ := h
    rw [Option.map_eq_some_iff] at h
    obtain ⟨iv, _, rfl⟩ := h
    refine hD nd.op _ cv ?_ h1
    intro w hw
    obtain ⟨c, hc', rfl⟩ := List.mem_map.1 hw
    exact hc c hc'
  merge := by
    intro a b v m ha hb h
    rw [mergeSig, Option.bind_eq_some_iff] at h
    obtain ⟨cv, h1, h⟩ := h
    rw [ha, hb] at h1
    rw [Option.bind_eq_some_iff] at h
    obtain ⟨iv, _, h⟩ := h
    rw [Option.bind_eq_some_iff] at h
    obtain ⟨cf, _, h⟩ := h
    rw [Option.map_eq_some_iff] at h
    obtain ⟨ct, _, rfl⟩ := h
    cases h1
    rfl
  const := by
    intro s v c t _ _ _
    exact ⟨TmOk.any t, rfl⟩
  custom := by
    intro nodes val i _ t _
    exact ⟨TmOk.any t, rfl⟩
  varTerms := by
    intro x _ t _
    exact ⟨TmOk.any t, rfl⟩

omit [Lang O] [LinearOrder C] in
theorem empty_defined {g : EGraph O C} {val : Nat → Unit}
    (hg : InvS (emptySide (O := O)) (fun _ _ => True) (fun _ _ => ()) (fun s _ => s.cvec = []) g val) :
    ∀ i, i < g.n → (g.dataOf i).isDefined = true := by
  intro i hi
  have := hg.data_ok i hi
  rw [EGraph.dataOf, Signature.isDefined, this]
  rfl

omit [Lang O] [LinearOrder C] in
theorem empty_start : InvS (emptySide (O := O)) (fun _ _ => True) (fun _ _ => ()) (fun (s : Signature O C) _ => s.cvec = [])
    (EGraph.empty : EGraph O C) (fun _ => ()) where
  find_lt := fun i hi => by cases hi
  find_ge := fun _ _ => rfl
  idem := fun _ => rfl
  nodes_lt := fun e he => by cases he
  nodes_ar := fun e he => by cases he
  val_find := fun _ _ => rfl
  val_node := fun e he => by cases he
  data_ok := fun i hi => by cases hi
  side_len := fun n hn => by cases hn; rfl
  side_nodes := fun _ h => h.elim

end Ruler
