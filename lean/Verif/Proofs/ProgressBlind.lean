import Verif.Proofs.ProgressFast
import Mathlib.Data.Finset.Card
import Mathlib.Data.Finset.Range
/-! Domains without samples: no step fails, whatever the rules. -/
namespace Ruler
open Spec EGraph
variable {O C : Type} [Lang O] [LinearOrder C]
variable {ar : O → Nat → Prop} {D : Domain O C} {E : Egg}

/-- The algebra with one value. -/
abbrev unitAlg : O → List Unit → Unit := fun _ _ => ()

/-- Nothing is known about a class. -/
def BlindOk (s : Signature O C) (_ : (String → Unit) → Unit) : Prop :=
  s.interval = ⟨none, none⟩ ∧ s.cvec = [] ∧ (RecExpr.run (fun _ (_ : List Unit) => ()) s.simplest).isSome

theorem blindInv (hD : Blind D ar) (hv : VarOps (O := O) ar) (hl : LeafAr ar) (Y : String → Prop) :
    DataInvS (noVecs O) D (arOn ar Y) (piAlg unitAlg) BlindOk where
  leaf := by rintro o k ⟨x, hx, -⟩; cases hx
  make := by
    intro len nd get val s _ _ har hc hs
    obtain ⟨h1, h2, h3⟩ := makeSig_some hs
    rw [hD.eval, Option.some.injEq] at h1
    rw [hD.interval, Option.some.injEq] at h2
    refine ⟨h2.symm, h1.symm, ?_⟩
    rw [h3, mkSimplest_run (fun _ (_ : List Unit) => ()) nd _ (fun _ => ())
      (fun hv => List.eq_nil_of_length_eq_zero (hl _ _ har.1 hv))
      fun c hc' => by
        obtain ⟨u, hu⟩ := Option.isSome_iff_exists.1 (hc c hc').2.2
        exact hu]
    rfl
  again := by rintro len nd get val a s m _ ⟨x, hx, -⟩; cases hx
  merge := by
    intro a b v m ha hb hm
    obtain ⟨hm1, hm2, hm3⟩ := mergeSig_some hm
    refine ⟨?_, ?_, ?_⟩
    · rw [ha.1, hb.1] at hm1
      simp only [mergeInterval, maxLow, minHigh, Interval.new, Option.some.injEq] at hm1
      exact hm1.symm
    · obtain ⟨r, hr, e⟩ := Option.map_eq_some_iff.1 hm3
      rw [← e]
      rw [ha.2.1] at hr
      simp only [mergeCvec, List.isEmpty_nil, Bool.not_true, Bool.false_and, Bool.false_eq_true, if_false,
        Option.some.injEq] at hr
      rw [← hr]
    · rcases hm2 with hm2 | hm2
      · rw [hm2]; exact ha.2.2
      · rw [hm2]; exact hb.2.2
  const := by
    intro s v c t hs hc
    rw [hs.1] at hc
    cases hc
  custom := by
    intro nodes val i _ t ht
    obtain ⟨mark, -, h⟩ := hD.hook
    obtain ⟨o, rfl, -, h1, h2⟩ := h nodes i t ht
    exact ⟨.node ⟨h1, fun x hx => by rw [h2] at hx; cases hx⟩ (by simp), rfl⟩
  varTerms := by
    intro x hx t ht
    obtain ⟨h1, h2⟩ := hD.varTerms x t ht
    exact ⟨TmOk.arOn h1 fun y hy => h2 y hy ▸ hx.2 x (hv.1 x).1, rfl⟩

theorem blindMake (hD : Blind D ar) (Y : String → Prop) :
    MakeTotal (noVecs O) D (arOn ar Y) (piAlg unitAlg) BlindOk where
  make := by
    intro len nd get val _ _ _
    unfold makeSig
    rw [hD.eval, Option.bind_some, hD.interval]
    exact ⟨_, rfl⟩
  merge := by
    intro a b v ha hb
    refine mergeSig_total ⟨([], false, false), ?_⟩ ⟨⟨none, none⟩, ?_⟩ (simplestCost_run ha.2.2) (simplestCost_run hb.2.2)
    · rw [ha.2.1]; rfl
    · rw [ha.1, hb.1]; rfl
  again := by rintro len nd get val a s _ ⟨x, hx, -⟩; cases hx

/-- The invariant. -/
abbrev BlindInv (ar : O → Nat → Prop) (Y : String → Prop) (g : EGraph O C) (val : Nat → (String → Unit) → Unit) : Prop :=
  InvS (noVecs O) (arOn ar Y) (piAlg unitAlg) BlindOk g val

theorem unit_eq (a b : (String → Unit) → Unit) : a = b := funext fun _ => rfl

/-- The class has a constant of the kind the hook adds. -/
def Marked (mark : O → Bool) (g : EGraph O C) (k : Nat) : Prop :=
  ∃ e ∈ g.nodes, mark e.1.op = true ∧ g.find e.2 = g.find k

/-- The later e-graph has the constants of the earlier one; its new classes have constants. -/
structure Covers (mark : O → Bool) (g g' : EGraph O C) : Prop where
  n_le : g.n ≤ g'.n
  find_eq : ∀ i j, i < g.n → j < g.n → g.find i = g.find j → g'.find i = g'.find j
  ops : ∀ e ∈ g.nodes, ∃ e' ∈ g'.nodes, e'.1.op = e.1.op ∧ g'.find e'.2 = g'.find e.2
  fresh : ∀ k, g.n ≤ k → k < g'.n → Marked mark g' k

variable {mark : O → Bool} {Y : String → Prop} {val val' : Nat → (String → Unit) → Unit} {g g' g'' : EGraph O C}

omit [LinearOrder C] in
theorem Covers.refl (mark : O → Bool) (g : EGraph O C) : Covers mark g g :=
  ⟨Nat.le_refl _, fun _ _ _ _ h => h, fun e he => ⟨e, he, rfl, rfl⟩, fun _ h1 h2 => absurd h1 (Nat.not_le.2 h2)⟩

omit [LinearOrder C] in
theorem Marked.mono (hg : BlindInv ar Y g val) (h : Covers mark g g') {k : Nat} (hk : k < g.n) (hm : Marked mark g k) :
    Marked mark g' k := by
  obtain ⟨e, h1, h2, h3⟩ := hm
  obtain ⟨e', k1, k2, k3⟩ := h.ops e h1
  exact ⟨e', k1, by rw [k2]; exact h2, k3.trans (h.find_eq _ _ (hg.nodes_lt e h1).1 hk h3)⟩

omit [LinearOrder C] in
theorem Covers.trans (hg : BlindInv ar Y g val) (hg' : BlindInv ar Y g' val') (h : Covers mark g g') (h' : Covers mark g' g'') :
    Covers mark g g'' := by
  refine ⟨Nat.le_trans h.n_le h'.n_le, fun i j hi hj he => h'.find_eq i j (Nat.lt_of_lt_of_le hi h.n_le)
    (Nat.lt_of_lt_of_le hj h.n_le) (h.find_eq i j hi hj he), fun e he => ?_, fun k hk hk' => ?_⟩
  · obtain ⟨e1, a1, a2, a3⟩ := h.ops e he
    obtain ⟨e2, b1, b2, b3⟩ := h'.ops e1 a1
    refine ⟨e2, b1, b2.trans a2, b3.trans ?_⟩
    exact h'.find_eq _ _ (hg'.nodes_lt e1 a1).1 (Nat.lt_of_lt_of_le (hg.nodes_lt e he).1 h.n_le) a3
  · rcases Nat.lt_or_ge k g'.n with hl | hl
    · exact Marked.mono hg' h' hl (h.fresh k hk hl)
    · exact h'.fresh k hl hk'

omit [LinearOrder C] in
theorem Covers.ofExt (h : Ext g val g' val') (hf : ∀ k, g.n ≤ k → k < g'.n → Marked mark g' k) : Covers mark g g' :=
  ⟨h.n_le, h.find_eq, fun e he => by obtain ⟨e', a, b, -, c⟩ := h.nodes e he; exact ⟨e', a, b, c⟩, hf⟩

open Classical in
/-- The classes without such a constant. -/
noncomputable def bare (mark : O → Bool) (g : EGraph O C) : Finset Nat :=
  (Finset.range g.n).filter fun k => g.find k = k ∧ ¬ Marked mark g k

omit [LinearOrder C] in
theorem mem_bare {k : Nat} : k ∈ bare mark g ↔ k < g.n ∧ g.find k = k ∧ ¬ Marked mark g k := by
  simp [bare]

omit [LinearOrder C] in
theorem Marked.find (hg : BlindInv ar Y g val) {k : Nat} : Marked mark g (g.find k) ↔ Marked mark g k := by
  simp only [Marked, hg.idem]

omit [LinearOrder C] in
theorem bare_maps (hg : BlindInv ar Y g val) (h : Covers mark g g') {k : Nat} (hk : k ∈ bare mark g') :
    k < g.n ∧ g.find k ∈ bare mark g := by
  obtain ⟨h1, -, h3⟩ := mem_bare.1 hk
  have hl : k < g.n := by
    by_contra hc
    exact h3 (h.fresh k (Nat.not_lt.1 hc) h1)
  exact ⟨hl, mem_bare.2 ⟨hg.find_lt k hl, hg.idem k, fun hm => h3 (Marked.mono hg h hl ((Marked.find hg).1 hm))⟩⟩

omit [LinearOrder C] in
theorem bare_inj (hg : BlindInv ar Y g val) (h : Covers mark g g') :
    Set.InjOn g.find (bare mark g' : Set Nat) := by
  intro a ha b hb e
  have := h.find_eq a b (bare_maps hg h ha).1 (bare_maps hg h hb).1 e
  rwa [(mem_bare.1 ha).2.1, (mem_bare.1 hb).2.1] at this

omit [LinearOrder C] in
theorem bare_le (hg : BlindInv ar Y g val) (h : Covers mark g g') : (bare mark g').card ≤ (bare mark g).card :=
  Finset.card_le_card_of_injOn g.find (fun _ hk => (bare_maps hg h hk).2) (bare_inj hg h)

omit [LinearOrder C] in
/-- Adding a constant to a class. -/
theorem bare_lt (hg : BlindInv ar Y g val) (h : Covers mark g g') {i : Nat} (hi : i < g.n)
    (hm : ¬ Marked mark g i) (hm' : Marked mark g' i) : (bare mark g').card < (bare mark g).card := by
  have hmem : g.find i ∈ bare mark g := mem_bare.2 ⟨hg.find_lt i hi, hg.idem i, fun hc => hm ((Marked.find hg).1 hc)⟩
  refine Nat.lt_of_le_of_lt (Finset.card_le_card_of_injOn (t := (bare mark g).erase (g.find i)) g.find (fun k hk => ?_) (bare_inj hg h))
    (Finset.card_erase_lt_of_mem hmem)
  obtain ⟨h1, h2⟩ := bare_maps hg h hk
  rw [Finset.coe_erase]
  refine ⟨h2, fun e => (mem_bare.1 hk).2.2 ?_⟩
  obtain ⟨x, a, b, c⟩ := hm'
  exact ⟨x, a, b, c.trans (h.find_eq i k hi h1 (Set.mem_singleton_iff.1 e).symm)⟩

/-- The hook does nothing with a class that has a constant. -/
theorem modify_quiet (hm : HookAdds D ar mark) (hg : BlindInv ar Y g val) {i : Nat} (hi : i < g.n)
    (h : Marked mark g i) (d : Nat) : modifyD D E (d + 1) g i = some g := by
  obtain ⟨e, h1, h2, h3⟩ := h
  have hc : D.custom g.classNodes (g.find i) = [] := hm.1 _ _ ⟨e.1, by
    simp only [EGraph.classNodes, List.mem_map, List.mem_filter, decide_eq_true_eq]
    exact ⟨e, ⟨h1, by rw [hg.idem]; exact h3⟩, rfl⟩, h2⟩
  have hd : (g.dataOf i).interval = ⟨none, none⟩ := (hg.data_ok i hi).1
  rw [modifyD, hc]
  simp only [List.foldlM_nil, pure, Option.bind_some, hd]

/-- Adding a missing constant. -/
theorem hook_step (hD : Blind D ar) (hv : VarOps (O := O) ar) (hl : LeafAr ar) (hm : HookAdds D ar mark) (d : Nat)
    (hg : BlindInv ar Y g val) {i : Nat} (hi : i < g.n) {o : O} (ho : mark o = true) (har : arOn ar Y o 0) :
    ∃ g' val', addUnionWith D E (modifyD D E (d + 1)) i g (.node o []) = some g' ∧ BlindInv ar Y g' val' ∧
      Covers mark g g' ∧ Marked mark g' i := by
  have hP := blindInv hD hv hl Y
  have hT := blindMake hD Y
  -- the e-graph with the constant
  have hadd : ∃ g1 val1 j, addWith D (modifyD D E (d + 1)) g ⟨o, []⟩ = some (g1, j) ∧ BlindInv ar Y g1 val1 ∧ j < g1.n ∧
      Covers mark g g1 ∧ Marked mark g1 j := by
    obtain ⟨g1, j, h1⟩ := addWith_total hP hT (mod := fun g _ => some g) hg (nd := ⟨o, []⟩) har (by simp)
      fun g1 _ _ _ _ _ _ _ _ => ⟨g1, rfl⟩
    obtain ⟨val1, hI1, hE1, hj, hjj, -, e, e1, e2, -, e3⟩ := addWith_ok hP ModOk.id hg (nd := ⟨o, []⟩) har (by simp) h1
    have hmj : Marked mark g1 j := ⟨e, e1, by rw [e2]; exact ho, by rw [e3, hjj]⟩
    unfold addWith at h1 ⊢
    cases hk : g.lookup ⟨o, []⟩ with
    | some x =>
      simp only [hk, Option.some.injEq, Prod.mk.injEq] at h1
      obtain ⟨rfl, rfl⟩ := h1
      exact ⟨g, val1, x, rfl, hI1, hj, Covers.refl _ _, hmj⟩
    | none =>
      simp only [hk] at h1 ⊢
      obtain ⟨s, hs, h1⟩ := Option.bind_eq_some_iff.1 h1
      rw [Option.map_some, Option.some.injEq, Prod.mk.injEq] at h1
      obtain ⟨h1', hjn⟩ := h1
      simp only [if_true] at hjn
      subst hjn
      rw [hs, Option.bind_some, h1', modify_quiet hm hI1 hj hmj d, Option.map_some]
      refine ⟨g1, val1, g1.find g.n, rfl, hI1, hI1.find_lt _ hj, Covers.ofExt hE1 fun k hk1 hk2 => ?_, (Marked.find hI1).2 hmj⟩
      have : g1.n = g.n + 1 := by rw [← h1']
      have : k = g.n := by omega
      subst this
      exact hmj
  obtain ⟨g1, val1, j, h1, hI1, hj, hC1, hmj⟩ := hadd
  have hi1 := Nat.lt_of_lt_of_le hi hC1.n_le
  have hadd' : addTmWith D (modifyD D E (d + 1)) (.node o []) g = some (g1, j) := by
    rw [addTmWith, addTmWithL, Option.bind_some]
    exact h1
  rw [addUnionWith, hadd', Option.bind_some]
  by_cases hne : g1.find i = g1.find j
  · refine ⟨g1, val1, by simp [unionWith, hne], hI1, hC1, ?_⟩
    obtain ⟨e, a, b, c⟩ := hmj
    exact ⟨e, a, b, c.trans hne.symm⟩
  · obtain ⟨g2, r, s, hu, hI2, hn, hnodes, hrn, -, -, -, -, -, hf, hfj, -⟩ :=
      union_roots (E := E) (mod := modifyD D E (d + 1)) hP hT hI1 hi1 hj (unit_eq _ _) hne
    have hC2 : Covers mark g1 g2 := by
      refine ⟨le_of_eq hn.symm, fun a b _ _ h => by simp only [hf, h], fun e he => ⟨e, hnodes ▸ he, rfl, rfl⟩, fun k h h' => ?_⟩
      omega
    have hmj2 : Marked mark g2 j := Marked.mono hI1 hC2 hj hmj
    have hmr : Marked mark g2 r := by rw [← hfj]; exact (Marked.find hI2).2 hmj2
    have hq := modify_quiet (E := E) hm hI2 (i := r) (by rw [hn]; exact hrn) hmr d
    have hw : unionWith E (modifyD D E (d + 1)) g1 i j = some g2 := hu.trans hq
    obtain ⟨_, _, _, hij⟩ := unionWith_ok hP (modifyD_ok hP _) hI1 hi1 hj (unit_eq _ _) hw
    obtain ⟨e, a, b, c⟩ := hmj2
    exact ⟨g2, val1, hw, hI2, Covers.trans hg hI1 hC1 hC2, e, a, b, c.trans hij.symm⟩

/-- Adding missing constants. -/
theorem hook_steps (hD : Blind D ar) (hv : VarOps (O := O) ar) (hl : LeafAr ar) (hm : HookAdds D ar mark) (d : Nat) {i : Nat}
    (ts : List (Tm O)) (ht : ∀ t ∈ ts, ∃ o, t = .node o [] ∧ mark o = true ∧ ar o 0 ∧ Lang.toVar o = none) :
    ∀ {g : EGraph O C} {val : Nat → (String → Unit) → Unit}, BlindInv ar Y g val → i < g.n →
      ∃ g' val', ts.foldlM (addUnionWith D E (modifyD D E (d + 1)) i) g = some g' ∧ BlindInv ar Y g' val' ∧
        Covers mark g g' ∧ (ts ≠ [] → Marked mark g' i) := by
  induction ts with
  | nil => exact fun {g val} hg _ => ⟨g, val, rfl, hg, Covers.refl _ _, fun h => absurd rfl h⟩
  | cons t ts ih =>
    intro g val hg hi
    obtain ⟨o, rfl, h1, h2, h3⟩ := ht t (by simp)
    obtain ⟨g1, val1, k1, hI1, hC1, hm1⟩ := hook_step (E := E) hD hv hl hm d hg hi h1
      ⟨h2, fun x hx => by rw [h3] at hx; cases hx⟩
    have hi1 := Nat.lt_of_lt_of_le hi hC1.n_le
    obtain ⟨g2, val2, k2, hI2, hC2, -⟩ := ih (fun t ht' => ht t (by simp [ht'])) hI1 hi1
    refine ⟨g2, val2, ?_, hI2, Covers.trans hg hI1 hC1 hC2, fun _ => Marked.mono hI1 hC2 hi1 hm1⟩
    rw [List.foldlM_cons]
    exact (congrArg (Option.bind · _) k1).trans k2

/-- The hook does not fail; if it changes anything, fewer classes are without constants. -/
theorem modify_blind (hD : Blind D ar) (hv : VarOps (O := O) ar) (hl : LeafAr ar) (hm : HookAdds D ar mark) (hE : 2 ≤ E.depth)
    (hg : BlindInv ar Y g val) {i : Nat} (hi : i < g.n) :
    ∃ g' val', EGraph.modify D E g i = some g' ∧ BlindInv ar Y g' val' ∧
      (g' = g ∨ (bare mark g').card < (bare mark g).card) := by
  obtain ⟨d, hd⟩ := Nat.exists_eq_add_of_le' hE
  by_cases h : Marked mark g i
  · exact ⟨g, val, by rw [EGraph.modify, hd]; exact modify_quiet hm hg hi h _, hg, .inl rfl⟩
  · obtain ⟨g1, val1, h1, hI1, hC1, hm1⟩ := hook_steps (E := E) hD hv hl hm d (i := i) (D.custom g.classNodes (g.find i))
      (hm.2 _ _) hg hi
    have hd1 : (g1.dataOf i).interval = ⟨none, none⟩ := (hI1.data_ok i (Nat.lt_of_lt_of_le hi hC1.n_le)).1
    refine ⟨g1, val1, ?_, hI1, ?_⟩
    · rw [EGraph.modify, hd, modifyD, h1, Option.bind_some]
      simp only [hd1]
    · cases hc : D.custom g.classNodes (g.find i) with
      | nil =>
        rw [hc] at h1
        exact .inl (Option.some.inj h1).symm
      | cons t ts => exact .inr (bare_lt hg hC1 hi h (hm1 (by rw [hc]; simp)))

/-- Rebuilding can be completed. -/
theorem ends_blind (hD : Blind D ar) (hv : VarOps (O := O) ar) (hl : LeafAr ar) (hE : 2 ≤ E.depth) :
    ∀ (g : EGraph O C) (val : Nat → (String → Unit) → Unit), BlindInv ar Y g val →
      ∃ (steps : List Repair) (g' : EGraph O C), steps.foldlM (repair D E) g = some g' ∧ g'.closed = true := by
  obtain ⟨mark, hm⟩ := hD.hook
  have hP := blindInv hD hv hl Y
  have wf : WellFounded (Prod.Lex (α := Nat) (β := Nat × Nat × Nat) (· < ·) (Prod.Lex (· < ·) (Prod.Lex (· < ·) (· < ·)))) :=
    WellFounded.prod_lex Nat.lt_wfRel.wf (WellFounded.prod_lex Nat.lt_wfRel.wf
      (WellFounded.prod_lex Nat.lt_wfRel.wf Nat.lt_wfRel.wf))
  suffices h : ∀ m : Nat × Nat × Nat × Nat, ∀ (g : EGraph O C) (val : Nat → (String → Unit) → Unit), BlindInv ar Y g val →
      ((bare mark g).card, (rootIds g).card, g.nodes.length, stale g) = m →
      ∃ (steps : List Repair) (g' : EGraph O C), steps.foldlM (repair D E) g = some g' ∧ g'.closed = true from
    fun g val hg => h _ g val hg rfl
  intro m
  induction m using wf.induction with
  | _ m ih =>
    intro g val hg hmg
    cases hc : g.closed with
    | true => exact ⟨[], g, rfl, hc⟩
    | false =>
      have lex : ∀ {a a' b b' : Nat} {c c' : Nat × Nat}, a ≤ a' → (b < b' ∨ b = b' ∧ Prod.Lex (· < ·) (· < ·) c c') →
          Prod.Lex (· < ·) (Prod.Lex (· < ·) (Prod.Lex (· < ·) (· < ·))) (a, b, c) (a', b', c') := by
        intro a a' b b' c c' h1 h2
        rcases Nat.lt_or_eq_of_le h1 with h | rfl
        · exact .left _ _ h
        · refine .right _ ?_
          rcases h2 with h | ⟨rfl, h⟩
          · exact .left _ _ h
          · exact .right _ h
      have step : ∃ i g1 val1, repair D E g (.congr i) = some g1 ∧ BlindInv ar Y g1 val1 ∧
          Prod.Lex (· < ·) (Prod.Lex (· < ·) (Prod.Lex (· < ·) (· < ·)))
            ((bare mark g1).card, (rootIds g1).card, g1.nodes.length, stale g1)
            ((bare mark g).card, (rootIds g).card, g.nodes.length, stale g) := by
        obtain ⟨i, ⟨g1, h1, h2, h3, h4, h5⟩ | ⟨nd, c, c', h1, h2, hn, hmem, h3, h4, h5, h6⟩⟩ := repair_pick D E hg hc
        · obtain ⟨_, _, hE1⟩ := repair_ok hP hg h1
          refine ⟨i, g1, val, h1, h2, lex (bare_le hg (Covers.ofExt hE1 fun k a b => by omega)) (.inr ⟨?_, h5⟩)⟩
          simp only [rootIds, h3, h4]
        · obtain ⟨g1, r, s, hu, hI1, hn1, hnodes, hrn, -, -, -, -, -, hf, hfj, hrr, hfi⟩ :=
            union_roots (E := E) (mod := EGraph.modify D E) hP (blindMake hD Y) h2 h3 h4 h5 h6
          obtain ⟨g2, val2, h7, hI2, h8⟩ := modify_blind (E := E) (mark := mark) hD hv hl hm hE hI1 (i := r) (by rw [hn1]; exact hrn)
          have hcc : g1.find c' = g1.find c := hfi.trans hfj.symm
          have hC : Covers mark g g1 := by
            refine ⟨le_of_eq hn1.symm, fun a b _ _ h => by simp only [hf, h], fun e he => ?_, fun k a b => ?_⟩
            · rcases mem_eraseIdx_or _ i _ hn e he with h | rfl
              · exact ⟨e, hnodes ▸ h, rfl, rfl⟩
              · exact ⟨(g.canon nd, c'), hnodes ▸ hmem, rfl, hcc⟩
            · simp only at hn1
              omega
          have hR : (rootIds g1).card < (rootIds g).card := by
            have := congrArg Multiset.card hrr
            simp only [rootRanks, Multiset.card_cons, Multiset.card_map] at this
            have e : (rootIds { g with nodes := g.nodes.eraseIdx i }).card = (rootIds g).card := rfl
            omega
          refine ⟨i, g2, val2, h1.trans (hu.trans h7), hI2, ?_⟩
          rcases h8 with rfl | h8
          · exact lex (bare_le hg hC) (.inl hR)
          · exact .left _ _ (Nat.lt_of_lt_of_le h8 (bare_le hg hC))
      obtain ⟨i, g1, val1, h1, hI1, hlt⟩ := step
      obtain ⟨steps, g2, h2, hc2⟩ := ih _ (hmg ▸ hlt) g1 val1 hI1 rfl
      refine ⟨.congr i :: steps, g2, ?_, hc2⟩
      rw [List.foldlM_cons, h1]
      exact h2

theorem blindTotal (hD : Blind D ar) (hv : VarOps (O := O) ar) (hl : LeafAr ar) (Y : String → Prop) :
    StepTotal (noVecs O) D (arOn ar Y) (piAlg unitAlg) BlindOk :=
  { blindMake hD Y with
    mod := fun E hE g val i hg hi => by
      obtain ⟨mark, hm⟩ := hD.hook
      obtain ⟨g', _, h, -⟩ := modify_blind (E := E) hD hv hl hm hE hg hi
      exact ⟨g', h⟩
    ends := fun E hE => ends_blind hD hv hl hE }

theorem blind_bare (hD : Blind D ar) (hv : VarOps (O := O) ar) (hl : LeafAr ar) : BareOk D ar unitAlg BlindOk :=
  ⟨blindInv hD hv hl _, blindTotal hD hv hl _, hv⟩

theorem blind_folds (hD : Blind D ar) (env : String → Unit) :
    FoldsIn D ar (withVars env unitAlg) (fun J _ => J = ⟨none, none⟩) where
  interval := by
    intro o Js vs J _ _ h
    rw [hD.interval, Option.some.injEq] at h
    exact h.symm
  join := by
    intro a b c v ha hb h
    subst ha hb
    simp only [mergeInterval, maxLow, minHigh, Interval.new, Option.some.injEq] at h
    exact h.symm
  const := by intro c v t h; cases h
  custom := by
    intro nodes val i _ t ht
    obtain ⟨mark, -, h⟩ := hD.hook
    obtain ⟨o, rfl, -, h1, -⟩ := h nodes i t ht
    exact ⟨.node h1 (by simp), rfl⟩
  varTerms := fun x t ht => ⟨(hD.varTerms x t ht).1, rfl⟩

omit [LinearOrder C] in
theorem blind_setCvec {Y : String → Prop} {g : EGraph O C} {val : Nat → (String → Unit) → Unit} (hg : BlindInv ar Y g val)
    (i : Nat) : BlindInv ar Y (g.setCvec i []) val := by
  refine ⟨hg.find_lt, hg.find_ge, hg.idem, hg.nodes_lt, hg.nodes_ar, hg.val_find, hg.val_node, ?_, hg.side_len,
    hg.side_nodes⟩
  intro k hk
  have h := hg.data_ok k hk
  simp only [EGraph.setCvec]
  split
  · exact ⟨h.1, rfl, h.2.2⟩
  · exact h

theorem addUnions_total {S : Side O} {V : Type} {I : O → List V → V} {ok : Signature O C → V → Prop} (hP : DataInvS S D ar I ok)
    (hT : StepTotal S D ar I ok) (hE : 2 ≤ E.depth) (ts : List (Tm O)) :
    ∀ {g : EGraph O C} {val : Nat → V} {i : Nat}, InvS S ar I ok g val → i < g.n →
      (∀ t ∈ ts, TmOk ar t ∧ Tm.fold I t = val i) →
      ∃ g', ts.foldlM (addUnionWith D E (modify D E) i) g = some g' := by
  induction ts with
  | nil => exact fun {g} _ _ _ _ _ => ⟨g, rfl⟩
  | cons t ts ih =>
    intro g val i hg hi ht
    obtain ⟨h1, h2⟩ := ht t (by simp)
    obtain ⟨g1, j, k1⟩ := addTm_total (E := E) hP hT hE t h1 g val hg
    obtain ⟨val1, hI1, hE1, hj, -, hv, -⟩ := addTm_ok hP h1 hg k1
    have hi1 := Nat.lt_of_lt_of_le hi hE1.n_le
    have hvi : val1 i = val1 j := by rw [hE1.val_eq i hi, hv, h2]
    obtain ⟨g2, k2⟩ := union_total (E := E) hP hT hE hI1 hi1 hj hvi
    obtain ⟨val2, hI2, hE2, -⟩ := union_ok hP hI1 hi1 hj hvi k2
    have hstep : addUnionWith D E (modify D E) i g t = some g2 := by
      rw [addUnionWith]
      exact (congrArg (Option.bind · _) k1).trans k2
    obtain ⟨g3, k3⟩ := ih hI2 (Nat.lt_of_lt_of_le hi1 hE2.n_le) fun u hu => by
      rw [hE2.val_eq i hi1, hE1.val_eq i hi]
      exact ht u (by simp [hu])
    refine ⟨g3, ?_⟩
    rw [List.foldlM_cons]
    exact (congrArg (Option.bind · _) hstep).trans k3

theorem initVars_blind (hD : Blind D ar) (hv : VarOps (O := O) ar) (hl : LeafAr ar) (hE : 2 ≤ E.depth) {Y : String → Prop}
    (l : List (String × CVec C)) (hl' : ∀ p ∈ l, Y p.1 ∧ p.2 = []) :
    ∀ (g : EGraph O C) (val : Nat → (String → Unit) → Unit), BlindInv ar Y g val →
    ∃ g', l.foldlM (initVar D E) g = some g' ∧ ∃ val', BlindInv ar Y g' val' := by
  induction l with
  | nil => exact fun g val hg => ⟨g, rfl, val, hg⟩
  | cons p l ih =>
    intro g val hg
    obtain ⟨hy, hcv⟩ := hl' p (by simp)
    have hP := blindInv hD hv hl Y
    have hT := blindTotal hD hv hl Y
    have har : arOn ar Y (Lang.mkVar p.1) 0 :=
      ⟨(hv.1 p.1).2, fun x hx => by rw [(hv.1 p.1).1] at hx; cases hx; exact hy⟩
    obtain ⟨g1, i, k1⟩ := add_total (E := E) hP hT hE hg (nd := ⟨Lang.mkVar p.1, []⟩) har (by simp)
    obtain ⟨val1, hI1, -, hi, -⟩ := add_ok hP hg (nd := ⟨Lang.mkVar p.1, []⟩) har (by simp) k1
    have hvt : ∀ t ∈ D.varTerms p.1, TmOk (arOn ar Y) t ∧ Tm.fold (piAlg unitAlg) t = val1 i :=
      fun t ht => ⟨(hP.varTerms p.1 har t ht).1, funext fun _ => rfl⟩
    obtain ⟨g2, k2⟩ := addUnions_total (E := E) hP hT hE (D.varTerms p.1) (blind_setCvec hI1 i) hi hvt
    obtain ⟨val2, hI2, -⟩ := addUnions_ok hP (modify_ok hP) _ (blind_setCvec hI1 i) hi hvt k2
    have hstep : initVar D E g p = some g2 := by
      rw [initVar, hcv]
      exact (congrArg (Option.bind · _) k1).trans k2
    obtain ⟨g3, k3, val3, hI3⟩ := ih (fun q hq => hl' q (by simp [hq])) g2 val2 hI2
    refine ⟨g3, ?_, val3, hI3⟩
    rw [List.foldlM_cons]
    exact (congrArg (Option.bind · _) hstep).trans k3

/-- Building the e-graph does not fail. -/
theorem toEGraph_blind (hD : Blind D ar) (hv : VarOps (O := O) ar) (hl : LeafAr ar) (hE : 2 ≤ E.depth) {w : Workload}
    {ts : List (Tm O)} (hts : TermsOf w ts) (hok : ∀ t ∈ ts, TmOk ar t) {X : List String}
    (hX : ∀ t ∈ ts, ∀ x, HasVar x t → x ∈ X) :
    ∃ g, w.toEGraph D E = some g ∧ (∃ val, BlindInv ar (· ∈ X) g val) ∧ AnyHistory D g := by
  obtain ⟨ss, hss, hts⟩ := hts
  obtain ⟨tbl, h1, h2⟩ := hD.init (collectVars ts)
  have hX' : ∀ x ∈ collectVars ts, x ∈ X := fun x hx => by
    obtain ⟨t, ht, h⟩ := ((collectVars_spec ts).2 x).1 hx
    exact hX t ht x h
  have hP := blindInv hD hv hl (· ∈ X)
  have hT := blindTotal hD hv hl (· ∈ X)
  have h0 : BlindInv ar (· ∈ X) ({ EGraph.empty with cvecLen := 0 } : EGraph O C) (fun _ _ => ()) :=
    ⟨fun _ h => absurd h (Nat.not_lt_zero _), fun _ _ => rfl, fun _ => rfl, by simp [EGraph.empty],
      by simp [EGraph.empty], fun _ h => absurd h (Nat.not_lt_zero _), by simp [EGraph.empty],
      fun _ h => absurd h (Nat.not_lt_zero _), fun m hm => Option.some.inj hm, fun o ⟨x, hx, _⟩ => by cases hx⟩
  obtain ⟨g1, k1, val1, hI1⟩ := initVars_blind hD hv hl hE tbl (fun p hp => ⟨hX' _ (h2 p hp).1, (h2 p hp).2⟩) _ _ h0
  have hok' : ∀ t ∈ ts, TmOk (arOn ar (· ∈ X)) t := fun t ht => TmOk.arOn (hok t ht) (hX t ht)
  obtain ⟨g2, ids, k2⟩ := addTms_total (E := E) hP hT hE ts hok' hI1
  obtain ⟨val2, hI2, -⟩ := addTms_ok hP ts hok' hI1 k2
  have hb : termsToEGraph D E ts = some g2 := by
    rw [termsToEGraph, initializeVars, h1, Option.bind_some, k1, Option.bind_some, k2]
    rfl
  refine ⟨g2, ?_, ⟨val2, hI2⟩, Reach.any (reach_termsToEGraph (R := fun _ => True) hv.1 hok hb)⟩
  rw [Workload.toEGraph, hss, Option.bind_some, hts, Option.bind_some, hb]

end Ruler
