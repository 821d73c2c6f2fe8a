import Verif.Proofs.Reach
import Verif.Proofs.Folds
import Verif.Spec.SampleEGraph
/-!
# Equality saturation: C29, C30, C38

`Reach` covers every history of an e-graph in ruler, with every choice egg can make (order of matches, limits, time-outs,
order of the repair work, which root survives).
-/
namespace Ruler
open Spec EGraph
variable {O C V : Type} [Lang O] [LinearOrder C] {D : Domain O C} {ar : O → Nat → Prop} {R : Rule O → Prop}

/-! ## C29 -/

/-- **C29.** If constant folding is correct in an algebra and all rules hold in it, then at every point of every history the
e-graph can be evaluated in the algebra: each class has one value, and each e-node of the class evaluates to it. -/
theorem C29_class_value [Nonempty V] {I : O → List V → V} {mem : Interval C → V → Prop} (hF : FoldsIn D ar I mem)
    (hR : ∀ r, R r → RuleOk ar r ∧ Holds I r) {g : EGraph O C} (hg : Reach D ar R g) : ∃ val, Evaluates I g val := by
  obtain ⟨val, h⟩ := Reach.inv (foldInv hF) (fun _ _ _ h => h) hR hg
  exact ⟨val, h.val_find, h.val_node⟩

/-- **C29.** Only terms that are equal in the algebra are ever merged. -/
theorem C29_sound {I : O → List V → V} {mem : Interval C → V → Prop} (hF : FoldsIn D ar I mem)
    (hR : ∀ r, R r → RuleOk ar r ∧ Holds I r) {g : EGraph O C} (hg : Reach D ar R g) {t u : Tm O} {i j : Nat}
    (ht : Rep g t i) (hu : Rep g u j) (hij : g.find i = g.find j) : Tm.fold I t = Tm.fold I u := by
  have : Nonempty V := ⟨Tm.fold I t⟩
  obtain ⟨val, h⟩ := Reach.inv (foldInv hF) (fun _ _ _ h => h) hR hg
  rw [← Rep.val h t i (Rep.lt h ht) ht, ← Rep.val h u i (Rep.lt h (Rep.congr hu hij.symm)) (Rep.congr hu hij.symm)]

/-- **C29.** In terms of `lookup_expr`. -/
theorem C29_lookup {I : O → List V → V} {mem : Interval C → V → Prop} (hF : FoldsIn D ar I mem)
    (hR : ∀ r, R r → RuleOk ar r ∧ Holds I r) {g : EGraph O C} (hg : Reach D ar R g) {t u : Tm O} {i : Nat}
    (ht : g.lookupTm t = some i) (hu : g.lookupTm u = some i) : Tm.fold I t = Tm.fold I u := by
  have : Nonempty V := ⟨Tm.fold I t⟩
  obtain ⟨val, h⟩ := Reach.inv (foldInv hF) (fun _ _ _ h => h) hR hg
  exact C29_sound hF hR hg (lookupTm_rep h t i ht).1 (lookupTm_rep h u i hu).1 rfl

/-- **C29**, domains without constant folding: no assumption about the domain is left. -/
theorem C29_noFold (hD : NoFold D) (I : O → List V → V) (hR : ∀ r, R r → RuleOk ar r ∧ Holds I r) {g : EGraph O C}
    (hg : Reach D ar R g) {t u : Tm O} {i j : Nat} (ht : Rep g t i) (hu : Rep g u j) (hij : g.find i = g.find j) :
    Tm.fold I t = Tm.fold I u :=
  C29_sound (NoFold.foldsIn hD ar I) hR hg ht hu hij

/-- **C29.** From a workload to the result of a run: every term of the workload is found in the result, and two of them are
found in the same class only if they are equal in the algebra. -/
theorem C29_workload {I : O → List V → V} {mem : Interval C → V → Prop} (hF : FoldsIn D ar I mem)
    (hv : VarsOk (O := O) ar) {ts : List (Tm O)} (hts : ∀ t ∈ ts, TmOk ar t) {E E' : Egg} {isSat : Rule O → Bool}
    {s : Scheduler} {rules : Ruleset O} (hR : ∀ r ∈ Ruleset.iter rules, RuleOk ar r ∧ Holds I r) {tr : SchedTrace}
    {g g' : EGraph O C} (hg : termsToEGraph D E ts = some g) (h : Scheduler.run D E' isSat s rules tr g = some g') :
    (∀ t ∈ ts, (g'.lookupTm t).isSome) ∧
    ∀ t ∈ ts, ∀ u ∈ ts, g'.lookupTm t = g'.lookupTm u → Tm.fold I t = Tm.fold I u := by
  have hr : Reach D ar (fun r => RuleOk ar r ∧ Holds I r) g' := .run (reach_termsToEGraph hv hts hg) hR h
  have hfound : ∀ t ∈ ts, ∃ i, g'.lookupTm t = some i := by
    intro t ht
    obtain ⟨i, hi⟩ := termsToEGraph_rep hg t ht
    have : Nonempty V := ⟨Tm.fold I t⟩
    obtain ⟨val, hI⟩ := Reach.inv (foldInv hF) (fun _ _ _ h => h) (fun _ h => h)
      (reach_termsToEGraph (R := fun r => RuleOk ar r ∧ Holds I r) hv hts hg)
    obtain ⟨⟨val', hI', hE⟩, hc⟩ := run_ok (foldInv hF) hR hI h
    exact ⟨_, rep_lookupTm hI' hc t i (Rep.ext hI hE t i (Rep.lt hI hi) hi)⟩
  refine ⟨fun t ht => ?_, fun t ht u hu he => ?_⟩
  · obtain ⟨i, hi⟩ := hfound t ht
    rw [hi]
    rfl
  · obtain ⟨i, hi⟩ := hfound t ht
    exact C29_lookup hF (fun _ h => h) hr hi (he ▸ hi)

/-- Soundness for a domain whose folding is correct whatever the values of the variables. -/
theorem sound_vars {f : O → List V → V} {mem : Interval C → V → Prop} (hF : ∀ env, FoldsIn D ar (withVars env f) mem)
    (hR : ∀ r, R r → GoodRule ar r ∧ Holds f r) {g : EGraph O C} (hg : Reach D ar R g) {t u : Tm O} {i j : Nat}
    (ht : Rep g t i) (hu : Rep g u j) (hij : g.find i = g.find j) (env : String → V) :
    Tm.fold (withVars env f) t = Tm.fold (withVars env f) u :=
  C29_sound (hF env) (fun r hr => ⟨(hR r hr).1.1, Holds.withVars (hR r hr).1.2.1 (hR r hr).1.2.2 (hR r hr).2 env⟩)
    hg ht hu hij

omit [LinearOrder C] in
theorem tmVal_eq_fold (env : String → V) (f : O → List V → V) (t : Tm O) :
    Tm.fold (withVars env f) t = tmVal env f t := rfl

/-- **C29**, Boolean domain: merged formulas are equivalent. -/
theorem C29_bool {R : Rule BoolOp → Prop}
    (hR : ∀ r, R r → GoodRule (fun o k => k = o.arity) r ∧ Holds boolOpVal r) {g : EGraph BoolOp Bool}
    (hg : Reach boolDomain (fun o k => k = o.arity) R g) {t u : Tm BoolOp} {i j : Nat}
    (ht : Rep g t i) (hu : Rep g u j) (hij : g.find i = g.find j) (env : String → Bool) :
    boolVal env t = boolVal env u :=
  sound_vars bool_folds hR hg ht hu hij env

/-- **C29**, natural numbers. -/
theorem C29_nat (rnd : Nat → Nat → Nat) {R : Rule NatOp → Prop}
    (hR : ∀ r, R r → GoodRule (fun o k => k = o.arity) r ∧ Holds natOpVal r) {g : EGraph NatOp Int}
    (hg : Reach (natDomain rnd) (fun o k => k = o.arity) R g) {t u : Tm NatOp} {i j : Nat}
    (ht : Rep g t i) (hu : Rep g u j) (hij : g.find i = g.find j) (env : String → Nat) :
    natVal env t = natVal env u :=
  sound_vars (nat_folds rnd) hR hg ht hu hij env

/-- **C29**, bit-vectors of every width. -/
theorem C29_bv (N : Nat) {R : Rule (BvOp N) → Prop}
    (hR : ∀ r, R r → GoodRule (fun o k => k = o.arity) r ∧ Holds bvOpVal r) {g : EGraph (BvOp N) (BV N)}
    (hg : Reach (bvDomain N) (fun o k => k = o.arity) R g) {t u : Tm (BvOp N)} {i j : Nat}
    (ht : Rep g t i) (hu : Rep g u j) (hij : g.find i = g.find j) (env : String → BitVec N) :
    tmVal env bvOpVal t = tmVal env bvOpVal u :=
  sound_vars (bv_folds N) hR hg ht hu hij env

/-- **C29**, integers (Halide). -/
theorem C29_halide {R : Rule PredOp → Prop}
    (hR : ∀ r, R r → GoodRule (fun o k => k = o.arity) r ∧ Holds predOpVal r) {g : EGraph PredOp Int}
    (hg : Reach halideDomain (fun o k => k = o.arity) R g) {t u : Tm PredOp} {i j : Nat}
    (ht : Rep g t i) (hu : Rep g u j) (hij : g.find i = g.find j) (env : String → Int) :
    tmVal env predOpVal t = tmVal env predOpVal u :=
  sound_vars (fun _ => NoFold.foldsIn halide_noFold _ _) hR hg ht hu hij env

/-- **C29**, rationals with division: values are numbers or "undefined", and the rules must hold for both (see
`C29_rational_undefined` for what happens otherwise). -/
theorem C29_rational {K : Type} [Field K] [LinearOrder K] [IsStrictOrderedRing K] (ck : Checked) (hck : ExactOrNone ck)
    {R : Rule MathOp → Prop} (hR : ∀ r, R r → GoodRule (fun o k => k = o.arity) r ∧ Holds (V := Option K) mathOpVal r)
    {g : EGraph MathOp Rat} (hg : Reach (rationalDomain ck) (fun o k => k = o.arity) R g) {t u : Tm MathOp} {i j : Nat}
    (ht : Rep g t i) (hu : Rep g u j) (hij : g.find i = g.find j) (env : String → Option K) :
    tmVal env mathOpVal t = tmVal env mathOpVal u :=
  sound_vars (rational_folds ck hck) hR hg ht hu hij env

/-- What "holds for all numbers" gives for partial operations: `(* ?x 0) ==> 0` is true for every number `?x`, but after
one application the e-graph has merged `(* (/ 1 a) 0)` with `0`, although the former is undefined for `a = 0`. (The
check `is_defined` in `apply_one` only prevents this if *all* samples are undefined.) -/
theorem C29_rational_undefined {K : Type} [Field K] [LinearOrder K] [IsStrictOrderedRing K] :
    (∀ ρ : String → K, patVal (fun v => some (ρ v)) mathOpVal Sample.mulZero.lhs =
      patVal (fun v => some (ρ v)) mathOpVal Sample.mulZero.rhs) ∧
    (∃ g i, Sample.ratOut = some g ∧ g.lookupTm Sample.divZero = some i ∧ g.lookupTm Sample.ratZero = some i) ∧
    tmVal (fun _ => some (0 : K)) mathOpVal Sample.divZero = none ∧
    tmVal (fun _ => some (0 : K)) mathOpVal Sample.ratZero = some 0 := by
  refine ⟨?_, ?_, ?_, ?_⟩
  · intro ρ
    simp [Sample.mulZero, patVal, patValL, mathOpVal]
  · have h : (Sample.ratOut.map fun g => (g.lookupTm Sample.divZero, g.lookupTm Sample.ratZero)) =
        some (some 3, some 3) := by decide +kernel
    rw [Option.map_eq_some_iff] at h
    obtain ⟨g, hg, h⟩ := h
    rw [Prod.mk.injEq] at h
    exact ⟨g, 3, hg, h.1, h.2⟩
  · simp [Sample.divZero, tmVal, Tm.fold, Tm.foldL, Lang.toVar, mathOpVal]
  · simp [Sample.ratZero, tmVal, Tm.fold, Tm.foldL, Lang.toVar, mathOpVal]

namespace Sample

theorem natVarsOk : VarsOk (O := NatOp) (fun o k => k = o.arity) := fun _ => ⟨rfl, rfl⟩

theorem addComm_good : GoodRule (fun o k => k = o.arity) addComm := by
  refine ⟨⟨.node rfl ?_, .node rfl ?_⟩, .node rfl ?_, .node rfl ?_⟩ <;> intro a ha <;>
    rcases List.mem_cons.1 ha with rfl | ha <;> first
      | exact .var
      | exact .var (by decide)
      | (rcases List.mem_singleton.1 ha with rfl; first | exact .var | exact .var (by decide))

theorem addComm_holds : Holds natOpVal addComm := fun ρ => by
  simp [addComm, patVal, patValL, natOpVal, Nat.add_comm]

theorem terms_ok : ∀ t ∈ [nxy, nyx], TmOk (fun o k => k = NatOp.arity o) t := by
  have h : ∀ x, TmOk (fun o k => k = NatOp.arity o) (.node (.var x) []) := fun x => .node rfl (by simp)
  intro t ht
  rcases List.mem_cons.1 ht with rfl | ht
  · exact .node rfl (by intro a ha; rcases List.mem_cons.1 ha with rfl | ha; exact h _
                        rcases List.mem_singleton.1 ha with rfl; exact h _)
  · rcases List.mem_singleton.1 ht with rfl
    exact .node rfl (by intro a ha; rcases List.mem_cons.1 ha with rfl | ha; exact h _
                        rcases List.mem_singleton.1 ha with rfl; exact h _)

/-- Before the run the two sums are in different classes; every scheduler merges them. -/
theorem natOut_merges :
    (natStart.map fun g => (g.lookupTm nxy, g.lookupTm nyx)) = some (some 2, some 3) ∧
    ((natOut (.simple limits)).map fun g => (g.n, g.lookupTm nxy, g.lookupTm nyx)) = some (4, some 3, some 3) ∧
    ((natOut (.saturating limits)).map fun g => (g.n, g.lookupTm nxy, g.lookupTm nyx)) = some (4, some 3, some 3) ∧
    ((natOut (.compress limits)).map fun g => (g.n, g.lookupTm nxy, g.lookupTm nyx)) = some (4, some 2, some 2) := by
  decide +kernel

-- The hypotheses of `C29_nat` hold and its conclusion says something: `x + y` and `y + x` agree for all numbers.
example : ∃ g : EGraph NatOp Int, Reach natDom (fun o k => k = o.arity) (fun r => r = addComm) g ∧
    ∃ i, g.lookupTm nxy = some i ∧ g.lookupTm nyx = some i ∧ ∀ env, natVal env nxy = natVal env nyx := by
  obtain ⟨-, h, -⟩ := natOut_merges
  rw [Option.map_eq_some_iff] at h
  obtain ⟨g, hg, h⟩ := h
  simp only [Prod.mk.injEq] at h
  unfold natOut at hg
  rw [Option.bind_eq_some_iff] at hg
  obtain ⟨g0, h0, hg⟩ := hg
  have hr : Reach natDom (fun o k => k = o.arity) (fun r => r = addComm) g :=
    .run (reach_termsToEGraph natVarsOk terms_ok h0) (by simp [Ruleset.iter, commRules]) hg
  have hR : ∀ r, r = addComm → GoodRule (fun o k => k = NatOp.arity o) r ∧ Holds natOpVal r := by
    rintro r rfl; exact ⟨addComm_good, addComm_holds⟩
  obtain ⟨val, hI⟩ := Reach.inv (foldInv (nat_folds (fun i j => i + j) fun _ => 0)) (fun _ _ _ h => h)
    (fun r hr => ⟨(hR r hr).1.1, Holds.withVars (hR r hr).1.2.1 (hR r hr).1.2.2 (hR r hr).2 _⟩) hr
  exact ⟨g, hr, 3, h.2.1, h.2.2, C29_nat _ hR hr (lookupTm_rep hI _ _ h.2.1).1 (lookupTm_rep hI _ _ h.2.2).1 rfl⟩

end Sample

/-! ## C30 -/

/-- **C30.** A run of any scheduler with any rules, sound or not, keeps every equality and every represented term. -/
theorem C30_grows {g g' : EGraph O C} (hg : AnyHistory D g) {E : Egg} {isSat : Rule O → Bool} {s : Scheduler}
    {rules : Ruleset O} {t : SchedTrace} (h : Scheduler.run D E isSat s rules t g = some g') :
    (∀ i j, i < g.n → j < g.n → g.find i = g.find j → g'.find i = g'.find j) ∧
    ∀ u i, Rep g u i → Rep g' u i := by
  obtain ⟨val, hI⟩ := AnyHistory.inv hg
  obtain ⟨⟨val', _, hE⟩, _⟩ := run_ok (unitInv D) (fun r _ => ⟨⟨PatOk.any _, PatOk.any _⟩, fun _ => rfl⟩) hI h
  exact ⟨hE.find_eq, fun u i hu => Rep.ext hI hE u i (Rep.lt hI hu) hu⟩

/-- **C30.** In terms of `lookup_expr`: a term found before the run is found afterwards, and two terms found in one class
are found in one class. -/
theorem C30_lookup {g g' : EGraph O C} (hg : AnyHistory D g) {E : Egg} {isSat : Rule O → Bool} {s : Scheduler}
    {rules : Ruleset O} {t : SchedTrace} (h : Scheduler.run D E isSat s rules t g = some g') (u : Tm O) (i : Nat)
    (hu : g.lookupTm u = some i) :
    g'.lookupTm u = some (g'.find i) ∧ ∀ w, g.lookupTm w = some i → g'.lookupTm w = g'.lookupTm u := by
  obtain ⟨val, hI⟩ := AnyHistory.inv hg
  obtain ⟨⟨val', hI', hE⟩, hc⟩ := run_ok (unitInv D) (fun r _ => ⟨⟨PatOk.any _, PatOk.any _⟩, fun _ => rfl⟩) hI h
  have key : ∀ w, g.lookupTm w = some i → g'.lookupTm w = some (g'.find i) := fun w hw =>
    rep_lookupTm hI' hc w i (Rep.ext hI hE w i (Rep.lt hI (lookupTm_rep hI w i hw).1) (lookupTm_rep hI w i hw).1)
  exact ⟨key u hu, fun w hw => by rw [key w hw, key u hu]⟩

-- A run that moves `(+ x y)` to another root.
example : ∃ g g' : EGraph NatOp Int, AnyHistory Sample.natDom g ∧
    Scheduler.run Sample.natDom Sample.egg (fun _ => false) (.saturating Sample.limits) Sample.commRules Sample.trace g =
      some g' ∧ g.lookupTm Sample.nxy = some 2 ∧ g'.lookupTm Sample.nxy = some 3 ∧ g'.find 2 = 3 := by
  have h : ((Sample.natOut (.saturating Sample.limits)).map fun g => (g.lookupTm Sample.nxy, g.find 2)) =
      some (some 3, 3) := by decide +kernel
  have h0 := Sample.natOut_merges.1
  rw [Option.map_eq_some_iff] at h h0
  obtain ⟨g', hg', h⟩ := h
  obtain ⟨g0, hg0, h0⟩ := h0
  simp only [Prod.mk.injEq] at h h0
  rw [Sample.natOut, hg0] at hg'
  exact ⟨g0, g', reach_termsToEGraph (fun _ => ⟨rfl, trivial⟩) (fun t _ => TmOk.any t) hg0, hg', h0.1, h.1, h.2⟩

/-! ## C38 -/

/-- **C38.** At every point of every history, the expression stored for a class is well-formed and evaluates to the value
of the class. -/
theorem C38_simplest [Nonempty V] {I : O → List V → V} {mem : Interval C → V → Prop} (hF : FoldsIn D ar I mem)
    (hl : LeafAr ar) (hR : ∀ r, R r → RuleOk ar r ∧ Holds I r) {g : EGraph O C} (hg : Reach D ar R g) :
    ∃ val, Evaluates I g val ∧ ∀ i, i < g.n → ∃ t, (g.dataOf i).simplest.tree = some t ∧ Tm.fold I t = val i := by
  obtain ⟨val, h⟩ := Reach.inv (simplestInv hF hl) (fun _ _ _ h => h) hR hg
  refine ⟨val, ⟨h.val_find, h.val_node⟩, fun i hi => ?_⟩
  have := (h.data_ok i hi).2
  rw [RecExpr.run_eq_tree, Option.map_eq_some_iff] at this
  exact this

/-- **C38.** In particular it equals every term of the class. -/
theorem C38_simplest_rep {I : O → List V → V} {mem : Interval C → V → Prop} (hF : FoldsIn D ar I mem)
    (hl : LeafAr ar) (hR : ∀ r, R r → RuleOk ar r ∧ Holds I r) {g : EGraph O C} (hg : Reach D ar R g) {u : Tm O} {i : Nat}
    (hu : Rep g u i) : ∃ t, (g.dataOf i).simplest.tree = some t ∧ Tm.fold I t = Tm.fold I u := by
  have : Nonempty V := ⟨Tm.fold I u⟩
  obtain ⟨val, h⟩ := Reach.inv (simplestInv hF hl) (fun _ _ _ h => h) hR hg
  have hi := Rep.lt h hu
  have := (h.data_ok i hi).2
  rw [RecExpr.run_eq_tree, Option.map_eq_some_iff, Rep.val h u i hi hu] at this
  exact this

-- The class of both sums, after a run, stores one of them.
example : ((Sample.natOut (.simple Sample.limits)).map fun g =>
    (decide ((g.dataOf 2).simplest.tree = some Sample.nyx), decide (g.find 2 = g.find 3))) = some (true, true) := by
  decide +kernel

end Ruler
