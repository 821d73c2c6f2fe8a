import Verif.Props.SynthesisRational
/-!
# C65: example runs
-/
namespace Ruler
open Spec EGraph

namespace Sample
variable {O C : Type} [Lang O] [LinearOrder C]

/-- Commutativity of an operator, with variables `?a` and `?b`. -/
def isCommOf (f : O) (q : Rule O) : Bool :=
  match q.lhs, q.rhs with
  | .node o [.var a, .var b], .node o' [.var c, .var d] => decide (o = f) && decide (o' = f) &&
      (a == d && b == c && ["?a", "?b"].contains a && ["?a", "?b"].contains b)
  | _, _ => false

theorem isCommOf_sides {f : O} {q : Rule O} (h : isCommOf f q = true) :
    ∃ a b, (a = "?a" ∨ a = "?b") ∧ (b = "?a" ∨ b = "?b") ∧ q.lhs = .node f [.var a, .var b] ∧ q.rhs = .node f [.var b, .var a] := by
  unfold isCommOf at h
  split at h
  · rename_i o a b o' c d hl hr
    simp only [Bool.and_eq_true, decide_eq_true_eq, beq_iff_eq, List.contains_eq_mem, List.mem_cons, List.not_mem_nil,
      or_false] at h
    obtain ⟨⟨rfl, rfl⟩, ⟨⟨rfl, rfl⟩, h1⟩, h2⟩ := h
    exact ⟨a, b, h1, h2, hl, hr⟩
  · cases h

/-- The flat form of an application to two variables. -/
def flat2 (f : O) (a b : String) : PatternAst O := [⟨.var a, []⟩, ⟨.var b, []⟩, ⟨.op f, [0, 1]⟩]

omit [Lang O] in
theorem flat2_of (f : O) (a b : String) : FlatOf (flat2 f a b) (.node f [.var a, .var b]) := ⟨rfl, by simp [flat2]⟩

/-- Choices of a run whose validator accepts commutativity of `f` only. -/
noncomputable def commEnv (D : Domain O C) (f : O) : RunEnv O C where
  build := egg
  eg := egg
  isSat _ := false
  tr := quiet
  order g := g.classes
  best g i := (extracted D astCost_laws g i).2
  min := { sched := .simple limits, isSat := fun _ => false, eg := fun _ => egg, tr := fun _ => quiet,
           score := fun r => [(r.name.length : Int)], valid := fun _ => isCommOf f }

theorem commEnv_ok (D : Domain O C) (f : O) : RunOk D (commEnv D f) :=
  fun _ hg => ⟨List.Perm.refl _, fun _ hi => (extracted_ok astCost_laws hg hi).1⟩

/-- The two applications of an operator to `x` and `y`. -/
def bothWays (f : String) : Workload := .set [.list [.atom f, .atom "x", .atom "y"], .list [.atom f, .atom "y", .atom "x"]]

theorem answers {S : Type} {sound : S → Prop} {validate : S → PatternAst O → PatternAst O → Option ValidationResult}
    {D : Domain O C} {f : O} {check : S} (hc : sound check)
    (hv : ∀ a b, (a = "?a" ∨ a = "?b") → (b = "?a" ∨ b = "?b") → validate check (flat2 f a b) (flat2 f b a) = some .valid) :
    AnswersFrom sound validate (commEnv D f).min.valid := by
  intro before q h
  obtain ⟨a, b, h1, h2, e1, e2⟩ := isCommOf_sides h
  refine ⟨check, flat2 f a b, flat2 f b a, hc, ?_, ?_, hv a b h1 h2⟩
  · rw [e1]; exact flat2_of f a b
  · rw [e2]; exact flat2_of f b a

open Classical in
/-- A solver for integers that always answers. -/
noncomputable def intSolver (a b : SmtTm Int) : SatResult :=
  if ∀ d0 env, intVal d0 env a = intVal d0 env b then .unsat else .sat

theorem intSolver_sound : SolverSoundInt intSolver := by
  intro a b h
  unfold intSolver at h
  split at h
  · assumption
  · cases h

open Classical in
/-- A solver for bit vectors that always answers. -/
noncomputable def bvSolver (N : Nat) (a b : SmtBV) : SatResult :=
  if ∀ env, smtVal N env a = smtVal N env b then .unsat else .sat

theorem bvSolver_sound (N : Nat) : SolverSoundBV N (bvSolver N) := by
  intro a b h
  unfold bvSolver at h
  split at h
  · assumption
  · cases h

open Classical in
/-- A solver for rational numbers that always answers. -/
noncomputable def ratSolver (f : SmtFm Rat) : SatResult :=
  if ∀ (d0 : Rat → Rat) env, realHolds d0 env f = false then .unsat else .sat

theorem ratSolver_sound : SolverSoundReal Rat ratSolver := by
  intro f h
  unfold ratSolver at h
  split at h
  · assumption
  · cases h

theorem minComm (d0 : Int → Int) (env : String → Int) (a b : String) :
    intVal d0 env (PredOp.toSmt .min [.const a, .const b]) = intVal d0 env (PredOp.toSmt .min [.const b, .const a]) := by
  by_cases h1 : env a ≤ env b <;> by_cases h2 : env b ≤ env a <;> simp [PredOp.toSmt, intVal, intHolds, h1, h2] <;> omega

/-- A fraction, unless it does not fit `Ratio<i64>`. -/
def cut64 (r : Rat) : Option Rat := if inI64 r.num = true ∧ inI64 r.den = true then some r else none
/-- Rational arithmetic that fails when the result does not fit. -/
def rat64 : Checked where
  add x y := cut64 (x + y)
  sub x y := cut64 (x - y)
  mul x y := cut64 (x * y)
  div x y := if y = 0 then none else cut64 (x / y)
  neg x := cut64 (-x)
  abs x := cut64 |x|

theorem cut64_fits {x r : Rat} (h : cut64 x = some r) : Fits64 r := by
  unfold cut64 at h
  split at h
  · cases h; assumption
  · cases h

theorem rat64_results : Results64 rat64 where
  add _ _ _ h := cut64_fits h
  sub _ _ _ h := cut64_fits h
  mul _ _ _ h := cut64_fits h
  div x y r h := by
    simp only [rat64] at h
    split at h
    · cases h
    · exact cut64_fits h
  neg _ _ h := cut64_fits h
  abs _ _ h := cut64_fits h

end Sample

-- A run over natural numbers finds commutativity; the hypotheses of `C65_nat` are met.
example : ∃ out asked, runWorkloadInternal Sample.natDom (Sample.commEnv Sample.natDom NatOp.add) (Sample.bothWays "+") []
    Sample.limits Sample.limits true false = some (out, asked) ∧ out.length = 2 ∧
    ∀ q ∈ Ruleset.iter out, Rule.Textual q ∧ GoodRule (fun o k => k = o.arity) q ∧ Holds natOpVal q := by
  have key : (runWorkloadInternal Sample.natDom (Sample.commEnv Sample.natDom NatOp.add) (Sample.bothWays "+") []
    Sample.limits Sample.limits true false).map (fun r => r.1.length) = some 2 := by decide +kernel
  obtain ⟨⟨out, asked⟩, h, hl⟩ := Option.map_eq_some_iff.1 key
  refine ⟨out, asked, h, hl, C65_nat (Sample.commEnv_ok _ _)
    (Sample.answers Sample.intSolver_sound fun a b ha hb => ?_) (by simp [WellFormed]) (by simp [Ruleset.iter]) h⟩
  rcases ha with rfl | rfl <;> rcases hb with rfl | rfl
  all_goals
    show some (Sample.intSolver (.add (.const _) (.const _)) (.add (.const _) (.const _))).toValidation = _
    rw [Sample.intSolver, if_pos fun d0 env => by first | rfl | exact add_comm _ _]
    rfl

-- The same for four-bit words and conjunction.
example : ∃ out asked, runWorkloadInternal (bvDomain 4) (Sample.commEnv (bvDomain 4) BvOp.and) (Sample.bothWays "&") []
    Sample.limits Sample.limits true false = some (out, asked) ∧ out.length = 2 ∧
    ∀ q ∈ Ruleset.iter out, Rule.Textual q ∧ GoodRule (fun o k => k = o.arity ∧ LitProper o) q ∧ Holds bvOpVal q := by
  have key : (runWorkloadInternal (bvDomain 4) (Sample.commEnv (bvDomain 4) BvOp.and) (Sample.bothWays "&") []
    Sample.limits Sample.limits true false).map (fun r => r.1.length) = some 2 := by
    have : bvDomain 4 = { bvDomain 4 with initVars := initProduct ([⟨0⟩, ⟨1⟩, ⟨6⟩, ⟨7⟩, ⟨8⟩, ⟨9⟩, ⟨15⟩].map some) } := by
      rw [← Sample.bvSamples4]; rfl
    rw [this]
    decide +kernel
  obtain ⟨⟨out, asked⟩, h, hl⟩ := Option.map_eq_some_iff.1 key
  refine ⟨out, asked, h, hl, C65_bv (by omega) (Sample.commEnv_ok _ _)
    (Sample.answers (Sample.bvSolver_sound 4) fun a b ha hb => ?_) (by simp [WellFormed]) (by simp [Ruleset.iter]) h⟩
  rcases ha with rfl | rfl <;> rcases hb with rfl | rfl
  all_goals
    show some (Sample.bvSolver 4 (.bvand (.const _) (.const _)) (.bvand (.const _) (.const _))).toValidation = _
    rw [Sample.bvSolver, if_pos fun env => by first | rfl | exact BitVec.and_comm _ _]
    rfl

-- The same for Halide and `min`.
example : ∃ out asked, runWorkloadInternal halideDomain (Sample.commEnv halideDomain PredOp.min) (Sample.bothWays "min") []
    Sample.limits Sample.limits true false = some (out, asked) ∧ out.length = 2 ∧
    ∀ q ∈ Ruleset.iter out, Rule.Textual q ∧ GoodRule (fun o k => k = o.arity ∧ PredLitFits o) q ∧ Holds predOpVal q := by
  have key : (runWorkloadInternal halideDomain (Sample.commEnv halideDomain PredOp.min) (Sample.bothWays "min") []
    Sample.limits Sample.limits true false).map (fun r => r.1.length) = some 2 := by decide +kernel
  obtain ⟨⟨out, asked⟩, h, hl⟩ := Option.map_eq_some_iff.1 key
  refine ⟨out, asked, h, hl, C65_halide (Sample.commEnv_ok _ _)
    (Sample.answers Sample.intSolver_sound fun a b ha hb => ?_) (by simp [WellFormed]) (by simp [Ruleset.iter]) h⟩
  rcases ha with rfl | rfl <;> rcases hb with rfl | rfl
  all_goals
    show some (Sample.intSolver (PredOp.toSmt .min [.const _, .const _]) (PredOp.toSmt .min [.const _, .const _])).toValidation = _
    rw [Sample.intSolver, if_pos fun d0 env => by
      exact Sample.minComm d0 env _ _]
    rfl

-- The same for rational numbers and multiplication.
example : ∃ out asked, runWorkloadInternal (rationalDomain Sample.rat64)
    (Sample.commEnv (rationalDomain Sample.rat64) MathOp.mul) (Sample.bothWays "*") []
    Sample.limits Sample.limits true false = some (out, asked) ∧ out.length = 2 ∧
    ∀ q ∈ Ruleset.iter out, Rule.Textual q ∧ GoodRule (fun o k => k = o.arity ∧ MathLitFits o) q ∧
      EqualWhereDefined Rat q.lhs q.rhs := by
  have key : (runWorkloadInternal (rationalDomain Sample.rat64)
    (Sample.commEnv (rationalDomain Sample.rat64) MathOp.mul) (Sample.bothWays "*") []
    Sample.limits Sample.limits true false).map (fun r => r.1.length) = some 2 := by decide +kernel
  obtain ⟨⟨out, asked⟩, h, hl⟩ := Option.map_eq_some_iff.1 key
  refine ⟨out, asked, h, hl, C65_rational Sample.rat64_results (Sample.commEnv_ok _ _)
    (Sample.answers Sample.ratSolver_sound fun a b ha hb => ?_) (by simp [WellFormed]) (by simp [Ruleset.iter]) h⟩
  rcases ha with rfl | rfl <;> rcases hb with rfl | rfl
  all_goals
    show some (Sample.ratSolver (.not (ratAssertion (.mul (.const _) (.const _)) (.mul (.const _) (.const _)) [] []))).toValidation
      = _
    rw [Sample.ratSolver, if_pos fun d0 env => by
      simp [ratAssertion, SmtFm.anyOf, realHolds, realVal, mul_comm]]
    rfl

namespace Sample

/-- As `commEnv`, with a validator that accepts everything. -/
noncomputable def yesEnv : RunEnv NatOp Int :=
  { commEnv natDom NatOp.add with min := { (commEnv natDom NatOp.add).min with valid := fun _ _ => true } }

end Sample

-- The hypotheses of `C65_nat_complete` are met: in every algebra with the returned rules, the two sums are equal.
example : ∃ out asked, runWorkloadInternal Sample.natDom Sample.yesEnv (Sample.bothWays "+") []
    Sample.limits Sample.limits true false = some (out, asked) ∧ out.length = 2 ∧
    ∀ (W : Type) (J : NatOp → List W → W) (memJ : Interval Int → W → Prop),
      (∀ env, FoldsIn Sample.natDom (fun o k => k = o.arity) (withVars env J) memJ) → (∀ q ∈ Ruleset.iter out, Holds J q) →
      ∀ env, tmVal env J Sample.nxy = tmVal env J Sample.nyx := by
  have key : (runWorkloadInternal Sample.natDom Sample.yesEnv (Sample.bothWays "+") []
    Sample.limits Sample.limits true false).map (fun r => r.1.length) = some 2 := by decide +kernel
  obtain ⟨⟨out, asked⟩, h, hl⟩ := Option.map_eq_some_iff.1 key
  refine ⟨out, asked, h, hl, fun W J memJ hFJ hJ => ?_⟩
  obtain ⟨g, g', h1, h2, h3, h4⟩ := C65_nat_complete (R := Sample.yesEnv) (Sample.commEnv_ok Sample.natDom NatOp.add)
    (fun _ _ _ _ => rfl) (prior := []) (by simp [WellFormed]) (by simp [Ruleset.iter]) h hFJ
    (by rintro q (hq | hq); · simp [Ruleset.iter] at hq
        exact hJ q hq)
  have hg : (((Sample.bothWays "+").toEGraph Sample.natDom Sample.yesEnv.build).bind fun g =>
      (Scheduler.run Sample.natDom Sample.yesEnv.eg Sample.yesEnv.isSat (.compress Sample.limits) [] Sample.yesEnv.tr g).map
        fun g' => (g'.classes, g'.lookupTm Sample.nxy, g'.lookupTm Sample.nyx, Sample.yesEnv.best g' 2, Sample.yesEnv.best g' 3)) =
      some ([0, 1, 2, 3], some 2, some 3, Sample.nxy, Sample.nyx) := by decide +kernel
  simp only [Sample.natDom] at hg
  rw [h1, Option.bind_some, h2, Option.map_some, Option.some.injEq] at hg
  simp only [Prod.mk.injEq] at hg
  obtain ⟨e1, e2, e3, e4, e5⟩ := hg
  have hreach : AnyHistory (natDomain fun i j => i + j) g' := .run (toEGraph_reach
    (fun s => ⟨(nat_varOps.1 s).1, trivial⟩) (fun _ _ _ _ _ _ => TmOk.any _) h1) (fun _ _ => trivial) h2
  obtain ⟨val, hI⟩ := AnyHistory.inv hreach
  refine h4 2 (by rw [e1]; simp) 3 (by rw [e1]; simp) (.inl ?_) _ _ (lookupTm_rep hI _ _ e2).1 (lookupTm_rep hI _ _ e3).1 ?_
  · rw [e4, e5]
    intro x hx
    cases hx with
    | here h => cases h
    | there h hm hv => exact .there h (by simpa [or_comm] using hm) hv
  · intro env
    show env "x" + env "y" = env "y" + env "x"
    omega

end Ruler
