import Verif.Props.RecipeRules
import Verif.Props.SynthesisRuns
import Verif.Props.ConditionalRun
/-!
# C67: examples
-/
namespace Ruler
open Spec EGraph

-- The Boolean recipe up to three atoms returns rules, and the theorem applies to it.
example : ∃ out, boolRulesSized 0 3 (fun _ _ => Sample.boolEnv) = some out ∧ 1 ≤ out.length ∧
    AllRules (fun o k => k = o.arity) (fun q => Holds boolOpVal q ∧ RuleUses (· ≠ .implies) q) out := by
  have key : (boolRulesSized 0 3 fun _ _ => Sample.boolEnv).map (fun r => decide (1 ≤ r.length)) = some true := by decide +kernel
  obtain ⟨out, h, hl⟩ := Option.map_eq_some_iff.1 key
  exact ⟨out, h, by simpa using hl, C67_bool (by decide) (fun _ _ => Sample.boolEnv_ok) h⟩

-- The hypotheses of the theorems on bit vectors and on Halide are met by runs that accept commutativity.
example : RunOk (bvDomain 4) (Sample.commEnv (bvDomain 4) BvOp.and) ∧
    AnswersFrom (SolverSoundBV 4) bvValidate (Sample.commEnv (bvDomain 4) BvOp.and).min.valid := by
  refine ⟨Sample.commEnv_ok _ _, Sample.answers (Sample.bvSolver_sound 4) fun a b ha hb => ?_⟩
  rcases ha with rfl | rfl <;> rcases hb with rfl | rfl
  all_goals
    show some (Sample.bvSolver 4 (.bvand (.const _) (.const _)) (.bvand (.const _) (.const _))).toValidation = _
    rw [Sample.bvSolver, if_pos fun env => by first | rfl | exact BitVec.and_comm _ _]
    rfl
example : RunOk halideDomain (Sample.commEnv halideDomain PredOp.min) ∧
    AnswersFrom SolverSoundInt halideValidate (Sample.commEnv halideDomain PredOp.min).min.valid := by
  refine ⟨Sample.commEnv_ok _ _, Sample.answers Sample.intSolver_sound fun a b ha hb => ?_⟩
  rcases ha with rfl | rfl <;> rcases hb with rfl | rfl
  all_goals
    show some (Sample.intSolver (PredOp.toSmt .min [.const _, .const _]) (PredOp.toSmt .min [.const _, .const _])).toValidation = _
    rw [Sample.intSolver, if_pos fun d0 env => Sample.minComm d0 env _ _]
    rfl

-- A run over rational numbers, whose rules contain multiplication only.
example : ∃ out asked, runWorkloadInternal (rationalDomain Sample.rat64)
    (Sample.commEnv (rationalDomain Sample.rat64) MathOp.mul) (Sample.bothWays "*") []
    Sample.limits Sample.limits true false = some (out, asked) ∧ out.length = 2 ∧
    ∀ q ∈ Ruleset.iter out, RuleUses (· ≠ .ite) q := by
  have key : (runWorkloadInternal (rationalDomain Sample.rat64)
    (Sample.commEnv (rationalDomain Sample.rat64) MathOp.mul) (Sample.bothWays "*") []
    Sample.limits Sample.limits true false).map (fun r => r.1.length) = some 2 := by decide +kernel
  obtain ⟨⟨out, asked⟩, h, hl⟩ := Option.map_eq_some_iff.1 key
  exact ⟨out, asked, h, hl, fun q hq => (C67_signature (rational_typed Sample.rat64_results) (Sample.commEnv_ok _ _)
    (sigUses_spec (w := some (Sample.bothWays "*")) (by decide +kernel) rfl) (by simp [WellFormed]) (by simp [Ruleset.iter]) h q hq).2.2.1⟩

namespace Sample

/-- `(* ?b (/ ?a ?b))` -/
def timesQuot : Pat MathOp := .node .mul [.var "?b", .node .div [.var "?a", .var "?b"]]
/-- `(if ?b ?a (* ?b (/ ?a ?b)))` -/
def guardedQuot : Pat MathOp := .node .ite [.var "?b", .var "?a", timesQuot]
/-- A validator that accepts one conditional rule. -/
def acceptsQuot (q : Rule MathOp) : Bool := q.lhs == timesQuot && q.rhs == guardedQuot
/-- Choices of the selections with it. -/
def quotMin : MinEnv MathOp := { condMin with valid := fun _ => acceptsQuot }
/-- Choices of a run with it. -/
noncomputable def quotEnv : RunEnv MathOp Rat :=
  { commEnv (rationalDomain rat64) MathOp.mul with min := quotMin }

theorem quotEnv_ok : RunOk (rationalDomain rat64) quotEnv :=
  fun _ hg => ⟨List.Perm.refl _, fun _ hi => (extracted_ok astCost_laws hg hi).1⟩

/-- The flat forms of the sides. -/
def timesFlat : PatternAst MathOp :=
  [⟨.var "?a", []⟩, ⟨.var "?b", []⟩, ⟨.op .div, [0, 1]⟩, ⟨.op .mul, [1, 2]⟩]
def guardedFlat : PatternAst MathOp :=
  [⟨.var "?a", []⟩, ⟨.var "?b", []⟩, ⟨.op .div, [0, 1]⟩, ⟨.op .mul, [1, 2]⟩, ⟨.op .ite, [1, 0, 3]⟩]

/-- The first side in z3. -/
def timesSmt : SmtTm Rat := .mul (.const "b") (.div (.const "a") (.const "b"))

theorem quot_answers : AnswersFrom (SolverSoundReal Rat) ratValidate fun _ => acceptsQuot := by
  intro before q h
  simp only [acceptsQuot, Bool.and_eq_true, beq_iff_eq] at h
  refine ⟨ratSolver, timesFlat, guardedFlat, ratSolver_sound, ?_, ?_, ?_⟩
  · rw [h.1]; exact ⟨rfl, by simp [timesFlat]⟩
  · rw [h.2]; exact ⟨rfl, by simp [guardedFlat]⟩
  · have e : ratValidate ratSolver timesFlat guardedFlat = some (ratSolver (.not (ratAssertion timesSmt
        (.ite (.not (.eq (.const "b") (.num 0))) (.const "a") timesSmt) [.and (.eq (.const "b") (.num 0)) (.lit true)]
        [.and (.eq (.const "b") (.num 0)) (.and (.lit true) (.eq (.const "b") (.num 0)))]))).toValidation := rfl
    rw [e, ratSolver, if_pos fun d0 env => by
      by_cases hb : env "b" = 0 <;> simp [ratAssertion, SmtFm.anyOf, realHolds, realVal, timesSmt, hb, mul_div_cancel₀]]
    rfl

end Sample

-- A conditional run that finds one rule, to which the theorem applies.
example : ∃ out log, runWorkloadConditional (rationalDomain Sample.rat64) Sample.quotEnv Sample.quotMin Sample.quotients [] Sample.limits
    false = some (out, log) ∧ out.length = 1 ∧
    AllRules (fun o k => k = o.arity ∧ MathLitFits o) (fun q => SameFunction Rat q.lhs q.rhs) out := by
  have key : (runWorkloadConditional (rationalDomain Sample.rat64) Sample.quotEnv Sample.quotMin Sample.quotients [] Sample.limits
    false).map (fun r => r.1.length) = some 1 := by decide +kernel
  obtain ⟨⟨out, log⟩, h, hl⟩ := Option.map_eq_some_iff.1 key
  exact ⟨out, log, h, hl, C67_conditional Sample.rat64_results Sample.quotEnv_ok Sample.quot_answers Sample.quot_answers
    (sigUses_spec (w := some Sample.quotients) (by decide +kernel) rfl) AllRules.nil h⟩

end Ruler
