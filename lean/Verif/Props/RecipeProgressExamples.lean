import Verif.Props.RecipeProgress
import Verif.Props.ProgressExamples
/-!
# C72: examples
-/
namespace Ruler
open Spec

-- The Boolean recipe with the sizes of the repository, whatever the first choices.
example : ∃ E' : Nat → Nat → RunEnv BoolOp Bool, (∀ i k, RunEnv.Goes Sample.boolEnv (E' i k)) ∧
    ((∃ out, boolRules E' = some out) ∨ EmptyLevel boolDomain (E' 0) .atoms boolLang [] 5 ∨
      ∃ r1 log w, recursiveRules boolDomain (E' 0) .atoms boolLang [] 5 = some (r1, log) ∧ boolCanon 7 = some w ∧
        EmptyRun boolDomain (E' 1 0) w (Ruleset.extend [] r1)) :=
  C72_bool 5 7 (by decide) (fun _ _ => Sample.boolEnv_ok) (fun _ _ => Sample.boolEnv_deep)

-- The first of the three cases occurs.
example : ∃ out, boolRulesSized 0 3 (fun _ _ => Sample.boolEnv) = some out := by
  have key : (boolRulesSized 0 3 fun _ _ => Sample.boolEnv).isSome = true := by decide +kernel
  exact Option.isSome_iff_exists.1 key

-- The hypotheses on bit vectors are met by a run that accepts commutativity.
example : ∃ E' : Nat → RunEnv (BvOp 4) (BV 4), (∀ k, RunEnv.Goes (Sample.commEnv (bvDomain 4) BvOp.and) (E' k)) ∧
    ((∃ out, bv4Rules E' = some out) ∨ EmptyLevel (bvDomain 4) E' .atoms bv4Lang [] 5) := by
  refine C72_bv4 (fun _ => Sample.commEnv_ok _ _) (fun _ => Sample.commEnv_deep _ _)
    fun _ => Sample.answers (Sample.bvSolver_sound 4) fun a b ha hb => ?_
  rcases ha with rfl | rfl <;> rcases hb with rfl | rfl
  all_goals
    show some (Sample.bvSolver 4 (.bvand (.const _) (.const _)) (.bvand (.const _) (.const _))).toValidation = _
    rw [Sample.bvSolver, if_pos fun env => by first | rfl | exact BitVec.and_comm _ _]
    rfl

end Ruler
