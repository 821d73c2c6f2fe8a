import Verif.Props.BoolLevels
import Verif.Props.CompleteRuns
/-!
# C75: examples
-/
namespace Ruler
open Spec

-- A search in which smallest terms are extracted and every rule is accepted.
example : ¬ EmptyLevel boolDomain (fun _ => Sample.unitEnv) .atoms boolLang [] 5 :=
  C75_levels (vars := ["a", "b", "c"]) (x := "a") (y := "b") (langCheck_ok (by decide +kernel)) (by decide) (by decide) (by decide)
    (fun _ => Sample.unitEnv_ok) (fun _ _ hg _ hi => Sample.unitEnv_small hg hi) (fun _ => boolAnswers_true) (by omega)

theorem Sample.unitEnv_deep : RunEnv.Deep Sample.unitEnv :=
  ⟨by decide, by decide, by decide, fun _ => ⟨show 2 ≤ Sample.egg.depth by decide, show 2 ≤ Sample.quiet.clone.depth by decide⟩⟩

-- The recipe with the sizes of the repository.
example : ∃ E' : Nat → Nat → RunEnv BoolOp Bool, (∀ i k, RunEnv.Goes Sample.unitEnv (E' i k)) ∧
    ∃ r1 log, recursiveRules boolDomain (E' 0) .atoms boolLang [] 5 = some (r1, log) ∧ ((∃ out, boolRules E' = some out) ∨
      ∃ w, boolCanon 7 = some w ∧ EmptyRun boolDomain (E' 1 0) w (Ruleset.extend [] r1)) :=
  C75_bool (by omega) (by omega) (fun _ _ => Sample.unitEnv_ok) (fun _ _ => Sample.unitEnv_deep)
    (fun _ _ hg _ hi => Sample.unitEnv_small hg hi) (fun _ => boolAnswers_true)

end Ruler
