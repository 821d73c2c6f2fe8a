import Verif.Props.BoolComplete
import Verif.Props.CompleteRuns
/-!
# C73: examples
-/
namespace Ruler
open Spec

namespace Sample
/-- `(& (& (& (& x1 x2) x3) x4) x5)`, with nine operators and variables. -/
def leftAnd : Tm BoolOp := ["x2", "x3", "x4", "x5"].foldl (fun t x => .node .and [t, .node (.var x) []]) (.node (.var "x1") [])
/-- `(& x5 (& x4 (& x3 (& x2 x1))))` -/
def rightAnd : Tm BoolOp :=
  ["x2", "x3", "x4", "x5"].foldl (fun t x => .node .and [.node (.var x) [], t]) (.node (.var "x1") [])

theorem leftAnd_formula : Formula (fun _ => True) leftAnd := .and (.and (.and (.and (.var trivial) (.var trivial)) (.var trivial)) (.var trivial)) (.var trivial)
theorem rightAnd_formula : Formula (fun _ => True) rightAnd :=
  .and (.var trivial) (.and (.var trivial) (.and (.var trivial) (.and (.var trivial) (.var trivial))))
end Sample

-- Whenever the recipe of the repository, in which smallest terms are extracted, returns: an equation with five variables and nine
-- atoms on both sides follows from the rules, though no term of the recipe has more than three variables or seven atoms.
example {E : Nat → Nat → RunEnv BoolOp Bool} (hE : ∀ i k, ∃ tr mtr, E i k = { Sample.unitEnv with tr := tr, min := { Sample.unitEnv.min with tr := mtr } })
    {out : Ruleset BoolOp} (h : boolRules E = some out) :
    Provable (· ∈ Ruleset.iter out) Decided Sample.leftAnd Sample.rightAnd ∧
      ¬ Provable (· ∈ Ruleset.iter out) Decided Sample.leftAnd (.node (.var "x1") []) := by
  have hb : ∀ i k, (E i k).best = Sample.unitEnv.best ∧ (E i k).order = Sample.unitEnv.order ∧ (E i k).min.valid = Sample.unitEnv.min.valid :=
    fun i k => by obtain ⟨tr, mtr, e⟩ := hE i k; rw [e]; exact ⟨rfl, rfl, rfl⟩
  have hok : ∀ i k, RunOk boolDomain (E i k) := fun i k => by
    obtain ⟨tr, mtr, e⟩ := hE i k
    rw [e]
    exact Sample.unitEnv_ok
  have key := fun {t u} => @C73_bool 5 7 (by omega) (by omega) E hok (fun g hg i hi => (hb 0 5).1 ▸ Sample.unitEnv_small hg hi)
    ((hb 0 5).2.2 ▸ boolAnswers_true) out h (fun _ => True) t u
  refine ⟨(key Sample.leftAnd_formula Sample.rightAnd_formula).2 fun env => ?_, fun hc => ?_⟩
  · show ((((env "x1" && env "x2") && env "x3") && env "x4") && env "x5") = (env "x5" && (env "x4" && (env "x3" && (env "x2" && env "x1"))))
    generalize env "x1" = a, env "x2" = b, env "x3" = c, env "x4" = d, env "x5" = e
    revert a b c d e
    decide
  · exact absurd ((key Sample.leftAnd_formula (.var trivial)).1 hc (· == "x1")) (by decide)

end Ruler
