import Verif.Spec.Synthesis
/-!
# Specification for C88: verdicts that do not depend on the run
-/
namespace Ruler
namespace Spec
variable {O C : Type} [Lang O]

/-- The two validators, whatever they were asked before, give the same verdict on two rules that say the same about the same
two terms, that is, that differ in the names of variables only. -/
def SameVerdicts (ar : O → Nat → Prop) (v1 v2 : List (Rule O) → Rule O → Bool) : Prop :=
  ∀ (t u : Tm O) (q q' : Rule O), Relates q t u → Relates q' t u → GoodRule ar q → GoodRule ar q' →
    ∀ before before', v1 before q = v2 before' q'

end Spec
end Ruler
