import Verif.Spec.Generalize
import Verif.Spec.EGraph
import Verif.Model.Candidates
/-!
# Specification vocabulary for candidate generation
-/
namespace Ruler
namespace Spec
variable {O C : Type}

/-- Some sample of the vector is defined. -/
def HasSample (v : CVec C) : Prop := ∃ (i : Nat) (x : C), v[i]? = some (some x)

/-- The vectors agree wherever both are defined. -/
def Agree (a b : CVec C) : Prop := ∀ (i : Nat) (x y : C), a[i]? = some (some x) → b[i]? = some (some y) → x = y

/-- All samples of the vector are defined. -/
def AllDefined (v : CVec C) : Prop := ∀ s ∈ v, s ≠ none

/-- What egg's extractor guarantees: the term is represented by the class. -/
def Extracts (g : EGraph O C) (best : Nat → Tm O) : Prop := ∀ i ∈ g.classes, Rep g (best i) i

/-- What egg's extractor guarantees with a cost function: additionally the cost is the cost of the term. -/
def ExtractsCost [Lang O] (g : EGraph O C) (best : Nat → Nat × Tm O) : Prop :=
  ∀ i ∈ g.classes, Rep g (best i).2 i ∧ (best i).1 = Tm.fold extractableCost (best i).2

end Spec
end Ruler
