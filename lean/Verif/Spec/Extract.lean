import Verif.Spec.EGraph
/-!
# Specification vocabulary for extraction
-/
namespace Ruler
namespace Spec
variable {O C : Type}

mutual
/-- Number of operators in a term. -/
def tmSize : Tm O → Nat
  | .node _ l => tmSizeL l + 1
/-- Number of operators in a list of terms. -/
def tmSizeL : List (Tm O) → Nat
  | [] => 0
  | t :: l => tmSize t + tmSizeL l
end

/-- All operators of the term are allowed. -/
inductive AllAllowed [Lang O] : Tm O → Prop
  | node {o : O} {l : List (Tm O)} : Lang.allowed o = true → (∀ t ∈ l, AllAllowed t) → AllAllowed (.node o l)

/-- The term belongs to the class, and no term of the class measures less. -/
def Least (g : EGraph O C) (m : Tm O → Nat) (i : Nat) (t : Tm O) : Prop := Rep g t i ∧ ∀ u, Rep g u i → m t ≤ m u

end Spec
end Ruler
