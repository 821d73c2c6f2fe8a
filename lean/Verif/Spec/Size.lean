import Verif.Spec.Extract
/-!
# Size of patterns and rules
-/
namespace Ruler
namespace Spec
variable {O : Type}

mutual
/-- Number of operators and variables of a pattern. -/
def patSize : Pat O → Nat
  | .var _ => 1
  | .node _ l => patSizeL l + 1
/-- Number of operators and variables in a list of patterns. -/
def patSizeL : List (Pat O) → Nat
  | [] => 0
  | p :: l => patSize p + patSizeL l
end

/-- Both sides have at most `n` operators and variables. -/
def RuleWithin (n : Nat) (q : Rule O) : Prop := patSize q.lhs ≤ n ∧ patSize q.rhs ≤ n

/-- The domain adds nothing to an e-graph but constants, and these are single nodes. -/
structure FlatConstants [Lang O] {C : Type} (D : Domain O C) : Prop where
  custom : ∀ nodes i, D.custom nodes i = []
  varTerms : ∀ x, D.varTerms x = []
  const : ∀ c t, D.mkConst c = some t → tmSize t = 1

end Spec
end Ruler
