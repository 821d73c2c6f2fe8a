import Verif.Model.Minimize
import Verif.Spec.Ruleset
/-!
# Specification vocabulary for rule selection
-/
namespace Ruler
namespace Spec
variable {O : Type} [Lang O]

/-- The ruleset contains a rule with this name. -/
def Named (rs : Ruleset O) (n : List Char) : Prop := ∃ r ∈ Ruleset.iter rs, r.name = n

/-- The rule is one of the candidates, or it is the other direction of a candidate, properly built, and has the name of a
candidate. -/
def IsCandidate (cands : Ruleset O) (q : Rule O) : Prop :=
  q ∈ Ruleset.iter cands ∨
    Named cands q.name ∧ ∃ c ∈ Ruleset.iter cands, q.lhs = c.rhs ∧ q.rhs = c.lhs ∧ Rule.Proper q

/-- Among the questions `asked` (latest first) there is one about this rule, and it was answered with `b`. -/
def Answered (valid : List (Rule O) → Rule O → Bool) (asked : List (Rule O)) (b : Bool) (q : Rule O) : Prop :=
  ∃ before, q :: before <:+ asked ∧ valid before q = b

/-- At most as good a score. -/
def ScoreLe (a b : List Int) : Prop := lexLe a b = true

/-- There are exactly `n` things with the property. -/
def Exactly {α : Type} (n : Nat) (P : α → Prop) : Prop := ∃ l : List α, l.Nodup ∧ (∀ a, a ∈ l ↔ P a) ∧ l.length = n

mutual
/-- The number of nodes of a tree. -/
def treeNodes {A : Type} : Tm A → Nat
  | .node _ l => treeNodesL l + 1
/-- The number of nodes of some trees. -/
def treeNodesL {A : Type} : List (Tm A) → Nat
  | [] => 0
  | t :: l => treeNodes t + treeNodesL l
end

/-- The five components of a score, best first: many variables, few constants, a small larger side, small sides together, few
operators. -/
structure HasScore (l r : PatternAst O) (s : List Int) where
  vars : Nat
  consts : Nat
  ops : Nat
  left : Tm (POp O)
  right : Tm (POp O)
  tree_left : RecExpr.tree l = some left
  tree_right : RecExpr.tree r = some right
  vars_eq : Exactly vars fun x : String => ∃ n ∈ l ++ r, n.op = .var x
  consts_eq : Exactly consts fun i : Nat => ∃ n o, (l ++ r)[i]? = some n ∧ n.op = .op o ∧ Lang.isConst o = true
  ops_eq : Exactly ops fun name : String => ∃ n ∈ l ++ r, n.children ≠ [] ∧ n.op.display = name
  eq : s = [(vars : Int), -consts, -(max (treeNodes left) (treeNodes right) : Nat), -(treeNodes left + treeNodes right : Nat),
    -ops]

end Spec
end Ruler
