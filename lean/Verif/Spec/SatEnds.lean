import Verif.Spec.Saturation
import Verif.Model.DomBool
/-!
# Iterations that do something
-/
namespace Ruler

/-- The Boolean rule `(^ (& ?y false) (^ ?z ?z)) ==> (& (~ ?y) false)`; both sides are always false. -/
def endlessRule : Rule BoolOp :=
  ⟨"e".toList, .node .xor [.node .and [.var "?y", .node (.lit false) []], .node .xor [.var "?z", .var "?z"]],
    .node .and [.node .not [.var "?y"], .node (.lit false) []]⟩

namespace Spec
open EGraph
variable {O C : Type} [Lang O] [LinearOrder C]

/-- `Works D R n g g'`: iterations of equality saturation with rules from `R` — matches found in the e-graph at the beginning of an iteration are applied,
then the e-graph is rebuilt — lead from `g` to `g'`, and in `n` of them some application changed the e-graph. -/
inductive Works (D : Domain O C) (R : Rule O → Prop) : Nat → EGraph O C → EGraph O C → Prop
  | stop {g : EGraph O C} : Works D R 0 g g
  | idle {n : Nat} {g g1 g2 : EGraph O C} {E : Egg} {steps : List Repair} : Applies D R g g g → EGraph.rebuild D E steps g = some g1 →
      Works D R n g1 g2 → Works D R n g g2
  | busy {n : Nat} {g h g1 g2 : EGraph O C} {E : Egg} {steps : List Repair} : Applies D R g g h → h ≠ g →
      EGraph.rebuild D E steps h = some g1 → Works D R n g1 g2 → Works D R (n + 1) g g2

omit [Lang O] in
/-- Number of arguments at the root. -/
def rootArity : Pat O → Nat
  | .var _ => 0
  | .node _ args => args.length

omit [Lang O] in
/-- A bound on the number of iterations that change an e-graph with `n` ids: `n²` unions and, per rule, `n` to the number of arguments of its right side,
plus one. -/
def workBound (rules : List (Rule O)) (n : Nat) : Nat := n ^ 2 + (rules.map fun r => n ^ (rootArity r.rhs + 1)).sum

/-- In this iteration every match of every rule is applied (no limit was hit). -/
def AllPicked (rules : List (Rule O)) (g : EGraph O C) (t : IterTrace) : Prop :=
  t.picks.length = rules.length ∧ ∀ (k : Nat) (r : Rule O) (ps : List Nat), rules[k]? = some r → t.picks[k]? = some ps → ∀ j, j < (g.search r.lhs).length → j ∈ ps

/-- Constant folding of conjunctions has been done: a class with a node `(& c d)` where `d` is `false` contains `false`. -/
def AndFolded (g : EGraph BoolOp Bool) : Prop :=
  ∀ e ∈ g.nodes, e.1.op = .and → ∀ d ∈ e.1.children, (∃ f ∈ g.nodes, f.1 = ⟨.lit false, []⟩ ∧ g.find f.2 = g.find d) →
    ∃ f ∈ g.nodes, f.1 = ⟨.lit false, []⟩ ∧ g.find f.2 = g.find e.2

end Spec
end Ruler
