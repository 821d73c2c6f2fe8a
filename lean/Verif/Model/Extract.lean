import Verif.Model.EGraph
/-!
# Model of `egg::Extractor`

Like the e-graph itself, a reference implementation of what ruler calls (`Extractor::new` and `find_best`,
src/enumo/ruleset.rs:246-252, 292-314, 344-352): egg computes for every class the cost of the cheapest term, going over all
classes until nothing changes, and remembers the e-node that gives it. The order of the classes and of the e-nodes in a
class are parameters.
-/
namespace Ruler
open EGraph
variable {O C : Type}

/-- `Extractor::costs`: the best cost and e-node found so far for each class. -/
abbrev Costs (O : Type) := Nat → Option (Nat × FNode O)

variable (g : EGraph O C) (cost : O → List Nat → Nat) (nodes : Nat → List (FNode O))

/-- `Extractor::node_total_cost`: defined once all children have a cost. -/
def nodeCost (b : Costs O) (nd : FNode O) : Option Nat :=
  (nd.children.mapM fun c => (b (g.find c)).map Prod.fst).map (cost nd.op)

/-- `Extractor::make_pass`: the first cheapest of the e-nodes. -/
def cheapest (b : Costs O) : List (FNode O) → Option (Nat × FNode O)
  | [] => none
  | nd :: rest => match nodeCost g cost b nd, cheapest b rest with
    | none, r => r
    | some c, none => some (c, nd)
    | some c, some (d, x) => if d < c then some (d, x) else some (c, nd)

/-- The entry that replaces the entry of a class, if any (`Extractor::find_costs`). -/
def improvement (b : Costs O) (i : Nat) : Option (Nat × FNode O) :=
  match b i, cheapest g cost b (nodes i) with
  | none, new => new
  | some old, some new => if new.1 < old.1 then some new else none
  | some _, none => none

/-- One class in the loop of `Extractor::find_costs`, with the flag `did_something`. -/
def costStep (s : Costs O × Bool) (i : Nat) : Costs O × Bool :=
  match improvement g cost nodes s.1 i with
  | some e => (fun j => if j = i then some e else s.1 j, true)
  | none => s

/-- `Extractor::find_costs`, for at most `fuel` passes over the classes; `none`: not finished. -/
def findCosts (order : List Nat) : Nat → Costs O → Option (Costs O)
  | 0, _ => none
  | fuel + 1, b =>
    let s := order.foldl (costStep g cost nodes) (b, false)
    if s.2 then findCosts order fuel s.1 else some s.1

/-- `Extractor::find_best`: the term made of the stored e-nodes; `none`: the recursion is deeper than `depth`. -/
def buildBest (b : Costs O) : Nat → Nat → Option (Tm O)
  | 0, _ => none
  | depth + 1, i => (b (g.find i)).bind fun e => (e.2.children.mapM (buildBest b depth)).map (.node e.2.op)

/-- `AstSize::cost` (egg): the number of nodes. Unbounded instead of `usize`. -/
def astCost (_ : O) (costs : List Nat) : Nat := 1 + costs.sum

end Ruler
