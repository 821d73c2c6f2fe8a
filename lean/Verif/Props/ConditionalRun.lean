import Verif.Props.Conditional
/-!
# C62: an example run
-/
namespace Ruler
open Spec EGraph

namespace Sample

/-- A validator that accepts commutativity of multiplication and all rules to a conditional expression. -/
def isCommOrIf (q : Rule MathOp) : Bool :=
  match q.lhs, q.rhs with
  | .node .mul [a, b], .node .mul [c, d] => a == d && b == c
  | _, .node .ite _ => true
  | _, _ => false
/-- Choices of the two selections: nothing is rewritten. -/
def condMin : MinEnv MathOp :=
  ⟨.simple limits, fun _ => false, fun _ => egg, fun _ => quiet, fun r => [(r.name.length : Int)], fun _ => isCommOrIf⟩
/-- Choices of the run. -/
noncomputable def condEnv : RunEnv MathOp Rat where
  build := egg
  eg := egg
  isSat _ := false
  tr := quiet
  order g := g.classes
  best g i := (extracted (rationalDomain exactRat) astCost_laws g i).2
  min := condMin
/-- `(* (/ a b) b)`, `a`, `(* b (/ a b))` -/
def quotients : Workload :=
  let q : Sexp := .list [.atom "/", .atom "a", .atom "b"]
  .set [.list [.atom "*", q, .atom "b"], .atom "a", .list [.atom "*", .atom "b", q]]

end Sample

-- Two rules are valid as they are, two get a condition.
example : (runWorkloadConditional (rationalDomain Sample.exactRat) Sample.condEnv Sample.condMin Sample.quotients [] Sample.limits
    false).map (fun r => (r.1.map (fun e => String.ofList e.1), r.2.invalid.map fun e => String.ofList e.1)) =
    some (["(* ?a (/ ?b ?a)) ==> (* (/ ?b ?a) ?a)", "(* (/ ?b ?a) ?a) ==> (* ?a (/ ?b ?a))",
      "(* ?b (/ ?a ?b)) ==> (if ?b ?a (* ?b (/ ?a ?b)))", "(* (/ ?a ?b) ?b) ==> (if ?b ?a (* (/ ?a ?b) ?b))"],
      ["(* ?a (/ ?b ?a)) ==> (* (/ ?b ?a) ?a)", "(* ?b (/ ?a ?b)) ==> ?a", "(* (/ ?a ?b) ?b) ==> ?a"]) := by
  decide +kernel
-- The theorem applies to it.
example {out : Ruleset MathOp} {log : CondLog}
    (h : runWorkloadConditional (rationalDomain Sample.exactRat) Sample.condEnv Sample.condMin Sample.quotients [] Sample.limits
      false = some (out, log)) : ∀ q ∈ Ruleset.iter out, Rule.Proper q :=
  fun q hq => ((C62_run Ruleset.WellFormed.nil h).2 q hq).1

end Ruler
