import Verif.Model.Derive
import Verif.Model.Domains
/-!
# Small e-graphs used only for examples and counterexamples
-/
namespace Ruler
namespace Sample
open EGraph

/-- First root survives. -/
def egg : Egg := ⟨fun _ _ => true, 3⟩
/-- The natural numbers with some sample values. -/
def natDom : Domain NatOp Int := natDomain fun i j => i + j
/-- `x` -/
def nx : Tm NatOp := .node (.var "x") []
/-- `y` -/
def ny : Tm NatOp := .node (.var "y") []
/-- `(+ x y)` -/
def nxy : Tm NatOp := .node .add [nx, ny]
/-- `(+ y x)` -/
def nyx : Tm NatOp := .node .add [ny, nx]
/-- `(+ ?a ?b) ==> (+ ?b ?a)` -/
def addComm : Rule NatOp := ⟨"comm".toList, .node .add [.var "?a", .var "?b"], .node .add [.var "?b", .var "?a"]⟩
/-- The ruleset with only that rule. -/
def commRules : Ruleset NatOp := [(addComm.name, addComm)]
/-- The e-graph of the workload `(+ x y)`, `(+ y x)`. -/
def natStart : Option (EGraph NatOp Int) := termsToEGraph natDom egg [nxy, nyx]
/-- One iteration that applies the first two matches. -/
def trace : SchedTrace where
  simple := ⟨[], [⟨[[0, 1]], [.congr 0]⟩]⟩
  rounds _ := (⟨[], []⟩, ⟨[], [⟨[[0, 1]], []⟩]⟩)
  lastRun := ⟨[], []⟩
  split := .leaf
  last := []
  clone := egg
  order := id
  cloneRepairs := []
/-- Small limits. -/
def limits : Limits := ⟨1, 10, 10⟩
/-- Result of a run. -/
def natOut (s : Scheduler) : Option (EGraph NatOp Int) :=
  natStart.bind (Scheduler.run natDom egg (fun _ => false) s commRules trace)

/-- Exact rational arithmetic without overflow. -/
def exactRat : Checked where
  add x y := some (x + y)
  sub x y := some (x - y)
  mul x y := some (x * y)
  div x y := if y = 0 then none else some (x / y)
  neg x := some (-x)
  abs x := some |x|

/-- `(* ?x 0) ==> 0` -/
def mulZero : Rule MathOp :=
  ⟨"zero".toList, .node .mul [.var "?x", .node (.lit 0) []], .node (.lit 0) []⟩
/-- `(* (/ 1 a) 0)` -/
def divZero : Tm MathOp := .node .mul [.node .div [.node (.lit 1) [], .node (.var "a") []], .node (.lit 0) []]
/-- `0` -/
def ratZero : Tm MathOp := .node (.lit 0) []
/-- The e-graph of the workload `(* (/ 1 a) 0)`, `0` after one application of the rule. -/
def ratOut : Option (EGraph MathOp Rat) :=
  (termsToEGraph (rationalDomain exactRat) egg [divZero, ratZero]).bind
    (Scheduler.run (rationalDomain exactRat) egg (fun _ => false) (.simple limits) [(mulZero.name, mulZero)] trace)

/-- `(+ ?a ?b) ==> (+ ?b ?a)` in the Halide language -/
def predComm : Rule PredOp := ⟨"comm".toList, .node .add [.var "?a", .var "?b"], .node .add [.var "?b", .var "?a"]⟩
/-- `(+ a b)` -/
def pab : Tm PredOp := .node .add [.node (.var "a") [], .node (.var "b") []]
/-- `(+ b a)` -/
def pba : Tm PredOp := .node .add [.node (.var "b") [], .node (.var "a") []]
/-- The e-graph of the workload `(- (+ a b))`, `(- (+ b a))`. -/
def predStart : Option (EGraph PredOp Int) := termsToEGraph halideDomain egg [.node .neg [pab], .node .neg [pba]]
/-- One application of the rule, and one merge by congruence in both e-graphs. -/
def predTrace : SchedTrace :=
  { trace with
    simple := ⟨[], [⟨[[0, 1]], [.congr 3]⟩]⟩
    last := []
    cloneRepairs := [.congr 5] }
/-- Result of a run. -/
def predOut (s : Scheduler) : Option (EGraph PredOp Int) :=
  predStart.bind (Scheduler.run halideDomain egg (fun _ => false) s [(predComm.name, predComm)] predTrace)

/-- `(^ (^ ?x ?x) false) ==> (& (~ ?x) false)`, a valid rule. -/
def foldRule : Rule BoolOp :=
  ⟨"f".toList, .node .xor [.node .xor [.var "?x", .var "?x"], .node (.lit false) []],
    .node .and [.node .not [.var "?x"], .node (.lit false) []]⟩
/-- `(^ (^ ?x ?x) false) ==> false` -/
def xorZero : Rule BoolOp := ⟨"z".toList, foldRule.lhs, .node (.lit false) []⟩
/-- The e-graph of the workload `(^ (^ x x) false)` after one application of the second rule. -/
def foldStart : Option (EGraph BoolOp Bool) :=
  (termsToEGraph boolDomain egg [foldRule.lhs.instantiate]).bind
    (Scheduler.run boolDomain egg (fun _ => false) (.simple limits) [(xorZero.name, xorZero)]
      { trace with simple := ⟨[], [⟨[[0]], [.congr 2]⟩]⟩ })

/-- `(min ?x 5000000000000000000) ==> (+ 5000000000000000000 5000000000000000000)`; the sum overflows. -/
def overRule : Rule PredOp :=
  ⟨"u".toList, .node .min [.var "?x", .node (.lit 5000000000000000000) []],
    .node .add [.node (.lit 5000000000000000000) [], .node (.lit 5000000000000000000) []]⟩
/-- The e-graph of the workload `(min x 5000000000000000000)`. -/
def overStart : Option (EGraph PredOp Int) := termsToEGraph halideDomain egg [overRule.lhs.instantiate]

end Sample
end Ruler
