import Verif.Proofs.Chars
import Verif.Spec.Trig
import Verif.Props.Lifting
import Mathlib.Tactic.LinearCombination
import Mathlib.Tactic.FieldSimp
/-!
# Lemmas about the trigonometric domain
-/
namespace Ruler
open Spec EGraph

/-- The sides of `TrigOp.exploratoryTexts`. -/
def trigExploratorySides : List (Pat TrigOp × Pat TrigOp) := [
  (.node .sin [.var "?a"], .node .div [.node .sub [.node .cis [.var "?a"], .node .cis [.node .neg [.var "?a"]]], .node .mul [.node (.real "2") [], .node .imag []]]),
  (.node .div [.node .sub [.node .cis [.var "?a"], .node .cis [.node .neg [.var "?a"]]], .node .mul [.node (.real "2") [], .node .imag []]], .node .sin [.var "?a"]),
  (.node .cos [.var "?a"], .node .div [.node .add [.node .cis [.var "?a"], .node .cis [.node .neg [.var "?a"]]], .node (.real "2") []]),
  (.node .div [.node .add [.node .cis [.var "?a"], .node .cis [.node .neg [.var "?a"]]], .node (.real "2") []], .node .cos [.var "?a"]),
  (.node .tan [.var "?a"], .node .mul [.node .imag [], .node .div [.node .sub [.node .cis [.node .neg [.var "?a"]], .node .cis [.var "?a"]], .node .add [.node .cis [.node .neg [.var "?a"]], .node .cis [.var "?a"]]]]),
  (.node .mul [.node .imag [], .node .div [.node .sub [.node .cis [.node .neg [.var "?a"]], .node .cis [.var "?a"]], .node .add [.node .cis [.node .neg [.var "?a"]], .node .cis [.var "?a"]]]], .node .tan [.var "?a"]),
  (.node .sin [.var "?a"], .node .div [.node .sub [.node .mul [.node .imag [], .node .cis [.node .neg [.var "?a"]]], .node .mul [.node .imag [], .node .cis [.var "?a"]]], .node (.real "2") []]),
  (.node .div [.node .sub [.node .mul [.node .imag [], .node .cis [.node .neg [.var "?a"]]], .node .mul [.node .imag [], .node .cis [.var "?a"]]], .node (.real "2") []], .node .sin [.var "?a"]),
  (.node .cos [.var "?a"], .node .div [.node .add [.node .mul [.node .imag [], .node .cis [.var "?a"]], .node .mul [.node .imag [], .node .cis [.node .neg [.var "?a"]]]], .node .mul [.node (.real "2") [], .node .imag []]]),
  (.node .div [.node .add [.node .mul [.node .imag [], .node .cis [.var "?a"]], .node .mul [.node .imag [], .node .cis [.node .neg [.var "?a"]]]], .node .mul [.node (.real "2") [], .node .imag []]], .node .cos [.var "?a"]),
  (.node .tan [.var "?a"], .node .div [.node .sin [.var "?a"], .node .cos [.var "?a"]]),
  (.node .div [.node .sin [.var "?a"], .node .cos [.var "?a"]], .node .tan [.var "?a"]),
  (.node .mul [.node .cos [.var "?a"], .node .cos [.var "?b"]], .node .div [.node .add [.node .add [.node .cis [.node .sub [.var "?a", .var "?b"]], .node .cis [.node .neg [.node .sub [.var "?a", .var "?b"]]]], .node .add [.node .cis [.node .add [.var "?a", .var "?b"]], .node .cis [.node .neg [.node .add [.var "?a", .var "?b"]]]]], .node (.real "4") []]),
  (.node .mul [.node .sin [.var "?a"], .node .sin [.var "?b"]], .node .div [.node .sub [.node .add [.node .cis [.node .sub [.var "?a", .var "?b"]], .node .cis [.node .neg [.node .sub [.var "?a", .var "?b"]]]], .node .add [.node .cis [.node .add [.var "?a", .var "?b"]], .node .cis [.node .neg [.node .add [.var "?a", .var "?b"]]]]], .node (.real "4") []]),
  (.node .mul [.node .cos [.var "?a"], .node .sin [.var "?b"]], .node .div [.node .add [.node .sub [.node .cis [.node .add [.var "?a", .var "?b"]], .node .cis [.node .neg [.node .add [.var "?a", .var "?b"]]]], .node .sub [.node .cis [.node .sub [.var "?b", .var "?a"]], .node .cis [.node .neg [.node .sub [.var "?b", .var "?a"]]]]], .node .mul [.node (.real "4") [], .node .imag []]]),
  (.node .mul [.node .sin [.var "?a"], .node .cos [.var "?b"]], .node .div [.node .add [.node .sub [.node .cis [.node .add [.var "?a", .var "?b"]], .node .cis [.node .neg [.node .add [.var "?a", .var "?b"]]]], .node .sub [.node .cis [.node .sub [.var "?a", .var "?b"]], .node .cis [.node .neg [.node .sub [.var "?a", .var "?b"]]]]], .node .mul [.node (.real "4") [], .node .imag []]]),
  (.node .sqr [.var "?a"], .node .mul [.var "?a", .var "?a"]),
  (.node .mul [.var "?a", .var "?a"], .node .sqr [.var "?a"])]

/-- The sides of `TrigOp.priorTexts`. -/
def trigPriorSides : List (Pat TrigOp × Pat TrigOp) := [
  (.node .add [.node .pi [], .node .pi []], .node .mul [.node (.real "2") [], .node .pi []]),
  (.node .mul [.node (.real "2") [], .node .pi []], .node .add [.node .pi [], .node .pi []]),
  (.node .cis [.node (.real "0") []], .node (.real "1") []),
  (.node .cis [.node .div [.node .pi [], .node (.real "2") []]], .node .imag []),
  (.node .cis [.node .neg [.node .div [.node .pi [], .node (.real "2") []]]], .node .neg [.node .imag []]),
  (.node .cis [.node .pi []], .node (.real "-1") []),
  (.node .cis [.node .add [.var "?a", .var "?b"]], .node .mul [.node .cis [.var "?a"], .node .cis [.var "?b"]]),
  (.node .mul [.node .cis [.var "?a"], .node .cis [.var "?b"]], .node .cis [.node .add [.var "?a", .var "?b"]]),
  (.node .cis [.node .sub [.var "?a", .var "?b"]], .node .mul [.node .cis [.var "?a"], .node .cis [.node .neg [.var "?b"]]]),
  (.node .mul [.node .cis [.var "?a"], .node .cis [.node .neg [.var "?b"]]], .node .cis [.node .sub [.var "?a", .var "?b"]]),
  (.node .cis [.node .neg [.var "?a"]], .node .div [.node (.real "1") [], .node .cis [.var "?a"]]),
  (.node .div [.node (.real "1") [], .node .cis [.var "?a"]], .node .cis [.node .neg [.var "?a"]]),
  (.node .mul [.node .cis [.var "?a"], .node .cis [.node .neg [.var "?a"]]], .node (.real "1") []),
  (.node .div [.node (.real "1") [], .node .imag []], .node .neg [.node .imag []]),
  (.node .mul [.node .imag [], .node .imag []], .node (.real "-1") [])]

/-- The sides of `TrigOp.complexTexts`. -/
def trigComplexSides : List (Pat TrigOp × Pat TrigOp) := [
  (.node .sub [.var "?a", .node .sub [.var "?b", .var "?c"]], .node .sub [.var "?c", .node .sub [.var "?b", .var "?a"]]),
  (.node .mul [.var "?a", .node .mul [.var "?b", .var "?c"]], .node .mul [.var "?b", .node .mul [.var "?a", .var "?c"]]),
  (.node .sub [.node .sub [.var "?a", .var "?b"], .var "?c"], .node .sub [.node .sub [.var "?a", .var "?c"], .var "?b"]),
  (.node .add [.var "?a", .node .add [.var "?b", .var "?c"]], .node .add [.var "?c", .node .add [.var "?a", .var "?b"]]),
  (.node .add [.var "?c", .node .add [.var "?a", .var "?b"]], .node .add [.var "?a", .node .add [.var "?b", .var "?c"]]),
  (.node .sub [.node .add [.var "?a", .var "?b"], .var "?c"], .node .add [.var "?a", .node .sub [.var "?b", .var "?c"]]),
  (.node .add [.var "?a", .node .sub [.var "?b", .var "?c"]], .node .sub [.node .add [.var "?a", .var "?b"], .var "?c"]),
  (.node .sub [.var "?a", .node .sub [.var "?b", .var "?c"]], .node .add [.var "?a", .node .sub [.var "?c", .var "?b"]]),
  (.node .add [.var "?a", .node .sub [.var "?c", .var "?b"]], .node .sub [.var "?a", .node .sub [.var "?b", .var "?c"]]),
  (.node .div [.var "?a", .node .mul [.var "?b", .var "?c"]], .node .div [.node .div [.var "?a", .var "?b"], .var "?c"]),
  (.node .div [.node .div [.var "?a", .var "?b"], .var "?c"], .node .div [.var "?a", .node .mul [.var "?b", .var "?c"]]),
  (.node .sub [.var "?a", .node .add [.var "?b", .var "?c"]], .node .sub [.node .sub [.var "?a", .var "?b"], .var "?c"]),
  (.node .sub [.node .sub [.var "?a", .var "?b"], .var "?c"], .node .sub [.var "?a", .node .add [.var "?b", .var "?c"]]),
  (.node .div [.node .sub [.var "?a", .var "?b"], .var "?c"], .node .sub [.node .div [.var "?a", .var "?c"], .node .div [.var "?b", .var "?c"]]),
  (.node .sub [.node .div [.var "?a", .var "?c"], .node .div [.var "?b", .var "?c"]], .node .div [.node .sub [.var "?a", .var "?b"], .var "?c"]),
  (.node .sub [.node .mul [.var "?a", .var "?b"], .node .mul [.var "?a", .var "?c"]], .node .mul [.var "?a", .node .sub [.var "?b", .var "?c"]]),
  (.node .mul [.var "?a", .node .sub [.var "?b", .var "?c"]], .node .sub [.node .mul [.var "?a", .var "?b"], .node .mul [.var "?a", .var "?c"]]),
  (.node .div [.node .add [.var "?a", .var "?b"], .var "?c"], .node .add [.node .div [.var "?b", .var "?c"], .node .div [.var "?a", .var "?c"]]),
  (.node .add [.node .div [.var "?b", .var "?c"], .node .div [.var "?a", .var "?c"]], .node .div [.node .add [.var "?a", .var "?b"], .var "?c"]),
  (.node .add [.node .mul [.var "?a", .var "?b"], .node .mul [.var "?b", .var "?c"]], .node .mul [.var "?b", .node .add [.var "?a", .var "?c"]]),
  (.node .mul [.var "?b", .node .add [.var "?a", .var "?c"]], .node .add [.node .mul [.var "?a", .var "?b"], .node .mul [.var "?b", .var "?c"]]),
  (.node .div [.node .sub [.node .mul [.var "?a", .var "?b"], .var "?c"], .var "?b"], .node .sub [.var "?a", .node .div [.var "?c", .var "?b"]]),
  (.node .sub [.var "?a", .node .div [.var "?c", .var "?b"]], .node .div [.node .sub [.node .mul [.var "?a", .var "?b"], .var "?c"], .var "?b"]),
  (.node .div [.var "?a", .node .sub [.node .div [.var "?b", .var "?c"], .var "?a"]], .node .div [.var "?c", .node .sub [.node .div [.var "?b", .var "?a"], .var "?c"]]),
  (.node .mul [.var "?a", .var "?b"], .node .mul [.var "?b", .var "?a"]),
  (.node .add [.var "?a", .var "?b"], .node .add [.var "?b", .var "?a"]),
  (.node .mul [.var "?a", .node .add [.var "?b", .var "?b"]], .node .mul [.var "?b", .node .add [.var "?a", .var "?a"]]),
  (.node .add [.var "?a", .var "?a"], .node .mul [.node (.real "2") [], .var "?a"]),
  (.node .mul [.node (.real "2") [], .var "?a"], .node .add [.var "?a", .var "?a"]),
  (.node .div [.var "?a", .var "?b"], .node .div [.node .add [.var "?a", .var "?a"], .node .add [.var "?b", .var "?b"]]),
  (.node .div [.node .add [.var "?a", .var "?a"], .node .add [.var "?b", .var "?b"]], .node .div [.var "?a", .var "?b"]),
  (.node .sub [.node .mul [.var "?a", .var "?a"], .node .mul [.var "?b", .var "?b"]], .node .mul [.node .sub [.var "?a", .var "?b"], .node .add [.var "?a", .var "?b"]]),
  (.node .mul [.node .sub [.var "?a", .var "?b"], .node .add [.var "?a", .var "?b"]], .node .sub [.node .mul [.var "?a", .var "?a"], .node .mul [.var "?b", .var "?b"]]),
  (.node .neg [.node .neg [.var "?a"]], .var "?a"),
  (.var "?a", .node .neg [.node .neg [.var "?a"]]),
  (.var "?a", .node .mul [.var "?a", .node (.real "1") []]),
  (.node .mul [.var "?a", .node (.real "1") []], .var "?a"),
  (.var "?a", .node .add [.var "?a", .node (.real "0") []]),
  (.node .add [.var "?a", .node (.real "0") []], .var "?a"),
  (.var "?a", .node .div [.var "?a", .node (.real "1") []]),
  (.node .div [.var "?a", .node (.real "1") []], .var "?a"),
  (.var "?a", .node .sub [.var "?a", .node (.real "0") []]),
  (.node .sub [.var "?a", .node (.real "0") []], .var "?a"),
  (.node .sub [.var "?a", .var "?a"], .node (.real "0") []),
  (.node .div [.var "?a", .var "?a"], .node (.real "1") []),
  (.node .neg [.var "?a"], .node .div [.var "?a", .node (.real "-1") []]),
  (.node .div [.var "?a", .node (.real "-1") []], .node .neg [.var "?a"]),
  (.node .neg [.var "?a"], .node .mul [.var "?a", .node (.real "-1") []]),
  (.node .mul [.var "?a", .node (.real "-1") []], .node .neg [.var "?a"]),
  (.node .neg [.var "?a"], .node .sub [.node (.real "0") [], .var "?a"]),
  (.node .sub [.node (.real "0") [], .var "?a"], .node .neg [.var "?a"]),
  (.node .div [.node (.real "0") [], .var "?a"], .node (.real "0") []),
  (.node .mul [.var "?a", .node (.real "0") []], .node (.real "0") []),
  (.node .sub [.var "?a", .node (.real "-1") []], .node .add [.var "?a", .node (.real "1") []]),
  (.node .add [.var "?a", .node (.real "1") []], .node .sub [.var "?a", .node (.real "-1") []]),
  (.node .sub [.var "?a", .node (.real "1") []], .node .add [.var "?a", .node (.real "-1") []]),
  (.node .add [.var "?a", .node (.real "-1") []], .node .sub [.var "?a", .node (.real "1") []])]

/-- Those of them that are wrong where a divisor is zero. -/
def trigBad : List (Pat TrigOp × Pat TrigOp) := [
  (.node .div [.node .sub [.node .mul [.var "?a", .var "?b"], .var "?c"], .var "?b"], .node .sub [.var "?a", .node .div [.var "?c", .var "?b"]]),
  (.node .sub [.var "?a", .node .div [.var "?c", .var "?b"]], .node .div [.node .sub [.node .mul [.var "?a", .var "?b"], .var "?c"], .var "?b"]),
  (.node .div [.var "?a", .node .sub [.node .div [.var "?b", .var "?c"], .var "?a"]], .node .div [.var "?c", .node .sub [.node .div [.var "?b", .var "?a"], .var "?c"]]),
  (.node .div [.var "?a", .var "?a"], .node (.real "1") [])]

/-- The others. -/
def trigComplexGood : List (Pat TrigOp × Pat TrigOp) := [
  (.node .sub [.var "?a", .node .sub [.var "?b", .var "?c"]], .node .sub [.var "?c", .node .sub [.var "?b", .var "?a"]]),
  (.node .mul [.var "?a", .node .mul [.var "?b", .var "?c"]], .node .mul [.var "?b", .node .mul [.var "?a", .var "?c"]]),
  (.node .sub [.node .sub [.var "?a", .var "?b"], .var "?c"], .node .sub [.node .sub [.var "?a", .var "?c"], .var "?b"]),
  (.node .add [.var "?a", .node .add [.var "?b", .var "?c"]], .node .add [.var "?c", .node .add [.var "?a", .var "?b"]]),
  (.node .add [.var "?c", .node .add [.var "?a", .var "?b"]], .node .add [.var "?a", .node .add [.var "?b", .var "?c"]]),
  (.node .sub [.node .add [.var "?a", .var "?b"], .var "?c"], .node .add [.var "?a", .node .sub [.var "?b", .var "?c"]]),
  (.node .add [.var "?a", .node .sub [.var "?b", .var "?c"]], .node .sub [.node .add [.var "?a", .var "?b"], .var "?c"]),
  (.node .sub [.var "?a", .node .sub [.var "?b", .var "?c"]], .node .add [.var "?a", .node .sub [.var "?c", .var "?b"]]),
  (.node .add [.var "?a", .node .sub [.var "?c", .var "?b"]], .node .sub [.var "?a", .node .sub [.var "?b", .var "?c"]]),
  (.node .div [.var "?a", .node .mul [.var "?b", .var "?c"]], .node .div [.node .div [.var "?a", .var "?b"], .var "?c"]),
  (.node .div [.node .div [.var "?a", .var "?b"], .var "?c"], .node .div [.var "?a", .node .mul [.var "?b", .var "?c"]]),
  (.node .sub [.var "?a", .node .add [.var "?b", .var "?c"]], .node .sub [.node .sub [.var "?a", .var "?b"], .var "?c"]),
  (.node .sub [.node .sub [.var "?a", .var "?b"], .var "?c"], .node .sub [.var "?a", .node .add [.var "?b", .var "?c"]]),
  (.node .div [.node .sub [.var "?a", .var "?b"], .var "?c"], .node .sub [.node .div [.var "?a", .var "?c"], .node .div [.var "?b", .var "?c"]]),
  (.node .sub [.node .div [.var "?a", .var "?c"], .node .div [.var "?b", .var "?c"]], .node .div [.node .sub [.var "?a", .var "?b"], .var "?c"]),
  (.node .sub [.node .mul [.var "?a", .var "?b"], .node .mul [.var "?a", .var "?c"]], .node .mul [.var "?a", .node .sub [.var "?b", .var "?c"]]),
  (.node .mul [.var "?a", .node .sub [.var "?b", .var "?c"]], .node .sub [.node .mul [.var "?a", .var "?b"], .node .mul [.var "?a", .var "?c"]]),
  (.node .div [.node .add [.var "?a", .var "?b"], .var "?c"], .node .add [.node .div [.var "?b", .var "?c"], .node .div [.var "?a", .var "?c"]]),
  (.node .add [.node .div [.var "?b", .var "?c"], .node .div [.var "?a", .var "?c"]], .node .div [.node .add [.var "?a", .var "?b"], .var "?c"]),
  (.node .add [.node .mul [.var "?a", .var "?b"], .node .mul [.var "?b", .var "?c"]], .node .mul [.var "?b", .node .add [.var "?a", .var "?c"]]),
  (.node .mul [.var "?b", .node .add [.var "?a", .var "?c"]], .node .add [.node .mul [.var "?a", .var "?b"], .node .mul [.var "?b", .var "?c"]]),
  (.node .mul [.var "?a", .var "?b"], .node .mul [.var "?b", .var "?a"]),
  (.node .add [.var "?a", .var "?b"], .node .add [.var "?b", .var "?a"]),
  (.node .mul [.var "?a", .node .add [.var "?b", .var "?b"]], .node .mul [.var "?b", .node .add [.var "?a", .var "?a"]]),
  (.node .add [.var "?a", .var "?a"], .node .mul [.node (.real "2") [], .var "?a"]),
  (.node .mul [.node (.real "2") [], .var "?a"], .node .add [.var "?a", .var "?a"]),
  (.node .div [.var "?a", .var "?b"], .node .div [.node .add [.var "?a", .var "?a"], .node .add [.var "?b", .var "?b"]]),
  (.node .div [.node .add [.var "?a", .var "?a"], .node .add [.var "?b", .var "?b"]], .node .div [.var "?a", .var "?b"]),
  (.node .sub [.node .mul [.var "?a", .var "?a"], .node .mul [.var "?b", .var "?b"]], .node .mul [.node .sub [.var "?a", .var "?b"], .node .add [.var "?a", .var "?b"]]),
  (.node .mul [.node .sub [.var "?a", .var "?b"], .node .add [.var "?a", .var "?b"]], .node .sub [.node .mul [.var "?a", .var "?a"], .node .mul [.var "?b", .var "?b"]]),
  (.node .neg [.node .neg [.var "?a"]], .var "?a"),
  (.var "?a", .node .neg [.node .neg [.var "?a"]]),
  (.var "?a", .node .mul [.var "?a", .node (.real "1") []]),
  (.node .mul [.var "?a", .node (.real "1") []], .var "?a"),
  (.var "?a", .node .add [.var "?a", .node (.real "0") []]),
  (.node .add [.var "?a", .node (.real "0") []], .var "?a"),
  (.var "?a", .node .div [.var "?a", .node (.real "1") []]),
  (.node .div [.var "?a", .node (.real "1") []], .var "?a"),
  (.var "?a", .node .sub [.var "?a", .node (.real "0") []]),
  (.node .sub [.var "?a", .node (.real "0") []], .var "?a"),
  (.node .sub [.var "?a", .var "?a"], .node (.real "0") []),
  (.node .neg [.var "?a"], .node .div [.var "?a", .node (.real "-1") []]),
  (.node .div [.var "?a", .node (.real "-1") []], .node .neg [.var "?a"]),
  (.node .neg [.var "?a"], .node .mul [.var "?a", .node (.real "-1") []]),
  (.node .mul [.var "?a", .node (.real "-1") []], .node .neg [.var "?a"]),
  (.node .neg [.var "?a"], .node .sub [.node (.real "0") [], .var "?a"]),
  (.node .sub [.node (.real "0") [], .var "?a"], .node .neg [.var "?a"]),
  (.node .div [.node (.real "0") [], .var "?a"], .node (.real "0") []),
  (.node .mul [.var "?a", .node (.real "0") []], .node (.real "0") []),
  (.node .sub [.var "?a", .node (.real "-1") []], .node .add [.var "?a", .node (.real "1") []]),
  (.node .add [.var "?a", .node (.real "1") []], .node .sub [.var "?a", .node (.real "-1") []]),
  (.node .sub [.var "?a", .node (.real "1") []], .node .add [.var "?a", .node (.real "-1") []]),
  (.node .add [.var "?a", .node (.real "-1") []], .node .sub [.var "?a", .node (.real "1") []])]

set_option maxRecDepth 20000 in
theorem trigExploratory_sides : tableSides TrigOp.exploratoryTexts = some trigExploratorySides :=
  (tableSides_chars (chars_of% TrigOp.exploratoryTexts)).trans (by decide +kernel)
set_option maxRecDepth 20000 in
theorem trigPrior_sides : tableSides TrigOp.priorTexts = some trigPriorSides :=
  (tableSides_chars (chars_of% TrigOp.priorTexts)).trans (by decide +kernel)
set_option maxRecDepth 20000 in
theorem trigComplex_sides : tableSides TrigOp.complexTexts = some trigComplexSides :=
  (tableSides_chars (chars_of% TrigOp.complexTexts)).trans (by decide +kernel)
theorem trigComplex_split : ∀ p ∈ trigComplexSides, p ∈ trigComplexGood ∨ p ∈ trigBad := by decide +kernel

theorem trigSides_schematic : ∀ p ∈ trigExploratorySides ++ trigPriorSides ++ trigComplexSides,
    schematicB p.1 = true ∧ schematicB p.2 = true := by decide +kernel

end Ruler
