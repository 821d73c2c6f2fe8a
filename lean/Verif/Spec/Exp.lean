import Verif.Model.DomExp
import Verif.Spec.Trig
import Mathlib.Analysis.SpecialFunctions.Pow.Real
/-!
# Specification of the exponential domain: real functions
-/
namespace Ruler.Spec
open Ruler

/-- The real functions the operators stand for (where they are defined, `expOk`). The cube root of a negative number is the
negated cube root of its opposite. -/
noncomputable def expVal : ExpOp → List ℝ → ℝ
  | .exp, [a] => Real.exp a
  | .log, [a] => Real.log a
  | .pow, [a, b] => a ^ b
  | .sqrt, [a] => √a
  | .cbrt, [a] => if 0 ≤ a then a ^ (1 / 3 : ℝ) else -(-a) ^ (1 / 3 : ℝ)
  | .neg, [a] => -a
  | .add, [a, b] => a + b
  | .sub, [a, b] => a - b
  | .mul, [a, b] => a * b
  | .div, [a, b] => a / b
  | .ite, [a, b, c] => if a = 0 then c else b
  | .abs, [a] => |a|
  | .num q, [] => q
  | _, _ => 0

/-- Where the operators are defined: the logarithm and powers (with any exponent) for positive numbers, the square root for
numbers that are not negative, quotients for divisors other than zero. -/
def expOk : ExpOp → List ℝ → Prop
  | .log, [a] => 0 < a
  | .pow, [a, _] => 0 < a
  | .sqrt, [a] => 0 ≤ a
  | .div, [_, b] => b ≠ 0
  | _, _ => True

/-- Total functions that agree with `expVal` where those are defined and the arguments of roots are positive: powers and roots
are made of `exp` and `log` throughout (so the roots of zero are one). -/
noncomputable def expTotal : ExpOp → List ℝ → ℝ
  | .pow, [a, b] => Real.exp (b * Real.log a)
  | .sqrt, [a] => Real.exp (1 / 2 * Real.log a)
  | .cbrt, [a] => Real.exp (1 / 3 * Real.log a)
  | o, args => expVal o args

end Ruler.Spec
