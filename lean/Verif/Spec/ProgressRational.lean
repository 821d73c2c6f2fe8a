import Verif.Spec.Progress
import Verif.Spec.Synthesis
import Verif.Spec.DomRational
/-!
# Rational numbers without division by zero
-/
namespace Ruler
namespace Spec
variable {K : Type} [Field K] [LinearOrder K]

/-- The right number of arguments, literals that fit, and neither negation nor absolute value (which can overflow). -/
def RatSafe (o : MathOp) (k : Nat) : Prop := (k = o.arity ∧ MathLitFits o) ∧ o ≠ .neg ∧ o ≠ .abs

/-- Meaning of the operators other than division. -/
def totalOpVal : MathOp → List K → K
  | .add, [x, y] => x + y
  | .sub, [x, y] => x - y
  | .mul, [x, y] => x * y
  | .neg, [x] => -x
  | .abs, [x] => |x|
  | .ite, [c, y, z] => if c = 0 then z else y
  | .lit c, [] => (c : K)
  | _, _ => 0

end Spec
end Ruler
