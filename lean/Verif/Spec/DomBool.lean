import Verif.Model.DomBool
import Verif.Spec.Domain
/-!
# Meaning of Boolean expressions
-/
namespace Ruler
namespace Spec

/-- Truth tables. -/
def boolOpVal : BoolOp → List Bool → Bool
  | .not, [a] => !a
  | .and, [a, b] => a && b
  | .or, [a, b] => a || b
  | .xor, [a, b] => a != b
  | .implies, [a, b] => if a then b else true
  | .lit b, [] => b
  | _, _ => false

/-- The value of a formula. -/
def boolVal (env : String → Bool) (t : Tm BoolOp) : Bool := tmVal env boolOpVal t

/-- Both bounds are present. -/
def Bounded (I : Interval Bool) : Prop := I.low.isSome ∧ I.high.isSome

end Spec
end Ruler
