import Verif.Model.DomHalide
import Verif.Spec.Smt
import Verif.Spec.Domain
/-!
# Meaning of expressions of the natural-number and Halide domains
-/
namespace Ruler
namespace Spec

/-- Arithmetic on natural numbers. -/
def natOpVal : NatOp → List Nat → Nat
  | .z, [] => 0
  | .s, [a] => a + 1
  | .add, [a, b] => a + b
  | .mul, [a, b] => a * b
  | _, _ => 0

/-- The value of an expression over the natural numbers. -/
def natVal (env : String → Nat) (t : Tm NatOp) : Nat := tmVal env natOpVal t

/-- The interval has a lower bound, and it is not negative. -/
def NonNeg (I : Interval Int) : Prop := ∃ l, I.low = some l ∧ 0 ≤ l

/-- The mathematical meaning of the Halide operators over the unbounded integers, with Euclidean division (zero when
dividing by zero). -/
def predOpVal : PredOp → List Int → Int
  | .lit c, [] => c
  | .lt, [x, y] => if x < y then 1 else 0
  | .leq, [x, y] => if x ≤ y then 1 else 0
  | .eq, [x, y] => if x = y then 1 else 0
  | .neq, [x, y] => if x = y then 0 else 1
  | .implies, [x, y] => if x = 0 ∨ y ≠ 0 then 1 else 0
  | .not, [x] => if x = 0 then 1 else 0
  | .neg, [x] => -x
  | .and, [x, y] => if x ≠ 0 ∧ y ≠ 0 then 1 else 0
  | .or, [x, y] => if x ≠ 0 ∨ y ≠ 0 then 1 else 0
  | .xor, [x, y] => if x = 0 ↔ y = 0 then 0 else 1
  | .add, [x, y] => x + y
  | .sub, [x, y] => x - y
  | .mul, [x, y] => x * y
  | .div, [x, y] => if y = 0 then 0 else x / y
  | .min, [x, y] => Min.min x y
  | .max, [x, y] => Max.max x y
  | .select, [x, y, z] => if x ≠ 0 then y else z
  | _, _ => 0

/-- The operators as the evaluator computes them: as `predOpVal`, but division truncates towards zero. -/
def evalOpVal : PredOp → List Int → Int
  | .div, [x, y] => if y = 0 then 0 else x.tdiv y
  | o, args => predOpVal o args

/-- Not the division operator. -/
def NoDiv (o : PredOp) : Prop := o ≠ .div

end Spec
end Ruler
