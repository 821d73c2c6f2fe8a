import Verif.Model.DomNat
/-!
# Model of the Halide domain, tests/halide.rs

An `i64` is an integer; operations that would leave the range of `i64` are checked as in the code.
-/
namespace Ruler

/-- `enum Pred`, tests/halide.rs:7-29. -/
inductive PredOp where
  | lit (c : Int)
  | lt | leq | eq | neq | implies | not | neg | and | or | xor | add | sub | mul | div | min | max | select
  | var (x : String)
deriving DecidableEq

namespace PredOp

/-- Number of children, tests/halide.rs:7-29. -/
def arity : PredOp → Nat
  | lit _ | var _ => 0
  | not | neg => 1
  | select => 3
  | _ => 2

/-- Truth values are the numbers one and zero, tests/halide.rs:38-39. -/
def ofBool (b : Bool) : Int := if b then 1 else 0

/-- Result of `checked_*` on `i64`: `None` when out of range. -/
def checked (i : Int) : Option Int := if inI64 i then some i else none

/-- One position of `eval`, tests/halide.rs:34-103, on defined arguments. The outer `none` is a panic: `-x` on the
least `i64` overflows (line 67; a panic in builds with overflow checks). `checked_div` truncates towards zero. -/
def point : PredOp → List Int → Option (Option Int)
  | lit c, [] => some (some c)
  | lt, [x, y] => some (some (ofBool (decide (x < y))))
  | leq, [x, y] => some (some (ofBool (decide (x ≤ y))))
  | eq, [x, y] => some (some (ofBool (decide (x = y))))
  | neq, [x, y] => some (some (ofBool (decide (x ≠ y))))
  | implies, [x, y] => some (some (ofBool (!decide (x ≠ 0) || decide (y ≠ 0))))
  | not, [x] => some (some (ofBool (decide (x = 0))))
  | neg, [x] => if inI64 (-x) then some (some (-x)) else none
  | and, [x, y] => some (some (ofBool (decide (x ≠ 0) && decide (y ≠ 0))))
  | or, [x, y] => some (some (ofBool (decide (x ≠ 0) || decide (y ≠ 0))))
  | xor, [x, y] => some (some (ofBool (Bool.xor (decide (x ≠ 0)) (decide (y ≠ 0)))))
  | add, [x, y] => some (checked (x + y))
  | sub, [x, y] => some (checked (x - y))
  | mul, [x, y] => some (checked (x * y))
  | div, [x, y] => some (if y = 0 then some 0 else checked (x.tdiv y))
  | min, [x, y] => some (some (if x ≤ y then x else y))
  | max, [x, y] => some (some (if y ≤ x then x else y))
  | select, [x, y, z] => some (some (if x ≠ 0 then y else z))
  | _, _ => none

/-- `eval`, tests/halide.rs:34-103. -/
def eval (len : Nat) : PredOp → List (CVec Int) → Option (CVec Int)
  | lit c, [] => some (List.replicate len (some c))
  | var _, _ => some []
  | o, [x] => cmapP1 (fun x => point o [x]) x
  | o, [x, y] => cmapP2 (fun x y => point o [x, y]) x y
  | o, [x, y, z] => cmapP3 (fun x y z => point o [x, y, z]) x y z
  | _, _ => some []

/-- "is not zero", as in tests/halide.rs:196-197. -/
def notZero (x : SmtTm Int) : SmtFm Int := .not (.eq x (.num 0))

/-- One step of `egg_to_z3`, tests/halide.rs:165-282. -/
def toSmt : PredOp → List (SmtTm Int) → SmtTm Int
  | lit c, [] => .num c
  | lt, [l, r] => .ite (.lt l r) (.num 1) (.num 0)
  | leq, [l, r] => .ite (.le l r) (.num 1) (.num 0)
  | eq, [l, r] => .ite (.eq l r) (.num 1) (.num 0)
  | neq, [l, r] => .ite (.eq l r) (.num 0) (.num 1)
  | implies, [l, r] => .ite (.implies (notZero l) (notZero r)) (.num 1) (.num 0)
  | not, [l] => .ite (.eq l (.num 0)) (.num 1) (.num 0)
  | neg, [l] => .neg l
  | and, [l, r] => .ite (.and (notZero l) (notZero r)) (.num 1) (.num 0)
  | or, [l, r] => .ite (.or (notZero l) (notZero r)) (.num 1) (.num 0)
  | xor, [l, r] => .ite (.xor (notZero l) (notZero r)) (.num 1) (.num 0)
  | add, [l, r] => .add l r
  | sub, [l, r] => .sub l r
  | mul, [l, r] => .mul l r
  | div, [l, r] => .ite (.eq r (.num 0)) (.num 0) (.div l r)
  | min, [l, r] => .ite (.le l r) l r
  | max, [l, r] => .ite (.le l r) r l
  | select, [c, y, z] => .ite (notZero c) y z
  | var v, [] => .const v
  | _, _ => .junk

end PredOp

/-- Node-level functions of the language, tests/halide.rs:7-29 and 127-146. Literals come first in the enum. -/
instance : Lang PredOp where
  decEq := inferInstance
  display
    | .lit c => String.ofList (showInt c)
    | .lt => "<" | .leq => "<=" | .eq => "==" | .neq => "!=" | .implies => "->" | .not => "!" | .neg => "-"
    | .and => "&&" | .or => "||" | .xor => "^" | .add => "+" | .sub => "-" | .mul => "*" | .div => "/"
    | .min => "min" | .max => "max" | .select => "select"
    | .var x => x
  fromOp t k :=
    if k = 0 then
      match parseInt inI64 t.toList with
      | some c => some (.lit c)
      | none => some (.var t)
    else if k = 1 then
      if t = "!" then some .not else if t = "-" then some .neg else none
    else if k = 2 then
      match t with
      | "<" => some .lt | "<=" => some .leq | "==" => some .eq | "!=" => some .neq | "->" => some .implies
      | "&&" => some .and | "||" => some .or | "^" => some .xor | "+" => some .add | "-" => some .sub
      | "*" => some .mul | "/" => some .div | "min" => some .min | "max" => some .max
      | _ => none
    else if k = 3 ∧ t = "select" then some .select else none
  toVar
    | .var x => some x
    | _ => none
  mkVar x := .var x
  isConst
    | .lit _ => true
    | _ => false
  allowed _ := true

/-- The samples, tests/halide.rs:106-114. -/
def halideSamples : List (Option Int) := [some (-10), some (-1), some 0, some 1, some 2, some 5, some 100]

/-- `validate`, tests/halide.rs:148-162. -/
def halideValidate (check : SmtTm Int → SmtTm Int → SatResult) (lhs rhs : PatternAst PredOp) : Option ValidationResult :=
  validateEq PredOp.toSmt check lhs rhs

end Ruler
