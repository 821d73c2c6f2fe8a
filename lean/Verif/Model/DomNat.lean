import Verif.Model.Domain
import Verif.Model.Smt
import Mathlib.Algebra.Order.Ring.Int
/-!
# Model of the natural-number domain, tests/nat.rs
-/
namespace Ruler

/-- `enum Nat`, tests/nat.rs:8-16. -/
inductive NatOp where
  | z | s | add | mul
  | var (x : String)
deriving DecidableEq

namespace NatOp

/-- Number of children, tests/nat.rs:8-16. -/
def arity : NatOp → Nat
  | z | var _ => 0
  | s => 1
  | add | mul => 2

/-- `eval`, tests/nat.rs:33-44; big integers do not overflow. -/
def eval (len : Nat) : NatOp → List (CVec Int) → CVec Int
  | z, [] => List.replicate len (some 0)
  | s, [x] => cmap1 (fun x => some (x + 1)) x
  | add, [x, y] => cmap2 (fun x y => some (x + y)) x y
  | mul, [x, y] => cmap2 (fun x y => some (x * y)) x y
  | _, _ => []

/-- `Option::zip` followed by `map`. -/
def zipWith? (f : Int → Int → Int) (a b : Option Int) : Option Int := a.bind fun a => b.map fun b => f a b

/-- `mk_interval`, tests/nat.rs:46-98; `none` is a panic (missing lower bound, or inverted bounds). -/
def mkInterval : NatOp → List (Interval Int) → Option (Interval Int)
  | z, [] => Interval.new (some 0) (some 0)
  | s, [x] => x.low.bind fun low => Interval.new (some (low + 1)) (x.high.map (· + 1))
  | add, [x, y] => (zipWith? (· + ·) x.low y.low).bind fun low =>
    Interval.new (some low) (zipWith? (· + ·) x.high y.high)
  | mul, [x, y] => (zipWith? (· * ·) x.low y.low).bind fun low =>
    Interval.new (some low) (zipWith? (· * ·) x.high y.high)
  | var _, [] => Interval.new (some 0) none
  | _, _ => none

/-- `mk_constant_id`, tests/nat.rs:19-27, on non-negative numbers: the numeral of successors. -/
def const : Nat → Tm NatOp
  | 0 => .node z []
  | n + 1 => .node s [const n]

/-- The term added for a constant by `mk_constant`, tests/nat.rs:129-135. `none`: for negative numbers the recursion of
the code does not terminate. -/
def mkConstant (c : Int) : Option (Tm NatOp) := if c < 0 then none else some (const c.toNat)

/-- One step of `egg_to_z3`, tests/nat.rs:155-176. -/
def toSmt : NatOp → List (SmtTm Int) → SmtTm Int
  | z, [] => .num 0
  | s, [x] => .add x (.num 1)
  | add, [x, y] => .add x y
  | mul, [x, y] => .mul x y
  | var v, [] => .const v
  | _, _ => .junk

end NatOp

/-- Node-level functions of the language, tests/nat.rs:8-16 and 113-127. -/
instance : Lang NatOp where
  decEq := inferInstance
  display
    | .z => "Z" | .s => "S" | .add => "+" | .mul => "*"
    | .var x => x
  fromOp t k :=
    if t = "Z" ∧ k = 0 then some .z else if t = "S" ∧ k = 1 then some .s
    else if t = "+" ∧ k = 2 then some .add else if t = "*" ∧ k = 2 then some .mul
    else if k = 0 then some (.var t) else none
  toVar
    | .var x => some x
    | _ => none
  mkVar x := .var x
  isConst
    | .z => true
    | _ => false
  allowed _ := true

/-- `validate` of the domains that only compare the two sides, tests/nat.rs:137-152, tests/halide.rs:148-162. `check`
is the solver's answer to "do the two terms differ for some assignment". `none` is a panic. -/
def validateEq {O S : Type} [Lang O] (toSmt : O → List S → S) (check : S → S → SatResult)
    (lhs rhs : PatternAst O) : Option ValidationResult :=
  lhs.instantiate.bind fun l => rhs.instantiate.bind fun r =>
    (RecExpr.run toSmt l).bind fun lx => (RecExpr.run toSmt r).map fun rx => (check lx rx).toValidation

end Ruler
