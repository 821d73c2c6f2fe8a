import Verif.Model.DomPos
import Verif.Model.DomBvBool
import Verif.Spec.Saturation
/-!
# Specification of rule lifting
-/
namespace Ruler.Spec
open Ruler

/-- The numbers that the operators of tests/pos.rs denote, tests/pos.rs:1-8: `XH` is one, `XO n` is `2n`, `XI n` is
`2n + 1`; `Z`, `S` as usual. -/
def posVal : PosOp → List Nat → Nat
  | .z, [] => 0
  | .s, [n] => n + 1
  | .xh, [] => 1
  | .xo, [n] => 2 * n
  | .xi, [n] => 2 * n + 1
  | .add, [m, n] => m + n
  | .mul, [m, n] => m * n
  | _, _ => 0

/-! ## Booleans and two-bit vectors -/

/-- The two sorts of tests/bv-bool.rs. -/
inductive BvSort where
  | bool | vec
deriving DecidableEq

/-- Values of the two sorts. -/
inductive BvBoolValue where
  | bool (b : Bool)
  | vec (v : BitVec 2)

/-- The sort of a value. -/
def BvBoolValue.sort : BvBoolValue → BvSort
  | bool _ => .bool
  | vec _ => .vec

/-- What the operators compute: Boolean operations, bitwise operations on two-bit vectors, the vector with the given upper and
lower bit, and the upper and lower bit of a vector. -/
def bvBoolVal : BvBoolOp → List BvBoolValue → BvBoolValue
  | .not, [.bool a] => .bool !a
  | .and, [.bool a, .bool b] => .bool (a && b)
  | .or, [.bool a, .bool b] => .bool (a || b)
  | .xor, [.bool a, .bool b] => .bool (a ^^ b)
  | .implies, [.bool a, .bool b] => .bool (!a || b)
  | .lit b, [] => .bool b
  | .band, [.vec a, .vec b] => .vec (a &&& b)
  | .bor, [.vec a, .vec b] => .vec (a ||| b)
  | .bxor, [.vec a, .vec b] => .vec (a ^^^ b)
  | .bnot, [.vec a] => .vec (~~~a)
  | .num n, [] => .vec (n.val.setWidth 2)
  | .make, [.bool a, .bool b] => .vec (BitVec.ofBool a ++ BitVec.ofBool b)
  | .first, [.vec a] => .bool (a.getLsbD 1)
  | .second, [.vec a] => .bool (a.getLsbD 0)
  | _, _ => .bool false

/-- Sorts of patterns, `Γ` being the sorts of the variables. -/
inductive HasSort (Γ : String → BvSort) : Pat BvBoolOp → BvSort → Prop
  | var (x : String) : HasSort Γ (.var x) (Γ x)
  | not {a} : HasSort Γ a .bool → HasSort Γ (.node .not [a]) .bool
  | and {a b} : HasSort Γ a .bool → HasSort Γ b .bool → HasSort Γ (.node .and [a, b]) .bool
  | or {a b} : HasSort Γ a .bool → HasSort Γ b .bool → HasSort Γ (.node .or [a, b]) .bool
  | xor {a b} : HasSort Γ a .bool → HasSort Γ b .bool → HasSort Γ (.node .xor [a, b]) .bool
  | implies {a b} : HasSort Γ a .bool → HasSort Γ b .bool → HasSort Γ (.node .implies [a, b]) .bool
  | lit (b : Bool) : HasSort Γ (.node (.lit b) []) .bool
  | band {a b} : HasSort Γ a .vec → HasSort Γ b .vec → HasSort Γ (.node .band [a, b]) .vec
  | bor {a b} : HasSort Γ a .vec → HasSort Γ b .vec → HasSort Γ (.node .bor [a, b]) .vec
  | bxor {a b} : HasSort Γ a .vec → HasSort Γ b .vec → HasSort Γ (.node .bxor [a, b]) .vec
  | bnot {a} : HasSort Γ a .vec → HasSort Γ (.node .bnot [a]) .vec
  | num (n : BV 2) : HasSort Γ (.node (.num n) []) .vec
  | make {a b} : HasSort Γ a .bool → HasSort Γ b .bool → HasSort Γ (.node .make [a, b]) .vec
  | first {a} : HasSort Γ a .vec → HasSort Γ (.node .first [a]) .bool
  | second {a} : HasSort Γ a .vec → HasSort Γ (.node .second [a]) .bool

/-- The rule is true for all values of its variables, these having the given sorts. -/
def TrueAt (Γ : String → BvSort) (r : Rule BvBoolOp) : Prop :=
  ∀ ρ : String → BvBoolValue, (∀ x, (ρ x).sort = Γ x) → patVal ρ bvBoolVal r.lhs = patVal ρ bvBoolVal r.rhs

end Ruler.Spec
