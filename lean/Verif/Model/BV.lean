import Verif.Model.RecExpr
import Verif.Model.Interval
/-!
# Model of `src/bv.rs`: bit-vectors of `N` bits inside a `u128`

A `u128` is a `BitVec 128`, whose operations wrap around like Rust's `wrapping_*`.
-/
namespace Ruler

/-- `struct BV<N>`, src/bv.rs:12. The wrapped number is public and may exceed `N` bits. -/
structure BV (N : Nat) where
  val : BitVec 128
deriving DecidableEq

namespace BV
variable {N : Nat}

/-- `ZERO`, src/bv.rs:18. -/
def zero : BV N := ⟨0⟩
/-- `ALL_ONES`, src/bv.rs:19 (for 1 ≤ N ≤ 128; other widths do not compile). -/
def allOnes : BV N := ⟨(~~~(0 : BitVec 128)) >>> (128 - N)⟩
/-- `MIN`, src/bv.rs:21. -/
def min : BV N := ⟨(1 : BitVec 128) <<< (N - 1)⟩
/-- `MAX`, src/bv.rs:22. -/
def max : BV N := ⟨(allOnes (N := N)).val >>> (1 : Nat)⟩
/-- `new`, src/bv.rs:24-26. -/
def new (n : BitVec 128) : BV N := ⟨n &&& (allOnes (N := N)).val⟩
/-- `wrapping_add`, src/bv.rs:28-30. -/
def wrappingAdd (a b : BV N) : BV N := new (a.val + b.val)
/-- `wrapping_sub`, src/bv.rs:32-34. -/
def wrappingSub (a b : BV N) : BV N := new (a.val - b.val)
/-- `wrapping_mul`, src/bv.rs:36-38. -/
def wrappingMul (a b : BV N) : BV N := new (a.val * b.val)
/-- `wrapping_neg`, src/bv.rs:40-42. -/
def wrappingNeg (a : BV N) : BV N := new (-a.val)
/-- `my_shl`, src/bv.rs:44-50. -/
def shl (a b : BV N) : BV N := if b.val.toNat ≥ N then zero else new (a.val <<< b.val.toNat)
/-- `my_shr`, src/bv.rs:52-58. -/
def shr (a b : BV N) : BV N := if b.val.toNat ≥ N then zero else new (a.val >>> b.val.toNat)
/-- `not`, src/bv.rs:61-67. -/
def not (a : BV N) : BV N := new (~~~a.val)
/-- `bitand`, src/bv.rs:69-75. -/
def and (a b : BV N) : BV N := new (a.val &&& b.val)
/-- `bitor`, src/bv.rs:77-83. -/
def or (a b : BV N) : BV N := new (a.val ||| b.val)
/-- `bitxor`, src/bv.rs:85-91. -/
def xor (a b : BV N) : BV N := new (a.val ^^^ b.val)

/-- The decimal digit of a number below ten. -/
def digitChar (n : Nat) : Char := Char.ofNat (48 + n)

/-- `Display for u128`: decimal digits. -/
def decimal (n : Nat) : List Char :=
  if n < 10 then [digitChar n] else decimal (n / 10) ++ [digitChar (n % 10)]

/-- `Display for BV`, src/bv.rs:99-103. -/
def display (a : BV N) : List Char := decimal a.val.toNat

/-- Value of a digit in the given radix (at most ten). -/
def digitVal (radix : Nat) (c : Char) : Option Nat :=
  if 48 ≤ c.toNat ∧ c.toNat < 48 + radix then some (c.toNat - 48) else none

/-- The digit loop of `u128::from_str_radix`; `none` is an error (invalid digit, or overflow of 128 bits). -/
def digitsVal (radix : Nat) : List Char → Nat → Option Nat
  | [], acc => some acc
  | c :: cs, acc => (digitVal radix c).bind fun d =>
    let v := acc * radix + d
    if v < 2 ^ 128 then digitsVal radix cs v else none

/-- `u128::from_str_radix` (standard library): an optional plus sign, then at least one digit. -/
def parseNat (radix : Nat) (s : List Char) : Option Nat :=
  match s with
  | [] => none
  | ['+'] => none
  | '+' :: cs => digitsVal radix cs 0
  | cs => digitsVal radix cs 0

/-- `FromStr for BV`, src/bv.rs:112-121. Outer `none` is the panic of the `unwrap` in line 116, `some none` an
error. -/
def parse (s : List Char) : Option (Option (BV N)) :=
  match s with
  | '#' :: 'b' :: rest => (parseNat 2 rest).map fun i => some (new (BitVec.ofNat 128 i))
  | _ => some ((parseNat 10 s).map fun i => new (BitVec.ofNat 128 i))

end BV

/-- The operators of the language `Bv`, src/bv.rs:143-158. -/
inductive BvOp (N : Nat) where
  | add | sub | mul | neg | not | shl | shr | and | or | xor
  | lit (n : BV N)
  | var (x : String)
deriving DecidableEq

/-- Sample vector of a class (`CVec`), src/language.rs:152. -/
abbrev CVec (C : Type) := List (Option C)

/-- `map!` with one argument, src/util.rs:33-41. -/
def cmap1 {C : Type} (f : C → Option C) (a : CVec C) : CVec C := a.map fun x => x.bind f

/-- `map!` with two arguments, src/util.rs:43-52. -/
def cmap2 {C : Type} (f : C → C → Option C) (a b : CVec C) : CVec C :=
  (a.zip b).map fun p => p.1.bind fun x => p.2.bind fun y => f x y

namespace BvOp
variable {N : Nat}

/-- Number of children, src/bv.rs:143-158. -/
def arity : BvOp N → Nat
  | add | sub | mul | shl | shr | and | or | xor => 2
  | neg | not => 1
  | lit _ | var _ => 0

/-- `eval`, src/bv.rs:163-185. The children's vectors are given in order; a wrong number of children cannot be
expressed in Rust and gives the empty vector here. -/
def eval (len : Nat) : BvOp N → List (CVec (BV N)) → CVec (BV N)
  | neg, [a] => cmap1 (fun a => some a.wrappingNeg) a
  | not, [a] => cmap1 (fun a => some a.not) a
  | add, [a, b] => cmap2 (fun a b => some (a.wrappingAdd b)) a b
  | sub, [a, b] => cmap2 (fun a b => some (a.wrappingSub b)) a b
  | mul, [a, b] => cmap2 (fun a b => some (a.wrappingMul b)) a b
  | shl, [a, b] => cmap2 (fun a b => some (a.shl b)) a b
  | shr, [a, b] => cmap2 (fun a b => some (a.shr b)) a b
  | and, [a, b] => cmap2 (fun a b => some (a.and b)) a b
  | or, [a, b] => cmap2 (fun a b => some (a.or b)) a b
  | xor, [a, b] => cmap2 (fun a b => some (a.xor b)) a b
  | lit n, [] => List.replicate len (some n)
  | _, _ => []

end BvOp

/-- Terms of the SMT theory of bit-vectors of width `N`, as built through the z3 bindings. -/
inductive SmtBV where
  | const (x : String)
  | num (n : Nat)
  | bvadd (a b : SmtBV) | bvsub (a b : SmtBV) | bvmul (a b : SmtBV)
  | bvshl (a b : SmtBV) | bvlshr (a b : SmtBV)
  | bvand (a b : SmtBV) | bvor (a b : SmtBV) | bvxor (a b : SmtBV)
  | bvnot (a : SmtBV) | bvneg (a : SmtBV)
  /-- Not a term: stands for a wrong number of children, which Rust cannot express. -/
  | junk

/-- One step of `egg_to_z3`, src/bv.rs:248-265. Line 253 passes only the low 64 bits of a literal. -/
def BvOp.toSmt {N : Nat} : BvOp N → List SmtBV → SmtBV
  | var v, [] => .const v
  | lit c, [] => .num (c.val.toNat % 2 ^ 64)
  | add, [a, b] => .bvadd a b
  | sub, [a, b] => .bvsub a b
  | mul, [a, b] => .bvmul a b
  | shl, [a, b] => .bvshl a b
  | shr, [a, b] => .bvlshr a b
  | and, [a, b] => .bvand a b
  | or, [a, b] => .bvor a b
  | xor, [a, b] => .bvxor a b
  | not, [a] => .bvnot a
  | neg, [a] => .bvneg a
  | _, _ => .junk

/-- `egg_to_z3`, src/bv.rs:248-267. -/
def bvToZ3 {N : Nat} (e : RecExpr (BvOp N)) : Option SmtBV := RecExpr.run BvOp.toSmt e

/-- `enum ValidationResult`, src/lib.rs:42-50. -/
inductive ValidationResult where
  | valid | invalid | unknown
deriving DecidableEq

/-- `z3::SatResult`. -/
inductive SatResult where
  | unsat | unknown | sat
deriving DecidableEq

/-- `match solver.check()`, src/bv.rs:276-280 and in every other domain. -/
def SatResult.toValidation : SatResult → ValidationResult
  | sat => .invalid
  | unsat => .valid
  | unknown => .unknown

/-- Operators are printed and read as in `define_language!`, src/bv.rs:143-158; literals as decimal numbers. Reading
tries the operators, then a literal, then a variable (the order of the enum); the panic of a malformed `#b` literal is
not modelled here. -/
instance {N : Nat} : Lang (BvOp N) where
  decEq := inferInstance
  display
    | .add => "+" | .sub => "--" | .mul => "*" | .neg => "-" | .not => "~" | .shl => "<<" | .shr => ">>"
    | .and => "&" | .or => "|" | .xor => "^"
    | .lit n => String.ofList n.display
    | .var x => x
  fromOp s k :=
    if s = "+" ∧ k = 2 then some .add else if s = "--" ∧ k = 2 then some .sub
    else if s = "*" ∧ k = 2 then some .mul else if s = "-" ∧ k = 1 then some .neg
    else if s = "~" ∧ k = 1 then some .not else if s = "<<" ∧ k = 2 then some .shl
    else if s = ">>" ∧ k = 2 then some .shr else if s = "&" ∧ k = 2 then some .and
    else if s = "|" ∧ k = 2 then some .or else if s = "^" ∧ k = 2 then some .xor
    else if k = 0 then
      match BV.parse (N := N) s.toList with
      | some (some n) => some (.lit n)
      | some none => some (.var s)
      | none => none
    else none
  toVar
    | .var x => some x
    | _ => none
  mkVar x := .var x
  isConst
    | .lit _ => true
    | _ => false
  allowed _ := true

/-- `validate`, src/bv.rs:242-281, with the answer of the solver to "are the two sides different for some
assignment" as a parameter. `none` is a panic. -/
def bvValidate {N : Nat} (check : SmtBV → SmtBV → SatResult) (lhs rhs : PatternAst (BvOp N)) :
    Option ValidationResult :=
  lhs.instantiate.bind fun l => rhs.instantiate.bind fun r =>
    (bvToZ3 l).bind fun lx => (bvToZ3 r).map fun rx => (check lx rx).toValidation

end Ruler
