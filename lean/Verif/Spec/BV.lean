import Verif.Model.BV
import Verif.Spec.Domain
/-!
# Specification of bit-vectors: SMT-LIB semantics over `BitVec N`
-/
namespace Ruler
namespace Spec

/-- The `N`-bit value held by a `BV<N>`. -/
def bits {N : Nat} (x : BV N) : BitVec N := BitVec.ofNat N x.val.toNat

/-- The number fits in `N` bits. -/
def Proper {N : Nat} (x : BV N) : Prop := x.val.toNat < 2 ^ N

/-- SMT-LIB semantics of bit-vector terms of width `N`. -/
def smtVal (N : Nat) (env : String → BitVec N) : SmtBV → BitVec N
  | .const x => env x
  | .num n => BitVec.ofNat N n
  | .bvadd a b => smtVal N env a + smtVal N env b
  | .bvsub a b => smtVal N env a - smtVal N env b
  | .bvmul a b => smtVal N env a * smtVal N env b
  | .bvshl a b => smtVal N env a <<< smtVal N env b
  | .bvlshr a b => smtVal N env a >>> smtVal N env b
  | .bvand a b => smtVal N env a &&& smtVal N env b
  | .bvor a b => smtVal N env a ||| smtVal N env b
  | .bvxor a b => smtVal N env a ^^^ smtVal N env b
  | .bvnot a => ~~~ smtVal N env a
  | .bvneg a => - smtVal N env a
  | .junk => 0

/-- What the solver promises: if it answers `unsat`, the two terms are equal under every assignment. -/
def SolverSoundBV (N : Nat) (check : SmtBV → SmtBV → SatResult) : Prop :=
  ∀ a b, check a b = .unsat → ∀ env, smtVal N env a = smtVal N env b

/-- The meaning of an operator of the language on `N`-bit values. -/
def bvOpVal {N : Nat} : BvOp N → List (BitVec N) → BitVec N
  | .add, [a, b] => a + b
  | .sub, [a, b] => a - b
  | .mul, [a, b] => a * b
  | .neg, [a] => -a
  | .not, [a] => ~~~a
  | .shl, [a, b] => a <<< b
  | .shr, [a, b] => a >>> b
  | .and, [a, b] => a &&& b
  | .or, [a, b] => a ||| b
  | .xor, [a, b] => a ^^^ b
  | .lit n, [] => bits n
  | _, _ => 0

/-- The meaning of an expression. -/
def bvVal {N : Nat} (env : String → BitVec N) (t : Tm (BvOp N)) : BitVec N :=
  Tm.fold (fun o args => match o with | .var x => env x | o => bvOpVal o args) t

/-- Literals of the expression fit in `N` bits. -/
def LitProper {N : Nat} : BvOp N → Prop
  | .lit n => Proper n
  | _ => True

end Spec
end Ruler
