import Verif.Model.DomRational
import Verif.Spec.Domain
import Verif.Spec.Smt
import Mathlib.Algebra.Order.Field.Basic
import Mathlib.Data.Rat.Cast.Order
/-!
# Specification of the rational domain

Values in any linearly ordered field `K` (rationals, reals). An expression has no value if a division by zero is
evaluated.
-/
namespace Ruler
namespace Spec
variable {K : Type} [Field K] [LinearOrder K] [IsStrictOrderedRing K]

/-- Meaning of the operators; `none` is "undefined". Only the chosen branch of a conditional must be defined. -/
def mathOpVal : MathOp → List (Option K) → Option K
  | .add, [some x, some y] => some (x + y)
  | .sub, [some x, some y] => some (x - y)
  | .mul, [some x, some y] => some (x * y)
  | .div, [some x, some y] => if y = 0 then none else some (x / y)
  | .neg, [some x] => some (-x)
  | .abs, [some x] => some |x|
  | .ite, [some c, y, z] => if c = 0 then z else y
  | .lit c, [] => some (c : K)
  | _, _ => none

mutual
/-- Value of a real-valued term. Division by zero is an arbitrary function of the dividend. -/
def realVal (d0 : K → K) (env : String → K) : SmtTm Rat → K
  | .const x => env x
  | .num c => (c : K)
  | .add a b => realVal d0 env a + realVal d0 env b
  | .sub a b => realVal d0 env a - realVal d0 env b
  | .mul a b => realVal d0 env a * realVal d0 env b
  | .div a b => if realVal d0 env b = 0 then d0 (realVal d0 env a) else realVal d0 env a / realVal d0 env b
  | .neg a => - realVal d0 env a
  | .ite c a b => if realHolds d0 env c = true then realVal d0 env a else realVal d0 env b
  | .junk => 0
/-- Truth of a formula. -/
def realHolds (d0 : K → K) (env : String → K) : SmtFm Rat → Bool
  | .lit b => b
  | .lt a b => decide (realVal d0 env a < realVal d0 env b)
  | .le a b => decide (realVal d0 env a ≤ realVal d0 env b)
  | .eq a b => decide (realVal d0 env a = realVal d0 env b)
  | .not p => !realHolds d0 env p
  | .and p q => realHolds d0 env p && realHolds d0 env q
  | .or p q => realHolds d0 env p || realHolds d0 env q
  | .xor p q => Bool.xor (realHolds d0 env p) (realHolds d0 env q)
  | .implies p q => !realHolds d0 env p || realHolds d0 env q
  | .iff p q => decide (realHolds d0 env p = realHolds d0 env q)
end

variable (K)

/-- What the solver promises: `unsat` means that the formula is false under every assignment and every interpretation of
division by zero. -/
def SolverSoundReal (check : SmtFm Rat → SatResult) : Prop :=
  ∀ f, check f = .unsat → ∀ (d0 : K → K) env, realHolds d0 env f = false

/-- A solver that always answers, and correctly. -/
def SolverExactReal (check : SmtFm Rat → SatResult) : Prop :=
  ∀ f, check f = .unsat ↔ ∀ (d0 : K → K) env, realHolds d0 env f = false

/-- Which results of the machine arithmetic are allowed: exact or none, and none for a division by zero. -/
structure ExactOrNone (ck : Checked) : Prop where
  add : ∀ x y r, ck.add x y = some r → r = x + y
  sub : ∀ x y r, ck.sub x y = some r → r = x - y
  mul : ∀ x y r, ck.mul x y = some r → r = x * y
  div : ∀ x y r, ck.div x y = some r → y ≠ 0 ∧ r = x / y
  neg : ∀ x r, ck.neg x = some r → r = -x
  abs : ∀ x r, ck.abs x = some r → r = |x|

/-- No division inside the condition of a conditional. -/
inductive PlainConditions : Pat MathOp → Prop
  | var (v : String) : PlainConditions (.var v)
  | ite {c y z : Pat MathOp} : PatSorted MathOp.arity (fun o => o ≠ .div) c → PlainConditions c →
      PlainConditions y → PlainConditions z → PlainConditions (.node .ite [c, y, z])
  | node {o : MathOp} {args : List (Pat MathOp)} : o ≠ .ite → (∀ a ∈ args, PlainConditions a) →
      PlainConditions (.node o args)

end Spec
end Ruler
