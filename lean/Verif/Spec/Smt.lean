import Verif.Model.Smt
import Mathlib.Algebra.Order.Field.Basic
/-!
# Semantics of solver terms (SMT-LIB)

Division by zero is an arbitrary function of the dividend, `d0`.
-/
namespace Ruler
namespace Spec

mutual
/-- Value of an integer term. `Int`'s `/` is Euclidean division, SMT-LIB's `div`. -/
def intVal (d0 : Int → Int) (env : String → Int) : SmtTm Int → Int
  | .const x => env x
  | .num c => c
  | .add a b => intVal d0 env a + intVal d0 env b
  | .sub a b => intVal d0 env a - intVal d0 env b
  | .mul a b => intVal d0 env a * intVal d0 env b
  | .div a b => if intVal d0 env b = 0 then d0 (intVal d0 env a) else intVal d0 env a / intVal d0 env b
  | .neg a => - intVal d0 env a
  | .ite c a b => if intHolds d0 env c = true then intVal d0 env a else intVal d0 env b
  | .junk => 0
/-- Truth of a formula over the integers. -/
def intHolds (d0 : Int → Int) (env : String → Int) : SmtFm Int → Bool
  | .lit b => b
  | .lt a b => decide (intVal d0 env a < intVal d0 env b)
  | .le a b => decide (intVal d0 env a ≤ intVal d0 env b)
  | .eq a b => decide (intVal d0 env a = intVal d0 env b)
  | .not p => !intHolds d0 env p
  | .and p q => intHolds d0 env p && intHolds d0 env q
  | .or p q => intHolds d0 env p || intHolds d0 env q
  | .xor p q => Bool.xor (intHolds d0 env p) (intHolds d0 env q)
  | .implies p q => !intHolds d0 env p || intHolds d0 env q
  | .iff p q => decide (intHolds d0 env p = intHolds d0 env q)
end

/-- What the solver promises for integers: `unsat` for "the two terms differ" means they are equal under every
assignment. -/
def SolverSoundInt (check : SmtTm Int → SmtTm Int → SatResult) : Prop :=
  ∀ a b, check a b = .unsat → ∀ d0 env, intVal d0 env a = intVal d0 env b

/-- A solver that always answers, and correctly. -/
def SolverExactInt (check : SmtTm Int → SmtTm Int → SatResult) : Prop :=
  ∀ a b, check a b = .unsat ↔ ∀ d0 env, intVal d0 env a = intVal d0 env b

end Spec
end Ruler
