import Verif.Spec.DomRational
import Verif.Spec.Generalize
/-!
# Specification of conditional rules
-/
namespace Ruler.Spec
open Ruler
variable {K : Type} [Field K] [LinearOrder K]

/-- `p` divides by `d` somewhere. -/
inductive Denominator (d : Pat MathOp) : Pat MathOp → Prop
  | here {a : Pat MathOp} : Denominator d (.node .div [a, d])
  | inside {o : MathOp} {args : List (Pat MathOp)} {p : Pat MathOp} : p ∈ args → Denominator d p → Denominator d (.node o args)

/-- `d` is a denominator of one of the two patterns and not of the other. -/
def OwnDenominator (l r d : Pat MathOp) : Prop :=
  (Denominator d l ∧ ¬ Denominator d r) ∨ (Denominator d r ∧ ¬ Denominator d l)

/-- Value of a pattern, if it is defined. -/
def ratVal (ρ : String → K) (p : Pat MathOp) : Option K := patVal (fun x => some (ρ x)) mathOpVal p

/-- The two sides are equal for all values of the variables for which both are defined. -/
def EqualWhereDefined (K : Type) [Field K] [LinearOrder K] (l r : Pat MathOp) : Prop :=
  ∀ (ρ : String → K) (a b : K), ratVal ρ l = some a → ratVal ρ r = some b → a = b

/-- The two sides are the same partial function of the variables. -/
def SameFunction (K : Type) [Field K] [LinearOrder K] (l r : Pat MathOp) : Prop :=
  ∀ ρ : String → K, ratVal ρ l = ratVal ρ r

/-- A pattern as the parser builds them: operators with the right number of arguments. -/
abbrev MathPat (p : Pat MathOp) : Prop := PatSorted MathOp.arity (fun o => ∀ x, o ≠ .var x) p

end Ruler.Spec
