import Verif.Model.DomTrig
import Verif.Spec.Saturation
import Mathlib.Analysis.SpecialFunctions.Trigonometric.Basic
/-!
# Specification of the trigonometric domain: complex numbers, and partial operations
-/
namespace Ruler.Spec
open Ruler
variable {O V : Type}

/-- Both sides of the pattern's operators are applied where they are defined. `val` is the meaning of the operators, `ok` tells
for which arguments an operator is defined. -/
inductive DefinedAt (val : O → List V → V) (ok : O → List V → Prop) (ρ : String → V) : Pat O → Prop
  | var (x : String) : DefinedAt val ok ρ (.var x)
  | node {o : O} {args : List (Pat O)} : ok o (patValL ρ val args) → (∀ a ∈ args, DefinedAt val ok ρ a) →
      DefinedAt val ok ρ (.node o args)

/-- The two sides agree wherever both are defined. -/
def HoldsWhereDefined (val : O → List V → V) (ok : O → List V → Prop) (r : Rule O) : Prop :=
  ∀ ρ, DefinedAt val ok ρ r.lhs → DefinedAt val ok ρ r.rhs → patVal ρ val r.lhs = patVal ρ val r.rhs

/-- The complex functions the operators stand for; division by zero gives zero. -/
noncomputable def trigVal : TrigOp → List ℂ → ℂ
  | .sin, [z] => Complex.sin z
  | .cos, [z] => Complex.cos z
  | .tan, [z] => Complex.tan z
  | .cis, [z] => Complex.exp (z * Complex.I)
  | .neg, [z] => -z
  | .add, [z, w] => z + w
  | .sub, [z, w] => z - w
  | .mul, [z, w] => z * w
  | .div, [z, w] => z / w
  | .sqr, [z] => z * z
  | .imag, [] => Complex.I
  | .pi, [] => Real.pi
  | .real s, [] => (((ratOfText s.toList).getD 0 : ℚ) : ℂ)
  | _, _ => 0

/-- Division needs a divisor other than zero, the tangent a cosine other than zero. -/
def trigOk : TrigOp → List ℂ → Prop
  | .div, [_, w] => w ≠ 0
  | .tan, [z] => Complex.cos z ≠ 0
  | _, _ => True

/-- The class has a node with the text of the number. -/
def HasNumber (nodes : Nat → List (FNode TrigOp)) (k : Nat) (x : ℚ) : Prop :=
  ∃ s : String, ⟨.real s, []⟩ ∈ nodes k ∧ ratOfText s.toList = some x

/-- The node can be computed from numbers in the classes of its arguments. -/
def Computable (nodes : Nat → List (FNode TrigOp)) (nd : FNode TrigOp) : Prop :=
  (∃ j x, nd = ⟨.neg, [j]⟩ ∧ HasNumber nodes j x) ∨
  ∃ o j k x y, nd = ⟨o, [j, k]⟩ ∧ HasNumber nodes j x ∧ HasNumber nodes k y ∧
    (o = .add ∨ o = .sub ∨ o = .mul ∨ o = .div ∧ y ≠ 0)

end Ruler.Spec
