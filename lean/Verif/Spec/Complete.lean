import Verif.Spec.Extract
import Verif.Spec.DomBool
import Verif.Spec.RecipeRules
import Verif.Model.Recipes
/-!
# Equational proofs
-/
namespace Ruler
namespace Spec
variable {O : Type}

mutual
/-- The term obtained from a pattern by replacing its variables. -/
def patInst (σ : String → Tm O) : Pat O → Tm O
  | .var v => σ v
  | .node o args => .node o (patInstL σ args)
/-- Element-wise. -/
def patInstL (σ : String → Tm O) : List (Pat O) → List (Tm O)
  | [] => []
  | p :: l => patInst σ p :: patInstL σ l
end

/-- Equations between terms that can be proved from rules and further equations `F`: replacing instances of one side of a rule by the
other side, anywhere and any number of times. -/
inductive Provable (R : Rule O → Prop) (F : Tm O → Tm O → Prop) : Tm O → Tm O → Prop
  | refl (t : Tm O) : Provable R F t t
  | symm {t u : Tm O} : Provable R F t u → Provable R F u t
  | trans {t u v : Tm O} : Provable R F t u → Provable R F u v → Provable R F t v
  | arg (o : O) (l r : List (Tm O)) {t u : Tm O} : Provable R F t u → Provable R F (.node o (l ++ t :: r)) (.node o (l ++ u :: r))
  | rule {r : Rule O} (σ : String → Tm O) : R r → Provable R F (patInst σ r.lhs) (patInst σ r.rhs)
  | given {t u : Tm O} : F t u → Provable R F t u

/-- A truth value. -/
def boolLit (b : Bool) : Tm BoolOp := .node (.lit b) []

/-- Constant folding: a connective whose value is decided by those of its arguments that are constants is equal to that value. -/
inductive Decided : Tm BoolOp → Tm BoolOp → Prop
  | node {o : BoolOp} {args : List (Tm BoolOp)} {b : Bool} : Lang.toVar o = none → args.length = o.arity →
      (∀ vs : List Bool, List.Forall₂ (fun a v => ∀ c, a = boolLit c → v = c) args vs → boolOpVal o vs = b) →
      Decided (.node o args) (boolLit b)

/-- Formulas with negation, conjunction, disjunction and exclusive or over constants and the given variables. -/
inductive Formula (P : String → Prop) : Tm BoolOp → Prop
  | lit (b : Bool) : Formula P (boolLit b)
  | var {x : String} : P x → Formula P (.node (.var x) [])
  | not {t : Tm BoolOp} : Formula P t → Formula P (.node .not [t])
  | and {t u : Tm BoolOp} : Formula P t → Formula P u → Formula P (.node .and [t, u])
  | or {t u : Tm BoolOp} : Formula P t → Formula P u → Formula P (.node .or [t, u])
  | xor {t u : Tm BoolOp} : Formula P t → Formula P u → Formula P (.node .xor [t, u])

end Spec

/-- The language of the Boolean recipe with any variables. -/
def Spec.boolLangOf (vars : List String) : RecipeLang := .new ["true", "false"] vars [["~"], ["&", "|", "^"]]

end Ruler
