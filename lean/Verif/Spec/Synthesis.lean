import Verif.Spec.Ruleset
import Verif.Spec.Vectors
import Verif.Spec.Candidates
import Verif.Spec.Domain
import Verif.Spec.EGraph
import Verif.Model.Inference
import Verif.Model.DomRational
import Verif.Model.DomHalide
import Verif.Model.DomBool
/-!
# Specification vocabulary for synthesis runs
-/
namespace Ruler
namespace Spec
variable {O C : Type} [Lang O]

/-- Every operator that is not a variable prints as text which the parser reads back as that operator, and which contains
no arrow. -/
def OpsReadable (ar : O → Nat → Prop) : Prop :=
  ∀ (o : O) k, ar o k → Lang.toVar o = none → Plain (Lang.display o) ∧ ¬ VarName (Lang.display o) ∧
    Lang.fromOp (Lang.display o) k = some o ∧ ¬ HasArrow (Lang.display o).toList

/-- The parser accepts an operator only with its number of children. -/
def ParsesSorted (ar : O → Nat → Prop) : Prop := ∀ (s : String) k (o : O), Lang.fromOp s k = some o → ar o k

/-- The answers of `is_valid` (src/enumo/rule.rs:137-139) are those of the domain's `validate` with solvers that satisfy
`sound`: when a rule was accepted, `validate` was called on flat forms of its sides and said valid. -/
def AnswersFrom {S : Type} (sound : S → Prop)
    (validate : S → PatternAst O → PatternAst O → Option ValidationResult) (valid : List (Rule O) → Rule O → Bool) : Prop :=
  ∀ before q, valid before q = true → ∃ check lhs rhs, sound check ∧ FlatOf lhs q.lhs ∧ FlatOf rhs q.rhs ∧
    validate check lhs rhs = some .valid

/-- The answers of `is_valid` for Boolean rules: what `validate` says on flat forms of the sides. -/
def BoolAnswers (valid : List (Rule BoolOp) → Rule BoolOp → Bool) : Prop :=
  ∀ before q, valid before q = true ↔ ∀ lhs rhs : PatternAst BoolOp, FlatOf lhs q.lhs → FlatOf rhs q.rhs → boolValidate lhs rhs = .valid

/-- A fraction that fits `Ratio<i64>`. -/
def Fits64 (c : Rat) : Prop := inI64 c.num = true ∧ inI64 c.den = true

/-- Integer literals fit `i64`. -/
def PredLitFits : PredOp → Prop
  | .lit c => inI64 c = true
  | _ => True

/-- Rational literals fit `Ratio<i64>`. -/
def MathLitFits : MathOp → Prop
  | .lit c => Fits64 c
  | _ => True

/-- The arithmetic of `Ratio<i64>` has results that fit. -/
structure Results64 (ck : Checked) : Prop where
  add : ∀ x y r, ck.add x y = some r → Fits64 r
  sub : ∀ x y r, ck.sub x y = some r → Fits64 r
  mul : ∀ x y r, ck.mul x y = some r → Fits64 r
  div : ∀ x y r, ck.div x y = some r → Fits64 r
  neg : ∀ x r, ck.neg x = some r → Fits64 r
  abs : ∀ x r, ck.abs x = some r → Fits64 r

/-- No conditional occurs. -/
inductive NoIte : Pat MathOp → Prop
  | var (v : String) : NoIte (.var v)
  | node {o : MathOp} {args : List (Pat MathOp)} : o ≠ .ite → (∀ a ∈ args, NoIte a) → NoIte (.node o args)

variable [LinearOrder C]

/-- The terms that constant folding adds are well-sorted (their values do not matter here, so the algebra has one
element). -/
def FoldsSorted (D : Domain O C) (ar : O → Nat → Prop) : Prop :=
  ∃ mem : Interval C → Unit → Prop, FoldsIn D ar (fun _ _ => ()) mem

/-- What egg promises in a run: `classes()` enumerates all classes, and the extractor returns for every class one of its
terms. -/
def RunOk (D : Domain O C) (R : RunEnv O C) : Prop :=
  ∀ g, AnyHistory D g → (R.order g).Perm g.classes ∧ Extracts g (R.best g)

/-- The two vectors are matched: equal when matching fast, and otherwise equal wherever both are defined; at least one
sample of each is defined. -/
def VecsMatch (fast : Bool) (a b : CVec C) : Prop :=
  HasSample a ∧ HasSample b ∧ if fast = true then a = b else Agree a b

end Spec
end Ruler
