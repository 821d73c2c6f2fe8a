import Verif.Model.Inference
import Verif.Spec.Text
/-!
# Specification of the terms of a recipe language
-/
namespace Ruler
namespace Spec

/-- The atom with the given text. -/
def word (t : List Char) : Sexp := .atom (String.ofList t)

/-- Terms made of the values and the variables of the language, and of the operators of its `i`-th list with `i` arguments
(counting from one). -/
inductive LangTerm (L : RecipeLang) : Sexp → Prop
  | val {t : List Char} : t ∈ L.vals → LangTerm L (word t)
  | var {t : List Char} : t ∈ L.vars → LangTerm L (word t)
  | app {i : Nat} {os : List (List Char)} {o : List Char} {args : List Sexp} : L.ops[i]? = some os → o ∈ os →
      args.length = i + 1 → (∀ a ∈ args, LangTerm L a) → LangTerm L (.list (word o :: args))

/-- A variable occurs, other than as an operator. -/
inductive HasWord (vars : List (List Char)) : Sexp → Prop
  | here {t : List Char} : t ∈ vars → HasWord vars (word t)
  | arg {o a : Sexp} {args : List Sexp} : a ∈ args → HasWord vars a → HasWord vars (.list (o :: args))

/-- The texts of a language. -/
def RecipeLang.Text (L : RecipeLang) (t : List Char) : Prop := t ∈ L.vals ∨ t ∈ L.vars ∨ ∃ os ∈ L.ops, t ∈ os

/-- A language with two or three lists of operators, whose texts are single words other than the names of the holes, and
whose variables are not values. -/
structure LangOk (L : RecipeLang) : Prop where
  arities : L.ops.length = 2 ∨ L.ops.length = 3
  words : ∀ t, RecipeLang.Text L t → Plain (String.ofList t)
  holes : ∀ t, RecipeLang.Text L t → String.ofList t ∉ ["VAR", "VAL", "OP1", "OP2", "OP3"]
  disjoint : ∀ t ∈ L.vars, t ∉ L.vals

/-! ## Shapes of terms -/

/-- One of the words. -/
def IsWord (ws : List String) (t : Sexp) : Prop := ∃ w ∈ ws, t = .atom w

/-- One of the operators and an argument. -/
def Unary (os : List String) (P : Sexp → Prop) (t : Sexp) : Prop := ∃ o ∈ os, ∃ x, P x ∧ t = .list [.atom o, x]

/-- One of the operators and two arguments. -/
def Binary (os : List String) (P Q : Sexp → Prop) (t : Sexp) : Prop :=
  ∃ o ∈ os, ∃ x y, P x ∧ Q y ∧ t = .list [.atom o, x, y]

/-- One of the operators and three arguments. -/
def Ternary (os : List String) (P Q R : Sexp → Prop) (t : Sexp) : Prop :=
  ∃ o ∈ os, ∃ x y z, P x ∧ Q y ∧ R z ∧ t = .list [.atom o, x, y, z]

/-- The workload is made without panic and lists exactly the terms described. -/
def Lists (w : Option Workload) (P : Sexp → Prop) : Prop := ∃ w' ts, w = some w' ∧ w'.force = some ts ∧ ∀ t, t ∈ ts ↔ P t

/-- The arguments of the nested workloads of the Halide recipe: a variable, or one operator on variables. -/
def HalideArg (bops : List String) (t : Sexp) : Prop :=
  IsWord ["a", "b", "c"] t ∨ Unary ["-", "!"] (IsWord ["a", "b", "c"]) t ∨
    Binary bops (IsWord ["a", "b", "c"]) (IsWord ["a", "b", "c"]) t

/-- A product of at most two of `a`, `b`. -/
def Monomial (t : Sexp) : Prop := IsWord ["a", "b"] t ∨ Binary ["*"] (IsWord ["a", "b"]) (IsWord ["a", "b"]) t

/-- A sum or difference of at most two such products. -/
def Factor (t : Sexp) : Prop := Monomial t ∨ Binary ["+", "-"] Monomial Monomial t

/-- One operator of the rational recipe at most. -/
def RationalOne (t : Sexp) : Prop :=
  IsWord ["a", "b", "c", "0", "-1", "1"] t ∨ Unary ["~", "fabs"] (IsWord ["a", "b", "c", "0", "-1", "1"]) t ∨
    Binary ["+", "-", "*", "/"] (IsWord ["a", "b", "c", "0", "-1", "1"]) (IsWord ["a", "b", "c", "0", "-1", "1"]) t

/-- All workloads are made without panic and list exactly the terms described. -/
def ListsAll (ws : Option (List Workload)) (Ps : List (Sexp → Prop)) : Prop :=
  ∃ l, ws = some l ∧ List.Forall₂ (fun w P => Lists (some w) P) l Ps

/-- At most one operator on variables. -/
def OneOp (uops bops vars : List String) (t : Sexp) : Prop :=
  IsWord vars t ∨ Unary uops (IsWord vars) t ∨ Binary bops (IsWord vars) (IsWord vars) t

/-- Some subterm has the given shape. -/
def Has (P : Sexp → Prop) (t : Sexp) : Prop := ∃ s, Subterm s t ∧ P s

/-- An operator applied to itself, as `(exp (exp x))`. -/
def Twice (f : String) : Sexp → Prop := Unary [f] (Unary [f] fun _ => True)

/-- An angle: a multiple or fraction of `PI`, or zero. -/
def TrigConstant (t : Sexp) : Prop :=
  IsWord ["0", "PI"] t ∨ Binary ["/"] (IsWord ["PI"]) (IsWord ["6", "4", "3", "2"]) t ∨ Binary ["*"] (IsWord ["PI"]) (IsWord ["2"]) t

/-- The arguments of the simple terms. -/
def TrigArg (t : Sexp) : Prop :=
  IsWord ["a"] t ∨ Unary ["~"] (IsWord ["a"]) t ∨ Binary ["+", "-"] (IsWord ["PI"]) (IsWord ["a"]) t ∨
    Binary ["+"] (IsWord ["a"]) (IsWord ["a"]) t

/-- Functions of angles where they are defined, functions of simple arguments and their negations. -/
def TrigSimple (t : Sexp) : Prop :=
  (Unary ["sin", "cos", "tan"] TrigConstant t ∧ ¬ Has (Unary ["tan"] (Binary ["/"] (IsWord ["PI"]) (IsWord ["2"]))) t) ∨
    Unary ["sin", "cos", "tan"] TrigArg t ∨ Unary ["~"] (Unary ["sin", "cos", "tan"] TrigArg) t

/-- Functions of one variable, possibly doubled or shifted by a right angle. -/
def TrigShift : Sexp → Prop :=
  Unary ["sin", "cos"] fun x => IsWord ["a"] x ∨ Binary ["+", "-"] (Binary ["/"] (IsWord ["PI"]) (IsWord ["2"])) (IsWord ["a"]) x ∨
    Binary ["*"] (IsWord ["2"]) (IsWord ["a"]) x

/-- Functions of two variables, their sum or difference. -/
def TrigTwo : Sexp → Prop :=
  Unary ["sin", "cos"] fun x => IsWord ["a", "b"] x ∨ Binary ["+", "-"] (IsWord ["a"]) (IsWord ["b"]) x

/-- Products of two different ones of these. -/
def TrigProduct (t : Sexp) : Prop := ∃ l r, TrigTwo l ∧ TrigTwo r ∧ l ≠ r ∧ t = .list [.atom "*", l, r]

/-- A term or half of it. -/
def OrHalf (P : Sexp → Prop) (t : Sexp) : Prop := P t ∨ Binary ["/"] P (IsWord ["2"]) t

/-- The workload is made without panic and all its terms can be read. -/
def ReadableIn (O : Type) [Lang O] (w : Option Workload) : Prop :=
  ∃ w' ts, w = some w' ∧ w'.force = some ts ∧ ∀ t ∈ ts, ∃ e : Tm O, Tm.ofSexp t = some e

/-- The `n` workloads are made without panic and all their terms are terms of the language that can be read. -/
def ReadableLists (O : Type) [Lang O] (L : RecipeLang) (n : Nat) (ws : Option (List Workload)) : Prop :=
  ∃ l, ws = some l ∧ l.length = n ∧ ∀ w ∈ l, ∃ ts, w.force = some ts ∧
    ∀ t ∈ ts, LangTerm L t ∧ ∃ e : Tm O, Tm.ofSexp t = some e

end Spec
end Ruler
