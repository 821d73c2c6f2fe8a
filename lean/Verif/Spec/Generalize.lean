import Verif.Model.Generalize
/-!
# Specification vocabulary for candidate rules made from terms
-/
namespace Ruler
namespace Spec
variable {O : Type} [Lang O]

/-- The variable `x` occurs in the term (variables have no arguments). -/
inductive VarIn (x : String) : Tm O → Prop
  | here {o : O} {args : List (Tm O)} : Lang.toVar o = some x → VarIn x (.node o args)
  | there {o : O} {args : List (Tm O)} {a : Tm O} : Lang.toVar o = none → a ∈ args → VarIn x a →
      VarIn x (.node o args)

mutual
/-- The pattern obtained from a term by replacing every variable `x` by the pattern variable `ρ x`. -/
def schema (ρ : String → String) : Tm O → Pat O
  | .node o args => match Lang.toVar o with
    | some x => .var (ρ x)
    | none => .node o (schemaL ρ args)
/-- Element-wise. -/
def schemaL (ρ : String → String) : List (Tm O) → List (Pat O)
  | [] => []
  | t :: l => schema ρ t :: schemaL ρ l
end

omit [Lang O] in
mutual
/-- A pattern with its variables renamed. -/
def renamed (σ : String → String) : Pat O → Pat O
  | .var v => .var (σ v)
  | .node o args => .node o (renamedL σ args)
/-- Element-wise. -/
def renamedL (σ : String → String) : List (Pat O) → List (Pat O)
  | [] => []
  | p :: l => renamed σ p :: renamedL σ l
end

mutual
/-- A term with its variables renamed. -/
def renamedTm (σ : String → String) : Tm O → Tm O
  | .node o args => match Lang.toVar o with
    | some x => .node (Lang.mkVar (σ x)) []
    | none => .node o (renamedTmL σ args)
/-- Element-wise. -/
def renamedTmL (σ : String → String) : List (Tm O) → List (Tm O)
  | [] => []
  | t :: l => renamedTm σ t :: renamedTmL σ l
end

/-- `f` maps different elements of `S` to different values. -/
def InjOn {α β : Type} (f : α → β) (S : α → Prop) : Prop := ∀ a b, S a → S b → f a = f b → a = b

/-- A pattern variable named by a single lower-case letter. -/
def LetterVar (v : String) : Prop := ∃ c : Char, 'a' ≤ c ∧ c ≤ 'z' ∧ v = String.ofList ['?', c]

/-- At most `n` elements satisfy `S`. -/
def AtMost {α : Type} (n : Nat) (S : α → Prop) : Prop := ∃ L : List α, L.length ≤ n ∧ ∀ a, S a → a ∈ L

/-- The pattern contains only allowed operators. -/
inductive OnlyAllowed : Pat O → Prop
  | var {v : String} : OnlyAllowed (.var v)
  | node {o : O} {args : List (Pat O)} : Lang.allowed o = true → (∀ a ∈ args, OnlyAllowed a) →
      OnlyAllowed (.node o args)

/-- The pattern has only operators of the given kind. -/
inductive OnlyOps (K : O → Prop) : Pat O → Prop
  | var (v : String) : OnlyOps K (.var v)
  | node {o : O} {args : List (Pat O)} : K o → (∀ a ∈ args, OnlyOps K a) → OnlyOps K (.node o args)

/-- The rule reads "`e1` becomes `e2`", with variables consistently and injectively renamed to pattern variables. -/
def Relates (q : Rule O) (e1 e2 : Tm O) : Prop :=
  ∃ ρ : String → String, InjOn ρ (fun x => VarIn x e1 ∨ VarIn x e2) ∧
    q.lhs = schema ρ e1 ∧ q.rhs = schema ρ e2 ∧ q.name = ruleName (schema ρ e1) (schema ρ e2)

/-- Every variable of `e2` occurs in `e1`. -/
def Covers (e1 e2 : Tm O) : Prop := ∀ x, VarIn x e2 → VarIn x e1

/-- The ruleset contains, under one renaming of the variables to letters, the rule from `e1` to `e2` if the variables permit it, and the
rule from `e2` to `e1` if the variables permit it. -/
def ProposesBoth (rs : Ruleset O) (e1 e2 : Tm O) : Prop :=
  ∃ ρ : String → String, InjOn ρ (fun x => VarIn x e1 ∨ VarIn x e2) ∧ (∀ x, VarIn x e1 ∨ VarIn x e2 → LetterVar (ρ x)) ∧
    (Covers e1 e2 → ruleName (schema ρ e1) (schema ρ e2) ∈ (Ruleset.iter rs).map Rule.name) ∧
    (Covers e2 e1 → ruleName (schema ρ e2) (schema ρ e1) ∈ (Ruleset.iter rs).map Rule.name)

end Spec
end Ruler
