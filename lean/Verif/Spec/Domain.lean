import Verif.Model.Domain
import Mathlib.Order.Defs.LinearOrder
/-!
# Specification vocabulary for domains
-/
namespace Ruler
namespace Spec
variable {O C : Type}

/-- Every node of the term has the number of children its operator requires (enforced by the Rust types), and every
operator satisfies `P`. -/
inductive WellSorted (arity : O → Nat) (P : O → Prop) : Tm O → Prop
  | node {o : O} {args : List (Tm O)} : args.length = arity o → P o → (∀ a ∈ args, WellSorted arity P a) →
      WellSorted arity P (.node o args)

/-- Variables occurring in a term. -/
inductive HasVar [Lang O] (x : String) : Tm O → Prop
  | here {o : O} {args : List (Tm O)} : Lang.toVar o = some x → HasVar x (.node o args)
  | there {o : O} {args : List (Tm O)} {a : Tm O} : a ∈ args → HasVar x a → HasVar x (.node o args)

/-- A flat pattern stands for the tree `p`; variables have no children (enforced by the Rust types). -/
def FlatOf (e : PatternAst O) (p : Pat O) : Prop :=
  e.pat = some p ∧ ∀ n ∈ e, ∀ v, n.op = .var v → n.children = []

/-- As `WellSorted`, for patterns; pattern variables start with a question mark (checked by egg when parsing). -/
inductive PatSorted (arity : O → Nat) (P : O → Prop) : Pat O → Prop
  | var {v : String} : v.toList.head? = some '?' → PatSorted arity P (.var v)
  | node {o : O} {args : List (Pat O)} : args.length = arity o → P o → (∀ a ∈ args, PatSorted arity P a) →
      PatSorted arity P (.node o args)

mutual
/-- The value of a pattern, given the values of its variables and the meaning of the operators. -/
def patVal {B : Type} (ρ : String → B) (f : O → List B → B) : Pat O → B
  | .var v => ρ v
  | .node o args => f o (patValL ρ f args)
/-- Element-wise. -/
def patValL {B : Type} (ρ : String → B) (f : O → List B → B) : List (Pat O) → List B
  | [] => []
  | p :: l => patVal ρ f p :: patValL ρ f l
end

/-- The value of a term, given the values of its variables and the meaning of the operators. -/
def tmVal {B : Type} [Lang O] (env : String → B) (f : O → List B → B) (t : Tm O) : B :=
  Tm.fold (fun o args => match Lang.toVar o with | some x => env x | none => f o args) t

/-- The set of values an interval stands for. -/
def InInterval {T : Type} [LinearOrder T] (I : Interval T) (x : T) : Prop :=
  (∀ a, I.low = some a → a ≤ x) ∧ (∀ b, I.high = some b → x ≤ b)

end Spec
end Ruler
