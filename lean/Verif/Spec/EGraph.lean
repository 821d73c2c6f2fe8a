import Verif.Model.Scheduler
import Verif.Spec.Domain
import Mathlib.Data.List.Forall2
/-!
# Specification vocabulary for e-graphs and equality saturation
-/
namespace Ruler
namespace Spec
variable {O C V : Type}

/-- Every node of the term has a number of children its operator admits (enforced by the Rust types). -/
inductive TmOk (ar : O → Nat → Prop) : Tm O → Prop
  | node {o : O} {args : List (Tm O)} : ar o args.length → (∀ a ∈ args, TmOk ar a) → TmOk ar (.node o args)

/-- As `TmOk`, for patterns. -/
inductive PatOk (ar : O → Nat → Prop) : Pat O → Prop
  | var {v : String} : PatOk ar (.var v)
  | node {o : O} {args : List (Pat O)} : ar o args.length → (∀ a ∈ args, PatOk ar a) → PatOk ar (.node o args)

/-- Both sides of a rule are well-sorted. -/
def RuleOk (ar : O → Nat → Prop) (r : Rule O) : Prop := PatOk ar r.lhs ∧ PatOk ar r.rhs

mutual
/-- The term is represented by the class of `i`: some e-node of that class has its operator, and the children of that
e-node represent its arguments. -/
def Rep (g : EGraph O C) : Tm O → Nat → Prop
  | .node o args, i => ∃ e ∈ g.nodes, e.1.op = o ∧ g.find e.2 = g.find i ∧ RepL g args e.1.children
/-- Element-wise. -/
def RepL (g : EGraph O C) : List (Tm O) → List Nat → Prop
  | [], [] => True
  | t :: l, i :: is => Rep g t i ∧ RepL g l is
  | _, _ => False
end

/-- The equation of a rule holds in an algebra `I` (an interpretation of the operators) for all values of its
variables. -/
def Holds (I : O → List V → V) (r : Rule O) : Prop :=
  ∀ ρ : String → V, patVal ρ I r.lhs = patVal ρ I r.rhs

/-- Interval analysis, constant folding and the domain's hook are correct in the algebra `I`; `mem` says which values an
interval admits. -/
structure FoldsIn [Lang O] (D : Domain O C) [LinearOrder C] (ar : O → Nat → Prop) (I : O → List V → V)
    (mem : Interval C → V → Prop) : Prop where
  interval : ∀ o (Js : List (Interval C)) (vs : List V) J, ar o vs.length → List.Forall₂ mem Js vs →
    D.mkInterval o Js = some J → mem J (I o vs)
  join : ∀ a b c v, mem a v → mem b v → mergeInterval a b = some c → mem c v
  const : ∀ c v t, mem ⟨some c, some c⟩ v → D.mkConst c = some t → TmOk ar t ∧ Tm.fold I t = v
  custom : ∀ (nodes : Nat → List (FNode O)) (val : Nat → V) i,
    (∀ k, ∀ nd ∈ nodes k, val k = I nd.op (nd.children.map val)) → ∀ t ∈ D.custom nodes i,
    TmOk ar t ∧ Tm.fold I t = val i
  varTerms : ∀ x, ∀ t ∈ D.varTerms x, TmOk ar t ∧ Tm.fold I t = I (Lang.mkVar x) []

/-- The domain does no constant folding (most domains: the default `mk_interval` and `custom_modify`). -/
def NoFold (D : Domain O C) : Prop :=
  (∀ o Js J, D.mkInterval o Js = some J → J = ⟨none, none⟩) ∧ (∀ f i, D.custom f i = []) ∧ ∀ x, D.varTerms x = []

end Spec
end Ruler
