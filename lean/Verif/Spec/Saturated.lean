import Verif.Spec.Complete
import Verif.Model.Scheduler
import Mathlib.Logic.Relation
/-!
# Rewriting and saturation
-/
namespace Ruler
namespace Spec
open EGraph
variable {O C : Type}

/-- One application of a rule, from left to right, anywhere in a term. -/
inductive Rewrites (R : Rule O → Prop) : Tm O → Tm O → Prop
  | rule {r : Rule O} (σ : String → Tm O) : R r → Rewrites R (patInst σ r.lhs) (patInst σ r.rhs)
  | arg (o : O) (l r : List (Tm O)) {t u : Tm O} : Rewrites R t u → Rewrites R (.node o (l ++ t :: r)) (.node o (l ++ u :: r))

/-- Any number of applications. -/
abbrev RewritesTo (R : Rule O → Prop) : Tm O → Tm O → Prop := Relation.ReflTransGen (Rewrites R)

/-- Both terms can be rewritten to a common term. -/
def Meets (R : Rule O → Prop) (t u : Tm O) : Prop := ∃ w, RewritesTo R t w ∧ RewritesTo R u w

/-- With every rule the set contains its reversal, up to the names of variables: what a rule rewrites, some rule rewrites back. -/
def Reversible (R : Rule O → Prop) : Prop :=
  ∀ r, R r → ∀ σ : String → Tm O, ∃ q τ, R q ∧ patInst τ q.lhs = patInst σ r.rhs ∧ patInst τ q.rhs = patInst σ r.lhs

variable [Lang O] [LinearOrder C]

/-- Nothing is left to do: applying a rule to any of its matches neither adds a class nor unites two. -/
def Saturated (D : Domain O C) (E : Egg) (R : Rule O → Prop) (g : EGraph O C) : Prop :=
  ∀ r, R r → ∀ m ∈ g.search r.lhs, ∃ g', applyOne D E r.rhs g m = some g' ∧ g'.n = g.n ∧ ∀ i, i < g.n → g'.find i = g.find i

omit [LinearOrder C] in
/-- Vectors of length zero: an operator applied to empty vectors gives an empty vector. -/
def EmptyVectors (D : Domain O C) : Prop :=
  ∀ o vs v, (∀ w ∈ vs, w = []) → D.eval 0 o vs = some v → v = []

end Spec
end Ruler
