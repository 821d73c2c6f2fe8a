import Verif.Spec.Subterm
import Verif.Spec.Synthesis
/-!
# Terms of a workload
-/
namespace Ruler
namespace Spec
variable {O C : Type} [Lang O]

/-- The term occurs in a term of the workload. -/
def PartOf (w : Workload) (t : Tm O) : Prop :=
  ∃ ss, w.force = some ss ∧ ∃ s ∈ ss, ∃ u : Tm O, Tm.ofSexp s = some u ∧ TmSub t u

/-- The term occurs in a constant that folding can add. -/
def PartOfConst (D : Domain O C) (t : Tm O) : Prop := ∃ c u, D.mkConst c = some u ∧ TmSub t u

/-- The domain adds only constants by itself: no hook, and no terms for variables. -/
structure AddsConstants (D : Domain O C) : Prop where
  custom : ∀ nodes i, D.custom nodes i = []
  varTerms : ∀ x, D.varTerms x = []

/-- Given the rules, the rule says that `t` equals `u`: in every algebra in which the rules hold and constants are folded rightly, it
holds exactly if the two have the same value for all values of the variables. -/
def Says [LinearOrder C] (D : Domain O C) (ar : O → Nat → Prop) (rules : Ruleset O) (q : Rule O) (t u : Tm O) : Prop :=
  ∀ (V : Type) (I : O → List V → V) (mem : Interval C → V → Prop), (∀ env, FoldsIn D ar (withVars env I) mem) →
    (∀ r ∈ Ruleset.iter rules, Holds I r) → (Holds I q ↔ ∀ env, tmVal env I t = tmVal env I u)

end Spec
end Ruler
