import Verif.Spec.Saturation
import Verif.Spec.Ruleset
import Verif.Spec.Conditional
import Verif.Spec.Generalize
import Verif.Spec.RecipeTerms
import Verif.Spec.Synthesis
/-!
# Specification vocabulary for the rules that recipes return
-/
namespace Ruler
namespace Spec
variable {O C : Type} [Lang O]

/-- Only variables and operators from `S` occur in the term. -/
abbrev TmUses (S : O → Prop) (t : Tm O) : Prop := TmOk (fun o _ => S o ∨ (Lang.toVar o).isSome) t

/-- Only operators from `S` occur in the rule. -/
def RuleUses (S : O → Prop) (q : Rule O) : Prop := OnlyOps S q.lhs ∧ OnlyOps S q.rhs

/-- Only operators from `S` occur in the terms of the workload that can be read. -/
def WorkloadUses (S : O → Prop) (w : Workload) : Prop :=
  ∀ ss, w.force = some ss → ∀ s ∈ ss, ∀ t : Tm O, Tm.ofSexp s = some t → TmUses S t

/-- Only operators from `S` occur in the terms that the domain adds to e-graphs by itself. -/
structure FoldsInto (D : Domain O C) (S : O → Prop) : Prop where
  const : ∀ c t, D.mkConst c = some t → TmUses S t
  custom : ∀ nodes i, ∀ t ∈ D.custom nodes i, TmUses S t
  varTerms : ∀ x, ∀ t ∈ D.varTerms x, TmUses S t

variable [LinearOrder C] in
/-- What is needed of a domain for its rules to have the right number of arguments and operators from `S` only. -/
structure Typed (D : Domain O C) (ar : O → Nat → Prop) (S : O → Prop) : Prop where
  folds : FoldsSorted D ar
  into : FoldsInto D S
  vars : VarsOk (O := O) ar
  parses : ParsesSorted (O := O) ar
  readable : OpsReadable (O := O) ar

/-- The words of the language are variables or operators from `S`, if they can be read. -/
def LangUses (S : O → Prop) (L : RecipeLang) : Prop :=
  (∀ t, t ∈ L.vals ∨ t ∈ L.vars → ∀ o : O, Lang.fromOp (String.ofList t) 0 = some o → S o ∨ (Lang.toVar o).isSome) ∧
  ∀ i os, L.ops[i]? = some os → ∀ t ∈ os, ∀ o : O, Lang.fromOp (String.ofList t) (i + 1) = some o → S o ∨ (Lang.toVar o).isSome

/-- Rules with distinct names that can be read back from their text, are well-sorted, and have the property. -/
structure AllRules (ar : O → Nat → Prop) (P : Rule O → Prop) (rs : Ruleset O) : Prop where
  named : WellFormed rs
  textual : ∀ q ∈ Ruleset.iter rs, Rule.Textual q
  sorted : ∀ q ∈ Ruleset.iter rs, GoodRule ar q
  hold : ∀ q ∈ Ruleset.iter rs, P q

/-- The pattern has a value for all values of its variables. -/
def Total (K : Type) [Field K] [LinearOrder K] (p : Pat MathOp) : Prop := ∀ ρ : String → K, ∃ v, ratVal ρ p = some v

end Spec
end Ruler
