import Verif.Spec.Ruleset
import Verif.Model.Minimize
import Verif.Model.Candidates
/-!
# Rulesets that can be built through the API
-/
namespace Ruler
namespace Spec
variable {O C : Type} [Lang O] [LinearOrder C]

mutual
/-- Rules obtained from the constructors `Rule::new` and `Rule::from_string`, or taken out of a ruleset. -/
inductive BuiltRule (D : Domain O C) : Rule O → Prop
  | new {l r : Pat O} {q : Rule O} : Rule.new l r = some q → BuiltRule D q
  | fwd {s : List Char} {q : Rule O} {b : Option (Rule O)} : Rule.fromString s = some (some (q, b)) → BuiltRule D q
  | bwd {s : List Char} {q p : Rule O} : Rule.fromString s = some (some (p, some q)) → BuiltRule D q
  | taken {rs : Ruleset O} {q : Rule O} : Built D rs → q ∈ Ruleset.iter rs → BuiltRule D q
/-- Rulesets obtained by any sequence of calls of functions of `Ruleset` (src/enumo/ruleset.rs). -/
inductive Built (D : Domain O C) : Ruleset O → Prop
  | default : Built D []
  | new {vals : List (List Char)} {rs : Ruleset O} : Ruleset.new vals = some rs → Built D rs
  | fromFile {text : List Char} {rs : Ruleset O} : Ruleset.fromFile text = some rs → Built D rs
  | add {rs : Ruleset O} {q : Rule O} : Built D rs → BuiltRule D q → Built D (Ruleset.add rs q)
  | addAll {rs : Ruleset O} {qs : List (Rule O)} : Built D rs → (∀ q ∈ qs, BuiltRule D q) → Built D (Ruleset.addAll rs qs)
  | addFromTerms {rs rs' : Ruleset O} {s t : Tm O} : Built D rs → Ruleset.addFromTerms rs s t = some rs' → Built D rs'
  | union {a b : Ruleset O} : Built D a → Built D b → Built D (Ruleset.union a b)
  | extend {a b : Ruleset O} : Built D a → Built D b → Built D (Ruleset.extend a b)
  | removeAll {a b : Ruleset O} : Built D a → Built D b → Built D (Ruleset.removeAll a b)
  | partitionYes {rs : Ruleset O} (t : Ruleset.Split) (f : Rule O → Bool) : Built D rs → Built D (Ruleset.partition t f rs).1
  | partitionNo {rs : Ruleset O} (t : Ruleset.Split) (f : Rule O → Bool) : Built D rs → Built D (Ruleset.partition t f rs).2
  | cvecMatch {g : EGraph O C} {order : List Nat} {best : Nat → Tm O} {rs : Ruleset O} :
      cvecMatch g order best = some rs → Built D rs
  | fastCvecMatch {g : EGraph O C} {order : List Nat} {best : Nat → Tm O} {rs : Ruleset O} :
      fastCvecMatch g order best = some rs → Built D rs
  | extractCandidates {g2 : EGraph O C} {ids keys : List Nat} {best : Nat → Nat × Tm O} {rs : Ruleset O} :
      extractCandidates g2 ids keys best = some rs → Built D rs
  | minimized {M : MinEnv O} {fuel : Nat} {cands prior out inv : Ruleset O} {asked : List (Rule O)} :
      Built D cands → Built D prior → Ruleset.minimize D M fuel cands prior = .done out inv asked → Built D out
  | invalid {M : MinEnv O} {fuel : Nat} {cands prior out inv : Ruleset O} {asked : List (Rule O)} :
      Built D cands → Built D prior → Ruleset.minimize D M fuel cands prior = .done out inv asked → Built D inv
  | derivable {isSat : Rule O → Bool} {ty : DeriveType} {limits : Limits} {split : Ruleset.Split} {eg : Rule O → Egg}
      {tr : Rule O → SchedTrace} {rs against yes no : Ruleset O} :
      Built D against → Ruleset.derive D isSat ty limits split eg tr rs against = some (yes, no) → Built D yes
  | underivable {isSat : Rule O → Bool} {ty : DeriveType} {limits : Limits} {split : Ruleset.Split} {eg : Rule O → Egg}
      {tr : Rule O → SchedTrace} {rs against yes no : Ruleset O} :
      Built D against → Ruleset.derive D isSat ty limits split eg tr rs against = some (yes, no) → Built D no
end

end Spec
end Ruler
