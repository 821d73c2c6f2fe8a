import Verif.Props.RuleSize
import Verif.Props.CompleteRuns
/-!
# C74: example
-/
namespace Ruler
open Spec

-- The search over one variable from eleven rules up to three atoms finds two more rules, with at most three atoms each.
example : ∃ out log, recursiveRules boolDomain (fun _ => Sample.unitEnv) .atoms (boolLangOf ["x"]) (Ruleset.addAll [] Sample.unitRules)
      3 = some (out, log) ∧ out.length = 13 ∧
    ∀ q ∈ Ruleset.iter out, q ∈ Ruleset.iter (Ruleset.addAll [] Sample.unitRules) ∨ RuleWithin 3 q := by
  have key : (recursiveRules boolDomain (fun _ => Sample.unitEnv) .atoms (boolLangOf ["x"]) (Ruleset.addAll [] Sample.unitRules) 3).map
    (fun r => r.1.length) = some 13 := by decide +kernel
  obtain ⟨⟨out, log⟩, h, hl⟩ := Option.map_eq_some_iff.1 key
  exact ⟨out, log, h, hl, C74_recursive boolDomain_flat (fun _ => ⟨rfl, trivial⟩) (fun _ => Sample.unitEnv_ok)
    (fun _ _ hg _ hi => Sample.unitEnv_small hg hi) (langCheck_ok (by decide +kernel)) Sample.unitRules_ok.named 3 h⟩

-- Not true of all domains: numbers are built from `Z` and `S` in tests/nat.rs.
example (rnd : Nat → Nat → Nat) : ¬ FlatConstants (natDomain rnd) := fun h => by
  have := h.const 1 _ rfl
  revert this
  decide

end Ruler
