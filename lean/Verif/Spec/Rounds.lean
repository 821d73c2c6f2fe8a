import Verif.Spec.Saturated
import Verif.Model.Minimize
/-!
# The rounds of `minimize`
-/
namespace Ruler
namespace Spec
open EGraph
variable {O C : Type} [Lang O] [LinearOrder C]

/-- The states of the loop of `minimize`: number of the round, candidates, chosen rules, rules asked about, invalid rules. -/
inductive Visits (D : Domain O C) (M : MinEnv O) (cands prior : Ruleset O) : Nat → Ruleset O → Ruleset O → List (Rule O) → Ruleset O → Prop
  | start : Visits D M cands prior 0 cands prior [] []
  | next {k : Nat} {cs ch inv rest : Ruleset O} {asked : List (Rule O)} : Visits D M cands prior k cs ch asked inv → cs ≠ [] →
      Ruleset.shrink D (M.eg k) M.isSat M.sched (M.tr k) (Ruleset.select M.score M.valid 1 cs asked inv).1
        (Ruleset.extend ch (Ruleset.select M.score M.valid 1 cs asked inv).2.selected) = some rest →
      Visits D M cands prior (k + 1) rest (Ruleset.extend ch (Ruleset.select M.score M.valid 1 cs asked inv).2.selected)
        (Ruleset.select M.score M.valid 1 cs asked inv).2.asked (Ruleset.select M.score M.valid 1 cs asked inv).2.invalid

/-- In every round running the rules chosen so far on the remaining candidates saturates within the limits. -/
def RoundsSaturate (D : Domain O C) (M : MinEnv O) (lim : Limits) (cands prior : Ruleset O) : Prop :=
  ∀ k cs ch asked inv, Visits D M cands prior k cs ch asked inv → cs ≠ [] → ∀ g l out,
    insertSides D (M.eg k) (Ruleset.iter (Ruleset.select M.score M.valid 1 cs asked inv).1) EGraph.empty = some (g, l) →
    Scheduler.run D (M.eg k) M.isSat (.simple lim) (Ruleset.extend ch (Ruleset.select M.score M.valid 1 cs asked inv).2.selected) (M.tr k) g =
      some out →
    Saturated D (M.eg k) (· ∈ Ruleset.iter (Ruleset.extend ch (Ruleset.select M.score M.valid 1 cs asked inv).2.selected)) out

end Spec
end Ruler
