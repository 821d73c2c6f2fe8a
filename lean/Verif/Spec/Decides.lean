import Verif.Spec.SatEnds
/-!
# Runs that end by themselves
-/
namespace Ruler
namespace Spec
open EGraph
variable {O C : Type} [Lang O] [LinearOrder C]

/-- The run was not cut off: in its last iteration all matches of all rules were applied, and afterwards there were as many ids as before, in the same
classes. (This is when egg stops with `StopReason::Saturated`.) -/
def RunsOut (D : Domain O C) (E : Egg) (rules : List (Rule O)) (t : RunTrace) (g : EGraph O C) : Prop :=
  ∃ ts it g1 g2, t.iters = ts ++ [it] ∧ runRules D E ts.length rules ⟨t.first, ts⟩ g = some g1 ∧ AllPicked rules g1 it ∧
    runOne D E rules g1 it = some g2 ∧ g2.n = g1.n ∧ ∀ i, i < g1.n → g2.find i = g1.find i

end Spec
end Ruler
