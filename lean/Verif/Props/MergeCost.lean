import Verif.Props.Analysis
import Verif.Props.Extract
import Verif.Model.DomPos
/-!
# C37: the stored expression after joining
-/
namespace Ruler
open Spec
variable {O C : Type} [Lang O] [LinearOrder C]

/-- **C37 (stored expression).** If one of the two stored expressions uses only operators allowed in rules, the stored expression of the result does
too, and it is not larger (sizes below the largest machine number). -/
theorem C37_simplest (tgt frm r : Signature O C) (fa fb : Bool) (h : mergeSig tgt frm = some (r, fa, fb)) {t u : Tm O} (hr : r.simplest.tree = some t)
    (hu : tgt.simplest.tree = some u ∨ frm.simplest.tree = some u) (hal : AllAllowed u) (hsz : tmSize u < usizeMax) :
    AllAllowed t ∧ tmSize t ≤ tmSize u := by
  have hcost : ∀ {e : RecExpr O} {t : Tm O}, e.tree = some t → simplestCost e = some (Tm.fold extractableCost t) := by
    intro e t he
    rw [simplestCost, RecExpr.run_eq_tree, he]
    rfl
  have hle : Tm.fold extractableCost t ≤ Tm.fold extractableCost u := by
    unfold mergeSig at h
    rw [Option.bind_eq_some_iff] at h
    obtain ⟨_, _, h⟩ := h
    rw [Option.bind_eq_some_iff] at h
    obtain ⟨_, _, h⟩ := h
    rw [Option.bind_eq_some_iff] at h
    obtain ⟨cf, hcf, h⟩ := h
    rw [Option.map_eq_some_iff] at h
    obtain ⟨ct, hct, h⟩ := h
    simp only [Prod.mk.injEq] at h
    obtain ⟨rfl, _, _⟩ := h
    have hr := hcost hr
    by_cases hlt : cf < ct
    · simp only [hlt, decide_true, if_true] at hr
      rcases hu with hu | hu
      all_goals { have := hcost hu; simp_all <;> omega }
    · simp only [hlt, decide_false, Bool.false_eq_true, if_false] at hr
      rcases hu with hu | hu
      all_goals { have := hcost hu; simp_all <;> omega }
  rw [(fold_extractable u).1 hal] at hle
  by_cases ht : AllAllowed t
  · rw [(fold_extractable t).1 ht] at hle
    exact ⟨ht, by omega⟩
  · rw [(fold_extractable t).2 ht] at hle
    omega

-- `Z` may not occur in rules, so `(+ a b)` is kept although it is larger.
example : (mergeSig (⟨[], [⟨PosOp.z, []⟩], ⟨none, none⟩⟩ : Signature PosOp Nat)
      ⟨[], [⟨.var "a", []⟩, ⟨.var "b", []⟩, ⟨.add, [0, 1]⟩], ⟨none, none⟩⟩).map (fun r => r.1.simplest) =
      some [⟨.var "a", []⟩, ⟨.var "b", []⟩, ⟨.add, [0, 1]⟩] ∧
    AllAllowed (.node PosOp.add [.node (.var "a") [], .node (.var "b") []]) :=
  ⟨by decide +kernel, .node rfl (by
    intro t ht
    simp only [List.mem_cons, List.not_mem_nil, or_false] at ht
    rcases ht with rfl | rfl <;> exact .node rfl (by simp))⟩

end Ruler
