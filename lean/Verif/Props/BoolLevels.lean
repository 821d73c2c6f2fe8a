import Verif.Proofs.BoolLevels
import Verif.Proofs.BoolComplete
import Verif.Props.RuleSize
import Verif.Props.Complete
import Verif.Props.RecipeProgress
/-!
# C75: no level of the Boolean search is empty
-/
namespace Ruler
open Spec EGraph

namespace Levels

/-- If valid rules of size below `k` were enough for size `k`, the equation `t = u` would hold in the algebra. -/
theorem enough {vars : List String} (hL : LangOk (boolLangOf vars)) {E : Nat → RunEnv BoolOp Bool} (hE : ∀ k, RunOk boolDomain (E k))
    (hsmall : ∀ k g, AnyHistory boolDomain g → ∀ i ∈ g.classes, Least g tmSize i ((E k).best g i)) {n : Nat} (hn : n ≤ 4)
    {f : V3 → V3 → V3} (hf : AndOk f) (hc : check f n = true) {known : Ruleset BoolOp} {log : List (Nat × List (Rule BoolOp))}
    (h : recursiveRules boolDomain E .atoms (boolLangOf vars) [] n = some (known, log)) {t u : Tm BoolOp}
    (hp : Provable (fun q => q ∈ Ruleset.iter known ∨ q ∈ Ruleset.iter ([] : Ruleset BoolOp)) Decided t u) (env : String → V3) :
    Tm.fold (withVars env (val f)) t = Tm.fold (withVars env (val f)) u := by
  have hall := AllRules.recursive bool_typed hE hL (boolLang_uses vars)
    AllRules.nil h fun q hq _ _ _ => by
      rcases C64_recursive hE Ruleset.WellFormed.nil (fun r hr => by simp [Ruleset.iter] at hr) _ h q hq with h | h
      · simp [Ruleset.iter] at h
      · exact h.2.2
  refine provable_sound (fun r hr => ?_) (fun _ _ h => decided_val hf env h) hp
  have hr : r ∈ Ruleset.iter known := hr.resolve_right (by simp [Ruleset.iter])
  have hg := hall.sorted r hr
  have hw := (C74_recursive boolDomain_flat (fun _ => ⟨rfl, trivial⟩) hE hsmall hL Ruleset.WellFormed.nil n h r hr).resolve_left
    (by simp [Ruleset.iter])
  exact Holds.withVars hg.2.1 hg.2.2 (holds_small hn hc hg (hall.hold r hr).2 (hall.textual r hr).1.2 hw (hall.hold r hr).1) env

end Levels

/-- **C75.** With at least two variables, no level of `recursive_rules` over the Boolean language up to size five is without a new
rule, so its assertion cannot fail. -/
theorem C75_levels {vars : List String} (hL : LangOk (boolLangOf vars)) {x y : String} (hx : x ∈ vars) (hy : y ∈ vars) (hxy : x ≠ y)
    {E : Nat → RunEnv BoolOp Bool} (hE : ∀ k, RunOk boolDomain (E k))
    (hsmall : ∀ k g, AnyHistory boolDomain g → ∀ i ∈ g.classes, Least g tmSize i ((E k).best g i))
    (hval : ∀ k, BoolAnswers (E k).min.valid) {n : Nat} (hn : n ≤ 5) :
    ¬ EmptyLevel boolDomain E .atoms (boolLangOf vars) [] n := by
  intro h
  obtain ⟨k, known, log, hk, hkn, hrec, heq⟩ := C70_empty hL hE hsmall hval AllRules.nil h
  have fx : Formula (· ∈ vars) (.node (.var x) []) := .var hx
  have fy : Formula (· ∈ vars) (.node (.var y) []) := .var hy
  obtain rfl | rfl | rfl : k = 3 ∨ k = 4 ∨ k = 5 := by omega
  · have := Levels.enough hL hE hsmall (by omega) Levels.and3_ok Levels.check3 hrec (heq (.node .and [.node (.var x) [], .node (.var y) []])
      (.node .and [.node (.var y) [], .node (.var x) []]) (.and fx fy) (.and fy fx) (by simp [tmSize, tmSizeL, boolLit]) (by simp [tmSize, tmSizeL, boolLit])
      fun env => by rw [boolVal_and, boolVal_and, Bool.and_comm]) fun v => if v = x then (true, false, false) else (false, true, true)
    simp only [Tm.fold_node, List.map_cons, List.map_nil, withVars, Lang.toVar, hxy.symm, if_true, if_false] at this
    exact absurd this (by decide)
  · have := Levels.enough hL hE hsmall (by omega) Levels.and4_ok Levels.check4 hrec (heq (.node .and [.node (.var x) [], .node .not [.node (.var x) []]])
      (boolLit false) (.and fx (.not fx)) (.lit false) (by simp [tmSize, tmSizeL, boolLit]) (by simp [tmSize, tmSizeL, boolLit])
      fun env => by rw [boolVal_and, boolVal_not, Bool.and_not_self]; rfl) fun _ => (true, false, false)
    simp only [Tm.fold_node, List.map_cons, List.map_nil, withVars, Lang.toVar, boolLit] at this
    exact absurd this (by decide)
  · have := Levels.enough hL hE hsmall (by omega) Levels.and5_ok Levels.check5 hrec
      (heq (.node .not [.node .and [.node (.var x) [], .node (.var y) []]])
      (.node .or [.node .not [.node (.var x) []], .node .not [.node (.var y) []]]) (.not (.and fx fy)) (.or (.not fx) (.not fy)) (by simp [tmSize, tmSizeL, boolLit]) (by simp [tmSize, tmSizeL, boolLit])
      fun env => by rw [boolVal_not, boolVal_and, boolVal_or, boolVal_not, boolVal_not, Bool.not_and])
      fun v => if v = x then (true, false, false) else (true, true, false)
    simp only [Tm.fold_node, List.map_cons, List.map_nil, withVars, Lang.toVar, hxy.symm, if_true, if_false] at this
    exact absurd this (by decide)

/-- **C75.** The search of the Boolean recipe never panics: whatever egg has done, when the rebuilds go on long enough the search for
rules of up to five atoms returns. After it, `bool_rules` can only fail because its run on canonical terms found no rule. -/
theorem C75_bool {m n : Nat} (hm : m ≤ 5) (hn : 1 ≤ n) {E : Nat → Nat → RunEnv BoolOp Bool} (hE : ∀ i k, RunOk boolDomain (E i k))
    (hd : ∀ i k, RunEnv.Deep (E i k))
    (hsmall : ∀ k g, AnyHistory boolDomain g → ∀ i ∈ g.classes, Least g tmSize i ((E 0 k).best g i))
    (hval : ∀ k, BoolAnswers (E 0 k).min.valid) : ∃ E' : Nat → Nat → RunEnv BoolOp Bool,
      (∀ i k, RunEnv.Goes (E i k) (E' i k)) ∧ ∃ r1 log, recursiveRules boolDomain (E' 0) .atoms boolLang [] m = some (r1, log) ∧
        ((∃ out, boolRulesSized m n E' = some out) ∨
          ∃ w, boolCanon n = some w ∧ EmptyRun boolDomain (E' 1 0) w (Ruleset.extend [] r1)) := by
  obtain ⟨E', hg, h⟩ := C72_bool m n hn hE hd
  refine ⟨E', hg, ?_⟩
  rcases h with ⟨out, h⟩ | h | ⟨r1, log, w, h1, h2, h3⟩
  · have h' := h
    simp only [boolRulesSized, Option.bind_eq_bind, Option.bind_eq_some_iff, Option.pure_def, Option.some.injEq] at h'
    obtain ⟨⟨r5, log⟩, h5, -⟩ := h'
    exact ⟨r5, log, h5, .inl ⟨out, h⟩⟩
  · refine absurd h (C75_levels (vars := ["a", "b", "c"]) (x := "a") (y := "b") (langCheck_ok (by decide +kernel)) (by decide) (by decide)
      (by decide) (fun k => ?_) (fun k => ?_) (fun k => ?_) hm)
    all_goals obtain ⟨tr, mtr, -, -, e⟩ := hg 0 k; rw [e]
    · exact hE 0 k
    · exact hsmall k
    · exact hval k
  · exact ⟨r1, log, h1, .inr ⟨w, h2, h3⟩⟩

end Ruler
