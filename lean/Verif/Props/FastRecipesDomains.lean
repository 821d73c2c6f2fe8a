import Verif.Props.FastRecipes
import Verif.Props.RecipeWorkloads
import Verif.Props.TrigRun
import Verif.Proofs.Exp
/-!
# C71: the trigonometric and the exponential recipe
-/
namespace Ruler
open Spec EGraph
open scoped List

theorem mem_foundBy {O : Type} [Lang O] {runs : List (Ruleset O × List (Rule O))} {q : Rule O} (h : q ∈ foundBy runs) :
    ∃ (i : Nat) (r : Ruleset O × List (Rule O)), runs[i]? = some r ∧ q ∈ Ruleset.iter r.1 := by
  obtain ⟨r, hr, hq⟩ := List.mem_flatMap.1 h
  obtain ⟨i, hi⟩ := List.mem_iff_getElem?.1 hr
  exact ⟨i, r, hi, hq⟩

/-- What C71_runs says about the single rules. -/
theorem fastRuns_rules {O C : Type} [Lang O] [LinearOrder C] {D : Domain O C} (hv : VarsOk (O := O) fun _ _ => True)
    {expl : Ruleset O} {limits : Limits} {F : Nat → FastEnv O C} {ws : List Workload}
    (hF : ∀ i < ws.length, ExtractorOk D (F i).best ∧ ∀ g, ((F i).ids g).Perm g.classes) {all new out : Ruleset O}
    (ha : WellFormed all) (hn : WellFormed new) (hsub : ∀ q ∈ Ruleset.iter new, Named all q.name)
    (h : fastRuns D expl limits (ws.mapIdx fun i w => (F i, w)) all new = some out) :
    WellFormed out ∧ ∃ found, Ruleset.iter out = Ruleset.iter new ++ found ∧ ∀ q ∈ found, OnlyAllowed q.lhs ∧ OnlyAllowed q.rhs ∧
      Rule.Proper q ∧ ¬ Named all q.name ∧ ∃ i < ws.length, ∃ asked, Answered (F i).min.valid asked true q := by
  obtain ⟨ho, runs, hl, hout, hr⟩ := C71_runs hv (fun st hst => by
    obtain ⟨i, hi, rfl⟩ := List.mem_mapIdx.1 hst
    exact hF i hi) ha hn hsub h
  refine ⟨ho, _, hout, fun q hq => ?_⟩
  obtain ⟨i, r, hi, hq⟩ := mem_foundBy hq
  have hlt : i < ws.length := by
    have := (List.getElem?_eq_some_iff.1 hi).1
    rwa [hl, List.length_mapIdx] at this
  obtain ⟨known, found, asked, k1, k2, k3, -, k5⟩ := hr i (F i) ws[i] (by simp [hlt])
  rw [hi] at k1
  cases k1
  obtain ⟨a, b, c, d, e⟩ := k5 q hq
  refine ⟨a, b, d, fun hn => e ?_, i, hlt, asked, c⟩
  obtain ⟨x, hx, ex⟩ := hn
  exact ⟨x, by rw [k3]; exact List.mem_append_left _ hx, ex⟩

/-- **C71** (trigonometry). Every rule that `trig_rules` returns is found by one of its seven runs: it was accepted by that
run's validator, mentions neither `cis` nor `I` nor `sqr`, has the name that its sides give it, and a name that does not occur among the
rules of complex.rules and of `prior_rules`. In particular none of those is returned. -/
theorem C71_trig {expl out : Ruleset TrigOp} {F : Nat → FastEnv TrigOp Rat}
    (hF : ∀ i < 7, ExtractorOk trigDomain (F i).best ∧ ∀ g, ((F i).ids g).Perm g.classes)
    (h : trigRules expl F = some out) :
    ∃ complex prior : Ruleset TrigOp, Ruleset.new (TrigOp.complexTexts.map String.toList) = some complex ∧
      Ruleset.new (TrigOp.priorTexts.map String.toList) = some prior ∧ WellFormed out ∧
      ∀ q ∈ Ruleset.iter out, OnlyOps (fun o => o ≠ .cis ∧ o ≠ .imag ∧ o ≠ .sqr) q.lhs ∧
        OnlyOps (fun o => o ≠ .cis ∧ o ≠ .imag ∧ o ≠ .sqr) q.rhs ∧ Rule.Proper q ∧
        ¬ Named complex q.name ∧ ¬ Named prior q.name ∧ ∃ i < 7, ∃ asked, Answered (F i).min.valid asked true q := by
  simp only [trigRules, Option.bind_eq_bind, Option.bind_eq_some_iff] at h
  obtain ⟨complex, h1, prior, h2, ws1, e1, ws2, e2, h⟩ := h
  have w1 := (table_sides trigComplex_sides h1).1
  have w2 := (table_sides trigPrior_sides h2).1
  have l1 : ws1.length = 3 := by
    obtain ⟨⟨ws, k1, k2, -⟩, -⟩ := C66_trig
    rw [e1] at k1; cases k1; exact k2
  have l2 : ws2.length = 4 := by
    obtain ⟨-, ⟨ws, k1, k2, -⟩⟩ := C66_trig
    rw [e2] at k1; cases k1; exact k2
  have l : (ws1 ++ ws2).length = 7 := by simp [l1, l2]
  obtain ⟨ho, found, hout, hq⟩ := fastRuns_rules (fun _ => ⟨rfl, trivial⟩) (by rwa [l])
    (Ruleset.WellFormed.extend w1 w2) Ruleset.WellFormed.nil (by simp [Ruleset.iter]) h
  refine ⟨complex, prior, h1, h2, ho, fun q hq' => ?_⟩
  rw [hout] at hq'
  obtain ⟨a, b, c, d, e⟩ := hq q (by simpa [Ruleset.iter] using hq')
  rw [named_extend w1 w2, not_or] at d
  rw [l] at e
  have ha : ∀ o : TrigOp, Lang.allowed o = true → o ≠ .cis ∧ o ≠ .imag ∧ o ≠ .sqr := by
    rintro o h
    refine ⟨?_, ?_, ?_⟩ <;> rintro rfl <;> cases h
  exact ⟨a.ops ha, b.ops ha, c, d.1, d.2, e⟩

/-- **C71** (exponentials). `make_rules` returns the starting rules of tests/recipes/exponential.rs followed by the rules found by its six
runs. Each of the latter was accepted by its run's validator, has the name that its sides give it, and a name that does not occur
among the starting rules and the rational rules; no rational rule is returned, unless it is a starting rule too. -/
theorem C71_exp {expl out : Ruleset ExpOp} {F : Nat → FastEnv ExpOp Rat}
    (hF : ∀ i < 6, ExtractorOk expDomain (F i).best ∧ ∀ g, ((F i).ids g).Perm g.classes)
    (h : expRules expl F = some out) :
    ∃ (rational starting : Ruleset ExpOp) (found : List (Rule ExpOp)), Ruleset.new (ExpOp.rationalTexts.map String.toList) = some rational ∧
      Ruleset.new (ExpOp.startingTexts.map String.toList) = some starting ∧ WellFormed out ∧
      Ruleset.iter out = Ruleset.iter starting ++ found ∧
      ∀ q ∈ found, Rule.Proper q ∧ ¬ Named rational q.name ∧ ¬ Named starting q.name ∧
        ∃ i < 6, ∃ asked, Answered (F i).min.valid asked true q := by
  simp only [expRules, Option.bind_eq_bind, Option.bind_eq_some_iff] at h
  obtain ⟨starting, h1, rational, h2, ws, e1, h⟩ := h
  have w1 := (table_sides expStarting_sides h1).1
  have w2 := (table_sides expRational_sides h2).1
  have l : ws.length = 6 := by
    obtain ⟨ws', k1, k2, -⟩ := C66_exp
    rw [e1] at k1; cases k1; exact k2
  rw [extend_nil w1] at h
  obtain ⟨ho, found, hout, hq⟩ := fastRuns_rules (fun _ => ⟨rfl, trivial⟩) (by rwa [l])
    (Ruleset.WellFormed.extend w2 w1) w1 (fun q hq => (named_extend w2 w1).2 (.inr ⟨q, hq, rfl⟩)) h
  refine ⟨rational, starting, found, h2, h1, ho, hout, fun q hq' => ?_⟩
  obtain ⟨-, -, c, d, e⟩ := hq q hq'
  rw [named_extend w2 w1, not_or] at d
  rw [l] at e
  exact ⟨c, d.1, d.2, e⟩

/-! ## A recipe of two runs -/

namespace Sample

/-- The sums `(+ x y)` and `(+ y x)` twice: the second run knows what the first one found. -/
noncomputable def twoRuns : List (FastEnv NatOp Int × Workload) := [(ffEnv, sums), (ffEnv, sums)]

end Sample

-- The hypotheses hold for it, the first run finds two rules and the second one none.
example : RunsOk Sample.freeNat Sample.twoRuns ∧ VarsOk (O := NatOp) (fun _ _ => True) := by
  refine ⟨fun st hst => ?_, fun s => ⟨(Sample.natVarsOk s).1, trivial⟩⟩
  simp only [Sample.twoRuns, List.mem_cons, List.not_mem_nil, or_false, or_self] at hst
  rw [hst]
  exact ⟨fun g hg i hi => Sample.extracted_ok extractableCost_laws hg hi, fun _ => List.Perm.refl _⟩
example : (fastRuns Sample.freeNat Sample.commRules Sample.limits Sample.twoRuns [] []).map (·.map (·.1.length)) =
    some [23, 23] := by decide +kernel

end Ruler
