import Verif.Props.Cad
import Verif.Proofs.MaxMin
import Verif.Spec.Complete
/-!
# C78: rules for maximum and minimum
-/
namespace Ruler
open Spec EGraph

theorem maxMinDomain_noFold : NoFold maxMinDomain := ⟨fun _ _ _ h => by cases h; rfl, fun _ _ => rfl, fun _ => rfl⟩

theorem maxMinVarsOk : VarsOk (O := MaxMinOp) AnySort := fun _ => ⟨rfl, trivial⟩

theorem all_provable {R : Rule MaxMinOp → Prop} (h1 : ∃ r, R r ∧ (r.lhs, r.rhs) = caseTrueSides)
    (h2 : ∃ r, R r ∧ (r.lhs, r.rhs) = caseReorderSides) (F : Tm MaxMinOp → Tm MaxMinOp → Prop) (t u : Tm MaxMinOp) :
    Provable R F t u := by
  obtain ⟨⟨n1, l1, r1⟩, h1, e1⟩ := h1
  obtain ⟨⟨n2, l2, r2⟩, h2, e2⟩ := h2
  simp only [caseTrueSides, caseReorderSides, Prod.mk.injEq] at e1 e2
  obtain ⟨rfl, rfl⟩ := e1
  obtain ⟨rfl, rfl⟩ := e2
  have first : ∀ a b : Tm MaxMinOp, Provable R F (.node .case [.node .true [], a, b]) a := fun a b => by
    have h := Provable.rule (F := F) (fun v => if v = "?t" then a else b) h1
    simp only [patInst, patInstL, if_true, if_neg (show ¬ "?rest" = "?t" by decide)] at h
    exact h
  have swap : Provable R F (.node .case [.node .true [], t, .node .case [.node .true [], u, u]])
      (.node .case [.node .true [], u, .node .case [.node .true [], t, u]]) := by
    have h := Provable.rule (F := F) (fun v => if v = "?t1" then t else if v = "?c1" ∨ v = "?c2" then .node .true [] else u) h2
    simp only [patInst, patInstL, if_true, String.reduceEq, if_false, or_true, true_or, or_self] at h
    exact h
  exact (first t _).symm.trans (swap.trans (first u _))

/-- **C78** (the prior is contradictory). The rules of tests/maxmin.rs are read without a panic, and every equation between any two
terms follows from them: `(case true t (case true u u))` is `t`, and, reordered, `u`. -/
theorem C78_inconsistent : ∃ expl prior : Ruleset MaxMinOp,
    Ruleset.new (MaxMinOp.exploratoryTexts.map String.toList) = some expl ∧
    Ruleset.new (MaxMinOp.natTexts.map String.toList) = some prior ∧
    ∀ t u : Tm MaxMinOp, Provable (· ∈ Ruleset.iter prior) (fun _ _ => False) t u := by
  obtain ⟨expl, h1, -, -⟩ := table_new maxMinExploratory_sides
  obtain ⟨prior, h2, h3⟩ := Option.map_eq_some_iff.1 maxMinNat_new
  rw [List.all_eq_true] at h3
  have key : ∀ s ∈ [caseTrueSides, caseReorderSides], ∃ r, r ∈ Ruleset.iter prior ∧ (r.lhs, r.rhs) = s := fun s hs => by
    obtain ⟨e, he, h⟩ := List.any_eq_true.1 (h3 s hs)
    exact ⟨e.2, List.mem_map_of_mem he, of_decide_eq_true h⟩
  exact ⟨expl, prior, h1, h2, all_provable (key _ (by simp)) (key _ (by simp)) _⟩

/-- **C78** (rule lifting). Whatever chain of fast-forwarding runs is made: a resulting rule not in the prior is between terms of maximum,
minimum, `cheat` and variables. -/
theorem C78_allowed {expl prior out : Ruleset MaxMinOp} (hp : WellFormed prior)
    {steps : List (FastStep MaxMinOp Rat)} (hs : ∀ st ∈ steps, StepOk maxMinDomain st)
    (h : fastRecipe maxMinDomain expl steps prior = some out) :
    ∀ q ∈ Ruleset.iter out, q ∈ Ruleset.iter prior ∨
      OnlyOps (fun o => o = .max ∨ o = .min ∨ o = .cheat ∨ ∃ x, o = .var x) q.lhs ∧
      OnlyOps (fun o => o = .max ∨ o = .min ∨ o = .cheat ∨ ∃ x, o = .var x) q.rhs := by
  have ha : ∀ o : MaxMinOp, Lang.allowed o = true → o = .max ∨ o = .min ∨ o = .cheat ∨ ∃ x, o = .var x := by
    intro o ho
    cases o <;> first | cases ho; done | simp
  induction steps generalizing prior with
  | nil =>
    cases h
    exact fun q hq => .inl hq
  | cons st steps ih =>
    obtain ⟨⟨rs, asked⟩, h1, h2⟩ := Option.bind_eq_some_iff.1 h
    obtain ⟨hb, hids⟩ := hs st (by simp)
    obtain ⟨hwf, hal⟩ := C53_allowed maxMinVarsOk hb hids hp h1
    intro q hq
    rcases ih (Ruleset.WellFormed.extend hp hwf) (fun st' h => hs st' (by simp [h])) h2 q hq with h | h
    · rcases mem_extend_rules h with h | h
      · exact .inl h
      · exact .inr ⟨(hal q h).1.ops ha, (hal q h).2.1.ops ha⟩
    · exact .inr h

/-- Comparing with a threshold turns maximum into disjunction and minimum into conjunction. -/
theorem threshold_val {α : Type} [LinearOrder α] (d t : α) (ρ : String → α) {p : Pat MaxMinOp} (ho : OnlyAllowed p) :
    decide (t ≤ patVal ρ (orderVal d) p) = patVal (fun v => decide (t ≤ ρ v)) (maxMinBool (decide (t ≤ d))) p := by
  induction ho with
  | var => rfl
  | @node o args h _ ih =>
    have hl : (patValL ρ (orderVal d) args).map (fun x => decide (t ≤ x)) =
        patValL (fun v => decide (t ≤ ρ v)) (maxMinBool (decide (t ≤ d))) args := by
      clear h
      induction args with
      | nil => rfl
      | cons a l ihl =>
        simp only [patValL, List.map_cons, ih a (by simp),
          ihl (fun b hb => ‹∀ b ∈ a :: l, OnlyAllowed b› b (by simp [hb])) fun b hb => ih b (by simp [hb])]
    rw [patVal, patVal, ← hl]
    generalize patValL ρ (orderVal d) args = l
    cases o <;> first | cases h; done | skip
    all_goals
      rcases l with _ | ⟨x, _ | ⟨y, _ | ⟨z, l⟩⟩⟩ <;> simp [orderVal, maxMinBool] <;>
        try rfl

theorem order_holds {α : Type} [LinearOrder α] (d : α) {r : Rule MaxMinOp} (h1 : OnlyAllowed r.lhs) (h2 : OnlyAllowed r.rhs)
    (h : ∀ b, Holds (maxMinBool b) r) : Holds (orderVal d) r := by
  have key : ∀ ρ t, t ≤ patVal ρ (orderVal d) r.lhs ↔ t ≤ patVal ρ (orderVal d) r.rhs := fun ρ t => by
    rw [← decide_eq_decide, threshold_val d t ρ h1, threshold_val d t ρ h2]
    exact h _ _
  exact fun ρ => le_antisymm ((key ρ _).1 le_rfl) ((key ρ _).2 le_rfl)

/-- **C78** (rule lifting, restricted prior). Whatever chain of fast-forwarding runs is made with exploratory rules of tests/maxmin.rs and a
prior of those of its rules that are right: every resulting rule not in the prior is an equation between terms of maximum, minimum,
`cheat` and variables that holds in every linearly ordered set.

Missing: the lines for reordering and pruning, with which this is false (`C78_inconsistent`), and the lines that mention the name of an
operator as a leaf. -/
theorem C78_order_partial {expl prior out : Ruleset MaxMinOp}
    {explLines lines : List String} (hel : ∀ t ∈ explLines, t ∈ MaxMinOp.exploratoryTexts)
    (he : Ruleset.new (explLines.map String.toList) = some expl)
    (hpl : ∀ t ∈ lines, t ∈ maxMinSound) (hp : Ruleset.new (lines.map String.toList) = some prior)
    {steps : List (FastStep MaxMinOp Rat)} (hs : ∀ st ∈ steps, StepOk maxMinDomain st)
    (h : fastRecipe maxMinDomain expl steps prior = some out) :
    ∀ q ∈ Ruleset.iter out, q ∈ Ruleset.iter prior ∨ ∀ (α : Type) [LinearOrder α] (d : α), Holds (orderVal d) q := by
  obtain ⟨m1, e1, s1⟩ := tableSides_subset maxMinExploratory_sides hel
  obtain ⟨m2, e2, s2⟩ := tableSides_subset maxMinSound_sides hpl
  obtain ⟨hw, hsides⟩ := table_sides e2 hp
  have sch : ∀ p ∈ maxMinSoundSides ++ maxMinExploratorySides, Schematic p.1 ∧ Schematic p.2 := fun p hp =>
    ⟨schematicB_sound _ (maxMinSound_schematic p hp).1, schematicB_sound _ (maxMinSound_schematic p hp).2⟩
  have key := fun d => (C57_recipe (I := maxMinBool d) (fun _ => NoFold.foldsIn maxMinDomain_noFold _ _) maxMinVarsOk
    (fun r hr =>
      have := List.mem_append_right maxMinSoundSides (s1 _ ((table_sides e1 he).2 r hr))
      ⟨sch _ this, maxMin_holds _ this d⟩) steps hs hw
    (fun r hr =>
      have := List.mem_append_left maxMinExploratorySides (s2 _ (hsides r hr))
      ⟨sch _ this, maxMin_holds _ this d⟩) h).2
  intro q hq
  rcases (key true q hq).2 with h | ⟨h1, h2⟩
  · exact .inl h
  · exact .inr fun α _ d => order_holds d h1 h2 fun b => (key b q hq).1

end Ruler
