import Verif.Proofs.Conditional
import Verif.Props.Rational
/-!
# C62: conditional rules of the rational domain
-/
namespace Ruler
open Spec EGraph

variable {K : Type} [Field K] [LinearOrder K]

/-- The rule `l ==> (if d r l)`. -/
def Spec.guarded (r : Rule MathOp) (d : Pat MathOp) : Rule MathOp :=
  let rhs := .node .ite [d, r.rhs, r.lhs]
  ⟨ruleName r.lhs rhs, r.lhs, rhs⟩

theorem unique_ownDenominators {r : Rule MathOp} {d : Pat MathOp} :
    ownDenominators r = [d] ↔ ∀ e, OwnDenominator r.lhs r.rhs e ↔ e = d := by
  constructor
  · intro h e
    rw [← mem_ownDenominators, h, List.mem_singleton]
  · intro h
    have hn : (ownDenominators r).Nodup := nodup_dedup _
    have hm : ∀ e, e ∈ ownDenominators r ↔ e = d := fun e => mem_ownDenominators.trans (h e)
    cases hl : ownDenominators r with
    | nil => rw [hl] at hm; exact absurd ((hm d).2 rfl) (by simp)
    | cons a l =>
      rw [hl] at hm hn
      obtain rfl := (hm a).1 (by simp)
      cases l with
      | nil => rfl
      | cons b l =>
        obtain rfl := (hm b).1 (by simp)
        simp at hn

theorem OwnDenominator.vars {r : Rule MathOp} {d : Pat MathOp} (hb : ∀ v ∈ r.rhs.vars, v ∈ r.lhs.vars)
    (h : OwnDenominator r.lhs r.rhs d) : ∀ v ∈ d.vars, v ∈ r.lhs.vars :=
  h.elim (fun h => Denominator.vars h.1) fun h v hv => hb v (Denominator.vars h.1 v hv)

theorem guarded_new {r : Rule MathOp} {d : Pat MathOp} (hb : ∀ v ∈ r.rhs.vars, v ∈ r.lhs.vars)
    (h : OwnDenominator r.lhs r.rhs d) : Rule.new r.lhs (.node .ite [d, r.rhs, r.lhs]) = some (guarded r d) := by
  have : bindsAll r.lhs (.node .ite [d, r.rhs, r.lhs]) = true := by
    simp only [bindsAll, List.all_eq_true, decide_eq_true_eq, Pat.vars, Pat.varsL, List.append_nil, List.mem_append]
    rintro v (hv | hv | hv)
    · exact OwnDenominator.vars hb h v hv
    · exact hb v hv
    · exact hv
  simp [Rule.new, this, guarded]

/-- **C62** (the condition). `add_condition` does not panic on a rule whose variables are bound. If exactly one expression is a
denominator on one side of the rule and not on the other, the result is the rule `l ==> (if d r l)` with this denominator `d`,
otherwise there is no result. -/
theorem C62_condition {r : Rule MathOp} (hb : ∀ v ∈ r.rhs.vars, v ∈ r.lhs.vars) :
    (∀ d, (∀ e, OwnDenominator r.lhs r.rhs e ↔ e = d) → addCondition r = some (some (guarded r d))) ∧
    ((¬ ∃ d, ∀ e, OwnDenominator r.lhs r.rhs e ↔ e = d) → addCondition r = some none) := by
  constructor
  · intro d h
    rw [addCondition, unique_ownDenominators.2 h]
    simp only [guarded_new hb ((h d).2 rfl), Option.map_some]
  · intro h
    unfold addCondition
    split
    · rename_i d hd
      exact (h ⟨d, unique_ownDenominators.1 hd⟩).elim
    · rfl

theorem addCondition_some {r q : Rule MathOp} (h : addCondition r = some (some q)) :
    ∃ d, (∀ e, OwnDenominator r.lhs r.rhs e ↔ e = d) ∧ q = guarded r d := by
  unfold addCondition at h
  split at h
  · rename_i d hd
    refine ⟨d, unique_ownDenominators.1 hd, ?_⟩
    simp only [Option.map_eq_some_iff, Option.some.injEq, exists_eq_right] at h
    unfold Rule.new at h
    split at h
    · cases h; rfl
    · cases h
  · cases h

/-- The two sides of a conditional rule without other conditions are defined for the same values. -/
theorem C62_defined {r q : Rule MathOp} (h : addCondition r = some (some q)) (hl : MathPat r.lhs) (hr : MathPat r.rhs)
    (il : OnlyOps (· ≠ MathOp.ite) r.lhs) (ir : OnlyOps (· ≠ MathOp.ite) r.rhs) (ρ : String → K) :
    (∃ v, ratVal ρ q.lhs = some v) ↔ ∃ v, ratVal ρ q.rhs = some v := by
  obtain ⟨d, hd, rfl⟩ := addCondition_some h
  have e1 := ratVal_defined ρ hl il
  have e2 := ratVal_defined ρ hr ir
  show (∃ v, ratVal ρ r.lhs = some v) ↔ ∃ v, ratVal ρ (.node .ite [d, r.rhs, r.lhs]) = some v
  rw [ratVal_ite]
  have both : ∀ e, e ≠ d → (Denominator e r.lhs ↔ Denominator e r.rhs) := fun e he => by
    have := (hd e).not.2 he
    unfold OwnDenominator at this
    tauto
  have sub : ∀ {p : Pat MathOp}, Denominator d p → ∀ e, Denominator e d → Denominator e p := by
    intro p hp
    induction hp with
    | here => exact fun e he => .inside (by simp) he
    | inside hm _ ih => exact fun e he => .inside hm (ih e he)
  have irr : ¬ Denominator d d := fun h => by
    have size : ∀ {p : Pat MathOp}, Denominator d p → sizeOf d < sizeOf p := by
      intro p hp
      induction hp with
      | here => simp; omega
      | inside hm _ ih => have := List.sizeOf_lt_of_mem hm; simp; omega
    exact Nat.lt_irrefl _ (size h)
  have id' : MathPat d ∧ OnlyOps (· ≠ MathOp.ite) d := by
    have : ∀ {p : Pat MathOp}, Denominator d p → OnlyOps (· ≠ MathOp.ite) p → OnlyOps (· ≠ MathOp.ite) d := by
      intro p hp
      induction hp with
      | here => intro h; cases h with | node _ h => exact h _ (by simp)
      | inside hm _ ih => intro h; cases h with | node _ h => exact ih (h _ hm)
    rcases (hd d).2 rfl with ⟨h, -⟩ | ⟨h, -⟩
    · exact ⟨Denominator.mathPat h hl, this h il⟩
    · exact ⟨Denominator.mathPat h hr, this h ir⟩
  have e3 := ratVal_defined ρ id'.1 id'.2
  constructor
  · intro hv
    have hv' := e1.1 hv
    obtain ⟨v, hv⟩ := hv
    -- the denominator is defined
    have dd : ∃ c, ratVal ρ d = some c := e3.2 fun e he => by
      have hne : e ≠ d := fun h => irr (h ▸ he)
      rcases (hd d).2 rfl with ⟨h, -⟩ | ⟨h, -⟩
      · exact hv' e (sub h e he)
      · exact hv' e ((both e hne).2 (sub h e he))
    obtain ⟨c, hc⟩ := dd
    rw [hc]
    by_cases h0 : c = 0
    · exact ⟨v, by simp [h0, hv]⟩
    · simp only [Option.bind_some, if_neg h0]
      refine e2.2 fun e he => ?_
      by_cases hne : e = d
      · subst hne; exact ⟨c, hc, h0⟩
      · exact hv' e ((both e hne).2 he)
  · rintro ⟨v, hv⟩
    obtain ⟨c, hc, hv⟩ := Option.bind_eq_some_iff.1 hv
    by_cases h0 : c = 0
    · rw [if_pos h0] at hv
      exact ⟨v, hv⟩
    · rw [if_neg h0] at hv
      have hr' := e2.1 ⟨v, hv⟩
      refine e1.2 fun e he => ?_
      by_cases hne : e = d
      · subst hne; exact ⟨c, hc, h0⟩
      · exact hr' e ((both e hne).1 he)

/-- **C62** (conditional rules are exact). For rules without `if`: the two sides of the conditional rule are the same partial
function of the variables if and only if the two sides of the original rule are equal wherever both are defined. -/
theorem C62_exact {r q : Rule MathOp} (h : addCondition r = some (some q)) (hl : MathPat r.lhs) (hr : MathPat r.rhs)
    (il : OnlyOps (· ≠ MathOp.ite) r.lhs) (ir : OnlyOps (· ≠ MathOp.ite) r.rhs) :
    SameFunction K q.lhs q.rhs ↔ EqualWhereDefined K r.lhs r.rhs := by
  have hdef := fun ρ => C62_defined (K := K) h hl hr il ir ρ
  obtain ⟨d, hd, rfl⟩ := addCondition_some h
  have e : ∀ ρ : String → K, ratVal ρ (guarded r d).rhs =
      (ratVal ρ d).bind fun c => if c = 0 then ratVal ρ r.lhs else ratVal ρ r.rhs := fun ρ => ratVal_ite ρ d _ _
  constructor
  · intro hs ρ a b ha hb
    have hne : ∃ c, ratVal ρ d = some c ∧ c ≠ 0 := by
      rcases (hd d).2 rfl with ⟨h, -⟩ | ⟨h, -⟩
      · exact (ratVal_defined ρ hl il).1 ⟨a, ha⟩ d h
      · exact (ratVal_defined ρ hr ir).1 ⟨b, hb⟩ d h
    obtain ⟨c, hc, h0⟩ := hne
    have := hs ρ
    rw [e, hc, Option.bind_some, if_neg h0, hb] at this
    rw [show (guarded r d).lhs = r.lhs from rfl, ha] at this
    exact Option.some.inj this
  · intro hs ρ
    have := hdef ρ
    rw [e] at this ⊢
    show ratVal ρ r.lhs = _
    rw [show (guarded r d).lhs = r.lhs from rfl] at this
    cases ha : ratVal ρ r.lhs with
    | none =>
      cases hb : (ratVal ρ d).bind fun c => if c = 0 then ratVal ρ r.lhs else ratVal ρ r.rhs with
      | none => rw [ha] at hb; exact hb.symm
      | some b => rw [hb, ha] at this; simp at this
    | some a =>
      obtain ⟨b, hb⟩ := this.1 ⟨a, ha⟩
      obtain ⟨c, hc, hb⟩ := Option.bind_eq_some_iff.1 hb
      rw [hc, Option.bind_some]
      by_cases h0 : c = 0
      · rw [if_pos h0]
      · rw [if_neg h0] at hb ⊢
        rw [hb, hs ρ a b ha hb]

/-- **C62** (conditional rules are not worse). For all rules: if the two sides of the original rule are equal wherever both are
defined, so are the two sides of the conditional rule. -/
theorem C62_equal {r q : Rule MathOp} (h : addCondition r = some (some q)) (he : EqualWhereDefined K r.lhs r.rhs) :
    EqualWhereDefined K q.lhs q.rhs := by
  obtain ⟨d, -, rfl⟩ := addCondition_some h
  intro ρ a b ha hb
  rw [show ratVal ρ (guarded r d).rhs = _ from ratVal_ite ρ d _ _] at hb
  obtain ⟨c, -, hb⟩ := Option.bind_eq_some_iff.1 hb
  by_cases h0 : c = 0
  · rw [if_pos h0] at hb
    exact Option.some.inj (ha.symm.trans hb)
  · rw [if_neg h0] at hb
    exact he ρ a b ha hb

namespace Sample

/-- `(* (/ ?a ?b) ?b) ==> ?a` -/
def cancel : Rule MathOp :=
  let l := .node .mul [.node .div [.var "?a", .var "?b"], .var "?b"]
  ⟨ruleName l (.var "?a"), l, .var "?a"⟩
/-- `(/ (/ ?a ?b) ?c) ==> (/ ?a (* ?b ?c))` -/
def nestedDiv : Rule MathOp :=
  let l := .node .div [.node .div [.var "?a", .var "?b"], .var "?c"]
  let r := .node .div [.var "?a", .node .mul [.var "?b", .var "?c"]]
  ⟨ruleName l r, l, r⟩
/-- `(if ?e (/ ?a ?e) ?f) ==> (* (/ ?a ?e) (/ ?f ?f))` -/
def branching : Rule MathOp :=
  let l := .node .ite [.var "?e", .node .div [.var "?a", .var "?e"], .var "?f"]
  let r := .node .mul [.node .div [.var "?a", .var "?e"], .node .div [.var "?f", .var "?f"]]
  ⟨ruleName l r, l, r⟩

theorem cancel_pats : MathPat cancel.lhs ∧ MathPat cancel.rhs ∧ OnlyOps (· ≠ MathOp.ite) cancel.lhs ∧
    OnlyOps (· ≠ MathOp.ite) cancel.rhs := by
  have a : MathPat (.var "?a") := .var rfl
  have b : MathPat (.var "?b") := .var rfl
  refine ⟨.node rfl (by simp) ?_, a, .node (by simp) ?_, .var _⟩
  · rintro p hp
    simp only [List.mem_cons, List.not_mem_nil, or_false] at hp
    rcases hp with rfl | rfl
    · exact .node rfl (by simp) (by simp [a, b])
    · exact b
  · rintro p hp
    simp only [List.mem_cons, List.not_mem_nil, or_false] at hp
    rcases hp with rfl | rfl
    · exact .node (by simp) (by simp [OnlyOps.var])
    · exact .var _

end Sample

-- The rule gets the condition, the two sides of the result are the same function; those of the original are not.
example : addCondition Sample.cancel = some (some (guarded Sample.cancel (.var "?b"))) ∧
    (guarded Sample.cancel (.var "?b")).name = "(* (/ ?a ?b) ?b) ==> (if ?b ?a (* (/ ?a ?b) ?b))".toList :=
  ⟨by decide +kernel, by decide +kernel⟩
example : SameFunction Rat (guarded Sample.cancel (.var "?b")).lhs (guarded Sample.cancel (.var "?b")).rhs ∧
    ¬ SameFunction Rat Sample.cancel.lhs Sample.cancel.rhs := by
  have h : addCondition Sample.cancel = some (some (guarded Sample.cancel (.var "?b"))) := by decide +kernel
  obtain ⟨h1, h2, h3, h4⟩ := Sample.cancel_pats
  refine ⟨(C62_exact h h1 h2 h3 h4).2 fun ρ a b ha hb => ?_, fun hs => ?_⟩
  · simp only [Sample.cancel, ratVal, patVal, patValL, mathOpVal] at ha hb
    split_ifs at ha with h0
    simp only [Option.some.injEq] at ha hb
    rw [← ha, ← hb, div_mul_cancel₀ _ h0]
  · have := hs fun _ => 0
    simp [Sample.cancel, ratVal, patVal, patValL, mathOpVal] at this
-- Two denominators on the left only and one on the right only: no rule.
example : addCondition Sample.nestedDiv = some none ∧ (ownDenominators Sample.nestedDiv).length = 3 :=
  ⟨by decide +kernel, by decide +kernel⟩

/-- **C62** (rules with `if`). `C62_exact` fails for rules that have conditions already: the two sides of
`(if ?e (/ ?a ?e) ?f) ==> (* (/ ?a ?e) (/ ?f ?f))` are equal wherever both are defined, but the rule with the condition turns a
defined expression into an undefined one. -/
theorem C62_if (K : Type) [Field K] [LinearOrder K] : ∃ r q : Rule MathOp, Rule.Proper r ∧ MathPat r.lhs ∧ MathPat r.rhs ∧
    addCondition r = some (some q) ∧ EqualWhereDefined K r.lhs r.rhs ∧
    ∃ (ρ : String → K) (v : K), ratVal ρ q.lhs = some v ∧ ratVal ρ q.rhs = none := by
  have a : MathPat (.var "?a") := .var rfl
  have e : MathPat (.var "?e") := .var rfl
  have f : MathPat (.var "?f") := .var rfl
  have ae : MathPat (.node .div [.var "?a", .var "?e"]) := .node rfl (by simp) (by simp [a, e])
  have ff : MathPat (.node .div [.var "?f", .var "?f"]) := .node rfl (by simp) (by simp [f])
  refine ⟨Sample.branching, guarded Sample.branching (.var "?f"), ⟨rfl, by decide +kernel⟩, .node rfl (by simp) ?_,
    .node rfl (by simp) ?_, by decide +kernel, ?_, fun x => if x = "?e" then 0 else 1, 1, ?_, ?_⟩
  · simp only [List.mem_cons, List.not_mem_nil, or_false]
    rintro p (rfl | rfl | rfl) <;> assumption
  · simp only [List.mem_cons, List.not_mem_nil, or_false]
    rintro p (rfl | rfl) <;> assumption
  · intro ρ x y hx hy
    simp only [Sample.branching, ratVal, patVal, patValL, mathOpVal] at hx hy
    by_cases he : ρ "?e" = 0
    · simp [he] at hy
    · by_cases hf : ρ "?f" = 0
      · simp [he, hf] at hy
      · simp only [he, hf, if_false, Option.some.injEq] at hx hy
        rw [← hx, ← hy, div_self hf, mul_one]
  · simp [guarded, Sample.branching, ratVal, patVal, patValL, mathOpVal]
  · simp [guarded, Sample.branching, ratVal, patVal, patValL, mathOpVal]

/-! ## Runs -/

theorem addConditions_mem : ∀ {l : List (Rule MathOp)} {acc out : Ruleset MathOp}, WellFormed acc → addConditions l acc = some out →
    WellFormed out ∧ (∀ q ∈ Ruleset.iter out, q ∈ Ruleset.iter acc ∨ ∃ c ∈ l, addCondition c = some (some q)) ∧
    (∀ n, Named acc n → Named out n) ∧ ∀ c ∈ l, ∀ q, addCondition c = some (some q) → Named out q.name
  | [], acc, out, hw, h => by
    cases h
    exact ⟨hw, fun q hq => .inl hq, fun _ => id, by simp⟩
  | r :: l, acc, out, hw, h => by
    rw [addConditions] at h
    split at h
    · cases h
    · rename_i hr
      obtain ⟨h1, h2, h3, h4⟩ := addConditions_mem hw h
      refine ⟨h1, fun q hq => (h2 q hq).imp_right fun ⟨c, hc, e⟩ => ⟨c, List.mem_cons_of_mem _ hc, e⟩, h3, fun c hc q hq => ?_⟩
      rcases List.mem_cons.1 hc with rfl | hc
      · rw [hr] at hq; cases hq
      · exact h4 c hc q hq
    · rename_i q0 hr
      obtain ⟨h1, h2, h3, h4⟩ := addConditions_mem (Ruleset.WellFormed.add hw q0) h
      refine ⟨h1, fun q hq => ?_, fun n hn => h3 n ((named_add hw).2 (.inl hn)), fun c hc q hq => ?_⟩
      · rcases h2 q hq with hq | ⟨c, hc, e⟩
        · rcases mem_add hq with hq | rfl
          · exact .inl hq
          · exact .inr ⟨r, by simp, hr⟩
        · exact .inr ⟨c, List.mem_cons_of_mem _ hc, e⟩
      · rcases List.mem_cons.1 hc with rfl | hc
        · rw [hr] at hq
          cases hq
          exact h3 _ ((named_add hw).2 (.inr rfl))
        · exact h4 c hc q hq

section
variable {C : Type} [LinearOrder C] {D : Domain MathOp C} {R : RunEnv MathOp C} {M : MinEnv MathOp} {w : Workload}
  {prior out : Ruleset MathOp} {limits : Limits} {fast : Bool} {log : CondLog}

/-- The stages of a run. -/
theorem runWorkloadConditional_some (h : runWorkloadConditional D R M w prior limits fast = some (out, log)) :
    ∃ g g' cands chosen conditional chosen2 inv2, w.toEGraph D R.build = some g ∧
      Scheduler.run D R.eg R.isSat (.compress limits) prior R.tr g = some g' ∧
      (if fast then fastCvecMatch g' (R.order g') (R.best g') else cvecMatch g' (R.order g') (R.best g')) = some cands ∧
      Ruleset.minimize D { R.min with sched := .compress limits } cands.length cands prior = .done chosen log.invalid log.asked ∧
      addConditions (Ruleset.iter log.invalid) [] = some conditional ∧
      Ruleset.minimize D { M with sched := .compress limits } conditional.length conditional (Ruleset.extend prior chosen) =
        .done chosen2 inv2 log.askedConditional ∧ out = Ruleset.extend chosen chosen2 := by
  unfold runWorkloadConditional at h
  obtain ⟨g, hg, h⟩ := Option.bind_eq_some_iff.1 h
  obtain ⟨g', hg', h⟩ := Option.bind_eq_some_iff.1 h
  obtain ⟨cands, hc, h⟩ := Option.bind_eq_some_iff.1 h
  split at h
  · rename_i chosen inv a hm
    obtain ⟨cond, hcond, h⟩ := Option.bind_eq_some_iff.1 h
    split at h
    · rename_i chosen2 inv2 a2 hm2
      cases h
      exact ⟨g, g', cands, chosen, cond, chosen2, inv2, hg, hg', hc, hm, hcond, hm2, rfl⟩
    · cases h
  · cases h

/-- **C62** (runs return valid new rules). Every rule that `run_workload_conditional` returns is named by its two sides, has its
variables bound, has not the name of a prior rule, and was accepted by the validator: in the first selection, or in the second
one, and then it is an invalid candidate with a condition (or the other direction of such a rule). -/
theorem C62_run (hp : WellFormed prior) (h : runWorkloadConditional D R M w prior limits fast = some (out, log)) :
    WellFormed out ∧ ∀ q ∈ Ruleset.iter out, Rule.Proper q ∧ ¬ Named prior q.name ∧
      (Answered R.min.valid log.asked true q ∨ Answered M.valid log.askedConditional true q ∧
        ∃ c ∈ Ruleset.iter log.invalid, ∃ q', addCondition c = some (some q') ∧
          (q = q' ∨ q.lhs = q'.rhs ∧ q.rhs = q'.lhs)) := by
  obtain ⟨g, g', cands, chosen, cond, chosen2, inv2, -, -, hc, hm, hcond, hm2, rfl⟩ := runWorkloadConditional_some h
  obtain ⟨hw, hpr⟩ := cands_wf hc
  obtain ⟨w1, h1⟩ := C22_validated hw hp hm
  obtain ⟨wc, hmem, -, -⟩ := addConditions_mem Ruleset.WellFormed.nil hcond
  obtain ⟨w2, h2⟩ := C22_validated wc (Ruleset.WellFormed.extend hp w1) hm2
  have hinv := (C22_invalid hw hp hm).2
  refine ⟨Ruleset.WellFormed.extend w1 w2, fun q hq => ?_⟩
  have cond_of : ∀ q' ∈ Ruleset.iter cond, ∃ c ∈ Ruleset.iter log.invalid, addCondition c = some (some q') := by
    intro q' hq'
    rcases hmem q' hq' with h | h
    · simp [Ruleset.iter] at h
    · exact h
  rcases mem_extend_rules hq with hq | hq
  · obtain ⟨ha, hcand, hn⟩ := h1 q hq
    refine ⟨?_, hn, .inl ha⟩
    rcases hcand with hcand | ⟨-, c, -, -, -, hprop⟩
    · exact hpr q hcand
    · exact hprop
  · obtain ⟨ha, hcand, hn⟩ := h2 q hq
    rw [named_extend hp w1, not_or] at hn
    rcases hcand with hcand | ⟨-, q', hq', e1, e2, hprop⟩
    · obtain ⟨c, hc', e⟩ := cond_of q hcand
      refine ⟨?_, hn.1, .inr ⟨ha, c, hc', q, e, .inl rfl⟩⟩
      have hbind : ∀ v ∈ c.rhs.vars, v ∈ c.lhs.vars := by
        obtain ⟨c0, h0, rfl | e0⟩ := hinv c hc'
        · exact (hpr _ h0).2
        · exact (new_sides e0).2.2.2
      obtain ⟨d, hd, rfl⟩ := addCondition_some e
      exact (new_sides (guarded_new hbind ((hd d).2 rfl))).2.2
    · obtain ⟨c, hc', e⟩ := cond_of q' hq'
      exact ⟨hprop, hn.1, .inr ⟨ha, c, hc', q', e, .inr ⟨e1, e2⟩⟩⟩

/-- **C62** (soundness). If the validator is that of the rational domain with a solver that is right about a linearly ordered
field, the two sides of every returned rule have equal values in it wherever both are defined. -/
theorem C62_sound [IsStrictOrderedRing K] {check : SmtFm Rat → SatResult} (hc : SolverSoundReal K check)
    (hv : ∀ before q, R.min.valid before q = true ∨ M.valid before q = true →
      ∃ l r, FlatOf l q.lhs ∧ FlatOf r q.rhs ∧ ratValidate check l r = some .valid)
    (hp : WellFormed prior) (h : runWorkloadConditional D R M w prior limits fast = some (out, log)) :
    ∀ q ∈ Ruleset.iter out, MathPat q.lhs → MathPat q.rhs → EqualWhereDefined K q.lhs q.rhs := by
  intro q hq hl hr
  have : ∃ before, R.min.valid before q = true ∨ M.valid before q = true := by
    rcases ((C62_run hp h).2 q hq).2.2 with ⟨b, -, ha⟩ | ⟨⟨b, -, ha⟩, -⟩
    · exact ⟨b, .inl ha⟩
    · exact ⟨b, .inr ha⟩
  obtain ⟨before, ha⟩ := this
  obtain ⟨l, r, fl, fr, hval⟩ := hv before q ha
  exact fun ρ a b => C49_equal check hc l r q.lhs q.rhs fl fr hl hr hval ρ a b

/-- **C62** (nothing is lost). For every invalid candidate that gets a condition there is a rule with the name of the conditional
rule which is prior, or returned, or was rejected by the validator, or was discarded because its sides were equal in an e-graph
saturated with prior and returned rules. -/
theorem C62_covered (hp : WellFormed prior) (h : runWorkloadConditional D R M w prior limits fast = some (out, log))
    {c q : Rule MathOp} (hc : c ∈ Ruleset.iter log.invalid) (hq : addCondition c = some (some q)) :
    Named prior q.name ∨ Named out q.name ∨ ∃ q' : Rule MathOp, q'.name = q.name ∧
      (Answered M.valid log.askedConditional false q' ∨ ∃ (round : Nat) (cs ch rest : Ruleset MathOp),
        Ruleset.shrink D (M.eg round) M.isSat (.compress limits) (M.tr round) cs ch = some rest ∧
        q' ∈ Ruleset.iter cs ∧ q' ∉ Ruleset.iter rest ∧ ∀ p ∈ Ruleset.iter ch, Named prior p.name ∨ Named out p.name) := by
  obtain ⟨g, g', cands, chosen, cond, chosen2, inv2, -, -, hc', hm, hcond, hm2, rfl⟩ := runWorkloadConditional_some h
  obtain ⟨hw, hpr⟩ := cands_wf hc'
  obtain ⟨w1, -⟩ := C22_validated hw hp hm
  obtain ⟨wc, hmem, -, hall⟩ := addConditions_mem Ruleset.WellFormed.nil hcond
  obtain ⟨w2, h2⟩ := C22_validated wc (Ruleset.WellFormed.extend hp w1) hm2
  obtain ⟨q', hq', hname⟩ := hall c hc q hq
  have conv : ∀ n, Named (Ruleset.extend prior chosen) n ∨ Named chosen2 n →
      Named prior n ∨ Named (Ruleset.extend chosen chosen2) n := fun n hn => by
    rw [named_extend hp w1] at hn
    rw [named_extend w1 w2]
    tauto
  rw [← hname]
  rcases C23_covered wc (Ruleset.WellFormed.extend hp w1) hm2 q' hq' with h | h | ⟨h, -⟩ | ⟨k, cs, ch, rest, e1, e2, e3, e4⟩
  · rcases conv _ (.inl h) with h | h
    · exact .inl h
    · exact .inr (.inl h)
  · rcases conv _ (.inr h) with h | h
    · exact .inl h
    · exact .inr (.inl h)
  · exact .inr (.inr ⟨q', rfl, .inl h⟩)
  · exact .inr (.inr ⟨q', rfl, .inr ⟨k, cs, ch, rest, e1, e2, e3, fun p hp => conv _ (e4 p hp)⟩⟩)

end

end Ruler
