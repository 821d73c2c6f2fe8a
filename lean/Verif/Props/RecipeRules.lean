import Verif.Model.Recipes
import Verif.Proofs.RecipeRules
import Verif.Props.RecipeWorkloads
/-!
# Property C67: the rules that recipes return
-/
namespace Ruler
open Spec EGraph

/-! ## The operators of rules -/

section
variable {O C : Type} [Lang O] [LinearOrder C] {D : Domain O C} {ar : O → Nat → Prop} {S : O → Prop} {P : Rule O → Prop}

/-- **C67.** The rules that a run returns contain only operators of the workload, of the prior rules and of constant folding. -/
theorem C67_signature (hT : Typed D ar S) {R : RunEnv O C} (hR : RunOk D R) {w : Workload} (hw : WorkloadUses S w)
    {prior out : Ruleset O} {pl ml : Limits} {fast allowEmpty : Bool} {asked : List (Rule O)} (hp : WellFormed prior)
    (hpr : ∀ r ∈ Ruleset.iter prior, GoodRule ar r ∧ RuleUses S r)
    (h : runWorkloadInternal D R w prior pl ml fast allowEmpty = some (out, asked)) :
    ∀ q ∈ Ruleset.iter out, Rule.Textual q ∧ GoodRule ar q ∧ RuleUses S q ∧ Answered R.min.valid asked true q := by
  obtain ⟨g, g', cands, inv, hg, hg', hc, hm, -⟩ := runWorkloadInternal_some h
  obtain ⟨hord, hok⟩ := run_uses hT hR hw hpr hg hg'
  have htc : ∀ q ∈ Ruleset.iter cands, Rule.Textual q ∧ GoodRule (narrow ar S) q := fun q hq =>
    cands_textual (fun o k h => hT.readable o k h.1) hord hc hok hq
  intro q hq
  obtain ⟨ha, hcand, -⟩ := (C22_validated (cands_wf hc).1 hp hm).2 q hq
  obtain ⟨h1, h2⟩ := htc q (isCandidate_mem (fun r hr => (htc r hr).1) hcand)
  exact ⟨h1, goodRule_narrow h2, ruleUses_narrow h2, ha⟩

/-- **C67.** The same for all levels of `recursive_rules`, with the operators of the language. -/
theorem C67_signature_recursive (hT : Typed D ar S) {envs : Nat → RunEnv O C} (hR : ∀ k, RunOk D (envs k)) {metric : Metric}
    {lang : RecipeLang} (hL : LangOk lang) (hu : LangUses S lang) {prior : Ruleset O} (hp : WellFormed prior)
    (hpr : ∀ r ∈ Ruleset.iter prior, GoodRule ar r ∧ RuleUses S r) (n : Nat) {out : Ruleset O} {log : List (Nat × List (Rule O))}
    (h : recursiveRules D envs metric lang prior n = some (out, log)) :
    ∀ q ∈ Ruleset.iter out, q ∈ Ruleset.iter prior ∨ (Rule.Textual q ∧ GoodRule ar q ∧ RuleUses S q ∧
      ∃ k asked, (k, asked) ∈ log ∧ Answered (envs k).min.valid asked true q) := by
  induction n generalizing out log with
  | zero => cases h; simp [Ruleset.iter]
  | succ n ih =>
    obtain ⟨rs, log', w, new, asked, h1, hw, h2, rfl, rfl⟩ := recursiveRules_level h
    have hwf := (recursiveRules_ok hp n h1).1
    have hk : ∀ r ∈ Ruleset.iter (Ruleset.extend rs prior), GoodRule ar r ∧ RuleUses S r := by
      intro r hr
      rcases mem_extend_rules hr with hr | hr
      · rcases ih h1 r hr with hr | hr
        · exact hpr r hr
        · exact ⟨hr.2.1, hr.2.2.1⟩
      · exact hpr r hr
    intro q hq
    rcases mem_extend_rules hq with hq | hq
    · obtain ⟨k1, k2, k3, k4⟩ := C67_signature hT (hR _) (level_uses hL hu (by omega) hw) (Ruleset.WellFormed.extend hwf hp) hk h2 q hq
      exact .inr ⟨k1, k2, k3, n + 1, asked, by simp, k4⟩
    · rcases mem_extend_rules hq with hq | hq
      · rcases ih h1 q hq with hq | ⟨k1, k2, k3, k, as, k4, k5⟩
        · exact .inl hq
        · exact .inr ⟨k1, k2, k3, k, as, List.mem_cons_of_mem _ k4, k5⟩
      · exact .inl hq

/-! ## Steps of recipes -/

theorem AllRules.run (hT : Typed D ar S) {R : RunEnv O C} (hR : RunOk D R) {w : Workload} (hw : WorkloadUses S w)
    {prior : Ruleset O} {pl ml : Limits} {fast : Bool} {r : Ruleset O × List (Rule O)}
    (hp : AllRules ar (fun q => P q ∧ RuleUses S q) prior) (h : runWorkload D R w prior pl ml fast = some r)
    (hP : ∀ q ∈ Ruleset.iter r.1, GoodRule ar q → RuleUses S q → (∃ asked, Answered R.min.valid asked true q) → P q) :
    AllRules ar (fun q => P q ∧ RuleUses S q) r.1 :=
  AllRules.of (runWorkloadInternal_ok hp.named h).1 fun q hq => by
    obtain ⟨h1, h2, h3, h4⟩ := C67_signature hT hR hw hp.named (fun r hr => ⟨hp.sorted r hr, (hp.hold r hr).2⟩) h q hq
    exact ⟨h1, h2, hP q hq h2 h3 ⟨_, h4⟩, h3⟩

theorem AllRules.recursive (hT : Typed D ar S) {envs : Nat → RunEnv O C} (hR : ∀ k, RunOk D (envs k)) {metric : Metric}
    {lang : RecipeLang} (hL : LangOk lang) (hu : LangUses S lang) {prior : Ruleset O} {n : Nat}
    {r : Ruleset O × List (Nat × List (Rule O))} (hp : AllRules ar (fun q => P q ∧ RuleUses S q) prior)
    (h : recursiveRules D envs metric lang prior n = some r)
    (hP : ∀ q ∈ Ruleset.iter r.1, GoodRule ar q → RuleUses S q → (∃ k asked, Answered (envs k).min.valid asked true q) → P q) :
    AllRules ar (fun q => P q ∧ RuleUses S q) r.1 :=
  AllRules.of (recursiveRules_ok hp.named n h).1 fun q hq => by
    rcases C67_signature_recursive hT hR hL hu hp.named (fun r hr => ⟨hp.sorted r hr, (hp.hold r hr).2⟩) n h q hq with
      hq | ⟨h1, h2, h3, k, asked, -, h4⟩
    · exact ⟨hp.textual q hq, hp.sorted q hq, hp.hold q hq⟩
    · exact ⟨h1, h2, hP q hq h2 h3 ⟨k, asked, h4⟩, h3⟩
end

/-! ## Booleans and bit vectors -/

/-- **C67.** Every rule that the Boolean recipe returns is a tautology, well-sorted, without implications, and can be read back from
its text; no two have the same name. This holds for all sizes and whatever egg does. -/
theorem C67_bool {m n : Nat} (hn : 1 ≤ n) {E : Nat → Nat → RunEnv BoolOp Bool} (hE : ∀ i k, RunOk boolDomain (E i k))
    {out : Ruleset BoolOp} (h : boolRulesSized m n E = some out) :
    AllRules (fun o k => k = o.arity) (fun q => Holds boolOpVal q ∧ RuleUses (· ≠ .implies) q) out := by
  simp only [boolRulesSized, Option.bind_eq_bind, Option.bind_eq_some_iff, Option.pure_def, Option.some.injEq] at h
  obtain ⟨r5, h5, w, hw, r7, h7, rfl⟩ := h
  have h1 := AllRules.recursive bool_typed (hE 0) (langCheck_ok (by decide +kernel)) (langSig_spec (by decide +kernel)) AllRules.nil
    h5 fun q hq _ _ _ => by
      rcases C64_recursive (hE 0) Ruleset.WellFormed.nil (by simp [Ruleset.iter]) m h5 q hq with h | h
      · simp [Ruleset.iter] at h
      · exact h.2.2
  have h2 := AllRules.extend AllRules.nil h1
  refine AllRules.extend h2 (AllRules.run bool_typed (hE 1 0) ?_ h2 h7 fun q hq _ _ _ =>
    (C64_sound (hE 1 0) h2.named (fun r hr => ⟨h2.sorted r hr, (h2.hold r hr).1⟩) h7 q hq).2.2)
  exact Spec.Lists.uses (C66_bool_canon n hn) (fun s hs t ht => langUses_term (langSig_spec (by decide +kernel)) hs.1 ht) hw

/-- One call of `recursive_rules` over bit vectors. -/
theorem bv_recursive {N : Nat} (hN : N ≤ 64) {E : Nat → RunEnv (BvOp N) (BV N)} (hE : ∀ k, RunOk (bvDomain N) (E k))
    (ha : ∀ k, AnswersFrom (SolverSoundBV N) bvValidate (E k).min.valid) {lang : RecipeLang} (hL : LangOk lang)
    (hu : LangUses (· ≠ BvOp.xor (N := N)) lang) {n : Nat}
    {r : Ruleset (BvOp N) × List (Nat × List (Rule (BvOp N)))} (h : recursiveRules (bvDomain N) E .atoms lang [] n = some r) :
    AllRules (fun o k => k = o.arity ∧ LitProper o) (fun q => Holds bvOpVal q ∧ RuleUses (· ≠ .xor) q) r.1 :=
  AllRules.recursive (bv_typed hN) hE hL hu AllRules.nil h fun _ _ h1 _ ⟨k, _, h3⟩ => bv_accepted hN (ha k) h1 h3

/-- **C67.** Every rule that the recipe for 32 bits returns holds for all words of 32 bits, if z3 is right when it says unsat. -/
theorem C67_bv32 {E : Nat → RunEnv (BvOp 32) (BV 32)} (hE : ∀ k, RunOk (bvDomain 32) (E k))
    (ha : ∀ k, AnswersFrom (SolverSoundBV 32) bvValidate (E k).min.valid) {out : Ruleset (BvOp 32)} (h : bv32Rules E = some out) :
    AllRules (fun o k => k = o.arity ∧ LitProper o) (fun q => Holds bvOpVal q ∧ RuleUses (· ≠ .xor) q) out := by
  obtain ⟨r, h', rfl⟩ := Option.map_eq_some_iff.1 h
  exact bv_recursive (by decide) hE ha (langCheck_ok (by decide +kernel)) (langSig_spec (by decide +kernel)) h'

/-- **C67.** Likewise for 4 bits. -/
theorem C67_bv4 {E : Nat → RunEnv (BvOp 4) (BV 4)} (hE : ∀ k, RunOk (bvDomain 4) (E k))
    (ha : ∀ k, AnswersFrom (SolverSoundBV 4) bvValidate (E k).min.valid) {out : Ruleset (BvOp 4)} (h : bv4Rules E = some out) :
    AllRules (fun o k => k = o.arity ∧ LitProper o) (fun q => Holds bvOpVal q ∧ RuleUses (· ≠ .xor) q) out := by
  obtain ⟨r, h', rfl⟩ := Option.map_eq_some_iff.1 h
  exact bv_recursive (by decide) hE ha (langCheck_ok (by decide +kernel)) (langSig_spec (by decide +kernel)) h'

/-- **C67.** Likewise for the second recipe for 4 bits. -/
theorem C67_bv4_fancy {m n : Nat} (hn : 1 ≤ n) {E : Nat → Nat → RunEnv (BvOp 4) (BV 4)} (hE : ∀ i k, RunOk (bvDomain 4) (E i k))
    (ha : ∀ i k, AnswersFrom (SolverSoundBV 4) bvValidate (E i k).min.valid) {out : Ruleset (BvOp 4)}
    (h : bv4FancySized m n E = some out) :
    AllRules (fun o k => k = o.arity ∧ LitProper o) (fun q => Holds bvOpVal q ∧ RuleUses (· ≠ .xor) q) out := by
  simp only [bv4FancySized, Option.bind_eq_bind, Option.bind_eq_some_iff, Option.pure_def, Option.some.injEq] at h
  obtain ⟨r5, h5, w, hw, r7, h7, rfl⟩ := h
  have h2 := AllRules.extend AllRules.nil (bv_recursive (by decide) (hE 0) (ha 0) (langCheck_ok (by decide +kernel))
    (langSig_spec (by decide +kernel)) h5)
  refine AllRules.extend h2 (AllRules.run (bv_typed (by decide)) (hE 1 0) ?_ h2 h7 fun q _ k1 _ ⟨_, k2⟩ =>
    bv_accepted (by decide) (ha 1 0) k1 k2)
  refine Spec.Lists.uses (C66_bv4_canon n hn) (fun s hs t ht => ?_) hw
  rcases hs with ⟨a, ha, rfl⟩ | hs
  · exact langUses_term (L := .new ["0", "1"] [] []) (langSig_spec (by decide +kernel)) (by
      have e : Sexp.atom a = word a.toList := by rw [word, String.ofList_toList]
      rw [e]
      exact .val (List.mem_map_of_mem ha)) ht
  · exact langUses_term (langSig_spec (by decide +kernel)) hs.1 ht

/-! ## Halide -/

/-- **C67.** Every rule that the Halide recipe returns holds for all integers, if z3 is right when it says unsat. There is no
division in it, so it holds in z3 and for the evaluator of the domain alike. -/
theorem C67_halide {m n : Nat} {E : Nat → Nat → RunEnv PredOp Int} (hE : ∀ i k, RunOk halideDomain (E i k))
    (ha : ∀ i k, AnswersFrom SolverSoundInt halideValidate (E i k).min.valid) {out : Ruleset PredOp}
    (h : halideRulesSized m n E = some out) : AllRules (fun o k => k = o.arity ∧ PredLitFits o)
      (fun q => (Holds predOpVal q ∧ Holds evalOpVal q) ∧ RuleUses (fun o => o ≠ .div ∧ o ≠ .implies) q) out := by
  simp only [halideRulesSized, Option.bind_eq_bind, Option.bind_eq_some_iff, Option.pure_def, Option.some.injEq] at h
  obtain ⟨r1, h1, r2, h2, r3, h3, r4, h4, w5, e5, r5, h5, w6, e6, r6, h6, w7, e7, r7, h7, w8, e8, r8, h8, rfl⟩ := h
  have acc : ∀ {i k} {q : Rule PredOp} {asked}, GoodRule (fun o k => k = o.arity ∧ PredLitFits o) q →
      RuleUses (fun o => o ≠ .div ∧ o ≠ .implies) q → Answered (E i k).min.valid asked true q →
      Holds predOpVal q ∧ Holds evalOpVal q := fun k1 k2 k3 =>
    have := halide_accepted (ha _ _) k1 k3
    ⟨this, holds_eval k2 this⟩
  have hrec : ∀ {i n} {lang prior} {r : Ruleset PredOp × List (Nat × List (Rule PredOp))}, LangOk lang →
      LangUses (fun o => o ≠ PredOp.div ∧ o ≠ .implies) lang →
      AllRules (fun o k => k = o.arity ∧ PredLitFits o)
        (fun q => (Holds predOpVal q ∧ Holds evalOpVal q) ∧ RuleUses (fun o => o ≠ .div ∧ o ≠ .implies) q) prior →
      recursiveRules halideDomain (E i) .atoms lang prior n = some r →
      AllRules (fun o k => k = o.arity ∧ PredLitFits o)
        (fun q => (Holds predOpVal q ∧ Holds evalOpVal q) ∧ RuleUses (fun o => o ≠ .div ∧ o ≠ .implies) q) r.1 := fun hL hu hp h =>
    AllRules.recursive halide_typed (hE _) hL hu hp h fun _ _ k1 k2 ⟨_, _, k3⟩ => acc k1 k2 k3
  have hrun : ∀ {i w} {prior} {pl ml : Limits} {r : Ruleset PredOp × List (Rule PredOp)},
      WorkloadUses (fun o => o ≠ PredOp.div ∧ o ≠ .implies) w →
      AllRules (fun o k => k = o.arity ∧ PredLitFits o)
        (fun q => (Holds predOpVal q ∧ Holds evalOpVal q) ∧ RuleUses (fun o => o ≠ .div ∧ o ≠ .implies) q) prior →
      runWorkload halideDomain (E i 0) w prior pl ml true = some r →
      AllRules (fun o k => k = o.arity ∧ PredLitFits o)
        (fun q => (Holds predOpVal q ∧ Holds evalOpVal q) ∧ RuleUses (fun o => o ≠ .div ∧ o ≠ .implies) q) r.1 := fun hw hp h =>
    AllRules.run halide_typed (hE _ _) hw hp h fun _ _ k1 k2 ⟨_, k3⟩ => acc k1 k2 k3
  have k1 := AllRules.extend AllRules.nil (hrec (langCheck_ok (by decide +kernel)) (langSig_spec (by decide +kernel)) AllRules.nil h1)
  have k2' := hrec (langCheck_ok (by decide +kernel)) (langSig_spec (by decide +kernel)) k1 h2
  have k2 := AllRules.extend k1 k2'
  have k3 := AllRules.extend k2 (hrec (langCheck_ok (by decide +kernel)) (langSig_spec (by decide +kernel)) k2 h3)
  have k4 := AllRules.extend k3 (hrec (langCheck_ok (by decide +kernel)) (langSig_spec (by decide +kernel)) k3 h4)
  have k5 := AllRules.extend k4 (hrun (sigUses_spec (by decide +kernel) e5) k4 h5)
  have k6 := AllRules.extend k5 (hrun (sigUses_spec (by decide +kernel) e6) k5 h6)
  exact AllRules.extend (AllRules.extend k6 (hrun (sigUses_spec (by decide +kernel) e7) k2' h7))
    (hrun (sigUses_spec (by decide +kernel) e8) k2' h8)

/-! ## Rational numbers -/

section
variable {K : Type} [Field K] [LinearOrder K] [IsStrictOrderedRing K] {ck : Checked}

/-- **C67.** The two sides of every rule that the first rational recipe returns are the same partial function in every ordered field
that z3 is right about. -/
theorem C67_replicate (hk : Results64 ck) {E : Nat → RunEnv MathOp Rat} (hE : ∀ k, RunOk (rationalDomain ck) (E k))
    (ha : ∀ k, AnswersFrom (SolverSoundReal K) ratValidate (E k).min.valid) {out : Ruleset MathOp}
    (h : replicateRules ck E = some out) :
    AllRules (fun o k => k = o.arity ∧ MathLitFits o) (fun q => SameFunction K q.lhs q.rhs ∧ RuleUses (· ≠ .ite) q) out := by
  simp only [replicateRules, Option.bind_eq_bind, Option.bind_eq_some_iff, Option.pure_def, Option.some.injEq] at h
  obtain ⟨w1, e1, r1, h1, w2, e2, r2, h2, rfl⟩ := h
  have k0 : AllRules (fun o k => k = o.arity ∧ MathLitFits o) (fun q => SameFunction K q.lhs q.rhs ∧ RuleUses (· ≠ .ite) q) [] :=
    AllRules.nil
  have k1 := AllRules.extend k0 (AllRules.run (rational_typed hk) (hE 0) (sigUses_spec (by decide +kernel) e1) k0 h1
    fun q _ k1 k2 ⟨_, k3⟩ => rational_same (ha 0) k1 k3 (plain_of_noIf k2.1) (plain_of_noIf k2.2))
  exact AllRules.extend k1 (AllRules.run (rational_typed hk) (hE 1) (sigUses_spec (by decide +kernel) e2) k1 h2
    fun q _ k1 k2 ⟨_, k3⟩ => rational_same (ha 1) k1 k3 (plain_of_noIf k2.1) (plain_of_noIf k2.2))

/-- **C67.** The rules of a conditional run without conditionals in the workload and the prior can be read back from their text, are
well-sorted, and have the same partial function on both sides. -/
theorem C67_conditional (hk : Results64 ck) {R : RunEnv MathOp Rat} (hR : RunOk (rationalDomain ck) R) {M : MinEnv MathOp}
    (ha : AnswersFrom (SolverSoundReal K) ratValidate R.min.valid) (hM : AnswersFrom (SolverSoundReal K) ratValidate M.valid)
    {w : Workload} (hw : WorkloadUses (· ≠ MathOp.ite) w) {prior out : Ruleset MathOp} {limits : Limits} {fast : Bool} {log : CondLog}
    (hp : AllRules (fun o k => k = o.arity ∧ MathLitFits o) (RuleUses (· ≠ .ite)) prior)
    (h : runWorkloadConditional (rationalDomain ck) R M w prior limits fast = some (out, log)) :
    AllRules (fun o k => k = o.arity ∧ MathLitFits o) (fun q => SameFunction K q.lhs q.rhs) out := by
  refine AllRules.of (C62_run hp.named h).1 fun q hq => ?_
  obtain ⟨g, g', cands, chosen, cond, chosen2, inv2, hg, hg', hc, hm, hcond, hm2, rfl⟩ := runWorkloadConditional_some h
  obtain ⟨hord, hok⟩ := run_uses (rational_typed hk) hR hw (fun r hr => ⟨hp.sorted r hr, hp.hold r hr⟩) hg hg'
  have htc : ∀ q ∈ Ruleset.iter cands, Rule.Textual q ∧ GoodRule (narrow (fun o k => k = o.arity ∧ MathLitFits o) (· ≠ .ite)) q :=
    fun q hq => cands_textual (fun o k h => rational_opsReadable o k h.1) hord hc hok hq
  obtain ⟨hwf, -⟩ := cands_wf hc
  obtain ⟨w1, hv1⟩ := C22_validated hwf hp.named hm
  rcases mem_extend_rules hq with hq | hq
  · obtain ⟨ha1, hcand, -⟩ := hv1 q hq
    obtain ⟨k1, k2⟩ := htc q (isCandidate_mem (fun r hr => (htc r hr).1) hcand)
    exact ⟨k1, goodRule_narrow k2, rational_same ha (goodRule_narrow k2) ha1 (plain_of_noIf (ruleUses_narrow k2).1)
      (plain_of_noIf (ruleUses_narrow k2).2)⟩
  · obtain ⟨wc, hmem, -, -⟩ := addConditions_mem Ruleset.WellFormed.nil hcond
    have hcond' : ∀ q ∈ Ruleset.iter cond, Rule.Textual q ∧ GoodRule (fun o k => k = o.arity ∧ MathLitFits o) q ∧
        ∀ ρ : String → K, (∃ v, ratVal ρ q.lhs = some v) ↔ ∃ v, ratVal ρ q.rhs = some v := by
      intro q hq
      obtain ⟨c, hcm, he⟩ := (hmem q hq).resolve_left (by simp [Ruleset.iter])
      have hc2 : (CleanPat (fun o k => k = o.arity ∧ MathLitFits o) c.lhs ∧ CleanPat (fun o k => k = o.arity ∧ MathLitFits o) c.rhs) ∧
          RuleUses (· ≠ .ite) c := by
        obtain ⟨c0, h0, rfl | e0⟩ := (C22_invalid hwf hp.named hm).2 c hcm
        · exact ⟨CleanPat.of (htc _ h0).1 (goodRule_narrow (htc _ h0).2), ruleUses_narrow (htc _ h0).2⟩
        · obtain ⟨e1, e2, -⟩ := new_sides e0
          unfold RuleUses
          rw [e1, e2]
          exact ⟨(CleanPat.of (htc _ h0).1 (goodRule_narrow (htc _ h0).2)).symm, (ruleUses_narrow (htc _ h0).2).symm⟩
      have hcl := addCondition_clean he hc2.1.1 hc2.1.2
      have hprop : Rule.Proper q := addCondition_proper he
      obtain ⟨k1, k2⟩ := CleanPat.rule hprop hcl.1 hcl.2
      exact ⟨k1, k2, C62_defined he (mathPat_clean hc2.1.1) (mathPat_clean hc2.1.2) hc2.2.1 hc2.2.2⟩
    obtain ⟨ha2, hcand, -⟩ := (C22_validated wc (Ruleset.WellFormed.extend hp.named w1) hm2).2 q hq
    obtain ⟨k1, k2, k3⟩ := hcond' q (isCandidate_mem (fun r hr => (hcond' r hr).1) hcand)
    refine ⟨k1, k2, fun ρ => ?_⟩
    have heq := rational_accepted hM k2 ha2 ρ
    have hd := k3 ρ
    cases hl : ratVal ρ q.lhs with
    | none =>
      cases hr : ratVal ρ q.rhs with
      | none => rfl
      | some b => rw [hl, hr] at hd; simp at hd
    | some a =>
      obtain ⟨b, hb⟩ := hd.1 ⟨a, hl⟩
      rw [hb, heq a b hl hb]

/-- **C67.** The same for all rules that the second rational recipe returns; those that it adds to the first have a left-hand side
that is always defined, so their right-hand side is too. -/
theorem C67_best (hk : Results64 ck) {E : Nat → RunEnv MathOp Rat} {M : MinEnv MathOp}
    (hE : ∀ k, RunOk (rationalDomain ck) (E k)) (ha : ∀ k, AnswersFrom (SolverSoundReal K) ratValidate (E k).min.valid)
    (hM : AnswersFrom (SolverSoundReal K) ratValidate M.valid) {out : Ruleset MathOp} (h : bestRules ck E M = some out) :
    AllRules (fun o k => k = o.arity ∧ MathLitFits o) (fun q => SameFunction K q.lhs q.rhs) out ∧
    ∃ rules, replicateRules ck E = some rules ∧ ∀ q ∈ Ruleset.iter out, q ∈ Ruleset.iter rules ∨ Total K q.lhs ∧ Total K q.rhs := by
  simp only [bestRules, Option.bind_eq_bind, Option.bind_eq_some_iff, Option.pure_def, Option.some.injEq] at h
  obtain ⟨rules, h1, w, hw, ⟨factor, log⟩, h2, rfl⟩ := h
  have k1 := C67_replicate hk hE ha h1
  have k2 := C67_conditional hk (hE 2) (ha 2) hM (sigUses_spec (by decide +kernel) hw)
    ⟨k1.named, k1.textual, k1.sorted, fun q hq => (k1.hold q hq).2⟩ h2
  have k3 := AllRules.filter k2 fun r => !r.2.lhs.print.contains '/'
  refine ⟨AllRules.extend ⟨k1.named, k1.textual, k1.sorted, fun q hq => (k1.hold q hq).1⟩ k3, rules, h1, fun q hq => ?_⟩
  rcases mem_extend_rules hq with hq | hq
  · exact .inl hq
  · have hs := k3.hold q hq
    have hg := k3.sorted q hq
    obtain ⟨e, he, rfl⟩ := List.mem_map.1 hq
    have hc := (List.mem_filter.1 he).2
    have hm : MathPat e.2.lhs := Schematic.patSorted (fun _ _ h => h.1) (by rintro o h x rfl; cases h) hg.1.1 hg.2.1
    have ht : Total K e.2.lhs := total_of_noDiv hm (noDiv hm (by simpa using hc))
    exact .inr ⟨ht, fun ρ => hs ρ ▸ ht ρ⟩

end

end Ruler
