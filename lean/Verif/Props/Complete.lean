import Verif.Proofs.Complete
import Verif.Props.Extract
import Verif.Spec.Progress
/-!
# C70: the Boolean recipe finds enough rules
-/
namespace Ruler
open Spec EGraph

/-- The equations that can be proved from tautologies are valid. -/
theorem provable_valid {R : Rule BoolOp → Prop} (hR : ∀ r, R r → GoodRule (fun o k => k = o.arity) r ∧ Holds boolOpVal r)
    {t u : Tm BoolOp} (h : Provable R Decided t u) (env : String → Bool) : boolVal env t = boolVal env u :=
  provable_sound (I := withVars env boolOpVal) (fun r hr => Holds.withVars (hR r hr).1.2.1 (hR r hr).1.2.2 (hR r hr).2 env)
    (fun _ _ h => h.val env) h

/-- **C70 (one level).** After a run on the formulas of at most `n` operators, constants and variables that contain a variable,
with a smallest term extracted from every class and every candidate accepted: an equation between formulas of that size
(whether or not they contain variables) can be proved from the prior and the new rules and constant folding, by replacing equals
by equals, iff it is valid. -/
theorem C70_level {vars : List String} (hL : LangOk (boolLangOf vars)) {n : Nat} (hn : 3 ≤ n) {w : Workload}
    (hw : recursiveWorkload .atoms n (boolLangOf vars) = some w) {E : RunEnv BoolOp Bool} (hE : RunOk boolDomain E)
    (hsmall : ∀ g, AnyHistory boolDomain g → ∀ i ∈ g.classes, Least g tmSize i (E.best g i))
    (hval : BoolAnswers E.min.valid) {prior new : Ruleset BoolOp} {pl ml : Limits} {fast allowEmpty : Bool}
    {asked : List (Rule BoolOp)}
    (hp : AllRules (fun o k => k = o.arity) (fun q => Holds boolOpVal q ∧ RuleUses (· ≠ .implies) q) prior)
    (h : runWorkloadInternal boolDomain E w prior pl ml fast allowEmpty = some (new, asked)) {t u : Tm BoolOp}
    (ht : Formula (· ∈ vars) t) (hu : Formula (· ∈ vars) u) (htn : tmSize t ≤ n) (hun : tmSize u ≤ n) :
    Provable (fun q => q ∈ Ruleset.iter prior ∨ q ∈ Ruleset.iter new) Decided t u ↔ ∀ env, boolVal env t = boolVal env u := by
  have hs : ∀ {t u}, Provable (fun q => q ∈ Ruleset.iter prior ∨ q ∈ Ruleset.iter new) Decided t u →
      ∀ env, boolVal env t = boolVal env u := fun h' => provable_valid (fun r hr => by
    rcases hr with hr | hr
    · exact ⟨hp.sorted r hr, (hp.hold r hr).1⟩
    · exact (C64_sound hE hp.named (fun r hr => ⟨hp.sorted r hr, (hp.hold r hr).1⟩) h r hr).2) h'
  refine ⟨hs, fun heq => ?_⟩
  have hv : ∀ x ∈ vars, x ≠ "true" ∧ x ≠ "false" := fun x hx => by
    have := hL.disjoint x.toList (List.mem_map_of_mem hx)
    simp only [boolLangOf, RecipeLang.new, List.map_cons, List.map_nil, List.mem_cons, String.toList_inj, List.not_mem_nil,
      or_false, not_or] at this
    exact this
  -- formulas without variables are folded
  have hred : ∀ {t}, Formula (· ∈ vars) t → tmSize t ≤ n → ∃ t', Formula (· ∈ vars) t' ∧ Formula.Reduced t' ∧ tmSize t' ≤ n ∧
      Provable (fun q => q ∈ Ruleset.iter prior ∨ q ∈ Ruleset.iter new) Decided t t' := fun {t} ht htn => by
    by_cases hx : ∃ x, VarIn x t
    · exact ⟨t, ht, .inr hx, htn, .refl _⟩
    · obtain ⟨b, hb⟩ := provable_ground (R := fun q => q ∈ Ruleset.iter prior ∨ q ∈ Ruleset.iter new) ht (not_exists.1 hx)
      exact ⟨_, .lit b, .inl ⟨b, rfl⟩, by simp [boolLit, tmSize, tmSizeL]; omega, hb⟩
  obtain ⟨t', ht', hrt, htn', hpt⟩ := hred ht htn
  obtain ⟨u', hu', hru, hun', hpu⟩ := hred hu hun
  have heq' : ∀ env, boolVal env t' = boolVal env u' := fun env => by rw [← hs hpt, ← hs hpu, heq]
  suffices Provable (fun q => q ∈ Ruleset.iter prior ∨ q ∈ Ruleset.iter new) Decided t' u' from hpt.trans (this.trans hpu.symm)
  -- without variables there is nothing left
  by_cases hne : vars = []
  · have hlit : ∀ {t}, Formula (· ∈ vars) t → Formula.Reduced t → ∃ b, t = boolLit b := fun {t} ht hr => by
      refine hr.resolve_right ?_
      rintro ⟨x, hx⟩
      have := ht.vars hx
      simp [hne] at this
    obtain ⟨b, rfl⟩ := hlit ht' hrt
    obtain ⟨c, rfl⟩ := hlit hu' hru
    have := heq' fun _ => false
    rw [boolVal_lit, boolVal_lit] at this
    subst this
    exact .refl _
  obtain ⟨g, g', hg, hg', hterms, key⟩ := C64_complete
    (bool_folds_prov fun q => q ∈ Ruleset.iter prior ∨ q ∈ Ruleset.iter new) hE hval hp.named
    (fun r hr => ⟨hp.textual r hr, hp.sorted r hr, (hp.hold r hr).1⟩) h (fun q hq => holds_provOp hq)
  have r0 : Reach boolDomain (fun o k => k = o.arity) (· ∈ Ruleset.iter prior) g :=
    toEGraph_reach bool_typed.vars (fun ss _ s _ t ht => tmOk_ofSexp bool_parsesSorted s t ht) hg
  have r1 : Reach boolDomain (fun o k => k = o.arity) (· ∈ Ruleset.iter prior) g' := .run r0 (fun r hr => hr) hg'
  have hbest := hsmall g' (Reach.any r1)
  obtain ⟨w', ts, hw', hts, hmem⟩ := C66_level hL .atoms n (by omega)
  obtain rfl : w' = w := Option.some.inj (hw'.symm.trans hw)
  have huse : WorkloadUses (· ≠ BoolOp.implies) w' := fun ss hss s hs t ht => by
    obtain rfl : ts = ss := Option.some.inj (hts.symm.trans hss)
    exact langUses_term (boolLang_uses vars) ((hmem s).1 hs).1 ht
  have hform : ∀ i ∈ g'.classes, Formula (fun x => VarIn x (E.best g' i)) (E.best g' i) := fun i hi =>
    formula_of_sorted ((run_uses bool_typed hE huse (fun r hr => ⟨hp.sorted r hr, (hp.hold r hr).2⟩) hg hg').2 i hi)
  have hsound : ∀ i t u, Rep g' t i → Rep g' u i → ∀ env, boolVal env t = boolVal env u := fun i t u ht hu env =>
    sound_vars bool_folds (fun r hr => ⟨hp.sorted r hr, (hp.hold r hr).1⟩) r1 ht hu rfl env
  have hvar : ∀ r, Formula (· ∈ vars) r → (∃ x, VarIn x r) → tmSize r ≤ n → ∃ i ∈ g'.classes, Rep g' r i := by
    rintro r hr ⟨x, hx⟩ hrn
    obtain ⟨s, k1, k2, k3, k4⟩ := formula_sexp hv hr
    refine hterms ts hts s ((hmem s).2 ⟨k1, k4 x hx, _, Sexp.measure_noEmpty _ _ (langTerm_noEmpty k1), ?_⟩) r k2
    rw [k3]; exact hrn
  have hrep : ∀ r, Formula (· ∈ vars) r → Formula.Reduced r → tmSize r ≤ n → ∃ i ∈ g'.classes, Rep g' r i := by
    rintro r hr (⟨b, rfl⟩ | hx) hrn
    · obtain ⟨x, hx⟩ := List.exists_mem_of_ne_nil _ hne
      obtain ⟨i, -, hi⟩ := hvar (.node .and [.node (.var x) [], boolLit b]) (.and (.var hx) (.lit b))
        ⟨x, .there rfl (List.mem_cons_self ..) (.here rfl)⟩ (by simp [boolLit, tmSize, tmSizeL]; omega)
      exact rep_arg (Reach.any r1) hi (by simp)
    · exact hvar r hr hx hrn
  -- both are compared with a smallest representative
  obtain ⟨k, hk, hkt, hkc⟩ := bool_hub hbest hform hsound hrep ht' hrt htn'
  have hto : ∀ v, Formula (· ∈ vars) v → Formula.Reduced v → tmSize v ≤ n → (∀ env, boolVal env v = boolVal env t') →
      Provable (fun q => q ∈ Ruleset.iter prior ∨ q ∈ Ruleset.iter new) Decided v (E.best g' k) := by
    intro v hv1 hv2 hv3 hv4
    obtain ⟨i, hi, hvi⟩ := hrep v hv1 hv2 hv3
    refine provable_of_val bool_varOps hv1.sorted (hform k hk).sorted ?_
    refine key i hi k hk (.inl (hkc i hi fun env => (hsound i _ _ (hbest i hi).1 hvi env).trans (hv4 env))) _ _ hvi
      (hbest k hk).1 fun env => (hv4 env).trans (hkt env).symm
  exact (hto t' ht' hrt htn' fun _ => rfl).trans (hto u' hu' hru hun' fun env => (heq' env).symm).symm

/-- **C70.** The rules of `recursive_rules` are enough to prove every valid equation between formulas of the last level, and no
other. -/
theorem C70_recursive {vars : List String} (hL : LangOk (boolLangOf vars)) {n : Nat} (hn : 3 ≤ n) {E : Nat → RunEnv BoolOp Bool}
    (hE : ∀ k, RunOk boolDomain (E k))
    (hsmall : ∀ g, AnyHistory boolDomain g → ∀ i ∈ g.classes, Least g tmSize i ((E n).best g i))
    (hval : BoolAnswers (E n).min.valid) {prior out : Ruleset BoolOp} {log : List (Nat × List (Rule BoolOp))}
    (hp : AllRules (fun o k => k = o.arity) (fun q => Holds boolOpVal q ∧ RuleUses (· ≠ .implies) q) prior)
    (h : recursiveRules boolDomain E .atoms (boolLangOf vars) prior n = some (out, log)) {t u : Tm BoolOp}
    (ht : Formula (· ∈ vars) t) (hu : Formula (· ∈ vars) u) (htn : tmSize t ≤ n) (hun : tmSize u ≤ n) :
    Provable (· ∈ Ruleset.iter out) Decided t u ↔ ∀ env, boolVal env t = boolVal env u := by
  have hall := fun {m r} (h : recursiveRules boolDomain E .atoms (boolLangOf vars) prior m = some r) =>
    AllRules.recursive bool_typed hE hL (boolLang_uses vars) hp h fun q hq _ _ _ => by
      rcases C64_recursive hE hp.named (fun r hr => ⟨hp.sorted r hr, (hp.hold r hr).1⟩) m h q hq with h | h
      · exact (hp.hold q h).1
      · exact h.2.2
  refine ⟨provable_valid fun r hr => ⟨(hall h).sorted r hr, ((hall h).hold r hr).1⟩, fun heq => ?_⟩
  obtain ⟨n, rfl⟩ : ∃ m, n = m + 1 := ⟨n - 1, by omega⟩
  obtain ⟨rs, log', w, new, asked, h1, hw, h2, rfl, rfl⟩ := recursiveRules_level h
  have hext := AllRules.extend (hall h1) hp
  obtain ⟨hwn, hnew⟩ := runWorkloadInternal_ok hext.named h2
  refine Provable.mono ?_ ((C70_level hL hn hw (hE _) hsmall hval hext h2 ht hu htn hun).2 heq)
  rintro q (hq | hq)
  · exact mem_extend_right hwn hext.named hq
  · exact mem_extend_left hwn hext.named hq (hnew q hq).2.1

/-- **C70.** If `recursive_rules` panics because a level has no new rule, that level was not needed: all valid equations between
its formulas follow from the rules of the lower levels. -/
theorem C70_empty {vars : List String} (hL : LangOk (boolLangOf vars)) {n : Nat} {E : Nat → RunEnv BoolOp Bool}
    (hE : ∀ k, RunOk boolDomain (E k))
    (hsmall : ∀ k g, AnyHistory boolDomain g → ∀ i ∈ g.classes, Least g tmSize i ((E k).best g i))
    (hval : ∀ k, BoolAnswers (E k).min.valid) {prior : Ruleset BoolOp}
    (hp : AllRules (fun o k => k = o.arity) (fun q => Holds boolOpVal q ∧ RuleUses (· ≠ .implies) q) prior)
    (h : EmptyLevel boolDomain E .atoms (boolLangOf vars) prior n) :
    ∃ k known log, 3 ≤ k ∧ k ≤ n ∧ recursiveRules boolDomain E .atoms (boolLangOf vars) prior (k - 1) = some (known, log) ∧
      ∀ t u, Formula (· ∈ vars) t → Formula (· ∈ vars) u → tmSize t ≤ k → tmSize u ≤ k →
        (∀ env, boolVal env t = boolVal env u) →
        Provable (fun q => q ∈ Ruleset.iter known ∨ q ∈ Ruleset.iter prior) Decided t u := by
  obtain ⟨k, hk, hkn, known, log, w, asked, h1, hw, h2⟩ := h
  have hall := AllRules.recursive bool_typed hE hL (boolLang_uses vars) hp h1 fun q hq _ _ _ => by
    rcases C64_recursive hE hp.named (fun r hr => ⟨hp.sorted r hr, (hp.hold r hr).1⟩) _ h1 q hq with h | h
    · exact (hp.hold q h).1
    · exact h.2.2
  refine ⟨k, known, log, hk, hkn, h1, fun t u ht hu htk huk heq => ?_⟩
  refine Provable.mono ?_ ((C70_level hL hk hw (hE k) (hsmall k) (hval k) (AllRules.extend hall hp) h2 ht hu htk huk).2 heq)
  rintro q (hq | hq)
  · exact mem_extend_rules hq
  · simp [Ruleset.iter] at hq

/-- **C70.** The Boolean recipe with the sizes `m` and `n`: the rules it returns are enough to prove every equation between formulas over
`a`, `b`, `c` of at most `m` operators, constants and variables (five in the repository), and no false equation. -/
theorem C70_bool {m n : Nat} (hm : 3 ≤ m) (hn : 1 ≤ n) {E : Nat → Nat → RunEnv BoolOp Bool} (hE : ∀ i k, RunOk boolDomain (E i k))
    (hsmall : ∀ g, AnyHistory boolDomain g → ∀ i ∈ g.classes, Least g tmSize i ((E 0 m).best g i))
    (hval : BoolAnswers (E 0 m).min.valid) {out : Ruleset BoolOp} (h : boolRulesSized m n E = some out)
    {t u : Tm BoolOp} (ht : Formula (· ∈ ["a", "b", "c"]) t) (hu : Formula (· ∈ ["a", "b", "c"]) u) (htm : tmSize t ≤ m)
    (hum : tmSize u ≤ m) : Provable (· ∈ Ruleset.iter out) Decided t u ↔ ∀ env, boolVal env t = boolVal env u := by
  have hout := C67_bool hn hE h
  refine ⟨provable_valid fun r hr => ⟨hout.sorted r hr, (hout.hold r hr).1⟩, fun heq => ?_⟩
  simp only [boolRulesSized, Option.bind_eq_bind, Option.bind_eq_some_iff, Option.pure_def, Option.some.injEq] at h
  obtain ⟨⟨r5, log⟩, h5, w, hw, ⟨r7, asked⟩, h7, rfl⟩ := h
  have hL : LangOk boolLang := langCheck_ok (by decide +kernel)
  have hw5 := (recursiveRules_ok Ruleset.WellFormed.nil m h5).1
  have hwe := Ruleset.WellFormed.extend (a := ([] : Ruleset BoolOp)) Ruleset.WellFormed.nil hw5
  obtain ⟨hw7, hnew⟩ := runWorkloadInternal_ok hwe h7
  refine Provable.mono (fun q hq => ?_) ((C70_recursive hL hm (hE 0) hsmall hval AllRules.nil h5 ht hu htm hum).2 heq)
  have hq' := mem_extend_right Ruleset.WellFormed.nil hw5 hq
  refine mem_extend_left hwe hw7 hq' ?_
  rintro ⟨e, he, hne⟩
  exact (hnew e he).2.1 ⟨q, hq', hne.symm⟩

end Ruler
