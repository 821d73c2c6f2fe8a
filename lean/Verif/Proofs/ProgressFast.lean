import Verif.Proofs.ProgressRun
import Verif.Proofs.Lifting
import Verif.Proofs.RecipeRules
import Verif.Spec.Blind
/-! Fast-forwarding does not fail. -/
namespace Ruler
open Spec EGraph
variable {O C V : Type} [Lang O] [LinearOrder C]
variable {ar : O → Nat → Prop} {D : Domain O C} {I : O → List V → V} {mem : Interval C → V → Prop}

omit [LinearOrder C] in
theorem patOk_schema (ρ : String → String) {t : Tm O} (h : TmOk ar t) : PatOk ar (schema ρ t) := by
  induction t using Tm.ind with
  | hn o l ih =>
    cases h with
    | node ha hargs =>
      cases hv : Lang.toVar o with
      | some x => rw [schema_var _ hv]; exact .var
      | none =>
        rw [schema_node _ hv]
        refine .node (by simpa using ha) ?_
        simp only [List.mem_map, forall_exists_index, and_imp, forall_apply_eq_imp_iff₂]
        exact fun a hm => ih a hm (hargs a hm)

theorem extract_total {g2 : EGraph O C} {ids keys : List Nat} {best : Nat → Nat × Tm O}
    (h : ∀ i ∈ ids, ∀ j ∈ ids, AtMost 26 (fun x => VarIn x (best i).2 ∨ VarIn x (best j).2)) :
    ∃ rs, extractCandidates g2 ids keys best = some rs := by
  refine Option.isSome_iff_exists.1 (addPairs_isSome (fun p hp => ?_) _)
  obtain ⟨⟨i, j⟩, hij, rfl⟩ := List.mem_map.1 hp
  rw [List.mem_filter, mem_extractPairs] at hij
  exact (C27_total _ _).2 (h i hij.1.1 j hij.1.2.1)

theorem extract_good {g1 g2 : EGraph O C} {ids keys : List Nat} (hids : ids.Perm g1.classes) {best : Nat → Nat × Tm O}
    (hb : ExtractsCost g1 best) (hok : ∀ t i, Rep g1 t i → TmOk ar t) {rs : Ruleset O}
    (h : extractCandidates g2 ids keys best = some rs) (q : Rule O) (hq : q ∈ Ruleset.iter rs) :
    GoodRule ar q ∧ BoundRhs q := by
  obtain ⟨-, -, t, u, i, j, ht, hu, -, -, ⟨ρ, -, hl, hr, -⟩, -⟩ := C36_sound hids hb h q hq
  refine ⟨⟨⟨?_, ?_⟩, addPairs_schematic h hq⟩, (addPairs_proper h hq).2⟩
  · rw [hl]; exact patOk_schema ρ (hok t i ht)
  · rw [hr]; exact patOk_schema ρ (hok u j hu)

/-- Extracted candidates hold. -/
theorem extract_holds {S : Side O} {ar' : O → Nat → Prop} {ok : Signature O C → ((String → V) → V) → Prop} {g1 g2 : EGraph O C}
    {val1 val2 : Nat → (String → V) → V} (hg1 : InvS S ar' (piAlg I) ok g1 val1) (hg2 : InvS S ar' (piAlg I) ok g2 val2)
    (hE : Ext g1 val1 g2 val2) {ids keys : List Nat} (hids : ids.Perm g1.classes) {best : Nat → Nat × Tm O}
    (hb : ExtractsCost g1 best) {rs : Ruleset O} (h : extractCandidates g2 ids keys best = some rs) (q : Rule O)
    (hq : q ∈ Ruleset.iter rs) : Holds I q := by
  obtain ⟨-, -, t, u, i, j, ht, hu, -, hij, hrel, -⟩ := C36_sound hids hb h q hq
  have hi := Rep.lt hg1 ht
  have hj := Rep.lt hg1 hu
  rw [Relates.holds_iff hrel]
  intro env
  have : val2 i = val2 j := by
    rw [← hg2.val_find i (Nat.lt_of_lt_of_le hi hE.n_le), ← hg2.val_find j (Nat.lt_of_lt_of_le hj hE.n_le), hij]
  rw [hE.val_eq i hi, hE.val_eq j hj, Rep.val hg1 t i hi ht, Rep.val hg1 u j hj hu] at this
  have := congrFun this env
  rwa [fold_piAlg, fold_piAlg] at this

omit [LinearOrder C] in
theorem RulesSafe.mono {ar' : O → Nat → Prop} {I : O → List V → V} (h : ∀ o k, ar o k → ar' o k) {rules : List (Rule O)}
    (hr : RulesSafe ar I rules) : RulesSafe ar' I rules :=
  fun r hm => ⟨⟨PatOk.mono h (hr r hm).1.1, PatOk.mono h (hr r hm).1.2⟩, (hr r hm).2⟩

/-- `run_fast_forwarding` does not fail once the e-graph has been built. -/
theorem fast_goes [Nonempty V] {okB : Signature O C → ((String → V) → V) → Prop}
    (hB : BareOk D ar I okB) {S : Side O} {ok : Signature O C → ((String → V) → V) → Prop} {X : List String}
    (hP : DataInvS S D (arOn ar (· ∈ X)) (piAlg I) ok) (hT : StepTotal S D (arOn ar (· ∈ X)) (piAlg I) ok)
    (hX : X.length ≤ 26) {F : FastEnv O C} (hb : ExtractorOk D F.best) (hids : ∀ g, (F.ids g).Perm g.classes)
    (hd : FastEnv.Deep F) {w : Workload} {g0 : EGraph O C} {val : Nat → (String → V) → V}
    (h0 : w.toEGraph D F.build = some g0) (hg0 : InvS S (arOn ar (· ∈ X)) (piAlg I) ok g0 val)
    (hr0 : AnyHistory D g0) {prior expl : Ruleset O} (hw : WellFormed prior)
    (hp : RulesSafe (arOn ar (· ∈ X)) (piAlg I) (Ruleset.iter prior))
    (he : RulesSafe (arOn ar (· ∈ X)) (piAlg I) (Ruleset.iter expl)) (pl ml : Limits) :
    ∃ F', FastEnv.Goes F F' ∧ ∃ out asked, runFastForwarding D F' w prior expl pl ml = some (out, asked) ∧
      WellFormed out ∧ ∀ q ∈ Ruleset.iter out, SafeRule ar I q := by
  obtain ⟨-, ⟨d1, d1'⟩, ⟨d2, d2'⟩, ⟨d3, d3'⟩, d4⟩ := hd
  have hsub : ∀ r ∈ Ruleset.iter (Ruleset.partition F.split (fun r => isAllowedRewrite r.lhs r.rhs) prior).1,
      r ∈ Ruleset.iter prior := by
    intro r hr
    rw [C17_partition _ _ _ hw] at hr
    obtain ⟨e, he, rfl⟩ := List.mem_map.1 hr
    exact List.mem_map_of_mem (List.mem_of_mem_filter he)
  have hs1 : RulesSafe (arOn ar (· ∈ X)) (piAlg I)
      (Ruleset.iter (Ruleset.partition F.split (fun r => isAllowedRewrite r.lhs r.rhs) prior).1) :=
    fun r hr => hp r (hsub r hr)
  have hs3 : RulesSafe (arOn ar (· ∈ X)) (piAlg I) (Ruleset.iter (Ruleset.extend prior expl)) :=
    fun r hr => (mem_extend_rules hr).elim (hp r) (he r)
  obtain ⟨t1, k1, g1, h1⟩ := run_goes (E := F.egAllowed) hP hT d1 hs1 F.isSat (.compress pl) hg0 F.trAllowed d1'
  obtain ⟨⟨val1, hg1, -⟩, -⟩ := run_ok hP hs1.rulesOk hg0 h1
  obtain ⟨t2, k2, g2, h2⟩ := run_goes (E := F.egDenote) hP hT d2 he F.isSat (.simple pl) hg1 F.trDenote d2'
  obtain ⟨⟨val2, hg2, e2⟩, -⟩ := run_ok hP he.rulesOk hg1 h2
  obtain ⟨t3, k3, g3, h3⟩ := run_goes (E := F.egFinal) hP hT d3 hs3 F.isSat (.compress pl) hg2 F.trFinal d3'
  obtain ⟨⟨val3, hg3, e3⟩, -⟩ := run_ok hP hs3.rulesOk hg2 h3
  have r1 : AnyHistory D g1 := .run hr0 (fun _ _ => trivial) h1
  have r2 : AnyHistory D g2 := .run r1 (fun _ _ => trivial) h2
  have few : ∀ {g : EGraph O C} {val}, InvS S (arOn ar (· ∈ X)) (piAlg I) ok g val → AnyHistory D g →
      ∀ i ∈ F.ids g, ∀ j ∈ F.ids g, AtMost 26 (fun x => VarIn x (F.best g i).2 ∨ VarIn x (F.best g j).2) := by
    intro g val hg ha i hi j hj
    refine ⟨X, hX, fun x hx => ?_⟩
    rcases hx with hx | hx
    · exact varIn_arOn (Rep.tmOk hg _ i (hb g ha i ((hids g).mem_iff.1 hi)).1) hx
    · exact varIn_arOn (Rep.tmOk hg _ j (hb g ha j ((hids g).mem_iff.1 hj)).1) hx
  obtain ⟨c1, hc1⟩ := extract_total (g2 := g2) (keys := F.keys g1 g2) (few hg1 r1)
  obtain ⟨c2, hc2⟩ := extract_total (g2 := g3) (keys := F.keys g2 g3) (few hg2 r2)
  have hgood : ∀ q ∈ Ruleset.iter (Ruleset.extend c1 c2), (GoodRule ar q ∧ BoundRhs q) ∧ Holds I q := by
    intro q hq
    rcases mem_extend_rules hq with hq | hq
    · exact ⟨extract_good (hids g1) (hb g1 r1) (fun t i h => TmOk.ofArOn (Rep.tmOk hg1 t i h)) hc1 q hq,
        extract_holds hg1 hg2 e2 (hids g1) (hb g1 r1) hc1 q hq⟩
    · exact ⟨extract_good (hids g2) (hb g2 r2) (fun t i h => TmOk.ofArOn (Rep.tmOk hg2 t i h)) hc2 q hq,
        extract_holds hg2 hg3 e3 (hids g2) (hb g2 r2) hc2 q hq⟩
  have hcand : ∀ q, IsCandidate (Ruleset.extend c1 c2) q → SafeRule ar I q := by
    rintro q (hq | ⟨-, c, hc, e1, e2, hprop⟩)
    · obtain ⟨⟨a, b⟩, c⟩ := hgood q hq
      exact ⟨a, c, b⟩
    · obtain ⟨⟨⟨⟨a1, a2⟩, a3, a4⟩, b⟩, c⟩ := hgood c hc
      refine ⟨⟨⟨e1 ▸ a2, e2 ▸ a1⟩, e1 ▸ a4, e2 ▸ a3⟩, fun ρ => ?_, hprop.2⟩
      rw [e1, e2]
      exact (c ρ).symm
  have hwc : WellFormed (Ruleset.extend c1 c2) := Ruleset.WellFormed.extend (addPairs_wf hc1) (addPairs_wf hc2)
  obtain ⟨mtr, k4, out, inv, asked, h4⟩ := minimize_goes (cands := Ruleset.extend c1 c2) (prior := prior) hB
    { F.min with sched := .compress ml } (fun k => (d4 k).1) (fun k => (d4 k).2) hwc (fun q hq => (hgood q hq).1)
    (fun _ q hq _ => (hcand q hq).2.1) (hp.mono fun o k h => ⟨h.1, fun _ _ => trivial⟩)
  refine ⟨{ F with trAllowed := t1, trDenote := t2, trFinal := t3, min := { F.min with tr := mtr } },
    ⟨t1, t2, t3, mtr, k1, k2, k3, k4, rfl⟩, out, asked, ?_, ?_⟩
  · unfold runFastForwarding
    simp only at h4 ⊢
    rw [h0, Option.bind_some, h1, Option.bind_some, h2, Option.bind_some, hc1, Option.bind_some, h3, Option.bind_some, hc2,
      Option.bind_some, h4]
  · obtain ⟨w1, w2⟩ := C22_validated hwc hw h4
    exact ⟨w1, fun q hq => hcand q (w2 q hq).2.1⟩

end Ruler
