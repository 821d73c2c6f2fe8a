import Verif.Spec.Size
import Verif.Proofs.Size
import Verif.Props.RecipeRules
/-!
# C74: found rules are not larger than the terms of the workload
-/
namespace Ruler
open Spec EGraph
variable {O C : Type} [Lang O] [LinearOrder C] {D : Domain O C}

theorem patSize_schema (ρ : String → String) (t : Tm O) : patSize (schema ρ t) ≤ tmSize t := by
  induction t using Tm.ind with
  | hn o l ih =>
    rw [schema, tmSize]
    split
    · rw [patSize]; omega
    · rw [patSize]
      have : patSizeL (schemaL ρ l) ≤ tmSizeL l := by
        induction l with
        | nil => simp [schemaL, patSizeL, tmSizeL]
        | cons a l ihl =>
          rw [schemaL, patSizeL, tmSizeL]
          exact Nat.add_le_add (ih a (by simp)) (ihl fun s hs => ih s (by simp [hs]))
      omega

omit [LinearOrder C] in
theorem FlatConstants.addsSmall (hD : FlatConstants D) {n : Nat} (hn : 1 ≤ n) : AddsSmall D fun t => tmSize t ≤ n :=
  ⟨fun _ _ h _ ha => (tmSize_arg ha).trans h, hD.custom, hD.varTerms, fun c t h => (hD.const c t h).trans_le hn⟩

/-- The size of a term is the number of atoms of its text. -/
theorem tmSize_ofSexp {s : Sexp} {t : Tm O} (h : Tm.ofSexp s = some t) : tmSize t = s.measureT .atoms := by
  induction t using Tm.ind generalizing s with
  | hn o l ih =>
    have hL : ∀ {ss : List Sexp} {ts : List (Tm O)}, (∀ t ∈ ts, t ∈ l) → Tm.ofSexpL ss = some ts → tmSizeL ts = (Sexp.measureTL .atoms ss).sum := by
      intro ss
      induction ss with
      | nil => intro ts _ h; simp only [Tm.ofSexpL, Option.some.injEq] at h; subst h; rfl
      | cons s ss ihs =>
        intro ts hts h
        simp only [Tm.ofSexpL, Option.bind_eq_some_iff, Option.map_eq_some_iff] at h
        obtain ⟨t, h1, ts', h2, rfl⟩ := h
        simp only [tmSizeL, Sexp.measureTL, List.sum_cons, ih t (hts t (by simp)) h1, ihs (fun t ht => hts t (by simp [ht])) h2]
    match s, h with
    | .atom a, h =>
      simp only [Tm.ofSexp, Option.map_eq_some_iff, Tm.node.injEq] at h
      obtain ⟨_, _, _, rfl⟩ := h
      rfl
    | .list (.atom a :: args), h =>
      simp only [Tm.ofSexp, Option.bind_eq_some_iff, Option.map_eq_some_iff, Tm.node.injEq] at h
      obtain ⟨as, h1, _, _, _, rfl⟩ := h
      simp only [tmSize, Sexp.measureT, Sexp.measureTL, List.sum_cons, hL (fun _ h => h) h1]
      omega
    | .list [], h => simp [Tm.ofSexp] at h
    | .list (.list _ :: _), h => simp [Tm.ofSexp] at h

/-- **C74.** A run on terms with at most `n` operators, constants and variables finds only rules whose sides have at most `n` operators,
constants and variables. -/
theorem C74_run (hD : FlatConstants D) (hv : VarsOk (O := O) fun _ _ => True) {R : RunEnv O C} (hR : RunOk D R) {n : Nat} (hn : 1 ≤ n)
    (hsmall : ∀ g, AnyHistory D g → ∀ i ∈ g.classes, Least g tmSize i (R.best g i)) {w : Workload}
    (hw : ∀ ss, w.force = some ss → ∀ s ∈ ss, ∀ t : Tm O, Tm.ofSexp s = some t → tmSize t ≤ n) {prior out : Ruleset O} {pl ml : Limits}
    {fast allowEmpty : Bool} {asked : List (Rule O)} (hp : WellFormed prior)
    (h : runWorkloadInternal D R w prior pl ml fast allowEmpty = some (out, asked)) : ∀ q ∈ Ruleset.iter out, RuleWithin n q := by
  have hreach : ∀ {g g'}, w.toEGraph D R.build = some g → Scheduler.run D R.eg R.isSat (.compress pl) prior R.tr g = some g' →
      AnyHistory D g' := fun hg hg' =>
    .run (toEGraph_reach hv (fun _ _ _ _ _ _ => TmOk.any _) hg) (fun _ _ => trivial) hg'
  obtain ⟨g, g', hg, hg', hq⟩ := runWorkloadInternal_origin_of hp (fun g g' hg hg' => (hR g' (hreach hg hg')).1) h
  have hw0 : Within (fun t => tmSize t ≤ n) g := by
    unfold Workload.toEGraph at hg
    obtain ⟨ss, h1, hg⟩ := Option.bind_eq_some_iff.1 hg
    obtain ⟨ts, h2, hg⟩ := Option.bind_eq_some_iff.1 hg
    refine termsToEGraph_within (FlatConstants.addsSmall hD hn) (fun _ _ _ _ _ => hn) (fun t ht => ?_) hg
    obtain ⟨s, hs, e⟩ := mapM_option_mem h2 ht
    exact hw ss h1 s hs t e
  have hw1 : Within (fun t => tmSize t ≤ n) g' := runCompress_within (FlatConstants.addsSmall hD hn) hw0 hg'
  have hb : ∀ i ∈ g'.classes, tmSize (R.best g' i) ≤ n := fun i hi => by
    simp only [EGraph.classes, List.mem_filter, List.mem_range] at hi
    obtain ⟨t, h1, h2⟩ := hw1.2 i hi.1
    exact ((hsmall g' (hreach hg hg') i (by simpa [EGraph.classes] using hi)).2 t h1).trans h2
  intro q hq'
  obtain ⟨i, hi, j, hj, -, -, -, ρ, -, e1, e2, -⟩ := hq q hq'
  exact ⟨e1 ▸ (patSize_schema ρ _).trans (hb i hi), e2 ▸ (patSize_schema ρ _).trans (hb j hj)⟩

/-- **C74.** The rules that `recursive_rules` adds up to size `n` (counted in atoms) have at most `n` operators, constants and variables
on either side. -/
theorem C74_recursive (hD : FlatConstants D) (hv : VarsOk (O := O) fun _ _ => True) {envs : Nat → RunEnv O C}
    (hR : ∀ k, RunOk D (envs k)) (hsmall : ∀ k g, AnyHistory D g → ∀ i ∈ g.classes, Least g tmSize i ((envs k).best g i))
    {lang : RecipeLang} (hL : LangOk lang) {prior : Ruleset O} (hp : WellFormed prior) (n : Nat) {out : Ruleset O}
    {log : List (Nat × List (Rule O))} (h : recursiveRules D envs .atoms lang prior n = some (out, log)) :
    ∀ q ∈ Ruleset.iter out, q ∈ Ruleset.iter prior ∨ RuleWithin n q := by
  induction n generalizing out log with
  | zero => cases h; simp [Ruleset.iter]
  | succ n ih =>
    obtain ⟨rs, log', w, new, asked, h1, hw, h2, rfl, rfl⟩ := recursiveRules_level h
    have hk := Ruleset.WellFormed.extend (recursiveRules_ok hp n h1).1 hp
    intro q hq
    rcases mem_extend_rules hq with hq | hq
    · refine .inr (C74_run hD hv (hR _) (Nat.succ_pos n) (hsmall _) (fun ss hss s hs t ht => ?_) hk h2 q hq)
      obtain ⟨w', ts, hw', hts, hmem⟩ := C66_level hL .atoms (n + 1) (Nat.succ_pos n)
      obtain rfl : w' = w := Option.some.inj (hw'.symm.trans hw)
      obtain rfl : ts = ss := Option.some.inj (hts.symm.trans hss)
      obtain ⟨-, -, m, hm, hle⟩ := (hmem s).1 hs
      rw [tmSize_ofSexp ht, ← Sexp.measure_some _ _ _ hm]
      exact hle
    · rcases mem_extend_rules hq with hq | hq
      · exact (ih h1 q hq).imp_right fun hr => ⟨hr.1.trans (Nat.le_succ n), hr.2.trans (Nat.le_succ n)⟩
      · exact .inl hq

/-! ## The recipes -/

theorem boolDomain_flat : FlatConstants boolDomain := ⟨fun _ _ => rfl, fun _ => rfl, fun _ _ h => by cases h; rfl⟩
theorem bvDomain_flat (N : Nat) : FlatConstants (bvDomain N) := ⟨fun _ _ => rfl, fun _ => rfl, fun _ _ h => by cases h; rfl⟩
theorem rationalDomain_flat (ck : Checked) : FlatConstants (rationalDomain ck) := ⟨fun _ _ => rfl, fun _ => rfl, fun _ _ h => by cases h; rfl⟩
theorem halideDomain_flat : FlatConstants halideDomain := ⟨fun _ _ => rfl, fun _ => rfl, fun _ _ h => by cases h; rfl⟩

/-- **C74 (Boolean recipe).** The rules of the Boolean recipe with the sizes `m` and `n` have at most `m` or at most `n` atoms. -/
theorem C74_bool {m n : Nat} (hn : 1 ≤ n) {E : Nat → Nat → RunEnv BoolOp Bool} (hE : ∀ i k, RunOk boolDomain (E i k))
    (hsmall : ∀ i k g, AnyHistory boolDomain g → ∀ j ∈ g.classes, Least g tmSize j ((E i k).best g j)) {out : Ruleset BoolOp}
    (h : boolRulesSized m n E = some out) : ∀ q ∈ Ruleset.iter out, RuleWithin m q ∨ RuleWithin n q := by
  simp only [boolRulesSized, Option.bind_eq_bind, Option.bind_eq_some_iff, Option.pure_def, Option.some.injEq] at h
  obtain ⟨⟨r5, log⟩, h5, w, hw, ⟨r7, asked⟩, h7, rfl⟩ := h
  have hw5 := (recursiveRules_ok Ruleset.WellFormed.nil m h5).1
  have hwe := Ruleset.WellFormed.extend (a := ([] : Ruleset BoolOp)) Ruleset.WellFormed.nil hw5
  intro q hq
  rcases mem_extend_rules hq with hq | hq
  · rcases mem_extend_rules hq with hq | hq
    · simp [Ruleset.iter] at hq
    · exact .inl ((C74_recursive boolDomain_flat (fun _ => ⟨rfl, trivial⟩) (hE 0) (hsmall 0) (langCheck_ok (by decide +kernel))
        Ruleset.WellFormed.nil m h5 q hq).resolve_left (by simp [Ruleset.iter]))
  · refine .inr (C74_run boolDomain_flat (fun _ => ⟨rfl, trivial⟩) (hE 1 0) hn (hsmall 1 0) (fun ss hss s hs t ht => ?_) hwe h7 q hq)
    obtain ⟨w', ts, hw', hts, hmem⟩ := C66_bool_canon n hn
    obtain rfl : w' = w := Option.some.inj (hw'.symm.trans hw)
    obtain rfl : ts = ss := Option.some.inj (hts.symm.trans hss)
    obtain ⟨-, ⟨k, hk, hle⟩, -⟩ := (hmem s).1 hs
    rw [tmSize_ofSexp ht, ← Sexp.measure_some _ _ _ hk]
    exact hle

/-- **C74 (bit-vector recipes).** The rules of `bv4_rules` have at most five atoms on either side. -/
theorem C74_bv4 {E : Nat → RunEnv (BvOp 4) (BV 4)} (hE : ∀ k, RunOk (bvDomain 4) (E k))
    (hsmall : ∀ k g, AnyHistory (bvDomain 4) g → ∀ j ∈ g.classes, Least g tmSize j ((E k).best g j)) {out : Ruleset (BvOp 4)}
    (h : bv4Rules E = some out) : ∀ q ∈ Ruleset.iter out, RuleWithin 5 q := by
  obtain ⟨⟨r, log⟩, hr, rfl⟩ := Option.map_eq_some_iff.1 h
  exact fun q hq => (C74_recursive (bvDomain_flat 4) (fun _ => ⟨rfl, trivial⟩) hE hsmall (langCheck_ok (by decide +kernel))
    Ruleset.WellFormed.nil 5 hr q hq).resolve_left (by simp [Ruleset.iter])

/-- **C74 (bit-vector recipes).** Likewise `bv32_rules`. -/
theorem C74_bv32 {E : Nat → RunEnv (BvOp 32) (BV 32)} (hE : ∀ k, RunOk (bvDomain 32) (E k))
    (hsmall : ∀ k g, AnyHistory (bvDomain 32) g → ∀ j ∈ g.classes, Least g tmSize j ((E k).best g j)) {out : Ruleset (BvOp 32)}
    (h : bv32Rules E = some out) : ∀ q ∈ Ruleset.iter out, RuleWithin 5 q := by
  obtain ⟨⟨r, log⟩, hr, rfl⟩ := Option.map_eq_some_iff.1 h
  exact fun q hq => (C74_recursive (bvDomain_flat 32) (fun _ => ⟨rfl, trivial⟩) hE hsmall (langCheck_ok (by decide +kernel))
    Ruleset.WellFormed.nil 5 hr q hq).resolve_left (by simp [Ruleset.iter])

/-- **C74 (bit-vector recipes).** The rules of `bv4_fancy_rules` with the sizes `m` and `n` have at most `m` or at most `n` atoms. -/
theorem C74_bv4_fancy {m n : Nat} (hn : 1 ≤ n) {E : Nat → Nat → RunEnv (BvOp 4) (BV 4)} (hE : ∀ i k, RunOk (bvDomain 4) (E i k))
    (hsmall : ∀ i k g, AnyHistory (bvDomain 4) g → ∀ j ∈ g.classes, Least g tmSize j ((E i k).best g j)) {out : Ruleset (BvOp 4)}
    (h : bv4FancySized m n E = some out) : ∀ q ∈ Ruleset.iter out, RuleWithin m q ∨ RuleWithin n q := by
  simp only [bv4FancySized, Option.bind_eq_bind, Option.bind_eq_some_iff, Option.pure_def, Option.some.injEq] at h
  obtain ⟨⟨r5, log⟩, h5, w, hw, ⟨r7, asked⟩, h7, rfl⟩ := h
  have hw5 := (recursiveRules_ok Ruleset.WellFormed.nil m h5).1
  have hwe := Ruleset.WellFormed.extend (a := ([] : Ruleset (BvOp 4))) Ruleset.WellFormed.nil hw5
  intro q hq
  rcases mem_extend_rules hq with hq | hq
  · rcases mem_extend_rules hq with hq | hq
    · simp [Ruleset.iter] at hq
    · exact .inl ((C74_recursive (bvDomain_flat 4) (fun _ => ⟨rfl, trivial⟩) (hE 0) (hsmall 0) (langCheck_ok (by decide +kernel))
        Ruleset.WellFormed.nil m h5 q hq).resolve_left (by simp [Ruleset.iter]))
  · refine .inr (C74_run (bvDomain_flat 4) (fun _ => ⟨rfl, trivial⟩) (hE 1 0) hn (hsmall 1 0) (fun ss hss s hs t ht => ?_) hwe h7 q hq)
    obtain ⟨w', ts, hw', hts, hmem⟩ := C66_bv4_canon n hn
    obtain rfl : w' = w := Option.some.inj (hw'.symm.trans hw)
    obtain rfl : ts = ss := Option.some.inj (hts.symm.trans hss)
    rw [tmSize_ofSexp ht]
    rcases (hmem s).1 hs with ⟨x, -, rfl⟩ | ⟨-, ⟨k, hk, hle⟩, -⟩
    · exact hn
    · rw [← Sexp.measure_some _ _ _ hk]
      exact hle

end Ruler
