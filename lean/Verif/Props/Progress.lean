import Verif.Proofs.ProgressDomains
import Verif.Props.SynthesisDomains
/-!
# C68: runs do not panic
-/
namespace Ruler
open Spec EGraph
variable {O C V : Type} [Lang O] [LinearOrder C] {D : Domain O C} {ar : O → Nat → Prop}
variable {I : O → List V → V} {mem : Interval C → V → Prop} {fits : Option C → V → Prop}

omit [LinearOrder C] in
theorem collectVars_few {ts : List (Tm O)} (h : AtMost 26 (fun x => ∃ t ∈ ts, HasVar x t)) :
    (collectVars ts).length ≤ 26 := by
  obtain ⟨L, hL, h⟩ := h
  obtain ⟨hn, hm⟩ := collectVars_spec ts
  exact (List.Nodup.subperm hn fun x hx => h x ((hm x).1 hx)).length_le.trans hL

omit [LinearOrder C] in
theorem collectVars_ne {ts : List (Tm O)} (h : ∃ t ∈ ts, ∃ x, HasVar x t) : collectVars ts ≠ [] := by
  obtain ⟨t, ht, x, hx⟩ := h
  exact List.ne_nil_of_mem (mem_collectVars ht hx)

theorem tmOk_sorted (hps : ParsesSorted (O := O) ar) {w : Workload} {ts : List (Tm O)} (h : TermsOf w ts) :
    ∀ t ∈ ts, TmOk ar t := by
  obtain ⟨ss, -, h⟩ := h
  intro t ht
  obtain ⟨s, -, e⟩ := mapM_option_mem h ht
  exact tmOk_ofSexp hps s t e

/-- The samples of the variables can be initialized, and every position of the vectors belongs to values. -/
theorem initProduct_total {consts : List (Option C)} (hne : consts ≠ []) [Nonempty V] (he : ∀ c ∈ consts, ∃ v, fits c v)
    {X : List String} (hX : X ≠ []) (hn : X.Nodup) : ∃ n tbl, initProduct consts X = some (n, tbl) ∧
      ∀ j, j < n → ∃ env : String → V, SampleAt fits tbl j env := by
  have h0 : (selfProduct consts X.length)[0]? = some _ := selfProduct_get _ _ 0 (List.length_pos_iff.2 hX)
  obtain ⟨⟨n, tbl⟩, h⟩ : ∃ p, initProduct consts X = some p := by
    simp only [initProduct, h0]
    exact ⟨_, rfl⟩
  exact ⟨n, tbl, h, (initProduct_positions hn h hne he).2⟩

theorem RunEnv.goes_refl (R : RunEnv O C) : RunEnv.Goes R R :=
  ⟨_, _, SchedTrace.goes_refl _, fun _ => SchedTrace.goes_refl _, rfl⟩

/-- The step of a recursion: the run completes and the rules it finds are safe. -/
def SafeStep (D : Domain O C) (ar : O → Nat → Prop) (I : O → List V → V) (R : RunEnv O C) (w : Workload)
    (prior : Ruleset O) (pl ml : Limits) (fast : Bool) : Prop :=
  ∃ R', RunEnv.Goes R R' ∧ ∃ out asked, runWorkloadInternal D R' w prior pl ml fast true = some (out, asked) ∧
    (out ≠ [] → runWorkloadInternal D R' w prior pl ml fast false = some (out, asked)) ∧
    (WellFormed prior → WellFormed out ∧ ∀ q ∈ Ruleset.iter out, SafeRule ar I q)

theorem runWorkload_step [Nonempty V] (hD : SafeDomain D ar I mem fits) (hI : InitOk D) (hor : OpsReadable (O := O) ar)
    {R : RunEnv O C} (hR : RunOk D R) (hd : RunEnv.Deep R) {w : Workload} {prior : Ruleset O}
    (hpr : ∀ r ∈ Ruleset.iter prior, SafeRule ar I r) {ts : List (Tm O)} (hts : TermsOf w ts) (hok : ∀ t ∈ ts, TmOk ar t)
    (hfew : FewVars ts) (hinit : ∀ X : List String, X ≠ [] → X.Nodup → ∃ n tbl, D.initVars X = some (n, tbl) ∧
      ∀ j, j < n → ∃ env : String → V, SampleAt fits tbl j env) {pl ml : Limits} {fast : Bool}
    (hval : ∀ tr g g' cands, w.toEGraph D R.build = some g →
      Scheduler.run D R.eg R.isSat (.compress pl) prior tr g = some g' →
      (if fast then fastCvecMatch g' (R.order g') (R.best g') else cvecMatch g' (R.order g') (R.best g')) = some cands →
      ∀ before, ∀ q ∈ Ruleset.iter cands, GoodRule ar q → R.min.valid before q = true → Holds I q) :
    SafeStep D ar I R w prior pl ml fast := by
  obtain ⟨ss, hss, hts⟩ := hts
  obtain ⟨n, tbl, h1, h2⟩ := hinit _ (collectVars_ne hfew.1) (collectVars_nodup ts)
  obtain ⟨R', hg, out, asked, h, hs⟩ := runWorkload_goes (pl := pl) (ml := ml) (fast := fast) hD hI hor hR hd hpr hss hts
    hok h1 h2 (collectVars_few hfew.2) hval
  refine ⟨R', hg, out, asked, by simpa using h true, fun hne => ?_, hs⟩
  have := h false
  rwa [if_neg (by simpa using hne)] at this

omit [LinearOrder C] in
theorem SafeStep.completes [LinearOrder C] {R : RunEnv O C} {w : Workload} {prior : Ruleset O} {pl ml : Limits} {fast : Bool}
    (h : SafeStep D ar I R w prior pl ml fast) : Completes D R w prior pl ml fast := by
  obtain ⟨R', hg, out, asked, h1, h2, -⟩ := h
  exact ⟨R', hg, out, asked, h1, h2⟩

/-- `recursive_rules` when every step completes. -/
theorem recursiveRules_goes {envs : Nat → RunEnv O C} {metric : Metric} {lang : RecipeLang} {prior : Ruleset O}
    (hw : WellFormed prior) (hp : ∀ r ∈ Ruleset.iter prior, SafeRule ar I r) (n : Nat)
    (hstep : ∀ k, 1 ≤ k → k ≤ n → ∃ w, recursiveWorkload metric k lang = some w ∧ ∀ known, WellFormed known →
      (∀ r ∈ Ruleset.iter known, SafeRule ar I r) →
      SafeStep D ar I (envs k) w known Limits.synthesis Limits.minimize true) :
    ∃ envs' : Nat → RunEnv O C, (∀ k, RunEnv.Goes (envs k) (envs' k)) ∧
      ((∃ out log, recursiveRules D envs' metric lang prior n = some (out, log) ∧ WellFormed out ∧
        ∀ r ∈ Ruleset.iter out, SafeRule ar I r) ∨
      EmptyLevel D envs' metric lang prior n) := by
  induction n with
  | zero => exact ⟨envs, fun k => RunEnv.goes_refl _, .inl ⟨[], [], rfl, by simp [WellFormed], by simp [Ruleset.iter]⟩⟩
  | succ n ih =>
    obtain ⟨e1, g1, h1⟩ := ih fun k hk hk' => hstep k hk (by omega)
    rcases h1 with ⟨rec, log, h1, w1, s1⟩ | h1
    · obtain ⟨w, hw', hs⟩ := hstep (n + 1) (by omega) (Nat.le_refl _)
      have hk : ∀ r ∈ Ruleset.iter (Ruleset.extend rec prior), SafeRule ar I r := fun r hr =>
        (mem_extend_rules hr).elim (s1 r) (hp r)
      obtain ⟨R', g2, out, asked, h2, h3, h4⟩ := hs _ (Ruleset.WellFormed.extend w1 hw) hk
      obtain ⟨w2, s2⟩ := h4 (Ruleset.WellFormed.extend w1 hw)
      have hc : ∀ m, m ≤ n → recursiveRules D (fun k => if k = n + 1 then R' else e1 k) metric lang prior m =
          recursiveRules D e1 metric lang prior m := by
        intro m hm
        induction m with
        | zero => rfl
        | succ m ihm =>
          rw [recursiveRules, recursiveRules, ihm (by omega)]
          simp only [if_neg (show m + 1 ≠ n + 1 by omega)]
      refine ⟨fun k => if k = n + 1 then R' else e1 k, fun k => ?_, ?_⟩
      · simp only
        split
        · rename_i h; rw [h]; exact g2
        · exact g1 k
      · by_cases he : out = [] ∧ 3 ≤ n + 1
        · obtain ⟨rfl, he⟩ := he
          refine .inr ⟨n + 1, he, Nat.le_refl _, rec, log, w, asked, ?_, hw', ?_⟩
          · rw [Nat.add_sub_cancel, hc n (Nat.le_refl _)]; exact h1
          · simpa using h2
        · refine .inl ⟨Ruleset.extend out (Ruleset.extend rec prior), (n + 1, asked) :: log, ?_,
            Ruleset.WellFormed.extend w2 (Ruleset.WellFormed.extend w1 hw),
            fun r hr => (mem_extend_rules hr).elim (s2 r) (hk r)⟩
          have h5 : runWorkloadInternal D R' w (Ruleset.extend rec prior) Limits.synthesis Limits.minimize true
              (decide (n + 1 < 3)) = some (out, asked) := by
            by_cases h : n + 1 < 3
            · rw [decide_eq_true h]; exact h2
            · rw [decide_eq_false h]; exact h3 fun e => he ⟨e, by omega⟩
          rw [recursiveRules, hc n (Nat.le_refl _), h1, Option.bind_some, hw', Option.bind_some]
          simp only [if_true, h5, Option.map_some]
    · obtain ⟨k, k1, k2, k3⟩ := h1; exact ⟨e1, g1, .inr ⟨k, k1, by omega, k3⟩⟩

/-! ## C68 -/

/-- **C68.** Building the e-graph of a workload does not panic; and whatever is done to the e-graph afterwards — adding
terms, rebuilding, and running safe rules under any scheduler with any choices of egg — the next such step does not panic
either: a term can be added, and rebuilding and running come to an end if they go on long enough. -/
theorem C68_egraph [Nonempty V] (hD : SafeDomain D ar I mem fits) (hI : InitOk D) {E : Egg} (hE : 2 ≤ E.depth)
    {w : Workload} {ts : List (Tm O)} (hts : TermsOf w ts) (hok : ∀ t ∈ ts, TmOk ar t) (hvar : ∃ t ∈ ts, ∃ x, HasVar x t)
    (hinit : ∀ X : List String, X ≠ [] → X.Nodup → ∃ n tbl, D.initVars X = some (n, tbl) ∧
      ∀ j, j < n → ∃ env : String → V, SampleAt fits tbl j env) :
    ∃ g X, w.toEGraph D E = some g ∧ VarsOf ts X ∧ ∀ g', Grows D ar (SafeRule ar I) X g g' → ∀ E' : Egg, 2 ≤ E'.depth →
      (∀ t, TmOk ar t → (∀ x, HasVar x t → x ∈ X) → ∃ r, EGraph.addTm D E' t g' = some r) ∧
      (∀ steps, ∃ more r, rebuild D E' (steps ++ more) g' = some r) ∧
      ∀ (rules : Ruleset O) (isSat : Rule O → Bool) (s : Scheduler) (t : SchedTrace),
        (∀ r ∈ Ruleset.iter rules, SafeRule ar I r) → 2 ≤ t.clone.depth →
        ∃ t', SchedTrace.Goes t t' ∧ ∃ r, Scheduler.run D E' isSat s rules t' g' = some r := by
  obtain ⟨ss, hss, hts⟩ := hts
  obtain ⟨n, tbl, h1, h2⟩ := hinit _ (collectVars_ne hvar) (collectVars_nodup ts)
  obtain ⟨g, hg, hinv, -⟩ := toEGraph_safe (E := E) hD hI hE hss hts hok h1 h2
  have hP := safeInv_plain hD n tbl (collectVars ts)
  have hT := safeTotal_plain hD (collectVars ts) h2
  refine ⟨g, collectVars ts, hg, collectVars_spec ts, fun g' hgr E' hE' => ?_⟩
  have hinv' : ∃ val, SafeInv ar I mem fits n tbl (collectVars ts) g' val := by
    induction hgr with
    | refl => exact hinv
    | addTm _ ht hx h ih =>
      obtain ⟨val, hv⟩ := ih
      obtain ⟨val', h', -⟩ := addTm_ok hP (TmOk.arOn ht hx) hv h
      exact ⟨val', h'⟩
    | rebuild _ h ih =>
      obtain ⟨val, hv⟩ := ih
      obtain ⟨⟨val', h', -⟩, -⟩ := rebuild_ok hP hv h
      exact ⟨val', h'⟩
    | run _ hr h ih =>
      obtain ⟨val, hv⟩ := ih
      obtain ⟨⟨val', h', -⟩, -⟩ := run_ok hP (rulesSafe_piAlg hr).rulesOk hv h
      exact ⟨val', h'⟩
  obtain ⟨val, hv⟩ := hinv'
  refine ⟨fun t ht hx => ?_, fun steps => ?_, fun rules isSat s t hr ht => ?_⟩
  · obtain ⟨r, i, h⟩ := addTm_total (E := E') hP hT hE' t (TmOk.arOn ht hx) g' val hv
    exact ⟨_, h⟩
  · exact rebuild_extends hP hT hE' hv steps
  · exact run_goes hP hT hE' (rulesSafe_piAlg hr) isSat s hv t ht

/-- **C68.** Deriving a rule from safe rules does not panic. -/
theorem C68_canDerive [Nonempty V] (hD : SafeDomain D ar I mem fits) {E : Egg} (hE : 2 ≤ E.depth) {rs : Ruleset O}
    (hrs : ∀ q ∈ Ruleset.iter rs, SafeRule ar I q) {r : Rule O} (hr : RuleOk ar r)
    (isSat : Rule O → Bool) (ty : DeriveType) (limits : Limits) (t : SchedTrace) (ht : 2 ≤ t.clone.depth) :
    ∃ t', SchedTrace.Goes t t' ∧ ∃ b, Ruleset.canDerive D E isSat ty limits t' rs r = some b :=
  canDerive_goes hD.bare hE (rulesSafe_piAlg hrs) hr isSat ty limits t ht

/-- **C68.** Neither does deriving a whole ruleset, in parallel. -/
theorem C68_derive [Nonempty V] (hD : SafeDomain D ar I mem fits) {rs against : Ruleset O}
    (hrs : ∀ q ∈ Ruleset.iter rs, SafeRule ar I q) (hr : ∀ q ∈ Ruleset.iter against, RuleOk ar q)
    (isSat : Rule O → Bool) (ty : DeriveType) (limits : Limits) (split : Ruleset.Split) (eg : Rule O → Egg)
    (hE : ∀ q, 2 ≤ (eg q).depth) (tr : Rule O → SchedTrace) (ht : ∀ q, 2 ≤ (tr q).clone.depth) :
    ∃ tr' : Rule O → SchedTrace, (∀ q, SchedTrace.Goes (tr q) (tr' q)) ∧
      ∃ out, Ruleset.derive D isSat ty limits split eg tr' rs against = some out :=
  derive_goes hD.bare (rulesSafe_piAlg hrs) hr isSat ty limits split eg hE tr ht

/-- **C68.** Neither does asking whether a rule is saturating. -/
theorem C68_isSaturating [Nonempty V] (hD : SafeDomain D ar I mem fits) {E : Egg} (hE : 2 ≤ E.depth) {r : Rule O}
    (hr : GoodRule ar r) (hh : Holds I r) (steps : List Repair) :
    ∃ more b, isSaturating D E (steps ++ more) r = some b :=
  isSaturating_goes hD.bare hE hr hh steps

/-- **C68.** Minimization comes to an end if the validator accepts only rules that hold. -/
theorem C68_minimize [Nonempty V] (hD : SafeDomain D ar I mem fits) (M : MinEnv O) (hE : ∀ k, 2 ≤ (M.eg k).depth)
    (ht : ∀ k, 2 ≤ (M.tr k).clone.depth) {cands prior : Ruleset O} (hw : WellFormed cands)
    (hc : ∀ q ∈ Ruleset.iter cands, GoodRule ar q ∧ BoundRhs q)
    (hv : ∀ before q, IsCandidate cands q → M.valid before q = true → Holds I q)
    (hp : ∀ r ∈ Ruleset.iter prior, SafeRule ar I r) :
    ∃ tr' : Nat → SchedTrace, (∀ k, SchedTrace.Goes (M.tr k) (tr' k)) ∧
      ∃ out inv asked, Ruleset.minimize D { M with tr := tr' } cands.length cands prior = .done out inv asked :=
  minimize_goes hD.bare M hE ht hw hc hv (rulesSafe_piAlg hp)

/-- **C68.** A run of `run_workload` does not panic, for every domain whose analysis is correct and total: whatever egg has
done, there is a way to go on to the end; only the assertion that rules were found can fail. -/
theorem C68_runWorkload [Nonempty V] (hD : SafeDomain D ar I mem fits) (hI : InitOk D) (hor : OpsReadable (O := O) ar)
    {R : RunEnv O C} (hR : RunOk D R) (hd : RunEnv.Deep R) {w : Workload} {prior : Ruleset O}
    (hpr : ∀ r ∈ Ruleset.iter prior, SafeRule ar I r) {ts : List (Tm O)} (hts : TermsOf w ts) (hok : ∀ t ∈ ts, TmOk ar t)
    (hfew : FewVars ts) (hinit : ∀ X : List String, X ≠ [] → X.Nodup → ∃ n tbl, D.initVars X = some (n, tbl) ∧
      ∀ j, j < n → ∃ env : String → V, SampleAt fits tbl j env)
    (hval : ∀ before q, GoodRule ar q → R.min.valid before q = true → Holds I q) (pl ml : Limits) (fast : Bool) :
    Completes D R w prior pl ml fast :=
  (runWorkload_step hD hI hor hR hd hpr hts hok hfew hinit fun _ _ _ _ _ _ _ before q _ hq hb => hval before q hq hb).completes

/-- **C68.** Likewise `recursive_rules`: only the assertion of a level with three or more atoms can fail. -/
theorem C68_recursive [Nonempty V] (hD : SafeDomain D ar I mem fits) (hI : InitOk D) (hor : OpsReadable (O := O) ar)
    {envs : Nat → RunEnv O C} (hR : ∀ k, RunOk D (envs k)) (hd : ∀ k, RunEnv.Deep (envs k)) {metric : Metric}
    {lang : RecipeLang} {prior : Ruleset O} (hw : WellFormed prior) (hpr : ∀ r ∈ Ruleset.iter prior, SafeRule ar I r) {n : Nat}
    (hts : ∀ k, 1 ≤ k → k ≤ n → ∃ w ts, recursiveWorkload metric k lang = some w ∧ TermsOf w ts ∧
      (∀ t ∈ ts, TmOk ar t) ∧ FewVars ts)
    (hinit : ∀ X : List String, X ≠ [] → X.Nodup → ∃ n tbl, D.initVars X = some (n, tbl) ∧
      ∀ j, j < n → ∃ env : String → V, SampleAt fits tbl j env)
    (hval : ∀ k before q, GoodRule ar q → (envs k).min.valid before q = true → Holds I q) :
    ∃ envs' : Nat → RunEnv O C, (∀ k, RunEnv.Goes (envs k) (envs' k)) ∧
      ((∃ out log, recursiveRules D envs' metric lang prior n = some (out, log)) ∨
        EmptyLevel D envs' metric lang prior n) := by
  obtain ⟨envs', hg, h⟩ := recursiveRules_goes (D := D) (envs := envs) hw hpr n fun k hk hk' => by
    obtain ⟨w, ts, h1, h2, h3, h4⟩ := hts k hk hk'
    exact ⟨w, h1, fun known _ hs => runWorkload_step hD hI hor (hR k) (hd k) hs h2 h3 h4 hinit
      fun _ _ _ _ _ _ _ before q _ hq hb => hval k before q hq hb⟩
  exact ⟨envs', hg, h.imp (fun ⟨out, log, h, _⟩ => ⟨out, log, h⟩) id⟩

/-- Boolean candidates hold, since the vectors list the values under all assignments. -/
theorem bool_cands {R : RunEnv BoolOp Bool} (hR : RunOk boolDomain R) {w : Workload} {prior : Ruleset BoolOp}
    (hpr : ∀ r ∈ Ruleset.iter prior, SafeRule (fun o k => k = o.arity) boolOpVal r) {pl : Limits} {fast : Bool}
    (tr : SchedTrace) (g g' : EGraph BoolOp Bool) (cands : Ruleset BoolOp) (hg : w.toEGraph boolDomain R.build = some g)
    (hg' : Scheduler.run boolDomain R.eg R.isSat (.compress pl) prior tr g = some g')
    (hc : (if fast then fastCvecMatch g' (R.order g') (R.best g') else cvecMatch g' (R.order g') (R.best g')) = some cands)
    (q : Rule BoolOp) (hqc : q ∈ Ruleset.iter cands) : Holds boolOpVal q := by
  have hpr' : ∀ r ∈ Ruleset.iter prior, GoodRule (fun o k => k = o.arity) r ∧ Holds boolOpVal r :=
    fun r hr => ⟨(hpr r hr).1, (hpr r hr).2.1⟩
  obtain ⟨-, hord, hbest, -⟩ := run_graph (R := { R with tr := tr }) bool_folds bool_varOps.1 bool_parsesSorted hR hpr' hg hg'
  obtain ⟨ts, h0, hts, -⟩ := toEGraph_terms bool_parsesSorted hg
  obtain ⟨X, n, tbl, hX, hinit, hvec⟩ := C63_bool (R := fun r => r ∈ Ruleset.iter prior) hpr' hts h0
  have hgr : Grows boolDomain (fun o k => k = o.arity) (fun r => r ∈ Ruleset.iter prior) X g g' :=
    .run .refl (fun _ hr => hr) hg'
  obtain ⟨i, hi, j, hj, ha, hrel⟩ := cands_agree hord hc hqc
  rw [Relates.holds_iff hrel]
  intro env
  obtain ⟨p, hpn, hs⟩ := initProduct_sampleAt (fits := fun e b => e = some b) hX.1 hinit env (by
    intro x _
    cases env x <;> simp [boolSamples])
  have hs' : ∀ p' ∈ tbl, p'.2[p]? = some (some (env p'.1)) := by
    intro p' hp'
    obtain ⟨e, he, rfl⟩ := hs p' hp'
    exact he
  exact ha p _ _ (hvec g' hgr i _ (hbest i hi) p env hpn hs').2 (hvec g' hgr j _ (hbest j hj) p env hpn hs').2

theorem bool_step {R : RunEnv BoolOp Bool} (hR : RunOk boolDomain R) (hd : RunEnv.Deep R) {w : Workload}
    {prior : Ruleset BoolOp} (hpr : ∀ r ∈ Ruleset.iter prior, SafeRule (fun o k => k = o.arity) boolOpVal r)
    {ts : List (Tm BoolOp)} (hts : TermsOf w ts) (hfew : FewVars ts) (pl ml : Limits) (fast : Bool) :
    SafeStep boolDomain (fun o k => k = o.arity) boolOpVal R w prior pl ml fast :=
  runWorkload_step bool_safe bool_initOk bool_opsReadable hR hd hpr hts (tmOk_sorted bool_parsesSorted hts) hfew
    (fun X hX hn => initProduct_total (by simp [boolSamples]) (by
      intro c hc
      simp only [boolSamples, List.mem_cons, List.not_mem_nil, or_false] at hc
      rcases hc with rfl | rfl
      · exact ⟨true, rfl⟩
      · exact ⟨false, rfl⟩) hX hn)
    fun tr g g' cands hg hg' hc _ q hq _ _ => bool_cands hR hpr tr g g' cands hg hg' hc q hq

/-- **C68 (Boolean formulas).** A synthesis run over formulas with one to 26 variables does not panic if the prior rules are
tautologies. -/
theorem C68_bool {R : RunEnv BoolOp Bool} (hR : RunOk boolDomain R) (hd : RunEnv.Deep R) {w : Workload}
    {prior : Ruleset BoolOp} (hpr : ∀ r ∈ Ruleset.iter prior, SafeRule (fun o k => k = o.arity) boolOpVal r)
    {ts : List (Tm BoolOp)} (hts : TermsOf w ts) (hfew : FewVars ts) (pl ml : Limits) (fast : Bool) :
    Completes boolDomain R w prior pl ml fast :=
  (bool_step hR hd hpr hts hfew pl ml fast).completes

/-- **C68 (Boolean formulas).** Likewise `recursive_rules`. -/
theorem C68_bool_recursive {envs : Nat → RunEnv BoolOp Bool} (hR : ∀ k, RunOk boolDomain (envs k))
    (hd : ∀ k, RunEnv.Deep (envs k)) {metric : Metric} {lang : RecipeLang} {prior : Ruleset BoolOp} (hw : WellFormed prior)
    (hpr : ∀ r ∈ Ruleset.iter prior, SafeRule (fun o k => k = o.arity) boolOpVal r) {n : Nat}
    (hts : ∀ k, 1 ≤ k → k ≤ n → ∃ w ts, recursiveWorkload metric k lang = some w ∧ TermsOf (O := BoolOp) w ts ∧ FewVars ts) :
    ∃ envs' : Nat → RunEnv BoolOp Bool, (∀ k, RunEnv.Goes (envs k) (envs' k)) ∧
      ((∃ out log, recursiveRules boolDomain envs' metric lang prior n = some (out, log)) ∨
        EmptyLevel boolDomain envs' metric lang prior n) := by
  obtain ⟨envs', hg, h⟩ := recursiveRules_goes (D := boolDomain) (envs := envs) hw hpr n fun k hk hk' => by
    obtain ⟨w, ts, h1, h2, h3⟩ := hts k hk hk'
    exact ⟨w, h1, fun known _ hs => bool_step (hR k) (hd k) hs h2 h3 _ _ _⟩
  exact ⟨envs', hg, h.imp (fun ⟨out, log, h, _⟩ => ⟨out, log, h⟩) id⟩

/-- **C68 (natural numbers).** Likewise, if z3 is right when it says unsatisfiable and the prior rules are identities. -/
theorem C68_nat {rnd : Nat → Nat → Nat} {R : RunEnv NatOp Int} (hR : RunOk (natDomain rnd) R) (hd : RunEnv.Deep R)
    (ha : AnswersFrom SolverSoundInt (validateEq NatOp.toSmt) R.min.valid) {w : Workload} {prior : Ruleset NatOp}
    (hpr : ∀ r ∈ Ruleset.iter prior, SafeRule (fun o k => k = o.arity) natOpVal r) {ts : List (Tm NatOp)}
    (hts : TermsOf w ts) (hfew : FewVars ts) (pl ml : Limits) (fast : Bool) :
    Completes (natDomain rnd) R w prior pl ml fast :=
  C68_runWorkload (nat_safe rnd) (nat_initOk rnd) nat_opsReadable hR hd hpr hts (tmOk_sorted nat_parsesSorted hts) hfew
    (fun _ _ hn => ⟨_, _, rfl, (nat_positions hn rfl).2⟩)
    (fun before q hq hb => nat_accepted ha hq (asked := q :: before) ⟨before, List.suffix_rfl, hb⟩) pl ml fast

theorem bv_total {N : Nat} (hN : N ≤ 128) {X : List String} (hX : X ≠ []) (hn : X.Nodup) :
    ∃ n tbl, (bvDomain N).initVars X = some (n, tbl) ∧
      ∀ j, j < n → ∃ env : String → BitVec N, SampleAt (fun e v => ∃ w, e = some w ∧ Proper w ∧ bits w = v) tbl j env :=
  initProduct_total (by simpa using bvSamples_ne N) (by
    intro c hc
    obtain ⟨w, hw, rfl⟩ := List.mem_map.1 hc
    exact ⟨bits w, w, rfl, bvSamples_proper hN w hw, rfl⟩) hX hn

/-- **C68 (bit vectors).** Likewise for words of up to 64 bits. -/
theorem C68_bv {N : Nat} (hN : N ≤ 64) {R : RunEnv (BvOp N) (BV N)} (hR : RunOk (bvDomain N) R) (hd : RunEnv.Deep R)
    (ha : AnswersFrom (SolverSoundBV N) bvValidate R.min.valid) {w : Workload} {prior : Ruleset (BvOp N)}
    (hpr : ∀ r ∈ Ruleset.iter prior, SafeRule (fun o k => k = o.arity ∧ LitProper o) bvOpVal r) {ts : List (Tm (BvOp N))}
    (hts : TermsOf w ts) (hfew : FewVars ts) (pl ml : Limits) (fast : Bool) :
    Completes (bvDomain N) R w prior pl ml fast :=
  C68_runWorkload (bv_safe (by omega)) bv_initOk (bv_opsReadable (by omega)) hR hd hpr hts
    (tmOk_sorted (bv_parsesSorted (by omega)) hts) hfew (fun X hX hn => bv_total (by omega) hX hn)
    (fun before q hq hb => bv_accepted hN ha hq (asked := q :: before) ⟨before, List.suffix_rfl, hb⟩) pl ml fast

/-! ## A workload without variables -/

/-- **C68.** The condition that some variable occurs is needed: in the domains that take the product of the samples,
building the e-graph of a workload without variables panics (`cvecs[0]`). -/
theorem C68_no_variables {consts : List (Option C)} (hD : D.initVars = initProduct consts) (E : Egg) {w : Workload}
    {ts : List (Tm O)} (hts : TermsOf w ts) (hvar : ∀ t ∈ ts, ∀ x, ¬ HasVar x t) : w.toEGraph D E = none := by
  obtain ⟨ss, hss, hts⟩ := hts
  have h0 : collectVars ts = [] := List.eq_nil_iff_forall_not_mem.2 fun x hx => by
    obtain ⟨t, ht, h⟩ := ((collectVars_spec ts).2 x).1 hx
    exact hvar t ht x h
  unfold Workload.toEGraph
  rw [hss, Option.bind_some, hts, Option.bind_some]
  unfold termsToEGraph
  rw [h0, initializeVars, hD]
  simp [initProduct, selfProduct]

end Ruler
