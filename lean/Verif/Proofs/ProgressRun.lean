import Verif.Proofs.ProgressShrink
import Verif.Proofs.Synthesis
import Verif.Props.Candidates
/-! Whole runs do not fail. -/
namespace Ruler
open Spec EGraph
variable {O C V : Type} [Lang O] [LinearOrder C]
variable {ar : O → Nat → Prop} {D : Domain O C} {E : Egg}
variable {I : O → List V → V} {mem : Interval C → V → Prop} {fits : Option C → V → Prop}

omit [LinearOrder C] in
theorem varIn_arOn {Y : String → Prop} {t : Tm O} (h : TmOk (arOn ar Y) t) {x : String} (hx : VarIn x t) : Y x := by
  induction hx with
  | here e =>
    cases h with
    | node ha _ => exact ha.2 x e
  | there _ hm _ ih =>
    cases h with
    | node _ hargs => exact ih (hargs _ hm)

/-- Building the e-graph of a workload does not fail. -/
theorem toEGraph_safe [Nonempty V] (hD : SafeDomain D ar I mem fits) (hI : InitOk D)
    (hE : 2 ≤ E.depth) {w : Workload} {ss : List Sexp} {ts : List (Tm O)} (hss : w.force = some ss)
    (hts : ss.mapM Tm.ofSexp = some ts) (hok : ∀ t ∈ ts, TmOk ar t) {n : Nat} {tbl : List (String × CVec C)}
    (hinit : D.initVars (collectVars ts) = some (n, tbl))
    (hpos : ∀ j, j < n → ∃ env : String → V, SampleAt fits tbl j env) :
    ∃ g, w.toEGraph D E = some g ∧ (∃ val, SafeInv ar I mem fits n tbl (collectVars ts) g val) ∧
      ∀ R : Rule O → Prop, Reach D ar R g := by
  obtain ⟨g, h1, h2⟩ := termsToEGraph_safe (E := E) hD hI hE hok hinit hpos
  refine ⟨g, ?_, h2, fun R => reach_termsToEGraph hD.vars.1 hok h1⟩
  unfold Workload.toEGraph
  rw [hss, Option.bind_some, hts, Option.bind_some]
  exact h1

/-- Terms of the classes have only the variables of the workload. -/
theorem SafeInv.few {n : Nat} {tbl : List (String × CVec C)} {X : List String} {g : EGraph O C}
    {val : Nat → (String → V) → V} (hg : SafeInv ar I mem fits n tbl X g val) (hX : X.length ≤ 26) {i j : Nat} {s t : Tm O}
    (hs : Rep g s i) (ht : Rep g t j) : AtMost 26 (fun x => VarIn x s ∨ VarIn x t) := by
  refine ⟨X, hX, fun x hx => ?_⟩
  rcases hx with hx | hx
  · exact varIn_arOn (Rep.tmOk hg s i hs) hx
  · exact varIn_arOn (Rep.tmOk hg t j ht) hx

theorem fastCvecMatch_total {g : EGraph O C} {order : List Nat} (ho : order.Perm g.classes) {best : Nat → Tm O}
    (hb : ∀ i ∈ g.classes, ∀ j ∈ g.classes, AtMost 26 (fun x => VarIn x (best i) ∨ VarIn x (best j))) :
    (fastCvecMatch g order best).isSome := by
  unfold fastCvecMatch
  refine addPairs_isSome ?_ _
  intro p hpm
  obtain ⟨⟨i, j⟩, hij, rfl⟩ := List.mem_map.1 hpm
  obtain ⟨hs, -⟩ := mem_fastPairs.1 hij
  obtain ⟨hi, hj⟩ := sublist_pair_mem hs
  exact (C27_total _ _).2 (hb i (ho.mem_iff.1 hi) j (ho.mem_iff.1 hj))

/-- `run_workload_internal` fails only for want of rules. -/
theorem runWorkload_goes [Nonempty V] (hD : SafeDomain D ar I mem fits) (hI : InitOk D)
    (hor : OpsReadable (O := O) ar) {R : RunEnv O C} (hR : RunOk D R) (hd : RunEnv.Deep R) {w : Workload} {prior : Ruleset O}
    (hpr : ∀ r ∈ Ruleset.iter prior, SafeRule ar I r) {ss : List Sexp} {ts : List (Tm O)} (hss : w.force = some ss)
    (hts : ss.mapM Tm.ofSexp = some ts) (hok : ∀ t ∈ ts, TmOk ar t) {n : Nat} {tbl : List (String × CVec C)}
    (hinit : D.initVars (collectVars ts) = some (n, tbl))
    (hpos : ∀ j, j < n → ∃ env : String → V, SampleAt fits tbl j env) (h26 : (collectVars ts).length ≤ 26)
    {pl ml : Limits} {fast : Bool}
    (hval : ∀ tr g g' cands, w.toEGraph D R.build = some g →
      Scheduler.run D R.eg R.isSat (.compress pl) prior tr g = some g' →
      (if fast then fastCvecMatch g' (R.order g') (R.best g') else cvecMatch g' (R.order g') (R.best g')) = some cands →
      ∀ before, ∀ q ∈ Ruleset.iter cands, GoodRule ar q → R.min.valid before q = true → Holds I q) :
    ∃ R', RunEnv.Goes R R' ∧ ∃ out asked, (∀ allowEmpty, runWorkloadInternal D R' w prior pl ml fast allowEmpty =
      if out.isEmpty && !allowEmpty then none else some (out, asked)) ∧
      (WellFormed prior → WellFormed out ∧ ∀ q ∈ Ruleset.iter out, SafeRule ar I q) := by
  obtain ⟨d1, d2, d3, d4⟩ := hd
  obtain ⟨g, hg, ⟨val, hinv⟩, hreach⟩ := toEGraph_safe (E := R.build) hD hI d1 hss hts hok hinit hpos
  have hrs : RulesSafe (arOn ar (· ∈ collectVars ts)) (piAlg I) (Ruleset.iter prior) := rulesSafe_piAlg hpr
  obtain ⟨tr, k1, g', hg'⟩ := run_goes (E := R.eg) (safeInv_plain hD n tbl (collectVars ts))
    (safeTotal_plain hD (collectVars ts) hpos) d2 hrs R.isSat (.compress pl) hinv R.tr d3
  obtain ⟨⟨val', hinv', -⟩, -⟩ := run_ok (safeInv_plain hD n tbl (collectVars ts)) hrs.rulesOk hinv hg'
  obtain ⟨hord, hbest⟩ := hR g' (Reach.any (.run (hreach fun _ => True) (fun _ _ => trivial) hg'))
  have hokb : ∀ i ∈ g'.classes, TmOk ar (R.best g' i) := fun i hi => TmOk.ofArOn (Rep.tmOk hinv' _ i (hbest i hi))
  have hfew : ∀ i ∈ g'.classes, ∀ j ∈ g'.classes, AtMost 26 (fun x => VarIn x (R.best g' i) ∨ VarIn x (R.best g' j)) :=
    fun i hi j hj => SafeInv.few hinv' h26 (hbest i hi) (hbest j hj)
  have hm : ∃ cands, (if fast then fastCvecMatch g' (R.order g') (R.best g') else cvecMatch g' (R.order g') (R.best g')) =
      some cands := by
    split
    · exact Option.isSome_iff_exists.1 (fastCvecMatch_total hord hfew)
    · exact Option.isSome_iff_exists.1 (C25_total hord hfew)
  obtain ⟨cands, hc⟩ := hm
  have htc : ∀ q ∈ Ruleset.iter cands, Rule.Textual q ∧ GoodRule ar q := fun q hq => cands_textual hor hord hc hokb hq
  obtain ⟨mtr, k2, out, inv, asked, k3⟩ := minimize_goes (cands := cands) (prior := prior) hD.bare
    { R.min with sched := .compress ml } (fun k => (d4 k).1) (fun k => (d4 k).2) (cands_wf hc).1
    (fun q hq => ⟨(htc q hq).2, (htc q hq).1.1.2⟩)
    (fun before q hq hb => by
      have hq' := isCandidate_mem (fun r hr => (htc r hr).1) hq
      exact hval tr g g' cands hg hg' hc before q hq' (htc q hq').2 hb) (rulesSafe_piAlg hpr)
  refine ⟨{ R with tr := tr, min := { R.min with tr := mtr } }, ⟨tr, mtr, k1, k2, rfl⟩, out, asked, fun allowEmpty => ?_, fun hwp => ?_⟩
  rotate_left
  · obtain ⟨w1, w2⟩ := C22_validated (cands_wf hc).1 hwp k3
    refine ⟨w1, fun q hq => ?_⟩
    obtain ⟨⟨before, -, hb⟩, hcand, -⟩ := w2 q hq
    have hq' := isCandidate_mem (fun r hr => (htc r hr).1) hcand
    exact ⟨(htc q hq').2, hval tr g g' cands hg hg' hc before q hq' (htc q hq').2 hb, (htc q hq').1.1.2⟩
  unfold runWorkloadInternal
  simp only at k3 ⊢
  rw [hg, Option.bind_some, hg', Option.bind_some, hc, Option.bind_some, k3]

end Ruler
