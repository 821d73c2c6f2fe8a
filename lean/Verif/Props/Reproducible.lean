import Verif.Spec.Reproducible
import Verif.Props.FastComplete
/-!
# C88: what is found does not depend on the order of enumeration
-/
namespace Ruler
open Spec EGraph
open scoped List
variable {O C V : Type} [Lang O] [LinearOrder C] {D : Domain O C} {ar : O → Nat → Prop}

theorem fast_defined {g : EGraph O C} {order : List Nat} (ho : order.Perm g.classes) {best : Nat → Tm O} {rs : Ruleset O}
    (h : fastCvecMatch g order best = some rs) (i j : Nat) (hi : i ∈ g.classes) (hj : j ∈ g.classes) (hij : i ≠ j)
    (he : g.cvecOf i = g.cvecOf j) (hd : cvecDefined (g.cvecOf i) = true) : ProposesBoth rs (best i) (best j) := by
  unfold fastCvecMatch at h
  rcases sublist_pair_or (ho.mem_iff.2 hi) (ho.mem_iff.2 hj) hij with hm | hm
  · exact proposes_of_mem h (List.mem_map.2 ⟨(i, j), mem_fastPairs.2 ⟨hm, he, hd⟩, rfl⟩)
  · exact proposes_comm (proposes_of_mem h (List.mem_map.2 ⟨(j, i), mem_fastPairs.2 ⟨hm, he.symm, he ▸ hd⟩, rfl⟩))

/-- **C88.** The candidates of `cvec_match` and of `fast_cvec_match` do not depend on the order in which egg enumerates the
classes, up to the names of their variables: a candidate for one order relates two representatives, and the rules between
these are among the candidates for any other order. -/
theorem C88_candidates {g : EGraph O C} {fast : Bool} {o1 o2 : List Nat} (p1 : o1.Perm g.classes)
    (p2 : o2.Perm g.classes) {best : Nat → Tm O} {c1 c2 : Ruleset O}
    (h1 : (if fast then fastCvecMatch g o1 best else cvecMatch g o1 best) = some c1)
    (h2 : (if fast then fastCvecMatch g o2 best else cvecMatch g o2 best) = some c2) {q : Rule O}
    (hq : q ∈ Ruleset.iter c2) :
    ∃ i ∈ g.classes, ∃ j ∈ g.classes, Relates q (best i) (best j) ∧ Covers (best i) (best j) ∧
      ProposesBoth c1 (best i) (best j) := by
  cases fast with
  | true =>
    obtain ⟨i, hi, j, hj, hne, he, hd, hr, hc⟩ := C26_sound p2 h2 q hq
    refine ⟨i, hi, j, hj, hr, hc, fast_defined p1 h1 i j hi hj hne he ?_⟩
    rcases hd with hd | hd
    · rw [hd]; rfl
    · simp [cvecDefined, any_isSome_iff.2 hd]
  | false =>
    obtain ⟨i, hi, j, hj, hne, hs1, hs2, ha, hr, hc⟩ := C25_sound p2 h2 q hq
    exact ⟨i, hi, j, hj, hr, hc, C25_complete p1 h1 i j hi hj hne hs1 hs2 ha⟩

/-- The rules selected in one run hold where those selected in another hold, if each candidate of the one run has been
proposed, up to names, in the other. -/
theorem selections_follow {I : O → List V → V} {mem : Interval C → V → Prop} (hF : ∀ env, FoldsIn D ar (withVars env I) mem)
    (hv : VarsOk (O := O) ar) (hor : OpsReadable (O := O) ar) {M1 M2 : MinEnv O} (hval : SameVerdicts ar M1.valid M2.valid)
    {c1 c2 prior out1 out2 inv1 inv2 : Ruleset O} {asked1 asked2 : List (Rule O)} {f1 f2 : Nat} (w1 : WellFormed c1)
    (w2 : WellFormed c2) (hp : WellFormed prior) (t1 : ∀ r ∈ Ruleset.iter c1, Rule.Textual r ∧ GoodRule ar r)
    (t2 : ∀ r ∈ Ruleset.iter c2, Rule.Textual r ∧ GoodRule ar r)
    (htp : ∀ r ∈ Ruleset.iter prior, Rule.Textual r ∧ GoodRule ar r)
    (h1 : Ruleset.minimize D M1 f1 c1 prior = .done out1 inv1 asked1)
    (h2 : Ruleset.minimize D M2 f2 c2 prior = .done out2 inv2 asked2)
    (hcc : ∀ q ∈ Ruleset.iter c2, ∃ t u c, TmOk ar t ∧ TmOk ar u ∧ Relates q t u ∧ Covers t u ∧ ProposesBoth c t u ∧
      ∀ n, Named c n → Named c1 n)
    (hI : ∀ q, q ∈ Ruleset.iter prior ∨ q ∈ Ruleset.iter out1 → Holds I q) : ∀ q ∈ Ruleset.iter out2, Holds I q := by
  intro q hq
  obtain ⟨hq2, -, before, -, ha⟩ := C22_candidates w2 hp (fun r hr => (t2 r hr).1) h2 q hq
  obtain ⟨t, u, c, ht, hu, hr, hc, hb, hsub⟩ := hcc q hq2
  rcases proposed_holds hF hv hor w1 hp t1 htp h1 hI ht hu hsub hb hc with ⟨q', hr', hg', before', -, ha'⟩ | he
  · rw [hval t u q' q hr' hr hg' (t2 q hq2).2 before' before, ha] at ha'
    cases ha'
  · exact (Relates.holds_iff hr).2 he

/-- **C88.** `minimize` may be run with any scheduler, limits and ranking of the candidates, and with any behaviour of egg in
shrinking: if the verdicts are the same, then the rules one run selects hold in every algebra in which the prior and the rules
another run selects hold. What is selected differs, what follows from it does not. -/
theorem C88_minimize {I : O → List V → V} {mem : Interval C → V → Prop} (hF : ∀ env, FoldsIn D ar (withVars env I) mem)
    (hv : VarsOk (O := O) ar) {M1 M2 : MinEnv O} (hval : ∀ q b b', M1.valid b q = M2.valid b' q)
    {cands prior out1 out2 inv1 inv2 : Ruleset O} {asked1 asked2 : List (Rule O)} {f1 f2 : Nat} (hc : WellFormed cands)
    (hp : WellFormed prior) (htc : ∀ r ∈ Ruleset.iter cands, Rule.Textual r ∧ GoodRule ar r)
    (htp : ∀ r ∈ Ruleset.iter prior, Rule.Textual r ∧ GoodRule ar r)
    (h1 : Ruleset.minimize D M1 f1 cands prior = .done out1 inv1 asked1)
    (h2 : Ruleset.minimize D M2 f2 cands prior = .done out2 inv2 asked2)
    (hI : ∀ q, q ∈ Ruleset.iter prior ∨ q ∈ Ruleset.iter out1 → Holds I q) : ∀ q ∈ Ruleset.iter out2, Holds I q := by
  intro q hq
  obtain ⟨hq2, -, before, -, ha⟩ := C22_candidates hc hp (fun r hr => (htc r hr).1) h2 q hq
  rcases C23_follows hF hv hc hp htc htp h1 hI q hq2 with h | ⟨before', -, ha'⟩
  · exact h
  · rw [hval q before' before, ha] at ha'
    cases ha'

/-- **C88.** Two runs of `run_workload` from the same compressed e-graph and representatives, which differ in the order of
enumeration, in everything about rule selection, and in whether an empty result is permitted: if the verdicts are the same,
the rules of one run hold in every algebra in which the prior and the rules of the other hold. -/
theorem C88_workload {I : O → List V → V} {mem : Interval C → V → Prop} (hF : ∀ env, FoldsIn D ar (withVars env I) mem)
    (hv : VarsOk (O := O) ar) (hps : ParsesSorted (O := O) ar) (hor : OpsReadable (O := O) ar) {R1 R2 : RunEnv O C}
    (hR1 : RunOk D R1) (hR2 : RunOk D R2)
    (hsame : R2.build = R1.build ∧ R2.eg = R1.eg ∧ R2.isSat = R1.isSat ∧ R2.tr = R1.tr ∧ R2.best = R1.best)
    (hval : SameVerdicts ar R1.min.valid R2.min.valid) {w : Workload} {prior out1 out2 : Ruleset O} {pl ml1 ml2 : Limits}
    {fast e1 e2 : Bool} {asked1 asked2 : List (Rule O)} (hp : WellFormed prior)
    (hpr : ∀ r ∈ Ruleset.iter prior, Rule.Textual r ∧ GoodRule ar r)
    (h1 : runWorkloadInternal D R1 w prior pl ml1 fast e1 = some (out1, asked1))
    (h2 : runWorkloadInternal D R2 w prior pl ml2 fast e2 = some (out2, asked2))
    (hI : ∀ q, q ∈ Ruleset.iter prior ∨ q ∈ Ruleset.iter out1 → Holds I q) : ∀ q ∈ Ruleset.iter out2, Holds I q := by
  by_cases hV : Nonempty V
  swap
  · exact fun q _ ρ => absurd ⟨ρ ""⟩ hV
  obtain ⟨g, g', c1, inv1, hg, hg', hc1, hm1, -⟩ := runWorkloadInternal_some h1
  obtain ⟨k, k', c2, inv2, hk, hk', hc2, hm2, -⟩ := runWorkloadInternal_some h2
  obtain ⟨s1, s2, s3, s4, s5⟩ := hsame
  rw [s1, hg] at hk; cases hk
  rw [s2, s3, s4, hg'] at hk'; cases hk'
  rw [s5] at hc2
  have hsound : ∀ r, r ∈ Ruleset.iter prior → GoodRule ar r ∧ Holds I r := fun r hr => ⟨(hpr r hr).2, hI r (.inl hr)⟩
  obtain ⟨r1, hord, hbest, hok⟩ := run_graph hF hv hps hR1 hsound hg hg'
  have hord2 := (hR2 g' (Reach.any r1)).1
  refine selections_follow (M1 := { R1.min with sched := .compress ml1 }) (M2 := { R2.min with sched := .compress ml2 })
    hF hv hor hval (cands_wf hc1).1 (cands_wf hc2).1 hp
    (fun q hq => cands_textual hor hord hc1 hok hq) (fun q hq => cands_textual hor hord2 hc2 hok hq) hpr hm1 hm2
    (fun q hq => ?_) hI
  obtain ⟨i, hi, j, hj, hr, hc, hb⟩ := C88_candidates hord hord2 hc1 hc2 hq
  exact ⟨_, _, c1, hok i hi, hok j hj, hr, hc, hb, fun _ hn => hn⟩

/-- **C88.** Matching fast finds nothing that matching slowly misses: the rules of a run with `fast_cvec_match` hold in every
algebra in which the prior and the rules of a run with `cvec_match` from the same compressed e-graph hold, if vectors are not
empty. -/
theorem C88_fast_slow {I : O → List V → V} {mem : Interval C → V → Prop} (hF : ∀ env, FoldsIn D ar (withVars env I) mem)
    (hv : VarsOk (O := O) ar) (hps : ParsesSorted (O := O) ar) (hor : OpsReadable (O := O) ar) {R1 R2 : RunEnv O C}
    (hR1 : RunOk D R1) (hR2 : RunOk D R2)
    (hsame : R2.build = R1.build ∧ R2.eg = R1.eg ∧ R2.isSat = R1.isSat ∧ R2.tr = R1.tr ∧ R2.best = R1.best)
    (hval : SameVerdicts ar R1.min.valid R2.min.valid) {w : Workload} {prior out1 out2 : Ruleset O} {pl ml1 ml2 : Limits}
    {e1 e2 : Bool} {asked1 asked2 : List (Rule O)} (hp : WellFormed prior)
    (hpr : ∀ r ∈ Ruleset.iter prior, Rule.Textual r ∧ GoodRule ar r)
    (hne : ∀ g g', w.toEGraph D R1.build = some g →
      Scheduler.run D R1.eg R1.isSat (.compress pl) prior R1.tr g = some g' → ∀ i ∈ g'.classes, g'.cvecOf i ≠ [])
    (h1 : runWorkloadInternal D R1 w prior pl ml1 false e1 = some (out1, asked1))
    (h2 : runWorkloadInternal D R2 w prior pl ml2 true e2 = some (out2, asked2))
    (hI : ∀ q, q ∈ Ruleset.iter prior ∨ q ∈ Ruleset.iter out1 → Holds I q) : ∀ q ∈ Ruleset.iter out2, Holds I q := by
  by_cases hV : Nonempty V
  swap
  · exact fun q _ ρ => absurd ⟨ρ ""⟩ hV
  obtain ⟨g, g', c1, inv1, hg, hg', hc1, hm1, -⟩ := runWorkloadInternal_some h1
  obtain ⟨k, k', c2, inv2, hk, hk', hc2, hm2, -⟩ := runWorkloadInternal_some h2
  obtain ⟨s1, s2, s3, s4, s5⟩ := hsame
  rw [s1, hg] at hk; cases hk
  rw [s2, s3, s4, hg'] at hk'; cases hk'
  rw [s5] at hc2
  have hsound : ∀ r, r ∈ Ruleset.iter prior → GoodRule ar r ∧ Holds I r := fun r hr => ⟨(hpr r hr).2, hI r (.inl hr)⟩
  obtain ⟨r1, hord, hbest, hok⟩ := run_graph hF hv hps hR1 hsound hg hg'
  have hord2 := (hR2 g' (Reach.any r1)).1
  refine selections_follow (M1 := { R1.min with sched := .compress ml1 }) (M2 := { R2.min with sched := .compress ml2 })
    hF hv hor hval (cands_wf hc1).1 (cands_wf hc2).1 hp
    (fun q hq => cands_textual hor hord hc1 hok hq) (fun q hq => cands_textual hor hord2 hc2 hok hq) hpr hm1 hm2
    (fun q hq => ?_) hI
  obtain ⟨i, hi, j, hj, hij, he, hd, hr, hc⟩ := C26_sound hord2 hc2 q hq
  have hs := hd.resolve_left (hne g g' hg hg' i hi)
  have hb := C25_complete hord hc1 i j hi hj hij hs (he ▸ hs) (fun n x y hx hy => by rw [he, hy] at hx; simpa using hx.symm)
  exact ⟨_, _, c1, hok i hi, hok j hj, hr, hc, hb, fun _ hn => hn⟩

/-- Where a candidate of `extract_candidates` comes from. -/
theorem extract_origin {g2 : EGraph O C} {ids keys : List Nat} {best : Nat → Nat × Tm O} {rs : Ruleset O}
    (h : extractCandidates g2 ids keys best = some rs) {q : Rule O} (hq : q ∈ Ruleset.iter rs) :
    ∃ i ∈ ids, ∃ j ∈ ids, Relates q (best i).2 (best j).2 ∧ Covers (best i).2 (best j).2 ∧ g2.find i = g2.find j ∧
      (best i).1 ≠ usizeMax ∧ (best j).1 ≠ usizeMax ∧ (best i).2 ≠ (best j).2 := by
  unfold extractCandidates at h
  obtain ⟨p, hpm, hr⟩ := relates_of_mem h hq
  obtain ⟨⟨i, j⟩, hij, rfl⟩ := List.mem_map.1 hpm
  rw [List.mem_filter, mem_extractPairs] at hij
  obtain ⟨⟨hi, hj, hf, -⟩, hc⟩ := hij
  simp only [Bool.and_eq_true, decide_eq_true_eq] at hc
  rcases hr with ⟨hr, hcov⟩ | ⟨hr, hcov⟩
  · exact ⟨i, hi, j, hj, hr, hcov, hf, by simpa using hc.1.1, by simpa using hc.1.2, by simpa using hc.2⟩
  · exact ⟨j, hj, i, hi, hr, hcov, hf.symm, by simpa using hc.1.2, by simpa using hc.1.1, fun e => by simp [e] at hc⟩

/-- **C88.** The same for `run_fast_forwarding`: two runs that differ in the order of enumeration in both extractions, in the
work-splitting of `partition`, and in everything about rule selection, find rules that follow from each other and the prior. -/
theorem C88_fast_forwarding {I : O → List V → V} {mem : Interval C → V → Prop}
    (hF : ∀ env, FoldsIn D ar (withVars env I) mem) (hS : FoldsSorted D ar) (hv : VarsOk (O := O) ar)
    (hps : ParsesSorted (O := O) ar) (hor : OpsReadable (O := O) ar) {F1 F2 : FastEnv O C} (hb : ExtractorOk D F1.best)
    (hids1 : ∀ g, (F1.ids g).Perm g.classes) (hids2 : ∀ g, (F2.ids g).Perm g.classes)
    (hkeys : ∀ g g' : EGraph O C, ∀ i ∈ F1.ids g, g'.find i ∈ F1.keys g g')
    (hsame : F2.build = F1.build ∧ F2.isSat = F1.isSat ∧ F2.best = F1.best)
    (hrun : F2.egAllowed = F1.egAllowed ∧ F2.trAllowed = F1.trAllowed ∧ F2.egDenote = F1.egDenote ∧
      F2.trDenote = F1.trDenote ∧ F2.egFinal = F1.egFinal ∧ F2.trFinal = F1.trFinal)
    (hval : SameVerdicts ar F1.min.valid F2.min.valid) {w : Workload} {prior expl out1 out2 : Ruleset O}
    {pl ml1 ml2 : Limits} {asked1 asked2 : List (Rule O)} (hp : WellFormed prior)
    (hpr : ∀ r ∈ Ruleset.iter prior, Rule.Textual r ∧ GoodRule ar r) (hex : ∀ r ∈ Ruleset.iter expl, GoodRule ar r)
    (h1 : runFastForwarding D F1 w prior expl pl ml1 = some (out1, asked1))
    (h2 : runFastForwarding D F2 w prior expl pl ml2 = some (out2, asked2))
    (hI : ∀ q, q ∈ Ruleset.iter prior ∨ q ∈ Ruleset.iter out1 → Holds I q) : ∀ q ∈ Ruleset.iter out2, Holds I q := by
  obtain ⟨g0, g1, g2, g3, c1, c2, inv, a0, a1, a2, hc1, a3, hc2, hm1⟩ := runFastForwarding_some h1
  obtain ⟨k0, k1, k2, k3, d1, d2, inv', b0, b1, b2, hd1, b3, hd2, hm2⟩ := runFastForwarding_some h2
  obtain ⟨s1, s2, s3⟩ := hsame
  obtain ⟨t1, t2, t3, t4, t5, t6⟩ := hrun
  rw [s1, a0] at b0; cases b0
  rw [C17_partition _ _ _ hp] at a1
  rw [C17_partition _ _ _ hp, s2, t1, t2, a1] at b1; cases b1
  rw [s2, t3, t4, a2] at b2; cases b2
  rw [s2, t5, t6, a3] at b3; cases b3
  rw [s3] at hd1 hd2
  let R : Rule O → Prop := fun r => r ∈ Ruleset.iter prior ∨ r ∈ Ruleset.iter expl
  have r1 : Reach D ar R g1 := by
    refine .run (toEGraph_reach hv (fun ss _ s _ t ht => tmOk_ofSexp hps s t ht) a0) (fun r hr => .inl ?_) a1
    obtain ⟨e, he, rfl⟩ := List.mem_map.1 hr
    exact List.mem_map_of_mem (List.mem_of_mem_filter he)
  have r2 : Reach D ar R g2 := .run r1 (fun r hr => .inr hr) a2
  have hgood : ∀ r, R r → GoodRule ar r := by
    rintro r (hr | hr)
    · exact (hpr r hr).2
    · exact hex r hr
  have ok1 := FoldsSorted.tmOk hS hgood r1
  have ok2 := FoldsSorted.tmOk hS hgood r2
  have x1 := hb g1 (Reach.any r1)
  have x2 := hb g2 (Reach.any r2)
  have w1 := addPairs_wf hc1
  have w2 := addPairs_wf hc2
  refine selections_follow (M1 := { F1.min with sched := .compress ml1 }) (M2 := { F2.min with sched := .compress ml2 })
    hF hv hor hval (Ruleset.WellFormed.extend w1 w2)
    (Ruleset.WellFormed.extend (addPairs_wf hd1) (addPairs_wf hd2)) hp (fun q hq => ?_) (fun q hq => ?_) hpr hm1 hm2
    (fun q hq => ?_) hI
  · rcases mem_extend_rules hq with hq | hq
    · exact extract_textual hor (hids1 g1) x1 ok1 hc1 hq
    · exact extract_textual hor (hids1 g2) x2 ok2 hc2 hq
  · rcases mem_extend_rules hq with hq | hq
    · exact extract_textual hor (hids2 g1) x1 ok1 hd1 hq
    · exact extract_textual hor (hids2 g2) x2 ok2 hd2 hq
  · rcases mem_extend_rules hq with hq | hq
    · obtain ⟨i, hi, j, hj, hr, hc, hij, ci, cj, hne⟩ := extract_origin hd1 hq
      rw [(hids2 g1).mem_iff, ← (hids1 g1).mem_iff] at hi hj
      exact ⟨_, _, c1, ok1 _ i (x1 i ((hids1 g1).mem_iff.1 hi)).1, ok1 _ j (x1 j ((hids1 g1).mem_iff.1 hj)).1, hr, hc,
        C36_complete (hkeys g1 g2) hc1 i j hi hj hij ci cj hne, fun n hn => (named_extend w1 w2).2 (.inl hn)⟩
    · obtain ⟨i, hi, j, hj, hr, hc, hij, ci, cj, hne⟩ := extract_origin hd2 hq
      rw [(hids2 g2).mem_iff, ← (hids1 g2).mem_iff] at hi hj
      exact ⟨_, _, c2, ok2 _ i (x2 i ((hids1 g2).mem_iff.1 hi)).1, ok2 _ j (x2 j ((hids1 g2).mem_iff.1 hj)).1, hr, hc,
        C36_complete (hkeys g2 g3) hc2 i j hi hj hij ci cj hne, fun n hn => (named_extend w1 w2).2 (.inr hn)⟩

/-- **C88** (Booleans). Two runs over Booleans from the same compressed e-graph find rules that follow from each other and the
prior, in every algebra in which constant folding is correct. -/
theorem C88_bool {I : BoolOp → List V → V} {mem : Interval Bool → V → Prop}
    (hF : ∀ env, FoldsIn boolDomain (fun o k => k = o.arity) (withVars env I) mem) {R1 R2 : RunEnv BoolOp Bool}
    (hR1 : RunOk boolDomain R1) (hR2 : RunOk boolDomain R2)
    (hsame : R2.build = R1.build ∧ R2.eg = R1.eg ∧ R2.isSat = R1.isSat ∧ R2.tr = R1.tr ∧ R2.best = R1.best)
    (hv1 : BoolAnswers R1.min.valid) (hv2 : BoolAnswers R2.min.valid) {w : Workload} {prior out1 out2 : Ruleset BoolOp}
    {pl ml1 ml2 : Limits} {fast e1 e2 : Bool} {asked1 asked2 : List (Rule BoolOp)} (hp : WellFormed prior)
    (hpr : ∀ r ∈ Ruleset.iter prior, Rule.Textual r ∧ GoodRule (fun o k => k = o.arity) r)
    (h1 : runWorkloadInternal boolDomain R1 w prior pl ml1 fast e1 = some (out1, asked1))
    (h2 : runWorkloadInternal boolDomain R2 w prior pl ml2 fast e2 = some (out2, asked2)) :
    (∀ q, q ∈ Ruleset.iter prior ∨ q ∈ Ruleset.iter out1 → Holds I q) ↔
      ∀ q, q ∈ Ruleset.iter prior ∨ q ∈ Ruleset.iter out2 → Holds I q := by
  have e : R1.build = R2.build ∧ R1.eg = R2.eg ∧ R1.isSat = R2.isSat ∧ R1.tr = R2.tr ∧ R1.best = R2.best := by
    obtain ⟨a, b, c, d, e⟩ := hsame
    exact ⟨a.symm, b.symm, c.symm, d.symm, e.symm⟩
  refine ⟨fun hI q hq => hq.elim (fun hq => hI q (.inl hq)) (C88_workload hF bool_varOps.1 bool_parsesSorted
    bool_opsReadable hR1 hR2 hsame (fun _ _ q q' _ _ _ _ b b' => ?_) hp hpr h1 h2 hI q),
    fun hI q hq => hq.elim (fun hq => hI q (.inl hq)) (C88_workload hF bool_varOps.1 bool_parsesSorted
    bool_opsReadable hR2 hR1 e (fun _ _ q q' _ _ _ _ b b' => ?_) hp hpr h2 h1 hI q)⟩ <;>
  rw [boolAnswers_all hv1, boolAnswers_all hv2]

/-- Literally the candidates do depend on the order: the names of the variables are given in the order of the first term of a
pair. -/
theorem C88_names_differ : ∃ (g : EGraph NatOp Int) (best : Nat → Tm NatOp) (c1 c2 : Ruleset NatOp),
    [1, 0].Perm g.classes ∧ fastCvecMatch g [0, 1] best = some c1 ∧ fastCvecMatch g [1, 0] best = some c2 ∧
      ∀ n, Named c1 n → ¬ Named c2 n := by
  let g := Sample.twoClasses [some 1, some 2] [some 1, some 2]
  let t : Nat → Tm NatOp := fun i => if i = 0 then
    .node .add [.node (.var "x") [], .node .add [.node (.var "y") [], .node (.var "y") []]] else
    .node .add [.node .add [.node (.var "y") [], .node (.var "y") []], .node (.var "x") []]
  obtain ⟨c1, h1⟩ := Option.isSome_iff_exists.1 (by decide +kernel : (fastCvecMatch g [0, 1] t).isSome = true)
  obtain ⟨c2, h2⟩ := Option.isSome_iff_exists.1 (by decide +kernel : (fastCvecMatch g [1, 0] t).isSome = true)
  have key : (match fastCvecMatch g [0, 1] t, fastCvecMatch g [1, 0] t with
    | some a, some b => (Ruleset.iter a).all fun r => (Ruleset.iter b).all fun r' => r.name != r'.name
    | _, _ => false) = true := by decide +kernel
  refine ⟨g, t, c1, c2, List.Perm.swap 0 1 [], h1, h2, ?_⟩
  rw [h1, h2] at key
  rintro n ⟨r, hr, rfl⟩ ⟨r', hr', e⟩
  have := List.all_eq_true.1 (List.all_eq_true.1 key r hr) r' hr'
  simp [e] at this

/-! ## Examples -/

namespace Sample

/-- A run in which every rule is accepted. -/
noncomputable def anyEnv : RunEnv NatOp Int := { infEnv with min := { infEnv.min with valid := fun _ _ => true } }
/-- The same with the classes in reverse order, and another ranking of the candidates. -/
noncomputable def backEnv : RunEnv NatOp Int :=
  { anyEnv with order := fun g => g.classes.reverse, min := { anyEnv.min with score := fun _ => [] } }

theorem anyEnv_ok : RunOk freeNat anyEnv :=
  fun _ hg => ⟨List.Perm.refl _, fun _ hi => (extracted_ok astCost_laws hg hi).1⟩
theorem backEnv_ok : RunOk freeNat backEnv :=
  fun _ hg => ⟨List.reverse_perm _, fun _ hi => (extracted_ok astCost_laws hg hi).1⟩

end Sample

-- Both runs end, and the theorem applies to them in both directions.
example : (runWorkload Sample.freeNat Sample.anyEnv Sample.sums [] Sample.limits Sample.limits true).isSome ∧
    (runWorkload Sample.freeNat Sample.backEnv Sample.sums [] Sample.limits Sample.limits true).isSome :=
  ⟨by decide +kernel, by decide +kernel⟩
example {out1 out2 : Ruleset NatOp} {asked1 asked2 : List (Rule NatOp)}
    (h1 : runWorkload Sample.freeNat Sample.anyEnv Sample.sums [] Sample.limits Sample.limits true = some (out1, asked1))
    (h2 : runWorkload Sample.freeNat Sample.backEnv Sample.sums [] Sample.limits Sample.limits true = some (out2, asked2))
    (I : NatOp → List V → V) (hI : ∀ q ∈ Ruleset.iter out1, Holds I q) : ∀ q ∈ Ruleset.iter out2, Holds I q :=
  C88_workload (ar := fun o k => k = o.arity) (fun env => NoFold.foldsIn (D := Sample.freeNat)
      ⟨fun _ _ _ h => by cases h; rfl, fun _ _ => rfl, fun _ => rfl⟩ _ _) Sample.natVarsOk nat_parsesSorted
    nat_opsReadable Sample.anyEnv_ok Sample.backEnv_ok ⟨rfl, rfl, rfl, rfl, rfl⟩ (fun _ _ _ _ _ _ _ _ _ _ => rfl)
    Ruleset.WellFormed.nil (by simp [Ruleset.iter]) h1 h2 (by simpa [Ruleset.iter] using hI)

-- The rules of the run with fast matching follow from those of the run with slow matching.
example : (runWorkload Sample.freeNat Sample.anyEnv Sample.sums [] Sample.limits Sample.limits false).isSome := by
  decide +kernel
example {out1 out2 : Ruleset NatOp} {asked1 asked2 : List (Rule NatOp)}
    (h1 : runWorkload Sample.freeNat Sample.anyEnv Sample.sums [] Sample.limits Sample.limits false = some (out1, asked1))
    (h2 : runWorkload Sample.freeNat Sample.backEnv Sample.sums [] Sample.limits Sample.limits true = some (out2, asked2))
    (I : NatOp → List V → V) (hI : ∀ q ∈ Ruleset.iter out1, Holds I q) : ∀ q ∈ Ruleset.iter out2, Holds I q := by
  refine C88_fast_slow (ar := fun o k => k = o.arity) (fun env => NoFold.foldsIn (D := Sample.freeNat)
      ⟨fun _ _ _ h => by cases h; rfl, fun _ _ => rfl, fun _ => rfl⟩ _ _) Sample.natVarsOk nat_parsesSorted
    nat_opsReadable Sample.anyEnv_ok Sample.backEnv_ok ⟨rfl, rfl, rfl, rfl, rfl⟩ (fun _ _ _ _ _ _ _ _ _ _ => rfl)
    Ruleset.WellFormed.nil (by simp [Ruleset.iter]) (fun g g' hg hg' i hi hc => ?_) h1 h2 (by simpa [Ruleset.iter] using hI)
  have key : ((Sample.sums.toEGraph Sample.freeNat Sample.anyEnv.build).bind fun g =>
      (Scheduler.run Sample.freeNat Sample.anyEnv.eg Sample.anyEnv.isSat (.compress Sample.limits) [] Sample.anyEnv.tr g).map
        fun g' => g'.classes.all fun i => !(g'.cvecOf i).isEmpty) = some true := by decide +kernel
  rw [hg, Option.bind_some, hg', Option.map_some, Option.some.injEq] at key
  have := List.all_eq_true.1 key i hi
  rw [hc] at this
  cases this

namespace Sample

/-- Fast-forwarding with every rule accepted, and the same with everything enumerated in reverse. -/
noncomputable def ffAny : FastEnv NatOp Int := { ffEnv with min := { ffEnv.min with valid := fun _ _ => true } }
noncomputable def ffBack : FastEnv NatOp Int :=
  { ffAny with ids := fun g => g.classes.reverse, keys := fun g h => (ffAny.keys g h).reverse }

theorem ffAny_keys : ∀ g g' : EGraph NatOp Int, ∀ i ∈ ffAny.ids g, g'.find i ∈ ffAny.keys g g' := by
  intro g g' i hi
  simpa [ffAny, ffEnv] using ⟨i, hi, rfl⟩
theorem ffAny_best : ExtractorOk freeNat ffAny.best := fun _ hg _ hi => extracted_ok extractableCost_laws hg hi
theorem ffAny_verdicts {ar : NatOp → Nat → Prop} : SameVerdicts ar ffAny.min.valid ffBack.min.valid :=
  fun _ _ _ _ _ _ _ _ _ _ => rfl

end Sample

example : (runFastForwarding Sample.freeNat Sample.ffAny Sample.sums [] Sample.commRules Sample.limits Sample.limits).isSome ∧
    (runFastForwarding Sample.freeNat Sample.ffBack Sample.sums [] Sample.commRules Sample.limits Sample.limits).isSome :=
  ⟨by decide +kernel, by decide +kernel⟩
example {out1 out2 : Ruleset NatOp} {asked1 asked2 : List (Rule NatOp)}
    (h1 : runFastForwarding Sample.freeNat Sample.ffAny Sample.sums [] Sample.commRules Sample.limits Sample.limits =
      some (out1, asked1))
    (h2 : runFastForwarding Sample.freeNat Sample.ffBack Sample.sums [] Sample.commRules Sample.limits Sample.limits =
      some (out2, asked2)) (I : NatOp → List V → V) (hI : ∀ q ∈ Ruleset.iter out1, Holds I q) :
    ∀ q ∈ Ruleset.iter out2, Holds I q := by
  have hD : NoFold Sample.freeNat := ⟨fun _ _ _ h => by cases h; rfl, fun _ _ => rfl, fun _ => rfl⟩
  have hI' : ∀ q, q ∈ Ruleset.iter ([] : Ruleset NatOp) ∨ q ∈ Ruleset.iter out1 → Holds I q := by
    simpa [Ruleset.iter] using hI
  have hc : ∀ r ∈ Ruleset.iter Sample.commRules, GoodRule (fun o k => k = o.arity) r := by
    simpa [Ruleset.iter, Sample.commRules] using Sample.addComm_good
  exact C88_fast_forwarding (D := Sample.freeNat) (F1 := Sample.ffAny) (F2 := Sample.ffBack) (ar := fun o k => k = o.arity)
    (fun env => NoFold.foldsIn hD _ _)
    ⟨_, NoFold.foldsIn hD _ _⟩ Sample.natVarsOk nat_parsesSorted nat_opsReadable
    Sample.ffAny_best (fun _ => List.Perm.refl _) (fun _ => List.reverse_perm _) Sample.ffAny_keys
    ⟨rfl, rfl, rfl⟩ ⟨rfl, rfl, rfl, rfl, rfl, rfl⟩ Sample.ffAny_verdicts Ruleset.WellFormed.nil
    (by simp [Ruleset.iter]) hc h1 h2 hI'

end Ruler
