import Verif.Props.FastComplete
import Verif.Props.FastProgress
import Verif.Props.Saturated
import Verif.Props.Lifting
/-!
# C89: lifting finds all equations that the translation shows
-/
namespace Ruler
open Spec EGraph
open scoped List
variable {O C V : Type} [Lang O] [LinearOrder C] {D : Domain O C} {ar : O → Nat → Prop}

/-- After the exploratory phase all samples are defined, in domains without samples. -/
theorem blind_defined (hD : Blind D LeafSort) (hv : VarOps (O := O) LeafSort) (hps : ParsesSorted (O := O) LeafSort)
    {E E1 E2 : Egg} (hE : 2 ≤ E.depth) {w : Workload} {g0 g1 g2 : EGraph O C} (h0 : w.toEGraph D E = some g0)
    {isSat : Rule O → Bool} {s1 s2 : Scheduler} {rs1 rs2 : Ruleset O} {t1 t2 : SchedTrace}
    (hr1 : ∀ r ∈ Ruleset.iter rs1, GoodRule LeafSort r) (hr2 : ∀ r ∈ Ruleset.iter rs2, GoodRule LeafSort r)
    (h1 : Scheduler.run D E1 isSat s1 rs1 t1 g0 = some g1) (h2 : Scheduler.run D E2 isSat s2 rs2 t2 g1 = some g2) :
    (∀ i, i < g2.n → (g2.dataOf i).isDefined = true) ∧ g2.closed = true := by
  obtain ⟨ts, -, hts, htw⟩ := toEGraph_terms hps h0
  obtain ⟨g, hg, ⟨val, hI⟩, -⟩ := toEGraph_blind (X := collectVars ts) hD hv leafSort_leaf hE htw hts
    fun t ht x hx => ((collectVars_spec ts).2 x).2 ⟨t, ht, hx⟩
  rw [h0] at hg; cases hg
  have hP := blindInv hD hv leafSort_leaf (· ∈ collectVars ts)
  have key : ∀ {rs : Ruleset O}, (∀ r ∈ Ruleset.iter rs, GoodRule LeafSort r) →
      RulesOk (arOn LeafSort (· ∈ collectVars ts)) (piAlg unitAlg) (Ruleset.iter rs) := by
    intro rs hrs r hr
    obtain ⟨⟨a, b⟩, c, d⟩ := hrs r hr
    exact ⟨⟨PatOk.arOn a c, PatOk.arOn b d⟩, fun ρ => funext fun _ => rfl⟩
  obtain ⟨⟨v1, I1, -⟩, -⟩ := run_ok hP (key hr1) hI h1
  obtain ⟨⟨v2, I2, -⟩, hc⟩ := run_ok hP (key hr2) I1 h2
  refine ⟨fun i hi => ?_, hc⟩
  have := (I2.data_ok i hi).2.1
  rw [EGraph.dataOf, Signature.isDefined, this]
  rfl

/-- The extractor returns cheapest terms. -/
def CheapestOk (D : Domain O C) (best : EGraph O C → Nat → Nat × Tm O) : Prop :=
  ∀ g, AnyHistory D g → ∀ i ∈ g.classes, Least g (Tm.fold extractableCost) i (best g i).2

/-- The extraction algorithm returns cheapest terms. -/
theorem Computed.least {g : EGraph O C} {i : Nat} {r : Nat × Tm O} (h : Computed g extractableCost i r) (hg : AnyHistory D g)
    (hi : i ∈ g.classes) : Least g (Tm.fold extractableCost) i r.2 := by
  obtain ⟨fuel, b, depth, nd, hf, -, ht⟩ := h
  have hlt : i < g.n ∧ g.find i = i := by simpa [EGraph.classes] using hi
  obtain ⟨d, t, nd', h1, -, h3⟩ := C55_cheapest hg extractableCost_laws (fun _ => List.Perm.refl _) (List.Perm.refl _) hf i hlt.1
  have e1 := buildBest_le (Nat.le_max_left d depth) h1
  rw [buildBest_le (Nat.le_max_right d depth) ht] at e1
  cases e1
  exact h3

/-- **C89.** Suppose a run of `run_fast_forwarding` returns, in a domain without samples and intervals, and the exploratory
rules saturate in it. Let two terms of the workload, made of allowed operators, have a common term to which the exploratory
rules rewrite them. Each is then equal, in every algebra in which the prior and the returned rules hold, to an allowed term
that is no larger (its representative), and: the two terms are equal in all these algebras — although the exploratory rules
need not hold there — or the validator rejected a rule between the representatives, or each representative has a variable that
the other has not, so that neither direction is a rule. -/
theorem C89_complete {I : O → List V → V} {mem : Interval C → V → Prop} (hF : ∀ env, FoldsIn D ar (withVars env I) mem)
    (hS : FoldsSorted D ar) (hD : Blind D LeafSort) (hal : ∀ o k, ar o k → LeafSort (O := O) o k)
    (hv : VarsOk (O := O) ar) (hvl : VarOps (O := O) LeafSort) (hps : ParsesSorted (O := O) ar)
    (hor : OpsReadable (O := O) ar) {F : FastEnv O C} (hb : ExtractorOk D F.best) (hch : CheapestOk D F.best)
    (hdeep : 2 ≤ F.build.depth) (hids : ∀ g, (F.ids g).Perm g.classes)
    (hkeys : ∀ g g' : EGraph O C, ∀ i ∈ F.ids g, g'.find i ∈ F.keys g g') {w : Workload} {prior expl out : Ruleset O}
    {pl ml : Limits} {asked : List (Rule O)} (hp : WellFormed prior)
    (hpr : ∀ r ∈ Ruleset.iter prior, Rule.Textual r ∧ GoodRule ar r) (hex : ∀ r ∈ Ruleset.iter expl, GoodRule ar r)
    (h : runFastForwarding D F w prior expl pl ml = some (out, asked))
    (hI : ∀ q, q ∈ Ruleset.iter prior ∨ q ∈ Ruleset.iter out → Holds I q) :
    ∃ g0 g1 g2, w.toEGraph D F.build = some g0 ∧
      Scheduler.run D F.egAllowed F.isSat (.compress pl)
        (Ruleset.partition F.split (fun r => isAllowedRewrite r.lhs r.rhs) prior).1 F.trAllowed g0 = some g1 ∧
      Scheduler.run D F.egDenote F.isSat (.simple pl) expl F.trDenote g1 = some g2 ∧
      ∀ E, Saturated D E (· ∈ Ruleset.iter expl) g2 → ∀ ss, w.force = some ss → ∀ s ∈ ss, ∀ s' ∈ ss, ∀ t u : Tm O,
        Tm.ofSexp s = some t → Tm.ofSexp s' = some u → AllAllowed t → AllAllowed u → tmSize t < usizeMax →
        tmSize u < usizeMax → Meets (· ∈ Ruleset.iter expl) t u →
        ∃ t' u', (AllAllowed t' ∧ tmSize t' ≤ tmSize t ∧ ∀ env, tmVal env I t = tmVal env I t') ∧
          (AllAllowed u' ∧ tmSize u' ≤ tmSize u ∧ ∀ env, tmVal env I u = tmVal env I u') ∧
          ((∀ env, tmVal env I t = tmVal env I u) ∨
            (∃ q, (Relates q t' u' ∨ Relates q u' t') ∧ GoodRule ar q ∧ Answered F.min.valid asked false q) ∨
            (¬ Spec.Covers t' u' ∧ ¬ Spec.Covers u' t')) := by
  obtain ⟨g0, g1, g2, g3, h0, h1, h2, -, hA, -⟩ :=
    C87_complete hF hS hv hps hor hb hids hkeys hp hpr hex h hI
  refine ⟨g0, g1, g2, h0, h1, h2, fun E hsat ss hss s hs s' hs' t u ht hu at' au st su ⟨m, m1, m2⟩ => ?_⟩
  by_cases hV : Nonempty V
  swap
  · exact ⟨t, u, ⟨at', le_rfl, fun _ => rfl⟩, ⟨au, le_rfl, fun _ => rfl⟩, .inl fun env => absurd ⟨env ""⟩ hV⟩
  have hgl : ∀ r, GoodRule ar r → GoodRule (O := O) LeafSort r := fun r hr =>
    ⟨⟨PatOk.mono hal hr.1.1, PatOk.mono hal hr.1.2⟩, hr.2⟩
  have hin : ∀ r ∈ Ruleset.iter (Ruleset.partition F.split (fun r => isAllowedRewrite r.lhs r.rhs) prior).1,
      r ∈ Ruleset.iter prior := by
    intro r hr
    rw [C17_partition _ _ _ hp] at hr
    obtain ⟨e, he, rfl⟩ := List.mem_map.1 hr
    exact List.mem_map_of_mem (List.mem_of_mem_filter he)
  have hpsl : ParsesSorted (O := O) LeafSort := fun s k o ho => hal o k (hps s k o ho)
  obtain ⟨hd, hc⟩ := blind_defined hD hvl hpsl hdeep h0 (fun r hr => hgl r (hpr r (hin r hr)).2) (fun r hr => hgl r (hex r hr))
    h1 h2
  have hvt : VarsOk (O := O) fun _ _ => True := fun s => ⟨(hv s).1, trivial⟩
  obtain ⟨i, hi, ri⟩ := toEGraph_rep h0 hvt h1 hss hs ht
  obtain ⟨j, hj, rj⟩ := toEGraph_rep h0 hvt h1 hss hs' hu
  have a1 : AnyHistory D g1 :=
    .run (toEGraph_reach hvt (fun _ _ _ _ _ _ => TmOk.any _) h0) (fun _ _ => trivial) h1
  have a2 : AnyHistory D g2 := .run a1 (fun _ _ => trivial) h2
  obtain ⟨val, I2⟩ := AnyHistory.inv a2
  have hgrow := (C30_grows a1 h2).2
  have hij : g2.find i = g2.find j := rep_unique I2 hc (saturated_reps I2 hc hd hsat m1 (hgrow t i ri))
    (saturated_reps I2 hc hd hsat m2 (hgrow u j rj))
  have hsound : ∀ r, r ∈ Ruleset.iter prior → GoodRule ar r ∧ Holds I r := fun r hr => ⟨(hpr r hr).2, hI r (.inl hr)⟩
  have p1 : Reach D ar (fun r => r ∈ Ruleset.iter prior) g1 :=
    .run (toEGraph_reach hv (fun ss _ s _ t ht => tmOk_ofSexp hps s t ht) h0) hin h1
  -- the representative of an allowed term is allowed, no larger, and equal
  have rep : ∀ {t : Tm O} {i : Nat}, i ∈ g1.classes → Rep g1 t i → AllAllowed t → tmSize t < usizeMax →
      (F.best g1 i).1 ≠ usizeMax ∧ AllAllowed (F.best g1 i).2 ∧ tmSize (F.best g1 i).2 ≤ tmSize t ∧
        ∀ env, tmVal env I t = tmVal env I (F.best g1 i).2 := by
    intro t i hi ri ha hs
    obtain ⟨b1, b2⟩ := hb g1 a1 i hi
    have k1 := (hch g1 a1 i hi).2 t ri
    rw [(fold_extractable t).1 ha] at k1
    have hba : AllAllowed (F.best g1 i).2 := by
      by_contra hn
      rw [(fold_extractable _).2 hn] at k1
      omega
    have k2 := (fold_extractable _).1 hba
    refine ⟨by omega, hba, by omega, fun env => sound_vars hF hsound p1 ri b1 rfl env⟩
  obtain ⟨ci, x1, x2, x3⟩ := rep hi ri at' st
  obtain ⟨cj, y1, y2, y3⟩ := rep hj rj au su
  refine ⟨_, _, ⟨x1, x2, x3⟩, ⟨y1, y2, y3⟩, ?_⟩
  by_cases c1 : Spec.Covers (F.best g1 i).2 (F.best g1 j).2
  · rcases hA i hi j hj hij ci cj c1 with ⟨q, hq, hg, ha⟩ | he
    · exact .inr (.inl ⟨q, .inl hq, hg, ha⟩)
    · exact .inl (he t u ri rj)
  by_cases c2 : Spec.Covers (F.best g1 j).2 (F.best g1 i).2
  · rcases hA j hj i hi hij.symm cj ci c2 with ⟨q, hq, hg, ha⟩ | he
    · exact .inr (.inl ⟨q, .inr hq, hg, ha⟩)
    · exact .inl fun env => (he u t rj ri env).symm
  · exact .inr (.inr ⟨c1, c2⟩)

/-! ## Recipes -/

omit [LinearOrder C] in
private theorem mem_extend_of {a b : Ruleset O} (ha : WellFormed a) (hb : WellFormed b)
    (hta : ∀ r ∈ Ruleset.iter a, Rule.Textual r) (htb : ∀ r ∈ Ruleset.iter b, Rule.Textual r) {q : Rule O}
    (h : q ∈ Ruleset.iter a ∨ q ∈ Ruleset.iter b) : q ∈ Ruleset.iter (Ruleset.extend a b) := by
  have ht : Rule.Textual q := h.elim (hta q) (htb q)
  obtain ⟨r, hr, e⟩ := (named_extend ha hb (n := q.name)).2 (h.imp (fun h => ⟨q, h, rfl⟩) fun h => ⟨q, h, rfl⟩)
  have hr' : Rule.Textual r := (mem_extend_rules hr).elim (hta r) (htb r)
  rwa [← Rule.Textual.ext hr' ht e]

/-- The rules that fast-forwarding returns can be read back from their text. -/
theorem fast_textual (hS : FoldsSorted D ar) (hv : VarsOk (O := O) ar) (hps : ParsesSorted (O := O) ar)
    (hor : OpsReadable (O := O) ar) {F : FastEnv O C} (hb : ExtractorOk D F.best) (hids : ∀ g, (F.ids g).Perm g.classes)
    {w : Workload} {prior expl out : Ruleset O} {pl ml : Limits} {asked : List (Rule O)} (hp : WellFormed prior)
    (hpr : ∀ r ∈ Ruleset.iter prior, GoodRule ar r) (hex : ∀ r ∈ Ruleset.iter expl, GoodRule ar r)
    (h : runFastForwarding D F w prior expl pl ml = some (out, asked)) :
    WellFormed out ∧ ∀ q ∈ Ruleset.iter out, Rule.Textual q ∧ GoodRule ar q := by
  obtain ⟨g0, g1, g2, g3, c1, c2, inv, h0, h1, h2, hc1, h3, hc2, hm⟩ := runFastForwarding_some h
  let R : Rule O → Prop := fun r => r ∈ Ruleset.iter prior ∨ r ∈ Ruleset.iter expl
  have hin : ∀ r ∈ Ruleset.iter (Ruleset.partition F.split (fun r => isAllowedRewrite r.lhs r.rhs) prior).1, R r := by
    intro r hr
    rw [C17_partition _ _ _ hp] at hr
    obtain ⟨e, he, rfl⟩ := List.mem_map.1 hr
    exact .inl (List.mem_map_of_mem (List.mem_of_mem_filter he))
  have r1 : Reach D ar R g1 := .run (toEGraph_reach hv (fun ss _ s _ t ht => tmOk_ofSexp hps s t ht) h0) hin h1
  have r2 : Reach D ar R g2 := .run r1 (fun r hr => .inr hr) h2
  have hgood : ∀ r, R r → GoodRule ar r := fun r hr => hr.elim (hpr r) (hex r)
  have htc : ∀ q ∈ Ruleset.iter (Ruleset.extend c1 c2), Rule.Textual q ∧ GoodRule ar q := by
    intro q hq
    rcases mem_extend_rules hq with hq | hq
    · exact extract_textual hor (hids g1) (hb g1 (Reach.any r1)) (FoldsSorted.tmOk hS hgood r1) hc1 hq
    · exact extract_textual hor (hids g2) (hb g2 (Reach.any r2)) (FoldsSorted.tmOk hS hgood r2) hc2 hq
  have hwf := Ruleset.WellFormed.extend (addPairs_wf hc1) (addPairs_wf hc2)
  exact ⟨(C22_validated hwf hp hm).1, fun q hq => htc q (C22_candidates hwf hp (fun r hr => (htc r hr).1) hm q hq).1⟩

/-- The runs of which a recipe consists: every step has been run with some rules that are in the result, and what it returned
is in the result. -/
theorem fastRecipe_runs (hS : FoldsSorted D ar) (hv : VarsOk (O := O) ar) (hps : ParsesSorted (O := O) ar)
    (hor : OpsReadable (O := O) ar) {expl : Ruleset O} (hex : ∀ r ∈ Ruleset.iter expl, GoodRule ar r)
    (steps : List (FastStep O C)) (hs : ∀ st ∈ steps, StepOk D st) {prior out : Ruleset O} (hp : WellFormed prior)
    (hpr : ∀ r ∈ Ruleset.iter prior, Rule.Textual r ∧ GoodRule ar r) (h : fastRecipe D expl steps prior = some out) :
    (∀ q ∈ Ruleset.iter prior, q ∈ Ruleset.iter out) ∧
    ∀ st ∈ steps, ∃ known found asked, WellFormed known ∧ (∀ r ∈ Ruleset.iter known, Rule.Textual r ∧ GoodRule ar r) ∧
      runFastForwarding D st.env st.workload known expl st.priorLimits st.minLimits = some (found, asked) ∧
      ∀ q, q ∈ Ruleset.iter known ∨ q ∈ Ruleset.iter found → q ∈ Ruleset.iter out := by
  induction steps generalizing prior with
  | nil => cases h; exact ⟨fun q hq => hq, by simp⟩
  | cons st steps ih =>
    obtain ⟨⟨rs, asked⟩, h1, h2⟩ := Option.bind_eq_some_iff.1 h
    obtain ⟨hb, hids⟩ := hs st (by simp)
    obtain ⟨hwf, ht⟩ := fast_textual hS hv hps hor hb hids hp (fun r hr => (hpr r hr).2) hex h1
    have hm : ∀ q, q ∈ Ruleset.iter prior ∨ q ∈ Ruleset.iter rs → q ∈ Ruleset.iter (Ruleset.extend prior rs) := fun q hq =>
      mem_extend_of hp hwf (fun r hr => (hpr r hr).1) (fun r hr => (ht r hr).1) hq
    obtain ⟨k1, k2⟩ := ih (fun st' h => hs st' (by simp [h])) (Ruleset.WellFormed.extend hp hwf)
      (fun r hr => (mem_extend_rules hr).elim (hpr r) (ht r)) h2
    refine ⟨fun q hq => k1 q (hm q (.inl hq)), fun st' hst => ?_⟩
    rcases List.mem_cons.1 hst with rfl | hst
    · exact ⟨prior, rs, asked, hp, hpr, h1, fun q hq => k1 q (hm q hq)⟩
    · exact k2 st' hst

/-- **C89** (recipes). In a recipe of fast-forwarding runs, what the exploratory rules show in any step follows from the rules
that the whole recipe returns: for two allowed terms of the workload of a step which saturated exploratory rules rewrite to
a common term, as in C89_complete. -/
theorem C89_recipe {I : O → List V → V} {mem : Interval C → V → Prop} (hF : ∀ env, FoldsIn D ar (withVars env I) mem)
    (hS : FoldsSorted D ar) (hD : Blind D LeafSort) (hal : ∀ o k, ar o k → LeafSort (O := O) o k)
    (hv : VarsOk (O := O) ar) (hvl : VarOps (O := O) LeafSort) (hps : ParsesSorted (O := O) ar)
    (hor : OpsReadable (O := O) ar) {expl : Ruleset O} (hex : ∀ r ∈ Ruleset.iter expl, GoodRule ar r)
    {steps : List (FastStep O C)} (hs : ∀ st ∈ steps, StepOk D st ∧ CheapestOk D st.env.best ∧ 2 ≤ st.env.build.depth ∧
      ∀ g g' : EGraph O C, ∀ i ∈ st.env.ids g, g'.find i ∈ st.env.keys g g') {prior out : Ruleset O} (hp : WellFormed prior)
    (hpr : ∀ r ∈ Ruleset.iter prior, Rule.Textual r ∧ GoodRule ar r) (h : fastRecipe D expl steps prior = some out)
    (hI : ∀ q ∈ Ruleset.iter out, Holds I q) : ∀ st ∈ steps, ∃ known g0 g1 g2 found asked,
      runFastForwarding D st.env st.workload known expl st.priorLimits st.minLimits = some (found, asked) ∧
      st.workload.toEGraph D st.env.build = some g0 ∧
      Scheduler.run D st.env.egAllowed st.env.isSat (.compress st.priorLimits)
        (Ruleset.partition st.env.split (fun r => isAllowedRewrite r.lhs r.rhs) known).1 st.env.trAllowed g0 = some g1 ∧
      Scheduler.run D st.env.egDenote st.env.isSat (.simple st.priorLimits) expl st.env.trDenote g1 = some g2 ∧
      ∀ E, Saturated D E (· ∈ Ruleset.iter expl) g2 → ∀ ss, st.workload.force = some ss → ∀ s ∈ ss, ∀ s' ∈ ss,
        ∀ t u : Tm O, Tm.ofSexp s = some t → Tm.ofSexp s' = some u → AllAllowed t → AllAllowed u → tmSize t < usizeMax →
        tmSize u < usizeMax → Meets (· ∈ Ruleset.iter expl) t u →
        ∃ t' u', (AllAllowed t' ∧ tmSize t' ≤ tmSize t ∧ ∀ env, tmVal env I t = tmVal env I t') ∧
          (AllAllowed u' ∧ tmSize u' ≤ tmSize u ∧ ∀ env, tmVal env I u = tmVal env I u') ∧
          ((∀ env, tmVal env I t = tmVal env I u) ∨
            (∃ q, (Relates q t' u' ∨ Relates q u' t') ∧ GoodRule ar q ∧ Answered st.env.min.valid asked false q) ∨
            (¬ Spec.Covers t' u' ∧ ¬ Spec.Covers u' t')) := by
  intro st hst
  obtain ⟨known, found, asked, hk, hkr, hrun, hin⟩ :=
    (fastRecipe_runs hS hv hps hor hex steps (fun st h => (hs st h).1) hp hpr h).2 st hst
  obtain ⟨⟨hb, hids⟩, hch, hdeep, hkeys⟩ := hs st hst
  obtain ⟨g0, g1, g2, h0, h1, h2, hA⟩ := C89_complete hF hS hD hal hv hvl hps hor hb hch hdeep hids hkeys hk hkr hex hrun
    fun q hq => hI q (hin q hq)
  exact ⟨known, g0, g1, g2, found, asked, hrun, h0, h1, h2, hA⟩

/-! ## Binary numbers -/

/-- The number of children of the operators, tests/pos.rs:11-27. -/
def PosOp.arity : PosOp → Nat
  | .z | .xh | .var _ => 0
  | .s | .xo | .xi => 1
  | .add | .mul => 2

theorem pos_parsesSorted : ParsesSorted (O := PosOp) fun o k => k = o.arity := by
  intro s k o h
  simp only [Lang.fromOp] at h
  repeat' split at h
  all_goals first
    | (cases h; done)
    | (cases h; rename_i h; exact h.2)
    | (cases h; simp_all [PosOp.arity])

theorem pos_opsReadable : OpsReadable (O := PosOp) fun o k => k = o.arity := by
  rintro o k rfl hv
  cases o with
  | var x => simp [Lang.toVar] at hv
  | _ => exact ⟨by decide, notVarName (by decide), by decide, noArrow_of (by decide)⟩

theorem pos_arity_leaf (o : PosOp) (k : Nat) (h : k = o.arity) : LeafSort o k := by
  intro hl
  cases o <;> first | exact h | cases hl

theorem posExploratory_sorted : ∀ p ∈ posExploratorySides,
    PatOk (fun (o : PosOp) k => k = o.arity) p.1 ∧ PatOk (fun (o : PosOp) k => k = o.arity) p.2 := by
  have v : ∀ x, PatOk (fun (o : PosOp) k => k = o.arity) (.var x) := fun _ => .var
  have hz : PatOk (fun (o : PosOp) k => k = o.arity) (.node .z []) := .node rfl (by simp)
  have h1 : PatOk (fun (o : PosOp) k => k = o.arity) (.node .s [.node .z []]) := .node rfl (by simpa using hz)
  have hxh : PatOk (fun (o : PosOp) k => k = o.arity) (.node .xh []) := .node rfl (by simp)
  have hxo : PatOk (fun (o : PosOp) k => k = o.arity) (.node .xo [.var "?a"]) := .node rfl (by simpa using v _)
  have hxi : PatOk (fun (o : PosOp) k => k = o.arity) (.node .xi [.var "?a"]) := .node rfl (by simpa using v _)
  have hadd : ∀ {a b}, PatOk (fun (o : PosOp) k => k = o.arity) a → PatOk (fun (o : PosOp) k => k = o.arity) b →
      PatOk (fun (o : PosOp) k => k = o.arity) (.node .add [a, b]) := fun ha hb => .node rfl (by simpa using ⟨ha, hb⟩)
  simp only [posExploratorySides, List.forall_mem_cons]
  exact ⟨⟨hxh, h1⟩, ⟨h1, hxh⟩, ⟨hxo, hadd (v _) (v _)⟩, ⟨hadd (v _) (v _), hxo⟩,
    ⟨hxi, hadd (v _) (hadd (v _) h1)⟩, ⟨hadd (v _) (hadd (v _) h1), hxi⟩, by simp⟩

/-- **C89** (binary numbers, tests/pos.rs). If, in a run of `run_fast_forwarding` with the exploratory rules of that file, these
rules saturate, and they rewrite two terms of the workload over the binary operators to a common term (such as the same term
over `Z`, `S` and `+`): the equation of the two terms is a consequence of the prior and the returned rules, which do not
mention the translation — unless the validator rejected a rule between their representatives, or neither direction of it
is a rule. -/
theorem C89_pos {F : FastEnv PosOp Nat} (hb : ExtractorOk posDomain F.best) (hch : CheapestOk posDomain F.best)
    (hdeep : 2 ≤ F.build.depth) (hids : ∀ g, (F.ids g).Perm g.classes)
    (hkeys : ∀ g g' : EGraph PosOp Nat, ∀ i ∈ F.ids g, g'.find i ∈ F.keys g g') {w : Workload}
    {prior expl out : Ruleset PosOp} {pl ml : Limits} {asked : List (Rule PosOp)}
    (he : Ruleset.new (PosOp.exploratoryTexts.map String.toList) = some expl) (hp : WellFormed prior)
    (hpr : ∀ r ∈ Ruleset.iter prior, Rule.Textual r ∧ GoodRule (fun o k => k = o.arity) r)
    (h : runFastForwarding posDomain F w prior expl pl ml = some (out, asked)) (V : Type) (I : PosOp → List V → V)
    (hI : ∀ q, q ∈ Ruleset.iter prior ∨ q ∈ Ruleset.iter out → Holds I q) :
    ∃ g0 g1 g2, w.toEGraph posDomain F.build = some g0 ∧
      Scheduler.run posDomain F.egAllowed F.isSat (.compress pl)
        (Ruleset.partition F.split (fun r => isAllowedRewrite r.lhs r.rhs) prior).1 F.trAllowed g0 = some g1 ∧
      Scheduler.run posDomain F.egDenote F.isSat (.simple pl) expl F.trDenote g1 = some g2 ∧
      ∀ E, Saturated posDomain E (· ∈ Ruleset.iter expl) g2 → ∀ ss, w.force = some ss → ∀ s ∈ ss, ∀ s' ∈ ss,
        ∀ t u : Tm PosOp, Tm.ofSexp s = some t → Tm.ofSexp s' = some u → AllAllowed t → AllAllowed u →
        tmSize t < usizeMax → tmSize u < usizeMax → Meets (· ∈ Ruleset.iter expl) t u →
        ∃ t' u', (AllAllowed t' ∧ tmSize t' ≤ tmSize t ∧ ∀ env, tmVal env I t = tmVal env I t') ∧
          (AllAllowed u' ∧ tmSize u' ≤ tmSize u ∧ ∀ env, tmVal env I u = tmVal env I u') ∧
          ((∀ env, tmVal env I t = tmVal env I u) ∨
            (∃ q, (Relates q t' u' ∨ Relates q u' t') ∧ GoodRule (fun o k => k = o.arity) q ∧
              Answered F.min.valid asked false q) ∨
            (¬ Spec.Covers t' u' ∧ ¬ Spec.Covers u' t')) := by
  have hs := (table_sides posExploratory_sides he).2
  exact C89_complete (fun env => NoFold.foldsIn posDomain_noFold _ _) ⟨_, NoFold.foldsIn posDomain_noFold _ _⟩ pos_blind
    pos_arity_leaf (fun _ => ⟨rfl, rfl⟩) pos_varOps pos_parsesSorted pos_opsReadable hb hch hdeep hids hkeys hp hpr
    (fun r hr => ⟨posExploratory_sorted _ (hs r hr), (posExploratory_good _ (hs r hr)).1⟩) h hI

/-! ## Example -/

namespace Sample

theorem extracted_cheapest (D : Domain O C) : CheapestOk D (extracted D extractableCost_laws) := by
  intro g hg i hi
  have hlt : i < g.n ∧ g.find i = i := by simpa [EGraph.classes] using hi
  unfold extracted
  cases h : ((findCosts g extractableCost g.classNodes g.classes 10 fun _ => none).bind fun b =>
    (b (g.find i)).bind fun e => (buildBest g b 10 i).map fun t => (e.1, t)) with
  | none => exact (Classical.choose_spec (computed_exists extractableCost_laws D) g hg i hi).1.least hg hi
  | some r =>
    obtain ⟨b, hb, h⟩ := Option.bind_eq_some_iff.1 h
    obtain ⟨e, he, h⟩ := Option.bind_eq_some_iff.1 h
    obtain ⟨t, ht, h⟩ := Option.map_eq_some_iff.1 h
    subst h
    exact Computed.least ⟨10, b, 10, e.2, hb, he, ht⟩ hg hi

end Sample

-- Over `(XO a)`, `(+ a a)`: the run returns, the exploratory rules saturate, and they rewrite the first term to the second.
example : ((Ruleset.new (PosOp.exploratoryTexts.map String.toList)).bind fun expl =>
    (Sample.doubles.toEGraph posDomain Sample.posEnv.build).bind fun g0 =>
    (Scheduler.run posDomain Sample.posEnv.egAllowed Sample.posEnv.isSat (.compress Sample.limits)
      (Ruleset.partition Sample.posEnv.split (fun r => isAllowedRewrite r.lhs r.rhs) []).1 Sample.posEnv.trAllowed g0).bind
    fun g1 => (Scheduler.run posDomain Sample.posEnv.egDenote Sample.posEnv.isSat (.simple Sample.limits) expl
      Sample.posEnv.trDenote g1).map fun g2 => saturatedB posDomain Sample.egg (Ruleset.iter expl) g2 &&
        (runFastForwarding posDomain Sample.posEnv Sample.doubles [] expl Sample.limits Sample.limits).isSome) = some true := by
  decide +kernel
example {expl : Ruleset PosOp} (he : Ruleset.new (PosOp.exploratoryTexts.map String.toList) = some expl) :
    Meets (· ∈ Ruleset.iter expl) (.node .xo [.node (.var "a") []]) (.node .add [.node (.var "a") [], .node (.var "a") []]) := by
  obtain ⟨r, hr, e⟩ : ∃ r ∈ Ruleset.iter expl, (r.lhs, r.rhs) =
      ((.node .xo [.var "?a"], .node .add [.var "?a", .var "?a"]) : Pat PosOp × Pat PosOp) := by
    have : (Ruleset.new (PosOp.exploratoryTexts.map String.toList)).any (fun rs => (Ruleset.iter rs).any fun r =>
      decide ((r.lhs, r.rhs) = ((.node .xo [.var "?a"], .node .add [.var "?a", .var "?a"]) : Pat PosOp × Pat PosOp))) = true := by
      decide +kernel
    rw [he] at this
    simpa using this
  simp only [Prod.mk.injEq] at e
  refine ⟨_, .single ?_, .refl⟩
  have := Rewrites.rule (R := (· ∈ Ruleset.iter expl)) (fun _ => .node (.var "a") []) hr
  rw [e.1, e.2] at this
  exact this
example {expl out : Ruleset PosOp} {asked : List (Rule PosOp)}
    (he : Ruleset.new (PosOp.exploratoryTexts.map String.toList) = some expl)
    (h : runFastForwarding posDomain Sample.posEnv Sample.doubles [] expl Sample.limits Sample.limits = some (out, asked)) :=
  C89_pos (F := Sample.posEnv) (fun _ hg _ hi => Sample.extracted_ok extractableCost_laws hg hi)
    (Sample.extracted_cheapest posDomain) (by decide) (fun _ => List.Perm.refl _)
    (fun g g' i hi => by simpa [Sample.posEnv] using ⟨i, hi, rfl⟩) he Ruleset.WellFormed.nil (by simp [Ruleset.iter]) h
-- The recipe of two such runs.
example {expl out : Ruleset PosOp} (he : Ruleset.new (PosOp.exploratoryTexts.map String.toList) = some expl) (V : Type)
    (I : PosOp → List V → V)
    (h : fastRecipe posDomain expl [⟨Sample.posEnv, Sample.doubles, Sample.limits, Sample.limits⟩,
      ⟨Sample.posEnv, Sample.doubles, Sample.limits, Sample.limits⟩] [] = some out)
    (hI : ∀ q ∈ Ruleset.iter out, Holds I q) :=
  have hs := (table_sides posExploratory_sides he).2
  C89_recipe (D := posDomain) (ar := fun o k => k = o.arity) (fun env => NoFold.foldsIn posDomain_noFold _ _)
    ⟨_, NoFold.foldsIn posDomain_noFold _ _⟩ pos_blind pos_arity_leaf (fun _ => ⟨rfl, rfl⟩) pos_varOps pos_parsesSorted
    pos_opsReadable (fun r hr => ⟨posExploratory_sorted _ (hs r hr), (posExploratory_good _ (hs r hr)).1⟩)
    (fun st hst => by
      have e : st = ⟨Sample.posEnv, Sample.doubles, Sample.limits, Sample.limits⟩ := by simpa using hst
      subst e
      exact ⟨Sample.posEnv_ok, Sample.extracted_cheapest posDomain, by decide,
        fun g g' i hi => by simpa [Sample.posEnv] using ⟨i, hi, rfl⟩⟩)
    Ruleset.WellFormed.nil (by simp [Ruleset.iter]) h hI
example : ((Ruleset.new (PosOp.exploratoryTexts.map String.toList)).bind fun expl =>
    (fastRecipe posDomain expl [⟨Sample.posEnv, Sample.doubles, Sample.limits, Sample.limits⟩,
      ⟨Sample.posEnv, Sample.doubles, Sample.limits, Sample.limits⟩] []).map List.length) = some 2 := by decide +kernel

end Ruler
