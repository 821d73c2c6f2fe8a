import Verif.Proofs.Synthesis
import Verif.Props.Vectors
/-!
# C51 (completeness) and C64: what synthesis runs find
-/
namespace Ruler
open Spec EGraph
open scoped List
variable {O C V : Type} [Lang O] [LinearOrder C] {D : Domain O C} {ar : O → Nat → Prop}

/-- **C51 (completeness).** Consider two classes of the e-graph that is made from the workload and compressed with the
prior. If their vectors match and the variables of one representative occur in the other, then the validator rejected the
rule between the representatives, or all terms of the two classes are equal in every algebra in which the prior and the
returned rules hold (and in which constant folding is correct): nothing that was found is lost by rule selection. -/
theorem C51_complete {I : O → List V → V} {mem : Interval C → V → Prop} (hF : ∀ env, FoldsIn D ar (withVars env I) mem)
    (hv : VarsOk (O := O) ar) (hps : ParsesSorted (O := O) ar) (hor : OpsReadable (O := O) ar) {R : RunEnv O C}
    (hR : RunOk D R) {w : Workload} {prior out : Ruleset O} {pl ml : Limits} {fast allowEmpty : Bool}
    {asked : List (Rule O)} (hp : WellFormed prior) (hpr : ∀ r ∈ Ruleset.iter prior, Rule.Textual r ∧ GoodRule ar r)
    (h : runWorkloadInternal D R w prior pl ml fast allowEmpty = some (out, asked))
    (hI : ∀ q, q ∈ Ruleset.iter prior ∨ q ∈ Ruleset.iter out → Holds I q) :
    ∃ g g', w.toEGraph D R.build = some g ∧ Scheduler.run D R.eg R.isSat (.compress pl) prior R.tr g = some g' ∧
      ∀ i ∈ g'.classes, ∀ j ∈ g'.classes, VecsMatch fast (g'.cvecOf i) (g'.cvecOf j) →
        Covers (R.best g' i) (R.best g' j) →
        (∃ q, Relates q (R.best g' i) (R.best g' j) ∧ GoodRule ar q ∧ Answered R.min.valid asked false q) ∨
        ∀ t u, Rep g' t i → Rep g' u j → ∀ env, tmVal env I t = tmVal env I u := by
  obtain ⟨g, g', cands, inv, hg, hg', hc, hm, -⟩ := runWorkloadInternal_some h
  refine ⟨g, g', hg, hg', fun i hi j hj hma hcov => ?_⟩
  by_cases hV : Nonempty V
  swap
  · exact .inr fun t u _ _ env => absurd ⟨env ""⟩ hV
  have hsound : ∀ r, r ∈ Ruleset.iter prior → GoodRule ar r ∧ Holds I r := fun r hr => ⟨(hpr r hr).2, hI r (.inl hr)⟩
  obtain ⟨r1, hord, hbest, hok⟩ := run_graph hF hv hps hR hsound hg hg'
  by_cases hij : i = j
  · subst hij
    exact .inr fun t u ht hu env => sound_vars hF hsound r1 ht hu rfl env
  have htc : ∀ q ∈ Ruleset.iter cands, Rule.Textual q ∧ GoodRule ar q := fun q hq => cands_textual hor hord hc hok hq
  obtain ⟨hs1, hs2, hma⟩ := hma
  have hboth : ProposesBoth cands (R.best g' i) (R.best g' j) := by
    cases fast with
    | true => exact C26_complete hord hc i j hi hj hij hma hs1
    | false => exact C25_complete hord hc i j hi hj hij hs1 hs2 hma
  obtain ⟨ρ, hinj, hlet, hname, -⟩ := hboth
  obtain ⟨c, hcm, hcn⟩ := List.mem_map.1 (hname hcov)
  -- the candidate of that name is the rule between the representatives
  have hce : c = ⟨ruleName (schema ρ (R.best g' i)) (schema ρ (R.best g' j)), schema ρ (R.best g' i),
      schema ρ (R.best g' j)⟩ := by
    have k1 := readable_schema hor (hok i hi) fun x hx => hlet x (.inl hx)
    have k2 := readable_schema hor (hok j hj) fun x hx => hlet x (.inr hx)
    refine Rule.Textual.ext (htc c hcm).1 ⟨⟨rfl, fun v hvv => ?_⟩, k1.1, k2.1, noArrow_printEgg _ k1.2.2,
      noArrow_printEgg _ k2.2.2⟩ hcn
    obtain ⟨x, hx, rfl⟩ := mem_vars_schema.1 hvv
    exact mem_vars_schema.2 ⟨x, hcov x hx, rfl⟩
  have hrel : Relates c (R.best g' i) (R.best g' j) := by
    rw [hce]
    exact ⟨ρ, hinj, rfl, rfl, rfl⟩
  rcases C23_follows hF hv (cands_wf hc |>.1) hp htc hpr hm hI c hcm with hholds | hrej
  · refine .inr fun t u ht hu env => ?_
    have e1 : tmVal env I t = tmVal env I (R.best g' i) := sound_vars hF hsound r1 ht (hbest i hi) rfl env
    have e2 : tmVal env I u = tmVal env I (R.best g' j) := sound_vars hF hsound r1 hu (hbest j hj) rfl env
    rw [e1, e2]
    exact (Relates.holds_iff hrel).1 hholds env
  · exact .inl ⟨c, hrel, (htc c hcm).2, hrej⟩

/-! ## C64: Boolean synthesis -/

theorem bool_parsesSorted : ParsesSorted (O := BoolOp) fun o k => k = o.arity := by
  intro s k o h
  simp only [Lang.fromOp] at h
  repeat' split at h
  all_goals first
    | (cases h; done)
    | (cases h; rename_i h; exact h.2)
    | (cases h; simp_all [BoolOp.arity])

theorem bool_opsReadable : OpsReadable (O := BoolOp) fun o k => k = o.arity := by
  have nv : ∀ s : String, s.toList.head? ≠ some '?' → ¬ VarName s := by
    rintro s h ⟨c, r, e⟩
    exact h (by rw [e]; rfl)
  have na : ∀ s : List Char, '=' ∉ s → ¬ HasArrow s := fun s h ha => h (ha.subset (by simp))
  rintro o k rfl hv
  cases o with
  | var x => simp [Lang.toVar] at hv
  | lit b =>
    cases b
    · exact ⟨by decide, nv _ (by decide), by decide, na _ (by decide)⟩
    · exact ⟨by decide, nv _ (by decide), by decide, na _ (by decide)⟩
  | _ => exact ⟨by decide, nv _ (by decide), by decide, na _ (by decide)⟩

/-- **C64.** The validator of the Boolean domain accepts everything, but every rule that a run returns is a tautology,
whichever matching is used and whatever egg does — provided the prior rules are tautologies. The rules are also well-sorted
and can be read back from their text. -/
theorem C64_sound {R : RunEnv BoolOp Bool} (hR : RunOk boolDomain R) {w : Workload} {prior out : Ruleset BoolOp}
    {pl ml : Limits} {fast allowEmpty : Bool} {asked : List (Rule BoolOp)} (hp : WellFormed prior)
    (hpr : ∀ r ∈ Ruleset.iter prior, GoodRule (fun o k => k = o.arity) r ∧ Holds boolOpVal r)
    (h : runWorkloadInternal boolDomain R w prior pl ml fast allowEmpty = some (out, asked)) :
    ∀ q ∈ Ruleset.iter out, Rule.Textual q ∧ GoodRule (fun o k => k = o.arity) q ∧ Holds boolOpVal q := by
  obtain ⟨g, g', cands, inv, hg, hg', hc, hm, -⟩ := runWorkloadInternal_some h
  obtain ⟨r1, hord, hbest, hok⟩ := run_graph bool_folds bool_varOps.1 bool_parsesSorted hR hpr hg hg'
  have htc : ∀ q ∈ Ruleset.iter cands, Rule.Textual q ∧ GoodRule (fun o k => k = o.arity) q :=
    fun q hq => cands_textual bool_opsReadable hord hc hok hq
  obtain ⟨ts, h0, hts, -⟩ := toEGraph_terms bool_parsesSorted hg
  obtain ⟨X, n, tbl, hX, hinit, hvec⟩ := C63_bool (R := fun r => r ∈ Ruleset.iter prior) hpr hts h0
  have hgr : Grows boolDomain (fun o k => k = o.arity) (fun r => r ∈ Ruleset.iter prior) X g g' :=
    .run .refl (fun _ hr => hr) hg'
  intro q hq
  obtain ⟨-, hcand, -⟩ := (C22_validated (cands_wf hc).1 hp hm).2 q hq
  have hqc := isCandidate_mem (fun r hr => (htc r hr).1) hcand
  refine ⟨(htc q hqc).1, (htc q hqc).2, ?_⟩
  obtain ⟨i, hi, j, hj, ha, hrel⟩ := cands_agree hord hc hqc
  rw [Relates.holds_iff hrel]
  intro env
  obtain ⟨p, hpn, hs⟩ := initProduct_sampleAt (fits := fun e b => e = some b) hX.1 hinit env (by
    intro x _
    cases env x <;> simp [boolSamples])
  have hs' : ∀ p' ∈ tbl, p'.2[p]? = some (some (env p'.1)) := by
    intro p' hp'
    obtain ⟨e, he, rfl⟩ := hs p' hp'
    exact he
  exact ha p _ _ (hvec g' hgr i _ (hbest i hi) p env hpn hs').2 (hvec g' hgr j _ (hbest j hj) p env hpn hs').2

/-- **C64.** The same for `recursive_rules`. -/
theorem C64_recursive {envs : Nat → RunEnv BoolOp Bool} (hR : ∀ k, RunOk boolDomain (envs k)) {metric : Metric}
    {lang : RecipeLang} {prior : Ruleset BoolOp} (hp : WellFormed prior)
    (hpr : ∀ r ∈ Ruleset.iter prior, GoodRule (fun o k => k = o.arity) r ∧ Holds boolOpVal r) (n : Nat)
    {out : Ruleset BoolOp} {log : List (Nat × List (Rule BoolOp))}
    (h : recursiveRules boolDomain envs metric lang prior n = some (out, log)) :
    ∀ q ∈ Ruleset.iter out, q ∈ Ruleset.iter prior ∨
      (Rule.Textual q ∧ GoodRule (fun o k => k = o.arity) q ∧ Holds boolOpVal q) := by
  induction n generalizing out log with
  | zero => cases h; simp [Ruleset.iter]
  | succ n ih =>
    obtain ⟨rec, log', w, new, asked, h1, h2, rfl, rfl⟩ := recursiveRules_succ h
    have hw := (recursiveRules_ok hp n h1).1
    have hk : ∀ r ∈ Ruleset.iter (Ruleset.extend rec prior),
        GoodRule (fun o k => k = o.arity) r ∧ Holds boolOpVal r := by
      intro r hr
      rcases mem_extend_rules hr with hr | hr
      · rcases ih h1 r hr with hr | hr
        · exact hpr r hr
        · exact hr.2
      · exact hpr r hr
    intro q hq
    rcases mem_extend_rules hq with hq | hq
    · exact .inr (C64_sound (hR _) (Ruleset.WellFormed.extend hw hp) hk h2 q hq)
    · rcases mem_extend_rules hq with hq | hq
      · exact ih h1 q hq
      · exact .inl hq

/-- The validator accepts every rule. -/
theorem boolAnswers_all {valid : List (Rule BoolOp) → Rule BoolOp → Bool} (h : BoolAnswers valid) (before : List (Rule BoolOp))
    (q : Rule BoolOp) : valid before q = true := (h before q).2 fun _ _ _ _ => rfl

theorem boolAnswers_true : BoolAnswers fun _ _ => true := fun _ _ => ⟨fun _ _ _ _ _ => rfl, fun _ => rfl⟩

/-- **C64 (completeness).** Two equivalent formulas of the workload whose classes have representatives with comparable
variables are equal in every algebra in which the prior and the returned rules hold and constants are folded rightly: the
equivalence follows from the rules. -/
theorem C64_complete {I : BoolOp → List V → V} {mem : Interval Bool → V → Prop}
    (hF : ∀ env, FoldsIn boolDomain (fun o k => k = o.arity) (withVars env I) mem) {R : RunEnv BoolOp Bool}
    (hR : RunOk boolDomain R) (hval : BoolAnswers R.min.valid) {w : Workload} {prior out : Ruleset BoolOp}
    {pl ml : Limits} {fast allowEmpty : Bool} {asked : List (Rule BoolOp)} (hp : WellFormed prior)
    (hpr : ∀ r ∈ Ruleset.iter prior, Rule.Textual r ∧ GoodRule (fun o k => k = o.arity) r ∧ Holds boolOpVal r)
    (h : runWorkloadInternal boolDomain R w prior pl ml fast allowEmpty = some (out, asked))
    (hI : ∀ q, q ∈ Ruleset.iter prior ∨ q ∈ Ruleset.iter out → Holds I q) :
    ∃ g g', w.toEGraph boolDomain R.build = some g ∧
      Scheduler.run boolDomain R.eg R.isSat (.compress pl) prior R.tr g = some g' ∧
      (∀ ss, w.force = some ss → ∀ s ∈ ss, ∀ t : Tm BoolOp, Tm.ofSexp s = some t → ∃ i ∈ g'.classes, Rep g' t i) ∧
      ∀ i ∈ g'.classes, ∀ j ∈ g'.classes, Covers (R.best g' i) (R.best g' j) ∨ Covers (R.best g' j) (R.best g' i) →
        ∀ t u, Rep g' t i → Rep g' u j → (∀ env, boolVal env t = boolVal env u) → ∀ env, tmVal env I t = tmVal env I u := by
  obtain ⟨g, g', hg, hg', key⟩ := C51_complete hF bool_varOps.1 bool_parsesSorted bool_opsReadable hR hp
    (fun r hr => ⟨(hpr r hr).1, (hpr r hr).2.1⟩) h hI
  refine ⟨g, g', hg, hg', fun ss hss s hs t ht => ?_, ?_⟩
  · exact toEGraph_rep hg (fun s => ⟨(bool_varOps.1 s).1, trivial⟩) hg' hss hs ht
  obtain ⟨ts, h0, hts, -⟩ := toEGraph_terms bool_parsesSorted hg
  have hpr' : ∀ r, r ∈ Ruleset.iter prior → GoodRule (fun o k => k = o.arity) r ∧ Holds boolOpVal r :=
    fun r hr => (hpr r hr).2
  obtain ⟨X, n, tbl, hX, hinit, hvec⟩ := C63_bool (R := fun r => r ∈ Ruleset.iter prior) hpr' hts h0
  obtain ⟨X', hX', hiff⟩ := C63_bool_iff (R := fun r => r ∈ Ruleset.iter prior) hpr' hts h0
  have hgr : ∀ X, Grows boolDomain (fun o k => k = o.arity) (fun r => r ∈ Ruleset.iter prior) X g g' :=
    fun X => .run .refl (fun _ hr => hr) hg'
  have hsamp : ∀ i t, Rep g' t i → HasSample (g'.cvecOf i) := by
    intro i t ht
    obtain ⟨p, hpn, hs⟩ := initProduct_sampleAt (fits := fun e b => e = some b) hX.1 hinit (fun _ => true) (by
      intro x _
      simp [boolSamples])
    refine ⟨p, _, (hvec g' (hgr X) i t ht p (fun _ => true) hpn fun p' hp' => ?_).2⟩
    obtain ⟨e, he, rfl⟩ := hs p' hp'
    exact he
  have hrej : ∀ q, ¬ Answered R.min.valid asked false q := by
    rintro q ⟨before, -, hf⟩
    rw [boolAnswers_all hval] at hf
    cases hf
  intro i hi j hj hcov t u ht hu heq
  have hm : ∀ {i j t u}, Rep g' t i → Rep g' u j → (∀ env, boolVal env t = boolVal env u) →
      VecsMatch fast (g'.cvecOf i) (g'.cvecOf j) := by
    intro i j t u ht hu heq
    have := (hiff g' (hgr X') i j t u ht hu).2 heq
    refine ⟨hsamp i t ht, hsamp j u hu, ?_⟩
    split
    · exact this
    · rw [this]
      intro k x y hx hy
      rw [hx] at hy
      simpa using hy
  intro env
  rcases hcov with hcov | hcov
  · rcases key i hi j hj (hm ht hu heq) hcov with ⟨q, -, -, hq⟩ | hk
    · exact absurd hq (hrej q)
    · exact hk t u ht hu env
  · rcases key j hj i hi (hm hu ht fun env => (heq env).symm) hcov with ⟨q, -, -, hq⟩ | hk
    · exact absurd hq (hrej q)
    · exact (hk u t hu ht env).symm

/-! ## Examples -/

namespace Sample

/-- The workload `(& x y)`, `(& y x)`. -/
def conjs : Workload := .set [.list [.atom "&", .atom "x", .atom "y"], .list [.atom "&", .atom "y", .atom "x"]]
/-- The two terms. -/
def conj (x y : String) : Tm BoolOp := .node .and [.node (.var x) [], .node (.var y) []]
/-- Choices of a run with the Boolean validator. -/
noncomputable def boolEnv : RunEnv BoolOp Bool where
  build := egg
  eg := egg
  isSat _ := false
  tr := quiet
  order g := g.classes
  best g i := (extracted boolDomain astCost_laws g i).2
  min := { sched := .simple limits, isSat := fun _ => false, eg := fun _ => egg, tr := fun _ => quiet,
           score := fun r => [(r.name.length : Int)], valid := fun _ _ => true }

theorem boolEnv_ok : RunOk boolDomain boolEnv :=
  fun _ hg => ⟨List.Perm.refl _, fun _ hi => (extracted_ok astCost_laws hg hi).1⟩

end Sample

-- Both directions of commutativity are found, with either way of matching; the theorems apply to the run.
example : (runWorkloadInternal boolDomain Sample.boolEnv Sample.conjs [] Sample.limits Sample.limits true false).map
    (fun r => (r.1.map (·.1.length), r.2.length)) = some ([23, 23], 3) := by decide +kernel
example : (runWorkloadInternal boolDomain Sample.boolEnv Sample.conjs [] Sample.limits Sample.limits false false).map
    (fun r => (r.1.map (·.1.length), r.2.length)) = some ([23, 23], 3) := by decide +kernel

-- What the theorems say about that run (its hypotheses are met: the prior is empty, egg is `boolEnv_ok`).
example : ∃ out asked, runWorkloadInternal boolDomain Sample.boolEnv Sample.conjs [] Sample.limits Sample.limits true false =
      some (out, asked) ∧ out.length = 2 ∧
    (∀ q ∈ Ruleset.iter out, Rule.Textual q ∧ GoodRule (fun o k => k = o.arity) q ∧ Holds boolOpVal q) ∧
    ∃ (g g' : EGraph BoolOp Bool) (i j : Nat), Sample.conjs.toEGraph boolDomain Sample.boolEnv.build = some g ∧
      i ∈ g'.classes ∧ j ∈ g'.classes ∧
      Rep g' (Sample.conj "x" "y") i ∧ Rep g' (Sample.conj "y" "x") j := by
  have key : (runWorkloadInternal boolDomain Sample.boolEnv Sample.conjs [] Sample.limits Sample.limits true false).map
    (fun r => r.1.length) = some 2 := by decide +kernel
  obtain ⟨⟨out, asked⟩, h, hl⟩ := Option.map_eq_some_iff.1 key
  have hs := C64_sound Sample.boolEnv_ok (prior := []) (by simp [WellFormed]) (by simp [Ruleset.iter]) h
  obtain ⟨g, g', hg, -, hrep, -⟩ := C64_complete bool_folds Sample.boolEnv_ok boolAnswers_true (prior := [])
    (by simp [WellFormed]) (by simp [Ruleset.iter]) h (by simpa [Ruleset.iter] using fun q hq => (hs q hq).2.2)
  obtain ⟨i, hi, h1⟩ := hrep _ rfl _ (List.mem_cons_self ..) (Sample.conj "x" "y") (by decide +kernel)
  obtain ⟨j, hj, h2⟩ := hrep _ rfl _ (List.mem_cons_of_mem _ (List.mem_cons_self ..)) (Sample.conj "y" "x")
    (by decide +kernel)
  exact ⟨out, asked, h, hl, hs, g, g', i, j, hg, hi, hj, h1, h2⟩


-- `recursive_rules` up to three atoms over `x` and `~` finds double negation, in both directions.
example : ∃ out log, recursiveRules boolDomain (fun _ => Sample.boolEnv) .atoms ⟨[], [['x']], [[['~']], []]⟩ [] 3 =
    some (out, log) ∧ out.map (·.1.length) = [17, 17] ∧ ∀ q ∈ Ruleset.iter out, Holds boolOpVal q := by
  have key : (recursiveRules boolDomain (fun _ => Sample.boolEnv) .atoms ⟨[], [['x']], [[['~']], []]⟩ [] 3).map
    (fun r => r.1.map (·.1.length)) = some [17, 17] := by decide +kernel
  obtain ⟨⟨out, log⟩, h, hl⟩ := Option.map_eq_some_iff.1 key
  refine ⟨out, log, h, hl, fun q hq => ?_⟩
  rcases C64_recursive (fun _ => Sample.boolEnv_ok) (prior := []) (by simp [WellFormed]) (by simp [Ruleset.iter]) 3 h q hq
    with h | h
  · simp [Ruleset.iter] at h
  · exact h.2.2

end Ruler
