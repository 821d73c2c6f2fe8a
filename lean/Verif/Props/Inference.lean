import Verif.Model.Inference
import Verif.Props.Minimize
import Verif.Props.Extract
import Verif.Props.Candidates
/-!
# C51, C52, C53: rule inference
-/
namespace Ruler
open Spec EGraph
open scoped List
variable {O C V : Type} [Lang O] [LinearOrder C] {D : Domain O C} {ar : O → Nat → Prop}

theorem addPairs_wf {ps : List (Tm O × Tm O)} {rs : Ruleset O} (h : Ruleset.addPairs [] ps = some rs) : WellFormed rs := by
  rw [(addPairs_eq h).2]
  exact Ruleset.WellFormed.addAll Ruleset.WellFormed.nil _

/-- Every proposed rule is named by its sides and has its variables bound. -/
theorem addPairs_proper {ps : List (Tm O × Tm O)} {rs : Ruleset O} (h : Ruleset.addPairs [] ps = some rs) {q : Rule O}
    (hq : q ∈ Ruleset.iter rs) : Rule.Proper q := by
  rw [(addPairs_eq h).2] at hq
  rcases mem_iter_addAll' hq with hq | hq
  · simp [Ruleset.iter] at hq
  · obtain ⟨p, -, hq⟩ := List.mem_flatMap.1 hq
    cases hg : generalizePair p.1 p.2 with
    | none => simp [dirsOf, hg] at hq
    | some lr =>
      simp only [dirsOf, hg, dirs, Option.toList_some, List.flatMap_cons, List.flatMap_nil, List.append_nil,
        List.mem_append, Option.mem_toList] at hq
      rcases hq with hq | hq <;> exact (new_sides hq).2.2

/-- A relation between the terms and the other direction of the rule. -/
theorem Relates.reverse {c q : Rule O} {t u : Tm O} (h : Relates c t u) (h1 : q.lhs = c.rhs) (h2 : q.rhs = c.lhs)
    (hp : Rule.Proper q) : Relates q u t := by
  obtain ⟨ρ, hi, hl, hr, -⟩ := h
  refine ⟨ρ, fun a b ha hb => hi a b ha.symm hb.symm, by rw [h1, hr], by rw [h2, hl], ?_⟩
  rw [hp.1, h1, h2, hr, hl]

/-- The stages of a run of `run_workload_internal`. -/
theorem runWorkloadInternal_some {R : RunEnv O C} {w : Workload} {prior out : Ruleset O} {pl ml : Limits}
    {fast allowEmpty : Bool} {asked : List (Rule O)}
    (h : runWorkloadInternal D R w prior pl ml fast allowEmpty = some (out, asked)) :
    ∃ g g' cands inv, w.toEGraph D R.build = some g ∧
      Scheduler.run D R.eg R.isSat (.compress pl) prior R.tr g = some g' ∧
      (if fast then fastCvecMatch g' (R.order g') (R.best g') else cvecMatch g' (R.order g') (R.best g')) = some cands ∧
      Ruleset.minimize D { R.min with sched := .compress ml } cands.length cands prior = .done out inv asked ∧
      (allowEmpty = false → out ≠ []) := by
  unfold runWorkloadInternal at h
  obtain ⟨g, hg, h⟩ := Option.bind_eq_some_iff.1 h
  obtain ⟨g', hg', h⟩ := Option.bind_eq_some_iff.1 h
  obtain ⟨cands, hc, h⟩ := Option.bind_eq_some_iff.1 h
  split at h
  · rename_i chosen inv a hm
    split at h
    · cases h
    · rename_i he
      cases h
      exact ⟨g, g', cands, inv, hg, hg', hc, hm, fun ha ho => he (by simp [ha, ho])⟩
  · cases h

theorem cands_wf {g : EGraph O C} {fast : Bool} {order : List Nat} {best : Nat → Tm O} {cands : Ruleset O}
    (h : (if fast then fastCvecMatch g order best else cvecMatch g order best) = some cands) :
    WellFormed cands ∧ ∀ q ∈ Ruleset.iter cands, Rule.Proper q := by
  split at h
  · exact ⟨addPairs_wf h, fun q => addPairs_proper h⟩
  · obtain ⟨ps, -, h⟩ := Option.bind_eq_some_iff.1 h
    exact ⟨addPairs_wf h, fun q => addPairs_proper h⟩

theorem runWorkloadInternal_ok {R : RunEnv O C} {w : Workload} {prior out : Ruleset O} {pl ml : Limits}
    {fast allowEmpty : Bool} {asked : List (Rule O)} (hp : WellFormed prior)
    (h : runWorkloadInternal D R w prior pl ml fast allowEmpty = some (out, asked)) :
    WellFormed out ∧ ∀ q ∈ Ruleset.iter out,
      Answered R.min.valid asked true q ∧ ¬ Named prior q.name ∧ Rule.Proper q := by
  obtain ⟨g, g', cands, inv, -, -, hc, hm, -⟩ := runWorkloadInternal_some h
  obtain ⟨hw, hpr⟩ := cands_wf hc
  obtain ⟨h1, h2⟩ := C22_validated hw hp hm
  refine ⟨h1, fun q hq => ?_⟩
  obtain ⟨ha, hcand, hn⟩ := h2 q hq
  refine ⟨ha, hn, ?_⟩
  rcases hcand with hcand | ⟨-, c, -, -, -, hprop⟩
  · exact hpr q hcand
  · exact hprop

/-- Every returned rule relates the representatives of two different classes of the e-graph that is made from the
workload and compressed with the prior, and the sample vectors of these classes are equal (fast matching) or agree
wherever both are defined. -/
theorem runWorkloadInternal_origin_of {R : RunEnv O C} {w : Workload} {prior out : Ruleset O} {pl ml : Limits} {fast allowEmpty : Bool}
    {asked : List (Rule O)} (hp : WellFormed prior)
    (hord : ∀ g g', w.toEGraph D R.build = some g → Scheduler.run D R.eg R.isSat (.compress pl) prior R.tr g = some g' →
      (R.order g').Perm g'.classes)
    (h : runWorkloadInternal D R w prior pl ml fast allowEmpty = some (out, asked)) :
    ∃ g g', w.toEGraph D R.build = some g ∧ Scheduler.run D R.eg R.isSat (.compress pl) prior R.tr g = some g' ∧
      ∀ q ∈ Ruleset.iter out, ∃ i ∈ g'.classes, ∃ j ∈ g'.classes, i ≠ j ∧
        (fast = true → g'.cvecOf i = g'.cvecOf j) ∧ Agree (g'.cvecOf i) (g'.cvecOf j) ∧
        Relates q (R.best g' i) (R.best g' j) := by
  obtain ⟨g, g', cands, inv, hg, hg', hc, hm, -⟩ := runWorkloadInternal_some h
  refine ⟨g, g', hg, hg', fun q hq => ?_⟩
  have key : ∀ c ∈ Ruleset.iter cands, ∃ i ∈ g'.classes, ∃ j ∈ g'.classes, i ≠ j ∧
      (fast = true → g'.cvecOf i = g'.cvecOf j) ∧ Agree (g'.cvecOf i) (g'.cvecOf j) ∧
        Relates c (R.best g' i) (R.best g' j) := by
    intro c hcm
    cases fast with
    | true =>
      obtain ⟨i, hi, j, hj, hne, he, -, hr, -⟩ := C26_sound (hord g g' hg hg') hc c hcm
      exact ⟨i, hi, j, hj, hne, fun _ => he, fun k x y hx hy => by simp_all, hr⟩
    | false =>
      obtain ⟨i, hi, j, hj, hne, -, -, ha, hr, -⟩ := C25_sound (hord g g' hg hg') hc c hcm
      exact ⟨i, hi, j, hj, hne, by simp, ha, hr⟩
  obtain ⟨-, hcand, -⟩ := (C22_validated (cands_wf hc).1 hp hm).2 q hq
  rcases hcand with hcand | ⟨-, c, hcm, e1, e2, hprop⟩
  · exact key q hcand
  · obtain ⟨i, hi, j, hj, hne, hf, ha, hr⟩ := key c hcm
    exact ⟨j, hj, i, hi, hne.symm, fun hf' => (hf hf').symm, Agree.symm ha, Relates.reverse hr e1 e2 hprop⟩

theorem runWorkloadInternal_origin {R : RunEnv O C} {w : Workload} {prior out : Ruleset O} {pl ml : Limits} {fast allowEmpty : Bool}
    {asked : List (Rule O)} (hp : WellFormed prior) (hord : ∀ g, (R.order g).Perm g.classes)
    (h : runWorkloadInternal D R w prior pl ml fast allowEmpty = some (out, asked)) :
    ∃ g g', w.toEGraph D R.build = some g ∧ Scheduler.run D R.eg R.isSat (.compress pl) prior R.tr g = some g' ∧
      ∀ q ∈ Ruleset.iter out, ∃ i ∈ g'.classes, ∃ j ∈ g'.classes, i ≠ j ∧
        (fast = true → g'.cvecOf i = g'.cvecOf j) ∧ Agree (g'.cvecOf i) (g'.cvecOf j) ∧
        Relates q (R.best g' i) (R.best g' j) :=
  runWorkloadInternal_origin_of hp (fun _ g' _ _ => hord g') h

/-! ## C51: rule inference returns valid new rules -/

/-- **C51.** `run_workload` returns a nonempty ruleset; about every rule in it the validator was asked and accepted it, the
prior has no rule of that name, and the rule is named by its two sides and has its variables bound. -/
theorem C51_validated {R : RunEnv O C} {w : Workload} {prior out : Ruleset O} {pl ml : Limits} {fast : Bool}
    {asked : List (Rule O)} (hp : WellFormed prior) (h : runWorkload D R w prior pl ml fast = some (out, asked)) :
    out ≠ [] ∧ WellFormed out ∧ ∀ q ∈ Ruleset.iter out,
      Answered R.min.valid asked true q ∧ ¬ Named prior q.name ∧ Rule.Proper q :=
  ⟨by obtain ⟨_, _, _, _, _, _, _, _, hne⟩ := runWorkloadInternal_some h; exact hne rfl,
    runWorkloadInternal_ok hp h⟩

/-- **C51.** With a validator that is right about an algebra, every returned rule holds in it. -/
theorem C51_valid {I : O → List V → V} {R : RunEnv O C} (hv : ∀ before q, R.min.valid before q = true → Holds I q)
    {w : Workload} {prior out : Ruleset O} {pl ml : Limits} {fast : Bool} {asked : List (Rule O)} (hp : WellFormed prior)
    (h : runWorkload D R w prior pl ml fast = some (out, asked)) : ∀ q ∈ Ruleset.iter out, Holds I q := by
  intro q hq
  obtain ⟨⟨before, -, ha⟩, -⟩ := (C51_validated hp h).2.2 q hq
  exact hv before q ha

/-- **C51.** Every returned rule relates the representatives of two different classes of the e-graph that is made from the
workload and compressed with the prior, and the sample vectors of these classes are equal (fast matching) or agree
wherever both are defined. -/
theorem C51_origin {R : RunEnv O C} {w : Workload} {prior out : Ruleset O} {pl ml : Limits} {fast : Bool}
    {asked : List (Rule O)} (hp : WellFormed prior) (hord : ∀ g, (R.order g).Perm g.classes)
    (h : runWorkload D R w prior pl ml fast = some (out, asked)) :
    ∃ g g', w.toEGraph D R.build = some g ∧ Scheduler.run D R.eg R.isSat (.compress pl) prior R.tr g = some g' ∧
      ∀ q ∈ Ruleset.iter out, ∃ i ∈ g'.classes, ∃ j ∈ g'.classes, i ≠ j ∧
        (fast = true → g'.cvecOf i = g'.cvecOf j) ∧ Agree (g'.cvecOf i) (g'.cvecOf j) ∧
        Relates q (R.best g' i) (R.best g' j) :=
  runWorkloadInternal_origin hp hord h

/-- **C51.** With empty results allowed the run returns what rule selection chose, even if that is nothing. -/
theorem C51_allow_empty {R : RunEnv O C} {w : Workload} {prior cands chosen inv : Ruleset O} {pl ml : Limits}
    {asked : List (Rule O)} {g g' : EGraph O C} (hg : w.toEGraph D R.build = some g)
    (hg' : Scheduler.run D R.eg R.isSat (.compress pl) prior R.tr g = some g')
    (hc : fastCvecMatch g' (R.order g') (R.best g') = some cands)
    (hm : Ruleset.minimize D { R.min with sched := .compress ml } cands.length cands prior = .done chosen inv asked) :
    runWorkloadInternal D R w prior pl ml true true = some (chosen, asked) := by
  unfold runWorkloadInternal
  rw [hg, Option.bind_some, hg', Option.bind_some, if_pos rfl, hc, Option.bind_some, hm]
  simp

/-- **C51.** `run_workload` panics where the same run without the check for emptiness returns nothing, and otherwise returns
the same. -/
theorem C51_empty (R : RunEnv O C) (w : Workload) (prior : Ruleset O) (pl ml : Limits) (fast : Bool) :
    runWorkload D R w prior pl ml fast =
      (runWorkloadInternal D R w prior pl ml fast true).bind fun r => if r.1 = [] then none else some r := by
  unfold runWorkload runWorkloadInternal
  simp only [Option.bind_assoc]
  congr 1; funext g; congr 1; funext g'; congr 1; funext cands
  split
  · rename_i chosen inv asked hm
    cases chosen <;> simp
  · rfl

/-! ## C52: recursive rule inference -/

omit [Lang O] in
theorem mem_extend_right {a b : Ruleset O} (ha : WellFormed a) (hb : WellFormed b) {r : Rule O}
    (h : r ∈ Ruleset.iter b) : r ∈ Ruleset.iter (Ruleset.extend a b) := by
  rw [mem_iff_get? (Ruleset.WellFormed.extend ha hb), Ruleset.extend, IndexMap.get?_extend _ hb.2, (mem_iff_get? hb).1 h]
  rfl

omit [Lang O] in
theorem mem_extend_left {a b : Ruleset O} (ha : WellFormed a) (hb : WellFormed b) {r : Rule O}
    (h : r ∈ Ruleset.iter a) (hn : ¬ Named b r.name) : r ∈ Ruleset.iter (Ruleset.extend a b) := by
  rw [named_iff_get? hb] at hn
  rw [mem_iff_get? (Ruleset.WellFormed.extend ha hb), Ruleset.extend, IndexMap.get?_extend _ hb.2,
    Option.not_isSome_iff_eq_none.1 hn, (mem_iff_get? ha).1 h]
  rfl

/-- One level of `recursive_rules`. -/
theorem recursiveRules_succ {envs : Nat → RunEnv O C} {metric : Metric} {lang : RecipeLang} {prior : Ruleset O} {n : Nat}
    {out : Ruleset O} {log : List (Nat × List (Rule O))}
    (h : recursiveRules D envs metric lang prior (n + 1) = some (out, log)) :
    ∃ rec log' w new asked, recursiveRules D envs metric lang prior n = some (rec, log') ∧
      runWorkloadInternal D (envs (n + 1)) w (Ruleset.extend rec prior) Limits.synthesis Limits.minimize true
        (decide (n + 1 < 3)) = some (new, asked) ∧
      out = Ruleset.extend new (Ruleset.extend rec prior) ∧ log = (n + 1, asked) :: log' := by
  rw [recursiveRules, Option.bind_eq_some_iff] at h
  obtain ⟨⟨rec, log'⟩, h1, h⟩ := h
  obtain ⟨w, -, h⟩ := Option.bind_eq_some_iff.1 h
  obtain ⟨⟨new, asked⟩, h2, h⟩ := Option.map_eq_some_iff.1 h
  cases h
  exact ⟨rec, log', w, new, asked, h1, h2, rfl, rfl⟩

theorem recursiveRules_ok {envs : Nat → RunEnv O C} {metric : Metric} {lang : RecipeLang} {prior : Ruleset O}
    (hp : WellFormed prior) : ∀ (n : Nat) {out : Ruleset O} {log : List (Nat × List (Rule O))},
    recursiveRules D envs metric lang prior n = some (out, log) →
    WellFormed out ∧ ∀ q ∈ Ruleset.iter out, q ∈ Ruleset.iter prior ∨
      (¬ Named prior q.name ∧ Rule.Proper q ∧
        ∃ k asked, 1 ≤ k ∧ k ≤ n ∧ (k, asked) ∈ log ∧ Answered (envs k).min.valid asked true q)
  | 0, _, _, h => by cases h; exact ⟨Ruleset.WellFormed.nil, by simp [Ruleset.iter]⟩
  | n + 1, out, log, h => by
    obtain ⟨rec, log', w, new, asked, h1, h2, rfl, rfl⟩ := recursiveRules_succ h
    obtain ⟨hw, ih⟩ := recursiveRules_ok hp n h1
    have hk := Ruleset.WellFormed.extend hw hp
    obtain ⟨hn, ho⟩ := runWorkloadInternal_ok hk h2
    refine ⟨Ruleset.WellFormed.extend hn hk, fun q hq => ?_⟩
    rcases mem_extend_rules hq with hq | hq
    · obtain ⟨ha, hno, hpr⟩ := ho q hq
      exact Or.inr ⟨fun hc => hno ((named_extend hw hp).2 (Or.inr hc)), hpr, n + 1, asked, by omega, Nat.le_refl _,
        by simp, ha⟩
    · rcases mem_extend_rules hq with hq | hq
      · refine (ih q hq).imp_right fun ⟨ha, hb, k, as, h3, h4, h5, h6⟩ => ⟨ha, hb, k, as, h3, by omega, ?_, h6⟩
        exact List.mem_cons_of_mem _ h5
      · exact Or.inl hq

/-- **C52.** Every rule `recursive_rules` returns is in the prior, or the prior has no rule of that name and the validator of
one of the levels was asked about it and accepted it. -/
theorem C52_validated {envs : Nat → RunEnv O C} {metric : Metric} {lang : RecipeLang} {prior out : Ruleset O} {n : Nat}
    {log : List (Nat × List (Rule O))} (hp : WellFormed prior)
    (h : recursiveRules D envs metric lang prior n = some (out, log)) :
    WellFormed out ∧ ∀ q ∈ Ruleset.iter out, q ∈ Ruleset.iter prior ∨
      (¬ Named prior q.name ∧ Rule.Proper q ∧
        ∃ k asked, 1 ≤ k ∧ k ≤ n ∧ (k, asked) ∈ log ∧ Answered (envs k).min.valid asked true q) :=
  recursiveRules_ok hp n h

/-- **C52.** For size bounds of at least one the prior is contained in the result. -/
theorem C52_prior {envs : Nat → RunEnv O C} {metric : Metric} {lang : RecipeLang} {prior out : Ruleset O} {n : Nat}
    {log : List (Nat × List (Rule O))} (hp : WellFormed prior) (hn : 1 ≤ n)
    (h : recursiveRules D envs metric lang prior n = some (out, log)) : ∀ r ∈ Ruleset.iter prior, r ∈ Ruleset.iter out := by
  obtain ⟨n, rfl⟩ : ∃ m, n = m + 1 := ⟨n - 1, by omega⟩
  obtain ⟨rec, log', w, new, asked, h1, h2, rfl, rfl⟩ := recursiveRules_succ h
  intro r hr
  have hw := (recursiveRules_ok hp n h1).1
  have hk := Ruleset.WellFormed.extend hw hp
  exact mem_extend_right (runWorkloadInternal_ok hk h2).1 hk (mem_extend_right hw hp hr)

/-- **C52.** For the size bound zero the result is empty, whatever the prior is. -/
theorem C52_zero (envs : Nat → RunEnv O C) (metric : Metric) (lang : RecipeLang) (prior : Ruleset O) :
    recursiveRules D envs metric lang prior 0 = some ([], []) := rfl

/-- **C52.** If the result for a size bound is returned, the result for every smaller bound is returned as well and its rules
are contained in it. -/
theorem C52_grows {envs : Nat → RunEnv O C} {metric : Metric} {lang : RecipeLang} {prior out : Ruleset O} {m n : Nat}
    {log : List (Nat × List (Rule O))} (hp : WellFormed prior) (hmn : m ≤ n)
    (h : recursiveRules D envs metric lang prior n = some (out, log)) :
    ∃ out' log', recursiveRules D envs metric lang prior m = some (out', log') ∧
      ∀ r ∈ Ruleset.iter out', r ∈ Ruleset.iter out := by
  obtain ⟨d, rfl⟩ := Nat.le.dest hmn
  clear hmn
  induction d generalizing out log with
  | zero => exact ⟨out, log, h, fun r hr => hr⟩
  | succ d ih =>
    obtain ⟨rec, log', w, new, asked, h1, h2, rfl, rfl⟩ := recursiveRules_succ h
    obtain ⟨out', log'', h3, h4⟩ := ih h1
    refine ⟨out', log'', h3, fun r hr => ?_⟩
    obtain ⟨hw, ho⟩ := recursiveRules_ok hp _ h1
    have hk := Ruleset.WellFormed.extend hw hp
    refine mem_extend_right (runWorkloadInternal_ok hk h2).1 hk ?_
    rcases ho r (h4 r hr) with hr' | ⟨hr', -⟩
    · exact mem_extend_right hw hp hr'
    · exact mem_extend_left hw hp (h4 r hr) hr'

/-- **C52.** If the prior holds in an algebra and the validators are right about it, everything returned holds in it. -/
theorem C52_valid {I : O → List V → V} {envs : Nat → RunEnv O C}
    (hv : ∀ k before q, (envs k).min.valid before q = true → Holds I q) {metric : Metric} {lang : RecipeLang}
    {prior out : Ruleset O} {n : Nat} {log : List (Nat × List (Rule O))} (hp : WellFormed prior)
    (hprior : ∀ r ∈ Ruleset.iter prior, Holds I r)
    (h : recursiveRules D envs metric lang prior n = some (out, log)) : ∀ q ∈ Ruleset.iter out, Holds I q := by
  intro q hq
  rcases (C52_validated hp h).2 q hq with hq | ⟨-, -, k, asked, -, -, -, before, -, ha⟩
  · exact hprior q hq
  · exact hv k before q ha

/-! ## C53: fast-forwarding -/

/-- The stages of a run of `run_fast_forwarding`. -/
theorem runFastForwarding_some {F : FastEnv O C} {w : Workload} {prior expl out : Ruleset O} {pl ml : Limits}
    {asked : List (Rule O)} (h : runFastForwarding D F w prior expl pl ml = some (out, asked)) :
    ∃ g0 g1 g2 g3 c1 c2 inv, w.toEGraph D F.build = some g0 ∧
      Scheduler.run D F.egAllowed F.isSat (.compress pl)
        (Ruleset.partition F.split (fun r => isAllowedRewrite r.lhs r.rhs) prior).1 F.trAllowed g0 = some g1 ∧
      Scheduler.run D F.egDenote F.isSat (.simple pl) expl F.trDenote g1 = some g2 ∧
      extractCandidates g2 (F.ids g1) (F.keys g1 g2) (F.best g1) = some c1 ∧
      Scheduler.run D F.egFinal F.isSat (.compress pl) (Ruleset.extend prior expl) F.trFinal g2 = some g3 ∧
      extractCandidates g3 (F.ids g2) (F.keys g2 g3) (F.best g2) = some c2 ∧
      Ruleset.minimize D { F.min with sched := .compress ml } (Ruleset.extend c1 c2).length (Ruleset.extend c1 c2) prior =
        .done out inv asked := by
  unfold runFastForwarding at h
  obtain ⟨g0, h0, h⟩ := Option.bind_eq_some_iff.1 h
  obtain ⟨g1, h1, h⟩ := Option.bind_eq_some_iff.1 h
  obtain ⟨g2, h2, h⟩ := Option.bind_eq_some_iff.1 h
  obtain ⟨c1, hc1, h⟩ := Option.bind_eq_some_iff.1 h
  obtain ⟨g3, h3, h⟩ := Option.bind_eq_some_iff.1 h
  obtain ⟨c2, hc2, h⟩ := Option.bind_eq_some_iff.1 h
  dsimp only at h
  split at h
  · rename_i chosen inv a hm
    cases h
    exact ⟨g0, g1, g2, g3, c1, c2, inv, h0, h1, h2, hc1, h3, hc2, hm⟩
  · cases h

theorem mapM_option_mem {A B : Type} {f : A → Option B} : ∀ {l : List A} {ts : List B}, l.mapM f = some ts → ∀ {t : B},
    t ∈ ts → ∃ s ∈ l, f s = some t
  | [], ts, h, t, ht => by simp at h; subst h; simp at ht
  | a :: l, ts, h, t, ht => by
    rw [List.mapM_cons] at h
    obtain ⟨x, hx, h⟩ := Option.bind_eq_some_iff.1 h
    obtain ⟨xs, hxs, h⟩ := Option.bind_eq_some_iff.1 h
    cases h
    rcases List.mem_cons.1 ht with rfl | ht
    · exact ⟨a, by simp, hx⟩
    · obtain ⟨s, hs, e⟩ := mapM_option_mem hxs ht
      exact ⟨s, by simp [hs], e⟩

theorem toEGraph_reach (hv : VarsOk (O := O) ar) {R : Rule O → Prop} {w : Workload} {E : Egg} {g : EGraph O C}
    (hw : ∀ ss, w.force = some ss → ∀ s ∈ ss, ∀ t, Tm.ofSexp s = some t → TmOk ar t)
    (h : w.toEGraph D E = some g) : Reach D ar R g := by
  unfold Workload.toEGraph at h
  obtain ⟨ss, h1, h⟩ := Option.bind_eq_some_iff.1 h
  obtain ⟨ts, h2, h⟩ := Option.bind_eq_some_iff.1 h
  refine reach_termsToEGraph hv (fun t ht => ?_) h
  obtain ⟨s, hs, e⟩ := mapM_option_mem h2 ht
  exact hw ss h1 s hs t e

/-- **C53** (allowed rules). A rule counts as allowed, and is used in the first phase, iff both its sides contain only allowed
operators. -/
theorem C53_is_allowed (l r : Pat O) : isAllowedRewrite l r = true ↔ OnlyAllowed l ∧ OnlyAllowed r := by
  rw [isAllowedRewrite, Bool.and_eq_true, pat_allowed_iff, pat_allowed_iff]

/-- **C53.** Every rule `run_fast_forwarding` returns has only allowed operators on both sides, was accepted by the
validator, and is new. -/
theorem C53_allowed {F : FastEnv O C} (hv : VarsOk (O := O) fun _ _ => True) (hb : ExtractorOk D F.best) (hids : ∀ g, (F.ids g).Perm g.classes)
    {w : Workload} {prior expl out : Ruleset O} {pl ml : Limits} {asked : List (Rule O)} (hp : WellFormed prior)
    (h : runFastForwarding D F w prior expl pl ml = some (out, asked)) :
    WellFormed out ∧ ∀ q ∈ Ruleset.iter out, OnlyAllowed q.lhs ∧ OnlyAllowed q.rhs ∧
      Answered F.min.valid asked true q ∧ ¬ Named prior q.name ∧ Rule.Proper q := by
  obtain ⟨g0, g1, g2, g3, c1, c2, inv, h0, h1, h2, hc1, h3, hc2, hm⟩ := runFastForwarding_some h
  have w1 := addPairs_wf hc1
  have w2 := addPairs_wf hc2
  have hw := Ruleset.WellFormed.extend w1 w2
  have r0 : AnyHistory D g0 := toEGraph_reach hv (fun _ _ _ _ _ _ => TmOk.any _) h0
  have r1 : AnyHistory D g1 := .run r0 (fun _ _ => trivial) h1
  have r2 : AnyHistory D g2 := .run r1 (fun _ _ => trivial) h2
  have key : ∀ c ∈ Ruleset.iter (Ruleset.extend c1 c2), OnlyAllowed c.lhs ∧ OnlyAllowed c.rhs ∧ Rule.Proper c := by
    intro c hc
    rcases mem_extend_rules hc with hc | hc
    · obtain ⟨ha, hb, -⟩ := C36_sound (hids g1) (hb g1 r1) hc1 c hc
      exact ⟨ha, hb, addPairs_proper hc1 hc⟩
    · obtain ⟨ha, hb, -⟩ := C36_sound (hids g2) (hb g2 r2) hc2 c hc
      exact ⟨ha, hb, addPairs_proper hc2 hc⟩
  obtain ⟨ho, h4⟩ := C22_validated hw hp hm
  refine ⟨ho, fun q hq => ?_⟩
  obtain ⟨ha, hcand, hn⟩ := h4 q hq
  rcases hcand with hcand | ⟨-, c, hc, e1, e2, hprop⟩
  · obtain ⟨k1, k2, k3⟩ := key q hcand
    exact ⟨k1, k2, ha, hn, k3⟩
  · obtain ⟨k1, k2, -⟩ := key c hc
    exact ⟨e1 ▸ k2, e2 ▸ k1, ha, hn, hprop⟩

/-- **C53.** Every returned rule holds in every algebra in which the prior and the exploratory rules hold (and in which
constant folding is correct). -/
theorem C53_follows {I : O → List V → V} {mem : Interval C → V → Prop} (hF : ∀ env, FoldsIn D ar (withVars env I) mem)
    (hv : VarsOk (O := O) ar) {F : FastEnv O C} (hb : ExtractorOk D F.best) (hids : ∀ g, (F.ids g).Perm g.classes)
    {w : Workload} (hw : ∀ ss, w.force = some ss → ∀ s ∈ ss, ∀ t, Tm.ofSexp s = some t → TmOk ar t)
    {prior expl out : Ruleset O} {pl ml : Limits} {asked : List (Rule O)} (hp : WellFormed prior)
    (hgood : ∀ r, r ∈ Ruleset.iter prior ∨ r ∈ Ruleset.iter expl → GoodRule ar r ∧ Holds I r)
    (h : runFastForwarding D F w prior expl pl ml = some (out, asked)) : ∀ q ∈ Ruleset.iter out, Holds I q := by
  obtain ⟨g0, g1, g2, g3, c1, c2, inv, h0, h1, h2, hc1, h3, hc2, hm⟩ := runFastForwarding_some h
  let R : Rule O → Prop := fun r => r ∈ Ruleset.iter prior ∨ r ∈ Ruleset.iter expl
  have r0 : Reach D ar R g0 := toEGraph_reach hv hw h0
  have r1 : Reach D ar R g1 := by
    refine .run r0 (fun r hr => Or.inl ?_) h1
    rw [C17_partition _ _ _ hp] at hr
    obtain ⟨e, he, rfl⟩ := List.mem_map.1 hr
    exact List.mem_map_of_mem (List.mem_of_mem_filter he)
  have hex : ∀ r ∈ Ruleset.iter expl, R r := fun r hr => Or.inr hr
  have r2 : Reach D ar R g2 := .run r1 hex h2
  have hall : ∀ r ∈ Ruleset.iter (Ruleset.extend prior expl), R r := fun r hr => mem_extend_rules hr
  have key : ∀ c ∈ Ruleset.iter (Ruleset.extend c1 c2), Holds I c := by
    intro c hc
    rcases mem_extend_rules hc with hc | hc
    · exact C36_valid hF hgood r1 hex h2 (hids g1) (hb g1 (Reach.any r1)) hc1 c hc
    · exact C36_valid hF hgood r2 hall h3 (hids g2) (hb g2 (Reach.any r2)) hc2 c hc
  intro q hq
  obtain ⟨-, hcand, -⟩ :=
    (C22_validated (Ruleset.WellFormed.extend (addPairs_wf hc1) (addPairs_wf hc2)) hp hm).2 q hq
  rcases hcand with hcand | ⟨-, c, hc, e1, e2, -⟩
  · exact key q hcand
  · intro ρ
    rw [e1, e2]
    exact (key c hc ρ).symm

/-! ## Examples -/

namespace Sample

/-- The workload `(+ x y)`, `(+ y x)`. -/
def sums : Workload := .set [.list [.atom "+", .atom "x", .atom "y"], .list [.atom "+", .atom "y", .atom "x"]]
/-- A validator that accepts instances of commutativity only. -/
def isComm (q : Rule NatOp) : Bool :=
  match q.lhs, q.rhs with
  | .node .add [.var a, .var b], .node .add [.var c, .var d] => a == d && b == c
  | _, _ => false
/-- The extraction algorithm, for few passes and small terms; otherwise any result of it. -/
noncomputable def extracted (D : Domain O C) {cost : O → List Nat → Nat} (hc : CostLaws cost) (g : EGraph O C) (i : Nat) :
    Nat × Tm O :=
  ((findCosts g cost g.classNodes g.classes 10 fun _ => none).bind fun b =>
    (b (g.find i)).bind fun e => (buildBest g b 10 i).map fun t => (e.1, t)).getD
      (Classical.choose (computed_exists hc D) g i)

theorem extracted_ok {cost : O → List Nat → Nat} (hc : CostLaws cost) {g : EGraph O C} (hg : AnyHistory D g) {i : Nat}
    (hi : i ∈ g.classes) :
    Rep g (extracted D hc g i).2 i ∧ (extracted D hc g i).1 = Tm.fold cost (extracted D hc g i).2 := by
  unfold extracted
  cases h : ((findCosts g cost g.classNodes g.classes 10 fun _ => none).bind fun b =>
    (b (g.find i)).bind fun e => (buildBest g b 10 i).map fun t => (e.1, t)) with
  | none => exact (Classical.choose_spec (computed_exists hc D) g hg i hi).2
  | some r =>
    obtain ⟨b, hb, h⟩ := Option.bind_eq_some_iff.1 h
    obtain ⟨e, he, h⟩ := Option.bind_eq_some_iff.1 h
    obtain ⟨t, ht, h⟩ := Option.map_eq_some_iff.1 h
    have hlt : i < g.n ∧ g.find i = i := by simpa [EGraph.classes] using hi
    obtain ⟨d, t', nd, h1, h2, h3, -⟩ :=
      C55_cheapest hg hc (fun _ => List.Perm.refl _) (List.Perm.refl _) hb i hlt.1
    have e1 := buildBest_le (Nat.le_max_left d 10) h1
    rw [buildBest_le (Nat.le_max_right d 10) ht] at e1
    cases e1
    rw [he] at h2
    cases h2
    subst h
    exact ⟨h3, rfl⟩

/-- Choices of a run of `run_workload`: nothing is rewritten. -/
noncomputable def infEnv : RunEnv NatOp Int where
  build := egg
  eg := egg
  isSat _ := false
  tr := quiet
  order g := g.classes
  best g i := (extracted freeNat astCost_laws g i).2
  min := { pickEnv with tr := fun _ => quiet, valid := fun _ => isComm }
/-- Choices of a run of `run_fast_forwarding`: commutativity is applied as exploratory rule. -/
noncomputable def ffEnv : FastEnv NatOp Int where
  build := egg
  split := .leaf
  isSat _ := false
  egAllowed := egg
  trAllowed := quiet
  egDenote := egg
  trDenote := trace
  egFinal := egg
  trFinal := quiet
  ids g := g.classes
  keys g h := (g.classes.map h.find).eraseDups
  best := extracted freeNat extractableCost_laws
  min := { pickEnv with tr := fun _ => quiet, valid := fun _ => isComm }
/-- A language with two variables and addition. -/
def sumLang : RecipeLang := ⟨[], ["x".toList, "y".toList], [[], ["+".toList]]⟩
/-- Lengths of the names of the returned rules and of those the validator was asked about. -/
def lens (r : Ruleset NatOp × List (Rule NatOp)) : List Nat × List Nat := (r.1.map (·.1.length), r.2.map (·.name.length))

theorem isComm_holds {q : Rule NatOp} (h : isComm q = true) : Holds natOpVal q := by
  unfold isComm at h
  split at h
  · rename_i a b c d hl hr
    simp only [Bool.and_eq_true, beq_iff_eq] at h
    intro ρ
    rw [hl, hr, h.1, h.2]
    simp [patVal, patValL, natOpVal, Nat.add_comm]
  · cases h

end Sample

-- Both directions of commutativity are found, with either way of matching, and the theorems apply to the runs.
example : (runWorkload Sample.freeNat Sample.infEnv Sample.sums [] Sample.limits Sample.limits true).map Sample.lens =
    some ([23, 23], [23, 23, 23]) ∧
  (runWorkload Sample.freeNat Sample.infEnv Sample.sums [] Sample.limits Sample.limits false).map Sample.lens =
    some ([23, 23], [23, 23, 23]) := ⟨by decide +kernel, by decide +kernel⟩
example {out : Ruleset NatOp} {asked : List (Rule NatOp)}
    (h : runWorkload Sample.freeNat Sample.infEnv Sample.sums [] Sample.limits Sample.limits true = some (out, asked)) :
    ∀ q ∈ Ruleset.iter out, Holds natOpVal q :=
  C51_valid (fun _ _ => Sample.isComm_holds) Ruleset.WellFormed.nil h

-- With a validator that rejects everything the run panics.
example : (runWorkload Sample.freeNat { Sample.infEnv with min := { Sample.infEnv.min with valid := fun _ _ => false } }
    Sample.sums [] Sample.limits Sample.limits true).isNone := by decide +kernel

-- Three levels of recursive inference; the last one finds commutativity.
example : (recursiveRules Sample.freeNat (fun _ => Sample.infEnv) .atoms Sample.sumLang
    [(Sample.fstRule.name, Sample.fstRule)] 3).map (fun r => (r.1.map (·.1.length), r.2.map fun l => (l.1, l.2.length))) =
    some ([23, 23, 16], [(3, 3), (2, 0), (1, 0)]) := by decide +kernel

-- Fast-forwarding over `(+ x y)`, `(+ y x)` with commutativity as exploratory rule.
example : (runFastForwarding Sample.freeNat Sample.ffEnv Sample.sums [] Sample.commRules Sample.limits Sample.limits).map
    Sample.lens = some ([23, 23], [23, 23, 23]) := by decide +kernel
example {out : Ruleset NatOp} {asked : List (Rule NatOp)}
    (h : runFastForwarding Sample.freeNat Sample.ffEnv Sample.sums [] Sample.commRules Sample.limits Sample.limits =
      some (out, asked)) (I : NatOp → List V → V) (hI : Holds I Sample.addComm) :
    ∀ q ∈ Ruleset.iter out, OnlyAllowed q.lhs ∧ OnlyAllowed q.rhs ∧ Holds I q := by
  have hb : ExtractorOk Sample.freeNat Sample.ffEnv.best := fun g hg i hi => Sample.extracted_ok extractableCost_laws hg hi
  have hv : VarsOk (O := NatOp) fun _ _ => True := fun s => ⟨(Sample.natVarsOk s).1, trivial⟩
  have hD : NoFold Sample.freeNat := ⟨fun _ _ _ h => by cases h; rfl, fun _ _ => rfl, fun _ => rfl⟩
  have h1 := C53_allowed hv hb (fun _ => List.Perm.refl _) Ruleset.WellFormed.nil h
  have h2 := C53_follows (fun _ => NoFold.foldsIn hD _ _) hv hb (fun _ => List.Perm.refl _)
    (fun _ _ _ _ _ _ => TmOk.any _) Ruleset.WellFormed.nil
    (by simpa [Ruleset.iter, Sample.commRules] using
      (⟨⟨⟨PatOk.any _, PatOk.any _⟩, Sample.addComm_good.2⟩, hI⟩ : GoodRule (fun _ _ => True) Sample.addComm ∧ _)) h
  exact fun q hq => ⟨(h1.2 q hq).1, (h1.2 q hq).2.1, h2 q hq⟩

end Ruler
