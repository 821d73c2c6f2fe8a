import Verif.Props.Ruleset
import Verif.Props.Saturating
import Verif.Props.Compress
/-!
# Property C56: iteration limits
-/
namespace Ruler
open Spec EGraph
variable {O C : Type} [Lang O] [LinearOrder C] {D : Domain O C} {E : Egg} {A B : Rule O → Prop}

omit [Lang O] [LinearOrder C] in
theorem Applies.trans [Lang O] [LinearOrder C] {D : Domain O C} {R : Rule O → Prop} {g a b c : EGraph O C}
    (h : Applies D R g a b) (h' : Applies D R g b c) : Applies D R g a c := by
  induction h with
  | refl => exact h'
  | step hr hm ha _ ih => exact .step hr hm ha (ih h')

theorem Iterates.trans {n k : Nat} {a b c : EGraph O C} (h : Iterates D A B n a b) (h' : Iterates D A B k b c) :
    Iterates D A B (n + k) a c := by
  induction h with
  | refl =>
    rename_i n g
    induction n with
    | zero => rw [Nat.zero_add]; exact h'
    | succ n ih =>
      rw [Nat.add_right_comm]
      exact .counted .refl ih
  | rebuild hr _ ih => exact .rebuild hr (ih h')
  | free ha _ ih => exact .free ha (ih h')
  | counted ha _ ih => rw [Nat.add_right_comm]; exact .counted ha (ih h')

theorem Iterates.snoc {n : Nat} {a b c : EGraph O C} (h : Iterates D A B n a b) (h' : Iterates D A B 0 b c) :
    Iterates D A B n a c := Iterates.trans h h'

theorem runOne_applies {R : Rule O → Prop} {rules : List (Rule O)} (hR : ∀ r ∈ rules, R r) {g g' : EGraph O C} {t : IterTrace}
    (h : runOne D E rules g t = some g') : ∃ g1, Applies D R g g g1 ∧ EGraph.rebuild D E t.repairs g1 = some g' := by
  unfold runOne at h
  obtain ⟨g1, h1, h2⟩ := Option.bind_eq_some_iff.1 h
  refine ⟨g1, ?_, h2⟩
  have key : ∀ (jobs : List ((Rule O × List (Nat × Subst)) × List Nat)) (a : EGraph O C),
      (∀ j ∈ jobs, R j.1.1 ∧ j.1.2 = g.search j.1.1.lhs) → jobs.foldlM (applyPicked D E) a = some g1 → Applies D R g a g1 := by
    intro jobs
    induction jobs with
    | nil => intro a _ h; cases h; exact .refl
    | cons j l ih =>
      intro a hj h0
      rw [List.foldlM_cons] at h0
      obtain ⟨b, hb, h⟩ := Option.bind_eq_some_iff.1 h0
      refine Applies.trans ?_ (ih b (fun k hk => hj k (by simp [hk])) h)
      have hRj := (hj j (by simp)).1
      unfold applyPicked at hb
      have hm : ∀ m ∈ j.2.filterMap (fun k => j.1.2[k]?), m ∈ g.search j.1.1.lhs := by
        intro m hm
        obtain ⟨k, _, hk⟩ := List.mem_filterMap.1 hm
        rw [← (hj j (by simp)).2]
        exact List.mem_of_getElem? hk
      generalize j.2.filterMap (fun k => j.1.2[k]?) = ms at hb hm
      clear h h0 hj ih
      induction ms generalizing a with
      | nil => cases hb; exact .refl
      | cons m ms ihm =>
        rw [List.foldlM_cons] at hb
        obtain ⟨c, hc, hb⟩ := Option.bind_eq_some_iff.1 hb
        exact .step hRj (hm m (by simp)) hc (ihm c hb fun m' h' => hm m' (by simp [h']))
  refine key _ g ?_ h1
  rintro ⟨⟨r, ms⟩, ps⟩ hj
  have h3 := (List.of_mem_zip hj).1
  have h4 := List.of_mem_zip h3
  refine ⟨hR r h4.1, ?_⟩
  rw [List.zip_map_right, List.mem_map] at h3
  obtain ⟨⟨a, b⟩, h5, h6⟩ := h3
  have : a = b := by
    have := List.mem_iff_getElem.1 h5
    obtain ⟨i, hi, he⟩ := this
    rw [List.getElem_zip] at he
    simp only [Prod.mk.injEq] at he
    exact he.1.symm.trans he.2
  simp only [Prod.map, id, Prod.mk.injEq] at h6
  rw [← h6.2, ← h6.1, this]

theorem iters_counted {rules : List (Rule O)} (hR : ∀ r ∈ rules, B r) (ts : List IterTrace) {g g' : EGraph O C}
    (h : ts.foldlM (runOne D E rules) g = some g') : Iterates D A B ts.length g g' := by
  induction ts generalizing g with
  | nil => cases h; exact .refl
  | cons t l ih =>
    rw [List.foldlM_cons] at h
    obtain ⟨g1, h1, h2⟩ := Option.bind_eq_some_iff.1 h
    obtain ⟨g0, h3, h4⟩ := runOne_applies hR h1
    exact .counted h3 (.rebuild h4 (ih h2))

theorem iters_free {rules : List (Rule O)} (hR : ∀ r ∈ rules, A r) (ts : List IterTrace) {g g' : EGraph O C}
    (h : ts.foldlM (runOne D E rules) g = some g') : Iterates D A B 0 g g' := by
  induction ts generalizing g with
  | nil => cases h; exact .refl
  | cons t l ih =>
    rw [List.foldlM_cons] at h
    obtain ⟨g1, h1, h2⟩ := Option.bind_eq_some_iff.1 h
    obtain ⟨g0, h3, h4⟩ := runOne_applies hR h1
    exact .free h3 (.rebuild h4 (ih h2))

theorem Iterates.mono {n k : Nat} (hk : n ≤ k) {a b : EGraph O C} (h : Iterates D A B n a b) : Iterates D A B k a b := by
  obtain ⟨d, rfl⟩ := Nat.exists_eq_add_of_le hk
  exact Iterates.trans h .refl

theorem runRules_counted {rules : List (Rule O)} (hR : ∀ r ∈ rules, B r) {limit : Nat} {t : RunTrace} {g g' : EGraph O C}
    (h : runRules D E limit rules t g = some g') : Iterates D A B limit g g' := by
  unfold runRules at h
  obtain ⟨g1, h1, h2⟩ := Option.bind_eq_some_iff.1 h
  exact .rebuild h1 (Iterates.mono (List.length_take_le _ _) (iters_counted hR _ h2))

theorem runRules_free {rules : List (Rule O)} (hR : ∀ r ∈ rules, A r) {limit : Nat} {t : RunTrace} {g g' : EGraph O C}
    (h : runRules D E limit rules t g = some g') : Iterates D A B 0 g g' := by
  unfold runRules at h
  obtain ⟨g1, h1, h2⟩ := Option.bind_eq_some_iff.1 h
  exact .rebuild h1 (iters_free hR _ h2)

/-- **C56.** `Scheduler::Simple` takes at most `limits.iter` iterations, each of which applies rules of the ruleset to matches
found at its beginning. -/
theorem C56_simple {isSat : Rule O → Bool} {l : Limits} {rules : Ruleset O} {t : SchedTrace} {g g' : EGraph O C}
    (h : (Scheduler.simple l).run D E isSat rules t g = some g') :
    Iterates D (fun _ => False) (fun r => r ∈ Ruleset.iter rules) l.iter g g' := by
  change runSimple D E l rules t g = some g' at h
  unfold runSimple at h
  obtain ⟨g1, h1, h2⟩ := Option.bind_eq_some_iff.1 h
  exact Iterates.snoc (runRules_counted (fun _ h => h) h1) (.rebuild h2 .refl)

/-- **C56.** `Scheduler::Saturating` applies the rules that are not saturating in at most `limits.iter` iterations; all
other iterations only use the rules classified as saturating. -/
theorem C56_saturating {isSat : Rule O → Bool} {l : Limits} {rules : Ruleset O} (hw : WellFormed rules)
    {t : SchedTrace} {g g' : EGraph O C} (h : (Scheduler.saturating l).run D E isSat rules t g = some g') :
    Iterates D (fun r => r ∈ Ruleset.iter rules ∧ isSat r = true) (fun r => r ∈ Ruleset.iter rules ∧ isSat r = false)
      l.iter g g' := by
  change runSaturating D E isSat l rules t g = some g' at h
  unfold runSaturating at h
  rw [C17_partition _ _ _ hw] at h
  dsimp only at h
  obtain ⟨g1, h1, h2⟩ := Option.bind_eq_some_iff.1 h
  obtain ⟨g2, h2, h3⟩ := Option.bind_eq_some_iff.1 h2
  have hs : ∀ r ∈ Ruleset.iter (rules.filter fun e => isSat e.2), r ∈ Ruleset.iter rules ∧ isSat r = true := by
    intro r hr
    obtain ⟨e, he, rfl⟩ := List.mem_map.1 hr
    exact ⟨List.mem_map.2 ⟨e, (List.mem_filter.1 he).1, rfl⟩, (List.mem_filter.1 he).2⟩
  have ho : ∀ r ∈ Ruleset.iter (rules.filter fun e => !isSat e.2), r ∈ Ruleset.iter rules ∧ isSat r = false := by
    intro r hr
    obtain ⟨e, he, rfl⟩ := List.mem_map.1 hr
    exact ⟨List.mem_map.2 ⟨e, (List.mem_filter.1 he).1, rfl⟩, by simpa using (List.mem_filter.1 he).2⟩
  have key : ∀ k (a : EGraph O C), satLoop D E (Ruleset.iter (rules.filter fun e => isSat e.2))
      (Ruleset.iter (rules.filter fun e => !isSat e.2)) t.rounds k a = some g1 →
      Iterates D (fun r => r ∈ Ruleset.iter rules ∧ isSat r = true) (fun r => r ∈ Ruleset.iter rules ∧ isSat r = false)
        k a g1 := by
    intro k
    induction k with
    | zero => intro a h; cases h; exact .refl
    | succ k ih =>
      intro a h
      rw [satLoop] at h
      obtain ⟨b, hb, h⟩ := Option.bind_eq_some_iff.1 h
      obtain ⟨c, hc, h⟩ := Option.bind_eq_some_iff.1 h
      have := Iterates.trans (Iterates.trans (runRules_free (B := fun r => r ∈ Ruleset.iter rules ∧ isSat r = false) hs hb)
        (runRules_counted (A := fun r => r ∈ Ruleset.iter rules ∧ isSat r = true) ho hc)) (ih c h)
      simpa [Nat.add_comm] using this
  exact Iterates.snoc (Iterates.snoc (key _ g h1) (runRules_free hs h2)) (.rebuild h3 .refl)

/-- **C56.** `Scheduler::Compress` (without constant folding) unites exactly the classes that some run of at most `limits.iter`
iterations unites. -/
theorem C56_compress (hD : NoFold D) {isSat : Rule O → Bool} {l : Limits} {rules : Ruleset O} {t : SchedTrace}
    {g g' : EGraph O C} (hg : AnyHistory D g) (hord : ∀ ks, (t.order ks).Perm ks)
    (h : (Scheduler.compress l).run D E isSat rules t g = some g') :
    ∃ out, Iterates D (fun _ => False) (fun r => r ∈ Ruleset.iter rules) l.iter g out ∧
      ∀ i j, i < g.n → j < g.n → (g'.find i = g'.find j ↔ out.find i = out.find j) := by
  obtain ⟨out, h1, _, _, _, _, h2⟩ := C31_compress hD hg hord h
  exact ⟨out, C56_simple h1, h2⟩

/-- With iteration limit zero nothing but rebuilding happens. -/
theorem C56_zero {isSat : Rule O → Bool} {l : Limits} (hl : l.iter = 0) {rules : Ruleset O} {t : SchedTrace}
    {g g' : EGraph O C} (h : (Scheduler.simple l).run D E isSat rules t g = some g') :
    ∃ g1, EGraph.rebuild D E t.simple.first g = some g1 ∧ EGraph.rebuild D E t.last g1 = some g' := by
  change runSimple D E l rules t g = some g' at h
  unfold runSimple runRules at h
  rw [hl] at h
  obtain ⟨g1, h1, h2⟩ := Option.bind_eq_some_iff.1 h
  obtain ⟨g0, h0, h1⟩ := Option.bind_eq_some_iff.1 h1
  cases h1
  exact ⟨_, h0, h2⟩

-- One iteration of commutativity merges `(+ x y)` and `(+ y x)`: with `Saturating` it counts, because the rule is not
-- classified as saturating, and without iterations nothing is merged.
example : ∃ g g' : EGraph NatOp Int, Iterates Sample.natDom (fun r => r ∈ Ruleset.iter Sample.commRules ∧ false = true)
      (fun r => r ∈ Ruleset.iter Sample.commRules ∧ false = false) 1 g g' ∧ g.find 2 ≠ g.find 3 ∧ g'.find 2 = g'.find 3 := by
  have h : (Sample.natStart.bind fun g => (Scheduler.run Sample.natDom Sample.egg (fun _ => false) (.saturating Sample.limits)
      Sample.commRules Sample.trace g).map fun g' => (decide (g.find 2 = g.find 3), decide (g'.find 2 = g'.find 3))) =
      some (false, true) := by decide +kernel
  obtain ⟨g, _, h⟩ := Option.bind_eq_some_iff.1 h
  obtain ⟨g', h1, h⟩ := Option.map_eq_some_iff.1 h
  simp only [Prod.mk.injEq, decide_eq_false_iff_not, decide_eq_true_eq] at h
  exact ⟨g, g', C56_saturating (isSat := fun _ => false) (by simp [WellFormed, Sample.commRules]) h1, h.1, h.2⟩
example : (Sample.natStart.bind fun g => (Scheduler.run Sample.natDom Sample.egg (fun _ => false)
    (.simple { Sample.limits with iter := 0 }) Sample.commRules Sample.trace g).map fun g' =>
      (decide (g'.find 2 = g'.find 3), decide (g'.numClasses = g.numClasses))) = some (false, true) := by decide +kernel

end Ruler
