import Verif.Proofs.Rebuild
import Verif.Proofs.Saturate
import Verif.Spec.Progress
/-! Runs of rules that hold do not fail, and can be continued until they are complete. -/
namespace Ruler
open Spec EGraph
variable {O C V : Type} [Lang O] [LinearOrder C]
variable {S : Side O} {ar : O → Nat → Prop} {I : O → List V → V} {ok : Signature O C → V → Prop} {D : Domain O C} {E : Egg}

omit [Lang O] [LinearOrder C] in
/-- A sequence of steps none of which fails. -/
theorem foldlM_total {α : Type} (f : EGraph O C → α → Option (EGraph O C)) (Pre : EGraph O C → (Nat → V) → α → Prop)
    (hPre : ∀ g val g' val' a, InvS S ar I ok g val → Ext g val g' val' → Pre g val a → Pre g' val' a)
    (hok : ∀ g val a g', InvS S ar I ok g val → Pre g val a → f g a = some g' →
      ∃ val', InvS S ar I ok g' val' ∧ Ext g val g' val')
    (hf : ∀ g val a, InvS S ar I ok g val → Pre g val a → ∃ g', f g a = some g') (l : List α) :
    ∀ g val, InvS S ar I ok g val → (∀ a ∈ l, Pre g val a) → ∃ g', l.foldlM f g = some g' := by
  induction l with
  | nil => exact fun g _ _ _ => ⟨g, rfl⟩
  | cons a l ih =>
    intro g val hg hp
    obtain ⟨g1, h1⟩ := hf g val a hg (hp a (by simp))
    obtain ⟨val1, hI1, hE1⟩ := hok g val a g1 hg (hp a (by simp)) h1
    obtain ⟨g2, h2⟩ := ih g1 val1 hI1 fun b hb => hPre _ _ _ _ _ hg hE1 (hp b (by simp [hb]))
    exact ⟨g2, by rw [List.foldlM_cons, h1]; exact h2⟩

/-- Instantiating a pattern whose variables are bound does not fail. -/
theorem addPat_total (hD : DataInvS S D ar I ok) (hT : StepTotal S D ar I ok) (hE : 2 ≤ E.depth) (σ : Subst)
    (ρ : String → V) (p : Pat O) : PatOk ar p → (∀ v ∈ p.vars, ∃ j, σ.lookup v = some j) →
      ∀ (g : EGraph O C) val, InvS S ar I ok g val → (∀ v j, σ.lookup v = some j → j < g.n ∧ val j = ρ v) →
        ∃ g' i, addPat D E σ p g = some (g', i) := by
  induction p using Pat.ind with
  | hv v =>
    intro _ hb g val _ _
    obtain ⟨j, hj⟩ := hb v (by simp [Pat.vars])
    exact ⟨g, j, by rw [addPat, hj]; rfl⟩
  | hn o args ih =>
    intro hok hb g val hg hp
    cases hok with
    | node har hok =>
    have hL : ∀ (l : List (Pat O)), (∀ a ∈ l, a ∈ args) → (∀ v ∈ Pat.varsL l, ∃ j, σ.lookup v = some j) →
        ∀ (g : EGraph O C) val, InvS S ar I ok g val → (∀ v j, σ.lookup v = some j → j < g.n ∧ val j = ρ v) →
        ∃ g' ids, addPatL D E σ l g = some (g', ids) := by
      intro l
      induction l with
      | nil => exact fun _ _ g val hg _ => ⟨g, [], by rw [addPatL]⟩
      | cons a l ihl =>
        intro hl hb g val hg hp
        have ha := hl a (by simp)
        obtain ⟨g1, i, h1⟩ := ih a ha (hok a ha) (fun v hv => hb v (by simp [Pat.varsL, hv])) g val hg hp
        obtain ⟨val1, hI1, hE1, _⟩ := addPat_ok hD σ ρ a (hok a ha) g val g1 i hg hp h1
        obtain ⟨g2, ids, k1⟩ := ihl (fun b hb => hl b (by simp [hb])) (fun v hv => hb v (by simp [Pat.varsL, hv])) g1 val1
          hI1 (fun v j hv => by
            obtain ⟨a, b⟩ := hp v j hv
            exact ⟨Nat.lt_of_lt_of_le a hE1.n_le, by rw [hE1.val_eq j a, b]⟩)
        exact ⟨g2, i :: ids, by rw [addPatL, h1, Option.bind_some, k1]; rfl⟩
    obtain ⟨g1, ids, h1⟩ := hL args (fun _ h => h) (by simpa [Pat.vars] using hb) g val hg hp
    obtain ⟨val1, hI1, hE1, hl1, hn1, hm1, _⟩ :=
      accum_ok (addPat D E σ) (addPatL D E σ) (fun g => by rw [addPatL]) (fun a l g => by rw [addPatL])
        (fun g val => ∀ v j, σ.lookup v = some j → j < g.n ∧ val j = ρ v)
        (fun g val g' val' _ hE hp v j hv => by
          obtain ⟨a, b⟩ := hp v j hv
          exact ⟨Nat.lt_of_lt_of_le a hE.n_le, by rw [hE.val_eq j a, b]⟩)
        (patVal ρ I) (fun _ _ _ => True) (fun _ _ _ _ _ _ _ _ _ _ => trivial) args
        (fun a ha g val g' i hI hp hs => by
          obtain ⟨val', k1, k2, k3, k4⟩ := addPat_ok hD σ ρ a (hok a ha) g val g' i hI hp hs
          exact ⟨val', k1, k2, k3, k4, trivial⟩) g val g1 ids hg hp h1
    obtain ⟨g2, i, h2⟩ := add_total (E := E) hD hT hE hI1 (nd := ⟨o, ids⟩) (by simpa [hl1] using har) hn1
    exact ⟨g2, i, by rw [addPat, h1, Option.bind_some]; exact h2⟩

/-- A match that binds every variable of the left-hand side. -/
def MatchFull (I : O → List V → V) (r : Rule O) (g : EGraph O C) (val : Nat → V) (m : Nat × Subst) : Prop :=
  MatchOk I r g val m ∧ ∀ v ∈ r.lhs.vars, ∃ j, m.2.lookup v = some j

omit [LinearOrder C] in
theorem search_full {g : EGraph O C} {val : Nat → V} (hg : InvS S ar I ok g val) (r : Rule O) (m : Nat × Subst)
    (h : m ∈ g.search r.lhs) : MatchFull I r g val m := by
  refine ⟨search_ok hg r m h, ?_⟩
  unfold EGraph.search at h
  simp only [List.mem_flatMap, List.mem_map] at h
  obtain ⟨i, hi, σ, hσ, rfl⟩ := h
  simp only [EGraph.classes, List.mem_filter, List.mem_range] at hi
  exact (ematch_ok hg r.lhs i [] σ hi.1 (by intro v j hv; simp at hv) hσ).binds

/-- Applying a rule that holds does not fail. -/
theorem applyOne_total (hD : DataInvS S D ar I ok) (hT : StepTotal S D ar I ok) (hE : 2 ≤ E.depth) {r : Rule O}
    (hr : RuleOk ar r) (hh : Holds I r) (hb : BoundRhs r) {g : EGraph O C} {val : Nat → V} {m : Nat × Subst}
    (hg : InvS S ar I ok g val) (hm : MatchFull I r g val m) : ∃ g', applyOne D E r.rhs g m = some g' := by
  unfold applyOne
  split
  · exact ⟨g, rfl⟩
  · set ρ : String → V := fun v => ((m.2.lookup v).map val).getD (val m.1) with hρ
    have hag : ∀ v j, m.2.lookup v = some j → ρ v = val j := fun v j hv => by simp [hρ, hv]
    have hp : ∀ v j, m.2.lookup v = some j → j < g.n ∧ val j = ρ v :=
      fun v j hv => ⟨hm.1.bounded v j hv, (hag v j hv).symm⟩
    obtain ⟨g1, i, h1⟩ := addPat_total (E := E) hD hT hE m.2 ρ r.rhs hr.2 (fun v hv => hm.2 v (hb v hv)) g val hg hp
    obtain ⟨val1, hI1, hE1, hi1, hv1⟩ := addPat_ok hD m.2 ρ r.rhs hr.2 g val g1 i hg hp h1
    have hval : val1 i = val1 m.1 := by
      rw [hv1, ← hh ρ, hm.1.value ρ hag, hE1.val_eq _ hm.1.lt]
    rw [h1, Option.bind_some]
    simp only
    split
    · exact ⟨_, rfl⟩
    · split
      · exact ⟨_, rfl⟩
      · exact union_total hD hT hE hI1 hi1 (Nat.lt_of_lt_of_le hm.1.lt hE1.n_le) hval

/-- The rules are well-sorted, hold, and have no new variables on the right. -/
def RulesSafe (ar : O → Nat → Prop) (I : O → List V → V) (rules : List (Rule O)) : Prop :=
  ∀ r ∈ rules, RuleOk ar r ∧ Holds I r ∧ BoundRhs r

omit [Lang O] [LinearOrder C] in
theorem RulesSafe.rulesOk {rules : List (Rule O)} (h : RulesSafe ar I rules) : RulesOk ar I rules :=
  fun r hr => ⟨(h r hr).1, (h r hr).2.1⟩

/-- An iteration of the runner. -/
theorem runOne_goes (hD : DataInvS S D ar I ok) (hT : StepTotal S D ar I ok) (hE : 2 ≤ E.depth) {rules : List (Rule O)}
    (hr : RulesSafe ar I rules) {g : EGraph O C} {val : Nat → V} (hg : InvS S ar I ok g val) (t : IterTrace) :
    ∃ t', IterTrace.Goes t t' ∧ ∃ g', runOne D E rules g t' = some g' := by
  have hz : ∀ (rs : List (Rule O)) (f : Rule O → List (Nat × Subst)) q, q ∈ rs.zip (rs.map f) → q.2 = f q.1 := by
    intro rs f q hq
    induction rs with
    | nil => simp at hq
    | cons a rs ih =>
      simp only [List.map_cons, List.zip_cons_cons, List.mem_cons] at hq
      rcases hq with rfl | hq
      · rfl
      · exact ih hq
  have hjobs : ∀ job ∈ (rules.zip (rules.map fun r => g.search r.lhs)).zip t.picks,
      job.1.1 ∈ rules ∧ ∀ m ∈ job.1.2, MatchFull I job.1.1 g val m := by
    intro job hjob
    have h2 := (List.of_mem_zip hjob).1
    have h3 := List.of_mem_zip h2
    refine ⟨h3.1, ?_⟩
    rw [hz rules (fun r => g.search r.lhs) job.1 h2]
    exact fun m hm => search_full hg _ m hm
  have hmem : ∀ (job : (Rule O × List (Nat × Subst)) × List Nat) m, m ∈ (job.2.filterMap fun k => job.1.2[k]?) →
      m ∈ job.1.2 := by
    intro job m hm
    simp only [List.mem_filterMap] at hm
    obtain ⟨k, _, hk⟩ := hm
    exact List.mem_of_getElem? hk
  have hPre : ∀ (g : EGraph O C) val g' val' (job : (Rule O × List (Nat × Subst)) × List Nat), InvS S ar I ok g val →
      Ext g val g' val' → (job.1.1 ∈ rules ∧ ∀ m ∈ job.1.2, MatchFull I job.1.1 g val m) →
      (job.1.1 ∈ rules ∧ ∀ m ∈ job.1.2, MatchFull I job.1.1 g' val' m) := by
    intro g val g' val' job _ hE hp
    exact ⟨hp.1, fun m hm => ⟨(hp.2 m hm).1.ext hE, (hp.2 m hm).2⟩⟩
  have hstep : ∀ (g : EGraph O C) val (job : (Rule O × List (Nat × Subst)) × List Nat) g', InvS S ar I ok g val →
      (job.1.1 ∈ rules ∧ ∀ m ∈ job.1.2, MatchFull I job.1.1 g val m) → applyPicked D E g job = some g' →
      ∃ val', InvS S ar I ok g' val' ∧ Ext g val g' val' := by
    intro g val job g' hg hp hs
    obtain ⟨hok, hh, _⟩ := hr _ hp.1
    unfold applyPicked at hs
    refine foldlM_ok (applyOne D E job.1.1.rhs) (fun g val m => MatchOk I job.1.1 g val m) ?_ ?_ _ g val g' hg ?_ hs
    · intro g val g' val' m _ hE hp
      exact hp.ext hE
    · intro g val m g' hg hm hs
      exact applyOne_ok hD hok hh hg hm hs
    · exact fun m hm => (hp.2 m (hmem job m hm)).1
  obtain ⟨g1, h1⟩ := foldlM_total (applyPicked D E)
    (fun g val job => job.1.1 ∈ rules ∧ ∀ m ∈ job.1.2, MatchFull I job.1.1 g val m) hPre hstep (by
      intro g val job hg hp
      obtain ⟨hok, hh, hb⟩ := hr _ hp.1
      unfold applyPicked
      refine foldlM_total (applyOne D E job.1.1.rhs) (fun g val m => MatchFull I job.1.1 g val m) ?_ ?_ ?_ _ g val hg ?_
      · intro g val g' val' m _ hE hp
        exact ⟨hp.1.ext hE, hp.2⟩
      · intro g val m g' hg hm hs
        exact applyOne_ok hD hok hh hg hm.1 hs
      · intro g val m hg hm
        exact applyOne_total hD hT hE hok hh hb hg hm
      · exact fun m hm => hp.2 m (hmem job m hm)) _ g val hg hjobs
  obtain ⟨val1, hI1, _⟩ := foldlM_ok (applyPicked D E)
    (fun g val job => job.1.1 ∈ rules ∧ ∀ m ∈ job.1.2, MatchFull I job.1.1 g val m) hPre hstep _ g val g1 hg hjobs h1
  obtain ⟨more, g2, h2⟩ := rebuild_extends (E := E) hD hT hE hI1 t.repairs
  refine ⟨⟨t.picks, t.repairs ++ more⟩, ⟨rfl, List.prefix_append _ _⟩, g2, ?_⟩
  unfold runOne
  simp only [h1, Option.bind_some, h2]

/-- A list of iterations. -/
theorem iters_goes (hD : DataInvS S D ar I ok) (hT : StepTotal S D ar I ok) (hE : 2 ≤ E.depth) {rules : List (Rule O)}
    (hr : RulesSafe ar I rules) (ts : List IterTrace) : ∀ (g : EGraph O C) (val : Nat → V), InvS S ar I ok g val →
    ∃ ts', List.Forall₂ IterTrace.Goes ts ts' ∧ ∃ g', ts'.foldlM (runOne D E rules) g = some g' := by
  induction ts with
  | nil => exact fun g _ _ => ⟨[], .nil, g, rfl⟩
  | cons t ts ih =>
    intro g val hg
    obtain ⟨t', h1, g1, h2⟩ := runOne_goes (E := E) hD hT hE hr hg t
    obtain ⟨val1, hI1, _⟩ := (runOne_ok hD hr.rulesOk hg h2).1
    obtain ⟨ts', h3, g2, h4⟩ := ih g1 val1 hI1
    exact ⟨t' :: ts', .cons h1 h3, g2, by rw [List.foldlM_cons, h2]; exact h4⟩

theorem IterTrace.goes_refl (t : IterTrace) : IterTrace.Goes t t := ⟨rfl, List.prefix_refl _⟩

theorem forall2_goes_refl (ts : List IterTrace) : List.Forall₂ IterTrace.Goes ts ts := by
  induction ts with
  | nil => exact .nil
  | cons t ts ih => exact .cons (IterTrace.goes_refl t) ih

theorem RunTrace.goes_refl (t : RunTrace) : RunTrace.Goes t t := ⟨List.prefix_refl _, forall2_goes_refl _⟩

/-- A run. -/
theorem runRules_goes (hD : DataInvS S D ar I ok) (hT : StepTotal S D ar I ok) (hE : 2 ≤ E.depth) {rules : List (Rule O)}
    (hr : RulesSafe ar I rules) {g : EGraph O C} {val : Nat → V} (hg : InvS S ar I ok g val) (limit : Nat)
    (t : RunTrace) : ∃ t', RunTrace.Goes t t' ∧ ∃ g', runRules D E limit rules t' g = some g' := by
  obtain ⟨more, g1, h1⟩ := rebuild_extends (E := E) hD hT hE hg t.first
  obtain ⟨val1, hI1, _⟩ := (rebuild_ok hD hg h1).1
  obtain ⟨ts, h2, g2, h3⟩ := iters_goes (E := E) hD hT hE hr (t.iters.take limit) g1 val1 hI1
  refine ⟨⟨t.first ++ more, ts ++ t.iters.drop limit⟩, ⟨List.prefix_append _ _, ?_⟩, g2, ?_⟩
  · have := List.rel_append h2 (forall2_goes_refl (t.iters.drop limit))
    simp only [List.take_append_drop] at this
    exact this
  · unfold runRules
    rw [h1, Option.bind_some]
    have hlen : ts.length = (t.iters.take limit).length := h2.length_eq.symm
    by_cases hl : limit ≤ t.iters.length
    · have : ts.length = limit := by rw [hlen, List.length_take]; omega
      simp only
      rw [← this, List.take_left]
      exact h3
    · have hd : t.iters.drop limit = [] := List.drop_eq_nil_of_le (by omega)
      simp only [hd, List.append_nil]
      rw [List.take_of_length_le (by rw [hlen, List.length_take]; omega)]
      exact h3

theorem satLoop_congr {sat other : List (Rule O)} {ra rb : Nat → RunTrace × RunTrace} (k : Nat)
    (h : ∀ j, j < k → ra j = rb j) (g : EGraph O C) : satLoop D E sat other ra k g = satLoop D E sat other rb k g := by
  induction k generalizing g with
  | zero => rfl
  | succ k ih =>
    rw [satLoop, satLoop, h k (Nat.lt_succ_self k)]
    congr 1
    funext g1
    congr 1
    funext g2
    exact ih (fun j hj => h j (Nat.lt_succ_of_lt hj)) g2

/-- The loop of the saturating scheduler. -/
theorem satLoop_goes (hD : DataInvS S D ar I ok) (hT : StepTotal S D ar I ok) (hE : 2 ≤ E.depth)
    {sat other : List (Rule O)} (hs : RulesSafe ar I sat) (ho : RulesSafe ar I other)
    (rounds : Nat → RunTrace × RunTrace) (k : Nat) : ∀ (g : EGraph O C) (val : Nat → V), InvS S ar I ok g val →
      ∃ rounds' : Nat → RunTrace × RunTrace,
        (∀ j, RunTrace.Goes (rounds j).1 (rounds' j).1 ∧ RunTrace.Goes (rounds j).2 (rounds' j).2) ∧
        ∃ g', satLoop D E sat other rounds' k g = some g' := by
  induction k with
  | zero => exact fun g _ _ => ⟨rounds, fun j => ⟨RunTrace.goes_refl _, RunTrace.goes_refl _⟩, g, rfl⟩
  | succ k ih =>
    intro g val hg
    obtain ⟨t1, h1, g1, k1⟩ := runRules_goes (E := E) hD hT hE hs hg (rounds k).1.iters.length (rounds k).1
    obtain ⟨val1, hI1, _⟩ := runRules_ok hD hs.rulesOk hg k1
    obtain ⟨t2, h2, g2, k2⟩ := runRules_goes (E := E) hD hT hE ho hI1 1 (rounds k).2
    obtain ⟨val2, hI2, _⟩ := runRules_ok hD ho.rulesOk hI1 k2
    obtain ⟨rs, h3, g3, k3⟩ := ih g2 val2 hI2
    refine ⟨fun j => if j = k then (t1, t2) else rs j, fun j => ?_, g3, ?_⟩
    · by_cases hj : j = k
      · subst hj
        simp only [if_true]
        exact ⟨h1, h2⟩
      · simp only [hj, if_false]
        exact h3 j
    · rw [satLoop]
      have hlen : t1.iters.length = (rounds k).1.iters.length := h1.2.length_eq.symm
      simp only [if_true, hlen, k1, Option.bind_some, k2]
      rw [satLoop_congr (rb := rs) k fun j hj => by simp [Nat.ne_of_lt hj]]
      exact k3

theorem runSimple_goes (hD : DataInvS S D ar I ok) (hT : StepTotal S D ar I ok) (hE : 2 ≤ E.depth) {rules : Ruleset O}
    (hr : RulesSafe ar I (Ruleset.iter rules)) {g : EGraph O C} {val : Nat → V} (hg : InvS S ar I ok g val) (l : Limits)
    (t : SchedTrace) : ∃ t' : SchedTrace, SchedTrace.Goes t t' ∧ t'.cloneRepairs = t.cloneRepairs ∧
      ∃ g', runSimple D E l rules t' g = some g' := by
  obtain ⟨t1, h1, g1, k1⟩ := runRules_goes (E := E) hD hT hE hr hg l.iter t.simple
  obtain ⟨val1, hI1, _⟩ := runRules_ok hD hr.rulesOk hg k1
  obtain ⟨more, g2, k2⟩ := rebuild_extends (E := E) hD hT hE hI1 t.last
  refine ⟨{ t with simple := t1, last := t.last ++ more }, ⟨h1, fun k => ⟨RunTrace.goes_refl _, RunTrace.goes_refl _⟩,
    RunTrace.goes_refl _, rfl, List.prefix_append _ _, rfl, rfl, List.prefix_refl _⟩, rfl, g2, ?_⟩
  unfold runSimple
  simp only [k1, Option.bind_some, k2]

theorem runSaturating_goes (hD : DataInvS S D ar I ok) (hT : StepTotal S D ar I ok) (hE : 2 ≤ E.depth)
    {rules : Ruleset O} (hr : RulesSafe ar I (Ruleset.iter rules)) (isSat : Rule O → Bool) {g : EGraph O C}
    {val : Nat → V} (hg : InvS S ar I ok g val) (l : Limits) (t : SchedTrace) :
    ∃ t' : SchedTrace, SchedTrace.Goes t t' ∧ ∃ g', runSaturating D E isSat l rules t' g = some g' := by
  have hs : RulesSafe ar I (Ruleset.iter (Ruleset.partition t.split isSat rules).1) :=
    fun r hr' => hr r (mem_partition _ _ _ _ (Or.inl hr'))
  have ho : RulesSafe ar I (Ruleset.iter (Ruleset.partition t.split isSat rules).2) :=
    fun r hr' => hr r (mem_partition _ _ _ _ (Or.inr hr'))
  obtain ⟨rounds, h1, g1, k1⟩ := satLoop_goes (E := E) hD hT hE hs ho t.rounds l.iter g val hg
  obtain ⟨val1, hI1, _⟩ := satLoop_ok hD hs.rulesOk ho.rulesOk _ _ g g1 val hg k1
  obtain ⟨t2, h2, g2, k2⟩ := runRules_goes (E := E) hD hT hE hs hI1 t.lastRun.iters.length t.lastRun
  obtain ⟨val2, hI2, _⟩ := runRules_ok hD hs.rulesOk hI1 k2
  obtain ⟨more, g3, k3⟩ := rebuild_extends (E := E) hD hT hE hI2 t.last
  refine ⟨{ t with rounds := rounds, lastRun := t2, last := t.last ++ more }, ⟨RunTrace.goes_refl _, h1, h2, rfl,
    List.prefix_append _ _, rfl, rfl, List.prefix_refl _⟩, g3, ?_⟩
  unfold runSaturating
  have hlen : t2.iters.length = t.lastRun.iters.length := h2.2.length_eq.symm
  simp only [k1, Option.bind_some, hlen, k2, k3]

theorem uniteGroup_total (hD : DataInvS S D ar I ok) (hT : StepTotal S D ar I ok) (hE : 2 ≤ E.depth) {g : EGraph O C}
    {val : Nat → V} (hg : InvS S ar I ok g val) {l : List Nat} (hl : ∀ i ∈ l, i < g.n)
    (hv : ∀ i ∈ l, ∀ j ∈ l, val i = val j) : ∃ g', uniteGroup D E g l = some g' := by
  cases l with
  | nil => exact ⟨g, rfl⟩
  | cons a l =>
    simp only [uniteGroup]
    refine foldlM_total (fun g i => EGraph.union D E g a i) (fun g val i => a < g.n ∧ i < g.n ∧ val a = val i) ?_ ?_ ?_
      l g val hg ?_
    · intro g val g' val' i _ hE ⟨h1, h2, h3⟩
      exact ⟨Nat.lt_of_lt_of_le h1 hE.n_le, Nat.lt_of_lt_of_le h2 hE.n_le,
        by rw [hE.val_eq _ h1, hE.val_eq _ h2, h3]⟩
    · intro g val i g' hg ⟨h1, h2, h3⟩ hs
      obtain ⟨val', a, b, _⟩ := union_ok hD hg h1 h2 h3 hs
      exact ⟨val', a, b⟩
    · intro g val i hg ⟨h1, h2, h3⟩
      exact union_total hD hT hE hg h1 h2 h3
    · intro i hi
      exact ⟨hl a (by simp), hl i (by simp [hi]), hv a (by simp) i (by simp [hi])⟩

theorem runCompress_goes (hD : DataInvS S D ar I ok) (hT : StepTotal S D ar I ok) (hE : 2 ≤ E.depth)
    {rules : Ruleset O} (hr : RulesSafe ar I (Ruleset.iter rules)) {g : EGraph O C} {val : Nat → V}
    (hg : InvS S ar I ok g val) (l : Limits) (t : SchedTrace) (hc : 2 ≤ t.clone.depth) :
    ∃ t' : SchedTrace, SchedTrace.Goes t t' ∧ ∃ g', runCompress D E l rules t' g = some g' := by
  obtain ⟨t1, h1, hcr, out, k1⟩ := runSimple_goes (E := E) hD hT hE hr hg l t
  obtain ⟨⟨val1, hI1, hE1⟩, _⟩ := runSimple_ok hD hr.rulesOk hg k1
  have hPre : ∀ (g : EGraph O C) val g' val' (l : List Nat), InvS S ar I ok g val → Ext g val g' val' →
      ((∀ i ∈ l, i < g.n) ∧ ∀ i ∈ l, ∀ j ∈ l, val i = val j) →
      (∀ i ∈ l, i < g'.n) ∧ ∀ i ∈ l, ∀ j ∈ l, val' i = val' j := by
    intro g val g' val' l _ hE ⟨h1, h2⟩
    refine ⟨fun i hi => Nat.lt_of_lt_of_le (h1 i hi) hE.n_le, fun i hi j hj => ?_⟩
    rw [hE.val_eq _ (h1 i hi), hE.val_eq _ (h1 j hj)]
    exact h2 i hi j hj
  have hgroups : ∀ l ∈ groupsBy out.find g.classes (t.order ((g.classes.map out.find).eraseDups)),
      (∀ i ∈ l, i < g.n) ∧ ∀ i ∈ l, ∀ j ∈ l, val i = val j := by
    intro l hl
    simp only [groupsBy, List.mem_map] at hl
    obtain ⟨k, _, rfl⟩ := hl
    have hlt : ∀ i ∈ g.classes.filter (fun i => decide (out.find i = k)), i < g.n ∧ out.find i = k := by
      intro i hi
      simp only [EGraph.classes, List.mem_filter, List.mem_range, decide_eq_true_eq] at hi
      exact ⟨hi.1.1, hi.2⟩
    refine ⟨fun i hi => (hlt i hi).1, fun i hi j hj => ?_⟩
    obtain ⟨a1, a2⟩ := hlt i hi
    obtain ⟨b1, b2⟩ := hlt j hj
    rw [← hE1.val_eq i a1, ← hE1.val_eq j b1, ← hI1.val_find i (Nat.lt_of_lt_of_le a1 hE1.n_le),
      ← hI1.val_find j (Nat.lt_of_lt_of_le b1 hE1.n_le), a2, b2]
  obtain ⟨g2, k2⟩ := foldlM_total (uniteGroup D t.clone)
    (fun g val l => (∀ i ∈ l, i < g.n) ∧ ∀ i ∈ l, ∀ j ∈ l, val i = val j) hPre
    (fun g val l g' hg hp hs => uniteGroup_ok hD hg hp.1 hp.2 hs)
    (fun g val l hg hp => uniteGroup_total hD hT hc hg hp.1 hp.2) _ g val hg hgroups
  obtain ⟨val2, hI2, _⟩ := foldlM_ok (uniteGroup D t.clone)
    (fun g val l => (∀ i ∈ l, i < g.n) ∧ ∀ i ∈ l, ∀ j ∈ l, val i = val j) hPre
    (fun g val l g' hg hp hs => uniteGroup_ok hD hg hp.1 hp.2 hs) _ g val g2 hg hgroups k2
  obtain ⟨more, g3, k3⟩ := rebuild_extends (E := t.clone) hD hT hc hI2 t.cloneRepairs
  refine ⟨{ t1 with cloneRepairs := t.cloneRepairs ++ more }, ⟨h1.simple, h1.rounds, h1.lastRun, h1.split, h1.last,
    h1.clone, h1.order, List.prefix_append _ _⟩, g3, ?_⟩
  have k1' : runSimple D E l rules { t1 with cloneRepairs := t.cloneRepairs ++ more } g = some out := k1
  unfold runCompress
  rw [k1', Option.bind_some]
  simp only [h1.order, h1.clone, k2, Option.bind_some, k3]

/-- Every scheduler. -/
theorem run_goes (hD : DataInvS S D ar I ok) (hT : StepTotal S D ar I ok) (hE : 2 ≤ E.depth) {rules : Ruleset O}
    (hr : RulesSafe ar I (Ruleset.iter rules)) (isSat : Rule O → Bool) (s : Scheduler) {g : EGraph O C}
    {val : Nat → V} (hg : InvS S ar I ok g val) (t : SchedTrace) (hc : 2 ≤ t.clone.depth) :
    ∃ t' : SchedTrace, SchedTrace.Goes t t' ∧ ∃ g', Scheduler.run D E isSat s rules t' g = some g' := by
  cases s with
  | simple l =>
    obtain ⟨t', h1, _, h2⟩ := runSimple_goes (E := E) hD hT hE hr hg l t
    exact ⟨t', h1, h2⟩
  | saturating l => exact runSaturating_goes hD hT hE hr isSat hg l t
  | compress l => exact runCompress_goes hD hT hE hr hg l t hc

end Ruler
