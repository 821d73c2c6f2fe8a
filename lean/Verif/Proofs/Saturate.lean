import Verif.Proofs.EGraphOps
import Verif.Proofs.Ruleset
/-! E-matching, rule application and the schedulers preserve the invariant. -/
namespace Ruler
open Spec EGraph
variable {O C V : Type} [Lang O] [LinearOrder C]
variable {S : Side O} {ar : O → Nat → Prop} {I : O → List V → V} {ok : Signature O C → V → Prop} {D : Domain O C} {E : Egg}

/-- The substitution only mentions existing ids. -/
def SubstLt (g : EGraph O C) (σ : Subst) : Prop := ∀ v j, σ.lookup v = some j → j < g.n

/-- The valuation gives every bound variable the value of its class. -/
def Agrees (val : Nat → V) (σ : Subst) (ρ : String → V) : Prop := ∀ v j, σ.lookup v = some j → ρ v = val j

/-- What a successful match says. -/
structure Matched (I : O → List V → V) (g : EGraph O C) (val : Nat → V) (p : Pat O) (i : Nat) (σ σ' : Subst) :
    Prop where
  ext : ∀ v j, σ.lookup v = some j → σ'.lookup v = some j
  bounded : SubstLt g σ'
  binds : ∀ v ∈ p.vars, ∃ j, σ'.lookup v = some j
  value : ∀ ρ, Agrees val σ' ρ → patVal ρ I p = val i

omit [LinearOrder C] in
theorem ematch_ok {g : EGraph O C} {val : Nat → V} (hg : InvS S ar I ok g val) (p : Pat O) :
    ∀ i σ σ', i < g.n → SubstLt g σ → σ' ∈ ematch g p i σ → Matched I g val p i σ σ' := by
  induction p using Pat.ind with
  | hv v =>
    intro i σ σ' hi hb h
    rw [ematch] at h
    cases hl : σ.lookup v with
    | some j =>
      simp only [hl] at h
      split at h
      · rename_i hf
        simp only [List.mem_singleton] at h
        subst h
        refine ⟨fun _ _ h => h, hb, ?_, ?_⟩
        · intro w hw
          simp only [Pat.vars, List.mem_singleton] at hw
          exact ⟨j, by rw [hw, hl]⟩
        · intro ρ hρ
          rw [patVal, hρ v j hl, ← hg.val_find j (hb v j hl), hf, hg.val_find i hi]
      · simp at h
    | none =>
      simp only [hl, List.mem_singleton] at h
      subst h
      refine ⟨?_, ?_, ?_, ?_⟩
      · intro w j hw
        rw [List.lookup_cons]
        by_cases he : w == v
        · have : w = v := by simpa using he
          subst this
          rw [hl] at hw
          cases hw
        · simp [he, hw]
      · intro w j hw
        rw [List.lookup_cons] at hw
        by_cases he : w == v
        · simp only [he, Option.some.injEq] at hw
          subst hw
          exact hg.find_lt i hi
        · simp only [he] at hw
          exact hb w j hw
      · intro w hw
        simp only [Pat.vars, List.mem_singleton] at hw
        exact ⟨g.find i, by simp [hw]⟩
      · intro ρ hρ
        rw [patVal, hρ v (g.find i) (by simp), hg.val_find i hi]
  | hn o l ih =>
    intro i σ σ' hi hb h
    rw [ematch, List.mem_flatMap] at h
    obtain ⟨e, he, h⟩ := h
    simp only [List.mem_filter, Bool.and_eq_true, decide_eq_true_eq] at he
    obtain ⟨hmem, ⟨hop, hlen⟩, hfind⟩ := he
    have r := hg.nodes_lt e hmem
    have key : ∀ (l : List (Pat O)) (cs : List Nat) (σ : Subst),
        (∀ s ∈ l, ∀ i σ σ', i < g.n → SubstLt g σ → σ' ∈ ematch g s i σ → Matched I g val s i σ σ') →
        (∀ c ∈ cs, c < g.n) → SubstLt g σ → σ' ∈ ematchL g l cs σ →
        (∀ v j, σ.lookup v = some j → σ'.lookup v = some j) ∧ SubstLt g σ' ∧
          (∀ v ∈ Pat.varsL l, ∃ j, σ'.lookup v = some j) ∧
          ∀ ρ, Agrees val σ' ρ → patValL ρ I l = cs.map val := by
      intro l
      induction l with
      | nil =>
        intro cs σ _ _ hb h
        cases cs with
        | cons _ _ => simp [ematchL] at h
        | nil =>
          simp only [ematchL, List.mem_singleton] at h
          subst h
          exact ⟨fun _ _ h => h, hb, by simp [Pat.varsL], fun _ _ => rfl⟩
      | cons p l ihl =>
        intro cs σ hs hcs hb h
        cases cs with
        | nil => simp [ematchL] at h
        | cons c cs =>
          rw [ematchL, List.mem_flatMap] at h
          obtain ⟨σ1, h1, h2⟩ := h
          have m := hs p (by simp) c σ σ1 (hcs c (by simp)) hb h1
          obtain ⟨k1, k2, k3, k4⟩ := ihl cs σ1 (fun s hs' => hs s (by simp [hs']))
            (fun d hd => hcs d (by simp [hd])) m.bounded h2
          refine ⟨fun v j hv => k1 v j (m.ext v j hv), k2, ?_, ?_⟩
          · intro v hv
            simp only [Pat.varsL, List.mem_append] at hv
            rcases hv with hv | hv
            · obtain ⟨j, hj⟩ := m.binds v hv
              exact ⟨j, k1 v j hj⟩
            · exact k3 v hv
          · intro ρ hρ
            rw [patValL, List.map_cons, k4 ρ hρ, m.value ρ fun v j hv => hρ v j (k1 v j hv)]
    obtain ⟨k1, k2, k3, k4⟩ := key l e.1.children σ ih r.2 hb h
    refine ⟨k1, k2, ?_, ?_⟩
    · simpa [Pat.vars] using k3
    · intro ρ hρ
      rw [patVal, k4 ρ hρ, ← hop, ← hg.val_node e hmem, ← hg.val_find _ r.1, hfind, hg.val_find i hi]

/-- A match of a rule, as remembered until it is applied. -/
structure MatchOk (I : O → List V → V) (r : Rule O) (g : EGraph O C) (val : Nat → V) (m : Nat × Subst) : Prop where
  lt : m.1 < g.n
  bounded : SubstLt g m.2
  value : ∀ ρ, Agrees val m.2 ρ → patVal ρ I r.lhs = val m.1

omit [Lang O] [LinearOrder C] in
theorem MatchOk.ext {g g' : EGraph O C} {val val' : Nat → V} {r : Rule O} {m : Nat × Subst} (h : MatchOk I r g val m)
    (hE : Ext g val g' val') : MatchOk I r g' val' m :=
  ⟨Nat.lt_of_lt_of_le h.lt hE.n_le, fun v j hv => Nat.lt_of_lt_of_le (h.bounded v j hv) hE.n_le, fun ρ hρ => by
    rw [hE.val_eq _ h.lt]
    exact h.value ρ fun v j hv => by rw [hρ v j hv, hE.val_eq j (h.bounded v j hv)]⟩

omit [LinearOrder C] in
theorem search_ok {g : EGraph O C} {val : Nat → V} (hg : InvS S ar I ok g val) (r : Rule O) (m : Nat × Subst)
    (h : m ∈ g.search r.lhs) : MatchOk I r g val m := by
  unfold EGraph.search at h
  simp only [List.mem_flatMap, List.mem_map] at h
  obtain ⟨i, hi, σ, hσ, rfl⟩ := h
  simp only [EGraph.classes, List.mem_filter, List.mem_range] at hi
  have k := ematch_ok hg r.lhs i [] σ hi.1 (by intro v j hv; simp at hv) hσ
  exact ⟨hi.1, k.bounded, k.value⟩

theorem addPat_ok (hD : DataInvS S D ar I ok) (σ : Subst) (ρ : String → V) (p : Pat O) :
    PatOk ar p → ∀ g val g' i, InvS S ar I ok g val → (∀ v j, σ.lookup v = some j → j < g.n ∧ val j = ρ v) →
      addPat D E σ p g = some (g', i) →
      ∃ val', InvS S ar I ok g' val' ∧ Ext g val g' val' ∧ i < g'.n ∧ val' i = patVal ρ I p := by
  induction p using Pat.ind with
  | hv v =>
    intro _ g val g' i hg hp h
    rw [addPat, Option.map_eq_some_iff] at h
    obtain ⟨j, hj, h⟩ := h
    simp only [Prod.mk.injEq] at h
    obtain ⟨rfl, rfl⟩ := h
    obtain ⟨h1, h2⟩ := hp v j hj
    exact ⟨val, hg, Ext.refl _ _, h1, by rw [patVal, h2]⟩
  | hn o l ih =>
    intro hok g val g' i hg hp h
    cases hok with
    | node har hargs =>
    rw [addPat, Option.bind_eq_some_iff] at h
    obtain ⟨⟨g1, ids⟩, h1, h⟩ := h
    obtain ⟨val1, hI1, hE1, hl1, hn1, hm1, _⟩ :=
      accum_ok (addPat D E σ) (addPatL D E σ) (fun g => by rw [addPatL]) (fun a l g => by rw [addPatL])
        (fun g val => ∀ v j, σ.lookup v = some j → j < g.n ∧ val j = ρ v)
        (fun g val g' val' _ hE hp v j hv => by
          obtain ⟨a, b⟩ := hp v j hv
          exact ⟨Nat.lt_of_lt_of_le a hE.n_le, by rw [hE.val_eq j a, b]⟩)
        (patVal ρ I) (fun _ _ _ => True) (fun _ _ _ _ _ _ _ _ _ _ => trivial) l
        (fun a ha g val g' i hI hp hs => by
          obtain ⟨val', k1, k2, k3, k4⟩ := ih a ha (hargs a ha) g val g' i hI hp hs
          exact ⟨val', k1, k2, k3, k4, trivial⟩) g val g1 ids hg hp h1
    obtain ⟨val2, hI2, hE2, hi2, _, hv2, _⟩ := add_ok hD hI1 (nd := ⟨o, ids⟩) (by simpa [hl1] using har) hn1 h
    exact ⟨val2, hI2, Ext.trans hg hI1 hE1 hE2, hi2, by rw [hv2, patVal_node, hm1]⟩

theorem applyOne_ok (hD : DataInvS S D ar I ok) {r : Rule O} (hr : RuleOk ar r) (hh : Holds I r) {g g' : EGraph O C}
    {val : Nat → V} {m : Nat × Subst} (hg : InvS S ar I ok g val) (hm : MatchOk I r g val m)
    (h : applyOne D E r.rhs g m = some g') : ∃ val', InvS S ar I ok g' val' ∧ Ext g val g' val' := by
  unfold applyOne at h
  split at h
  · simp only [Option.some.injEq] at h
    subst h
    exact ⟨val, hg, Ext.refl _ _⟩
  · rw [Option.bind_eq_some_iff] at h
    obtain ⟨⟨g1, i⟩, h1, h⟩ := h
    set ρ : String → V := fun v => ((m.2.lookup v).map val).getD (val m.1) with hρ
    have hag : ∀ v j, m.2.lookup v = some j → ρ v = val j := fun v j hv => by simp [hρ, hv]
    obtain ⟨val1, hI1, hE1, hi1, hv1⟩ := addPat_ok hD m.2 ρ r.rhs hr.2 g val g1 i hg
      (fun v j hv => ⟨hm.bounded v j hv, (hag v j hv).symm⟩) h1
    have hval : val1 i = val1 m.1 := by
      rw [hv1, ← hh ρ, hm.value ρ hag, hE1.val_eq _ hm.lt]
    simp only at h
    split at h
    · simp only [Option.some.injEq] at h
      subst h
      exact ⟨val1, hI1, hE1⟩
    · split at h
      · simp only [Option.some.injEq] at h
        subst h
        exact ⟨val1, hI1, hE1⟩
      · obtain ⟨val2, hI2, hE2, _⟩ := union_ok hD hI1 hi1 (Nat.lt_of_lt_of_le hm.lt hE1.n_le) hval h
        exact ⟨val2, hI2, Ext.trans hg hI1 hE1 hE2⟩

/-- The rules are well-sorted and hold. -/
def RulesOk (ar : O → Nat → Prop) (I : O → List V → V) (rules : List (Rule O)) : Prop :=
  ∀ r ∈ rules, RuleOk ar r ∧ Holds I r

theorem runOne_ok (hD : DataInvS S D ar I ok) {rules : List (Rule O)} (hr : RulesOk ar I rules) {g g' : EGraph O C}
    {val : Nat → V} {t : IterTrace} (hg : InvS S ar I ok g val) (h : runOne D E rules g t = some g') :
    (∃ val', InvS S ar I ok g' val' ∧ Ext g val g' val') ∧ g'.closed = true := by
  unfold runOne at h
  rw [Option.bind_eq_some_iff] at h
  obtain ⟨g1, h1, h⟩ := h
  have step : ∃ val', InvS S ar I ok g1 val' ∧ Ext g val g1 val' := by
    refine foldlM_ok (applyPicked D E)
      (fun g val job => (job.1.1 ∈ rules) ∧ ∀ m ∈ job.1.2, MatchOk I job.1.1 g val m) ?_ ?_ _ g val g1 hg ?_ h1
    · intro g val g' val' job _ hE hp
      exact ⟨hp.1, fun m hm => (hp.2 m hm).ext hE⟩
    · intro g val job g' hg hp hs
      obtain ⟨hok, hh⟩ := hr _ hp.1
      unfold applyPicked at hs
      refine foldlM_ok (applyOne D E job.1.1.rhs) (fun g val m => MatchOk I job.1.1 g val m) ?_ ?_ _ g val g' hg ?_ hs
      · intro g val g' val' m _ hE hp
        exact hp.ext hE
      · intro g val m g' hg hm hs
        exact applyOne_ok hD hok hh hg hm hs
      · intro m hm
        simp only [List.mem_filterMap] at hm
        obtain ⟨k, _, hk⟩ := hm
        exact hp.2 m (List.mem_of_getElem? hk)
    · intro job hjob
      have h2 := (List.of_mem_zip hjob).1
      have h3 := List.of_mem_zip h2
      refine ⟨h3.1, ?_⟩
      have : job.1.2 = g.search job.1.1.lhs := by
        have hz : ∀ (rs : List (Rule O)) (f : Rule O → List (Nat × Subst)) q, q ∈ rs.zip (rs.map f) → q.2 = f q.1 := by
          intro rs f q hq
          induction rs with
          | nil => simp at hq
          | cons a rs ih =>
            simp only [List.map_cons, List.zip_cons_cons, List.mem_cons] at hq
            rcases hq with rfl | hq
            · rfl
            · exact ih hq
        exact hz rules (fun r => g.search r.lhs) job.1 h2
      rw [this]
      exact fun m hm => search_ok hg _ m hm
  obtain ⟨val1, hI1, hE1⟩ := step
  obtain ⟨⟨val2, hI2, hE2⟩, hc⟩ := rebuild_ok hD hI1 h
  exact ⟨⟨val2, hI2, Ext.trans hg hI1 hE1 hE2⟩, hc⟩

theorem runRules_ok (hD : DataInvS S D ar I ok) {rules : List (Rule O)} (hr : RulesOk ar I rules) {g g' : EGraph O C}
    {val : Nat → V} {limit : Nat} {t : RunTrace} (hg : InvS S ar I ok g val)
    (h : runRules D E limit rules t g = some g') :
    ∃ val', InvS S ar I ok g' val' ∧ Ext g val g' val' := by
  unfold runRules at h
  rw [Option.bind_eq_some_iff] at h
  obtain ⟨g1, h1, h⟩ := h
  obtain ⟨⟨val1, hI1, hE1⟩, _⟩ := rebuild_ok hD hg h1
  obtain ⟨val2, hI2, hE2⟩ := foldlM_ok (runOne D E rules) (fun _ _ _ => True) (fun _ _ _ _ _ _ _ _ => trivial)
    (fun g val a g' hI _ hs => (runOne_ok hD hr hI hs).1) _ g1 val1 g' hI1 (fun _ _ => trivial) h
  exact ⟨val2, hI2, Ext.trans hg hI1 hE1 hE2⟩

theorem runSimple_ok (hD : DataInvS S D ar I ok) {rules : Ruleset O} (hr : RulesOk ar I (Ruleset.iter rules))
    {g g' : EGraph O C} {val : Nat → V} {l : Limits} {t : SchedTrace} (hg : InvS S ar I ok g val)
    (h : runSimple D E l rules t g = some g') :
    (∃ val', InvS S ar I ok g' val' ∧ Ext g val g' val') ∧ g'.closed = true := by
  unfold runSimple at h
  rw [Option.bind_eq_some_iff] at h
  obtain ⟨g1, h1, h⟩ := h
  obtain ⟨val1, hI1, hE1⟩ := runRules_ok hD hr hg h1
  obtain ⟨⟨val2, hI2, hE2⟩, hc⟩ := rebuild_ok hD hI1 h
  exact ⟨⟨val2, hI2, Ext.trans hg hI1 hE1 hE2⟩, hc⟩

theorem satLoop_ok (hD : DataInvS S D ar I ok) {sat other : List (Rule O)} (hs : RulesOk ar I sat)
    (ho : RulesOk ar I other) (rounds : Nat → RunTrace × RunTrace) (k : Nat) :
    ∀ (g g' : EGraph O C) (val : Nat → V), InvS S ar I ok g val → satLoop D E sat other rounds k g = some g' →
      ∃ val', InvS S ar I ok g' val' ∧ Ext g val g' val' := by
  induction k with
  | zero =>
    intro g g' val hg h
    simp only [satLoop, Option.some.injEq] at h
    subst h
    exact ⟨val, hg, Ext.refl _ _⟩
  | succ k ih =>
    intro g g' val hg h
    rw [satLoop, Option.bind_eq_some_iff] at h
    obtain ⟨g1, h1, h⟩ := h
    rw [Option.bind_eq_some_iff] at h
    obtain ⟨g2, h2, h⟩ := h
    obtain ⟨val1, hI1, hE1⟩ := runRules_ok hD hs hg h1
    obtain ⟨val2, hI2, hE2⟩ := runRules_ok hD ho hI1 h2
    obtain ⟨val3, hI3, hE3⟩ := ih g2 g' val2 hI2 h
    exact ⟨val3, hI3, Ext.trans hg hI2 (Ext.trans hg hI1 hE1 hE2) hE3⟩

omit [Lang O] in
theorem mem_iter_addAll (rs : Ruleset O) (rules : List (Rule O)) (r : Rule O)
    (h : r ∈ Ruleset.iter (Ruleset.addAll rs rules)) : r ∈ Ruleset.iter rs ∨ r ∈ rules := by
  induction rules generalizing rs with
  | nil => exact Or.inl h
  | cons a rules ih =>
    rcases ih (Ruleset.add rs a) h with h | h
    · simp only [Ruleset.iter, List.mem_map] at h
      obtain ⟨e, he, rfl⟩ := h
      rcases IndexMap.mem_insert he with rfl | he
      · exact Or.inr (by simp)
      · exact Or.inl (List.mem_map.2 ⟨e, he, rfl⟩)
    · exact Or.inr (by simp [h])

omit [Lang O] in
/-- Whatever the partition does, its parts contain only rules of the set. -/
theorem mem_partition (t : Ruleset.Split) (f : Rule O → Bool) (rs : Ruleset O) (r : Rule O)
    (h : r ∈ Ruleset.iter (Ruleset.partition t f rs).1 ∨ r ∈ Ruleset.iter (Ruleset.partition t f rs).2) :
    r ∈ Ruleset.iter rs := by
  simp only [Ruleset.partition, parPartition_eq] at h
  rcases h with h | h
  · rcases mem_iter_addAll _ _ _ h with h | h
    · simp [Ruleset.iter] at h
    · exact (List.mem_filter.1 h).1
  · rcases mem_iter_addAll _ _ _ h with h | h
    · simp [Ruleset.iter] at h
    · exact (List.mem_filter.1 h).1

theorem runSaturating_ok (hD : DataInvS S D ar I ok) {rules : Ruleset O} (hr : RulesOk ar I (Ruleset.iter rules))
    {isSat : Rule O → Bool} {g g' : EGraph O C} {val : Nat → V} {l : Limits} {t : SchedTrace}
    (hg : InvS S ar I ok g val) (h : runSaturating D E isSat l rules t g = some g') :
    (∃ val', InvS S ar I ok g' val' ∧ Ext g val g' val') ∧ g'.closed = true := by
  unfold runSaturating at h
  simp only at h
  have hs : RulesOk ar I (Ruleset.iter (Ruleset.partition t.split isSat rules).1) :=
    fun r hr' => hr r (mem_partition _ _ _ _ (Or.inl hr'))
  have ho : RulesOk ar I (Ruleset.iter (Ruleset.partition t.split isSat rules).2) :=
    fun r hr' => hr r (mem_partition _ _ _ _ (Or.inr hr'))
  rw [Option.bind_eq_some_iff] at h
  obtain ⟨g1, h1, h⟩ := h
  rw [Option.bind_eq_some_iff] at h
  obtain ⟨g2, h2, h⟩ := h
  obtain ⟨val1, hI1, hE1⟩ := satLoop_ok hD hs ho _ _ g g1 val hg h1
  obtain ⟨val2, hI2, hE2⟩ := runRules_ok hD hs hI1 h2
  obtain ⟨⟨val3, hI3, hE3⟩, hc⟩ := rebuild_ok hD hI2 h
  exact ⟨⟨val3, hI3, Ext.trans hg hI2 (Ext.trans hg hI1 hE1 hE2) hE3⟩, hc⟩

theorem uniteGroup_ok (hD : DataInvS S D ar I ok) {g g' : EGraph O C} {val : Nat → V} (hg : InvS S ar I ok g val)
    {l : List Nat} (hl : ∀ i ∈ l, i < g.n) (hv : ∀ i ∈ l, ∀ j ∈ l, val i = val j)
    (h : uniteGroup D E g l = some g') : ∃ val', InvS S ar I ok g' val' ∧ Ext g val g' val' := by
  cases l with
  | nil =>
    simp only [uniteGroup, Option.some.injEq] at h
    subst h
    exact ⟨val, hg, Ext.refl _ _⟩
  | cons a l =>
    simp only [uniteGroup] at h
    refine foldlM_ok (fun g i => EGraph.union D E g a i) (fun g val i => a < g.n ∧ i < g.n ∧ val a = val i) ?_ ?_
      l g val g' hg ?_ h
    · intro g val g' val' i _ hE ⟨h1, h2, h3⟩
      exact ⟨Nat.lt_of_lt_of_le h1 hE.n_le, Nat.lt_of_lt_of_le h2 hE.n_le,
        by rw [hE.val_eq _ h1, hE.val_eq _ h2, h3]⟩
    · intro g val i g' hg ⟨h1, h2, h3⟩ hs
      obtain ⟨val', a, b, _⟩ := union_ok hD hg h1 h2 h3 hs
      exact ⟨val', a, b⟩
    · intro i hi
      exact ⟨hl a (by simp), hl i (by simp [hi]), hv a (by simp) i (by simp [hi])⟩

theorem runCompress_ok (hD : DataInvS S D ar I ok) {rules : Ruleset O} (hr : RulesOk ar I (Ruleset.iter rules))
    {g g' : EGraph O C} {val : Nat → V} {l : Limits} {t : SchedTrace} (hg : InvS S ar I ok g val)
    (h : runCompress D E l rules t g = some g') :
    (∃ val', InvS S ar I ok g' val' ∧ Ext g val g' val') ∧ g'.closed = true := by
  unfold runCompress at h
  rw [Option.bind_eq_some_iff] at h
  obtain ⟨out, h1, h⟩ := h
  simp only at h
  rw [Option.bind_eq_some_iff] at h
  obtain ⟨g2, h2, h⟩ := h
  obtain ⟨⟨val1, hI1, hE1⟩, _⟩ := runSimple_ok hD hr hg h1
  have step : ∃ val', InvS S ar I ok g2 val' ∧ Ext g val g2 val' := by
    refine foldlM_ok (uniteGroup D t.clone) (fun g val l => (∀ i ∈ l, i < g.n) ∧ ∀ i ∈ l, ∀ j ∈ l, val i = val j)
      ?_ ?_ _ g val g2 hg ?_ h2
    · intro g val g' val' l _ hE ⟨h1, h2⟩
      refine ⟨fun i hi => Nat.lt_of_lt_of_le (h1 i hi) hE.n_le, fun i hi j hj => ?_⟩
      rw [hE.val_eq _ (h1 i hi), hE.val_eq _ (h1 j hj)]
      exact h2 i hi j hj
    · intro g val l g' hg ⟨h1, h2⟩ hs
      exact uniteGroup_ok hD hg h1 h2 hs
    · intro l hl
      simp only [groupsBy, List.mem_map] at hl
      obtain ⟨k, _, rfl⟩ := hl
      have hlt : ∀ i ∈ g.classes.filter (fun i => decide (out.find i = k)), i < g.n ∧ out.find i = k := by
        intro i hi
        simp only [EGraph.classes, List.mem_filter, List.mem_range, decide_eq_true_eq] at hi
        exact ⟨hi.1.1, hi.2⟩
      refine ⟨fun i hi => (hlt i hi).1, fun i hi j hj => ?_⟩
      obtain ⟨a1, a2⟩ := hlt i hi
      obtain ⟨b1, b2⟩ := hlt j hj
      rw [← hE1.val_eq i a1, ← hE1.val_eq j b1, ← hI1.val_find i (Nat.lt_of_lt_of_le a1 hE1.n_le),
        ← hI1.val_find j (Nat.lt_of_lt_of_le b1 hE1.n_le), a2, b2]
  obtain ⟨val2, hI2, hE2⟩ := step
  obtain ⟨⟨val3, hI3, hE3⟩, hc⟩ := rebuild_ok hD hI2 h
  exact ⟨⟨val3, hI3, Ext.trans hg hI2 hE2 hE3⟩, hc⟩

/-- Every scheduler. -/
theorem run_ok (hD : DataInvS S D ar I ok) {rules : Ruleset O} (hr : RulesOk ar I (Ruleset.iter rules))
    {isSat : Rule O → Bool} {s : Scheduler} {g g' : EGraph O C} {val : Nat → V} {t : SchedTrace}
    (hg : InvS S ar I ok g val) (h : Scheduler.run D E isSat s rules t g = some g') :
    (∃ val', InvS S ar I ok g' val' ∧ Ext g val g' val') ∧ g'.closed = true := by
  cases s with
  | simple l => exact runSimple_ok hD hr hg h
  | saturating l => exact runSaturating_ok hD hr hg h
  | compress l => exact runCompress_ok hD hr hg h

end Ruler
