import Verif.Spec.Decides
import Verif.Props.SatEnds
import Verif.Props.Progress
/-!
# Runs of saturating rules decide derivability: C79, C82
-/
namespace Ruler
open Spec EGraph
variable {O C V : Type} [Lang O] [LinearOrder C] {D : Domain O C} {ar : O → Nat → Prop}

/-- Inserting a pattern without making an id changes nothing. -/
private theorem addPat_same (hD : NoFold D) {E : Egg} {σ : Subst} (p : Pat O) :
    ∀ {g g' : EGraph O C} {k}, addPat D E σ p g = some (g', k) → g.n ≤ g'.n ∧ (g'.n = g.n → g' = g) := by
  have hadd : ∀ {g g' : EGraph O C} {nd k}, EGraph.add D E g nd = some (g', k) → g.n ≤ g'.n ∧ (g'.n = g.n → g' = g) := by
    intro g g' nd k h
    rcases add_free hD h with ⟨rfl, _⟩ | ⟨_, h1, _⟩
    · exact ⟨Nat.le_refl _, fun _ => rfl⟩
    · exact ⟨by omega, fun h => by omega⟩
  induction p using Pat.ind with
  | hv v =>
    intro g g' k h
    rw [addPat, Option.map_eq_some_iff] at h
    obtain ⟨j, hj, h⟩ := h
    cases h
    exact ⟨Nat.le_refl _, fun _ => rfl⟩
  | hn o l ih =>
    intro g g' k h
    rw [addPat, Option.bind_eq_some_iff] at h
    obtain ⟨⟨g1, ks⟩, h1, h2⟩ := h
    have key : ∀ (l : List (Pat O)) (g g1 : EGraph O C) (ks : List Nat),
        (∀ s ∈ l, ∀ {g g' : EGraph O C} {k}, addPat D E σ s g = some (g', k) → g.n ≤ g'.n ∧ (g'.n = g.n → g' = g)) →
        addPatL D E σ l g = some (g1, ks) → g.n ≤ g1.n ∧ (g1.n = g.n → g1 = g) := by
      intro l
      induction l with
      | nil =>
        intro g g1 ks _ h
        rw [addPatL] at h
        cases h
        exact ⟨Nat.le_refl _, fun _ => rfl⟩
      | cons a l ihl =>
        intro g g1 ks hs h
        rw [addPatL, Option.bind_eq_some_iff] at h
        obtain ⟨⟨g2, i⟩, k1, h⟩ := h
        rw [Option.map_eq_some_iff] at h
        obtain ⟨⟨g3, is⟩, k2, h⟩ := h
        cases h
        obtain ⟨a1, a2⟩ := hs a (by simp) k1
        obtain ⟨b1, b2⟩ := ihl g2 g3 is (fun s hs' => hs s (by simp [hs'])) k2
        refine ⟨Nat.le_trans a1 b1, fun he => ?_⟩
        simp only at a1 a2 b1 b2 he ⊢
        rw [b2 (by omega), a2 (by omega)]
    obtain ⟨a1, a2⟩ := key l g g1 ks ih h1
    obtain ⟨b1, b2⟩ := hadd h2
    refine ⟨Nat.le_trans a1 b1, fun he => ?_⟩
    simp only at a1 a2 b1 b2 he ⊢
    rw [b2 (by omega), a2 (by omega)]

private theorem jobs_ext (hD : NoFold D) (hE : EmptyVectors D) {E : Egg} (ms : List (Rule O × (Nat × Subst))) :
    ∀ {a h : EGraph O C}, SInv a → (∀ x ∈ ms, x.2.1 < a.n ∧ SubstLt a x.2.2) →
      ms.foldlM (fun a x => applyOne D E x.1.rhs a x.2) a = some h → SInv h ∧ UExt a h := by
  induction ms with
  | nil => intro a h ha _ hf; cases hf; exact ⟨ha, Ext.refl _ _⟩
  | cons x ms ih =>
    intro a h ha hx hf
    rw [List.foldlM_cons] at hf
    obtain ⟨b, hb, hf⟩ := Option.bind_eq_some_iff.1 hf
    obtain ⟨h2, k, _, ⟨I2, E2, _⟩, I1, E1, _⟩ := applyOne_cases hD hE ha (hx x (by simp)).1 (hx x (by simp)).2 hb
    have E12 := Ext.trans ha I2 E2 E1
    obtain ⟨I3, E3⟩ := ih I1 (fun y hy => ⟨Nat.lt_of_lt_of_le (hx y (by simp [hy])).1 E12.n_le, (hx y (by simp [hy])).2.ext E12.n_le⟩) hf
    exact ⟨I3, Ext.trans ha I1 E12 E3⟩

/-- Applications after which there are no more ids and no more equalities than before changed nothing on the way. -/
private theorem jobs_still (hD : NoFold D) (hE : EmptyVectors D) {E : Egg} (ms : List (Rule O × (Nat × Subst))) {g h : EGraph O C}
    (hg : SInv g) (hx : ∀ x ∈ ms, x.2.1 < g.n ∧ SubstLt g x.2.2)
    (hf : ms.foldlM (fun a x => applyOne D E x.1.rhs a x.2) g = some h) (hn : h.n = g.n)
    (hfind : ∀ i j, i < g.n → j < g.n → h.find i = h.find j → g.find i = g.find j) :
    ∀ x ∈ ms, applyOne D E x.1.rhs g x.2 = some g := by
  induction ms with
  | nil => simp
  | cons x ms ih =>
    rw [List.foldlM_cons] at hf
    obtain ⟨b, hb, hf'⟩ := Option.bind_eq_some_iff.1 hf
    obtain ⟨h2, k, hadd, ⟨I2, E2, l2, _⟩, I1, E1, en, _, hkm, hsame⟩ := applyOne_cases hD hE hg (hx x (by simp)).1 (hx x (by simp)).2 hb
    have E12 := Ext.trans hg I2 E2 E1
    obtain ⟨I3, E3⟩ := jobs_ext hD hE ms I1
      (fun y hy => ⟨Nat.lt_of_lt_of_le (hx y (by simp [hy])).1 E12.n_le, (hx y (by simp [hy])).2.ext E12.n_le⟩) hf'
    have hn2 : h2.n = g.n := by
      have h1 := E2.n_le
      have h3 := E3.n_le
      omega
    obtain rfl := (addPat_same hD _ hadd).2 hn2
    have hbg : b = h2 := by
      apply hsame
      exact hfind _ _ l2 (hx x (by simp)).1 (E3.find_eq _ _ (en ▸ l2) (en ▸ (hx x (by simp)).1) hkm)
    subst hbg
    intro y hy
    rcases List.mem_cons.1 hy with rfl | hy
    · exact hb
    · exact ih (fun y hy => hx y (by simp [hy])) hf' y hy

/-- A run that was not cut off leaves a saturated e-graph. -/
private theorem runsOut_saturated (hD : NoFold D) (hE : EmptyVectors D) {E : Egg} {rules : List (Rule O)} {t : RunTrace} {g : EGraph O C}
    (hg : SInv g) (h : RunsOut D E rules t g) :
    ∃ g1 g2, runRules D E t.iters.length rules t g = some g2 ∧ SInv g1 ∧ g1.closed = true ∧ SInv g2 ∧ UExt g g1 ∧ UExt g1 g2 ∧
      Saturated D E (· ∈ rules) g1 := by
  obtain ⟨ts, it, g1, g2, h1, h2, h3, h4, h5, h6⟩ := h
  obtain ⟨v1, I1, E1⟩ := runRules_ok (satInv hD hE) (anyRules _) hg h2
  obtain ⟨⟨v2, I2, E2⟩, _⟩ := runOne_ok (satInv hD hE) (anyRules _) I1 h4
  have hc : g1.closed = true := by
    unfold runRules at h2
    obtain ⟨a, h7, h8⟩ := Option.bind_eq_some_iff.1 h2
    rw [List.take_length] at h8
    rcases List.eq_nil_or_concat ts with rfl | ⟨us, u, rfl⟩
    · cases h8
      exact (rebuild_ok (satInv hD hE) hg h7).2
    · rw [List.concat_eq_append, List.foldlM_append] at h8
      obtain ⟨b, h9, h8⟩ := Option.bind_eq_some_iff.1 h8
      rw [List.foldlM_cons] at h8
      obtain ⟨c, h10, h8⟩ := Option.bind_eq_some_iff.1 h8
      cases h8
      unfold runOne at h10
      obtain ⟨d, _, h11⟩ := Option.bind_eq_some_iff.1 h10
      unfold EGraph.rebuild at h11
      obtain ⟨e, _, h12⟩ := Option.bind_eq_some_iff.1 h11
      split at h12
      · rename_i hcl
        cases h12
        exact hcl
      · cases h12
  refine ⟨g1, g2, ?_, I1, hc, I2, E1, E2, ?_⟩
  · unfold runRules at h2 ⊢
    obtain ⟨a, h7, h8⟩ := Option.bind_eq_some_iff.1 h2
    rw [List.take_length] at h8
    rw [h7, Option.bind_some, List.take_length, h1, List.foldlM_append, h8]
    change List.foldlM (runOne D E rules) g1 [it] = some g2
    rw [List.foldlM_cons, h4]
    rfl
  · unfold runOne at h4
    obtain ⟨h, h7, h8⟩ := Option.bind_eq_some_iff.1 h4
    obtain ⟨ms, h9, h10, h11⟩ := iteration_jobs h7
    have hlt : ∀ x ∈ ms, x.2.1 < g1.n ∧ SubstLt g1 x.2.2 := by
      intro x hx
      obtain ⟨a1, a2, _⟩ := search_prep (r := x.1) I1 (h9 x hx).2
      exact ⟨a1, a2⟩
    obtain ⟨I3, E3⟩ := jobs_ext hD hE ms I1 hlt h10
    obtain ⟨⟨v4, I4, E4⟩, _⟩ := rebuild_ok (satInv hD hE) I3 h8
    have hstill := jobs_still hD hE ms I1 hlt h10 (by have := E3.n_le; have := E4.n_le; omega) (by
      intro i j hi hj he
      have := E4.find_eq i j (Nat.lt_of_lt_of_le hi E3.n_le) (Nat.lt_of_lt_of_le hj E3.n_le) he
      rwa [h6 i hi, h6 j hj] at this)
    intro r hr m hm
    exact ⟨g1, hstill (r, m) (h11 h3 r hr m hm), rfl, fun _ _ => rfl⟩

/-- With rules that are all classified as saturating, the other phase has nothing to do. -/
private theorem partition_all {isSat : Rule O → Bool} {rs : Ruleset O} (hw : WellFormed rs) (hs : ∀ q ∈ Ruleset.iter rs, isSat q = true)
    (t : Ruleset.Split) : Ruleset.partition t isSat rs = (rs, []) := by
  rw [C17_partition t isSat rs hw]
  have h : ∀ e ∈ rs, isSat e.2 = true := fun e he => hs e.2 (List.mem_map.2 ⟨e, he, rfl⟩)
  rw [List.filter_eq_self.2 h, List.filter_eq_nil_iff.2 (by intro e he; simp [h e he])]

/-- **C79 (derivability, decided).** Let all rules be classified as saturating, and readable in both directions, without constant folding. If `can_derive`
answers no, and the last run of the rules was not cut off by a limit, then the equation cannot be proved from the rules; and whenever it answers yes, it can. -/
theorem C79_decides (hD : NoFold D) (hE : EmptyVectors D) (hv : VarsOk (O := O) ar) {rs : Ruleset O} (hw : WellFormed rs)
    (hR : ∀ q ∈ Ruleset.iter rs, GoodRule ar q) (hrev : Reversible (· ∈ Ruleset.iter rs)) {r : Rule O} (hr : GoodRule ar r)
    {E : Egg} {isSat : Rule O → Bool} (hs : ∀ q ∈ Ruleset.iter rs, isSat q = true) {ty : DeriveType} {limits : Limits} {t : SchedTrace} {b : Bool}
    (h : Ruleset.canDerive D E isSat ty limits t rs r = some b)
    (hfin : b = false → ∀ g g0, deriveStart D E ty r.lhs.instantiate r.rhs.instantiate = some g →
      satLoop D E (Ruleset.iter rs) [] t.rounds limits.iter g = some g0 → RunsOut D E (Ruleset.iter rs) t.lastRun g0) :
    b = true ↔ Provable (· ∈ Ruleset.iter rs) (fun _ _ => False) r.lhs.instantiate r.rhs.instantiate := by
  constructor
  · rintro rfl
    exact provable_of_holds (C32_consequence hD hv hR hr h _ _ fun q hq => holds_provOp hq)
  · intro hp
    by_contra hb
    rw [Bool.not_eq_true] at hb
    subst hb
    have h' := h
    unfold Ruleset.canDerive at h
    obtain ⟨g, hg, h⟩ := Option.bind_eq_some_iff.1 h
    obtain ⟨out, hout, h⟩ := Option.bind_eq_some_iff.1 h
    obtain ⟨val, hI, ⟨i, hi⟩, hj⟩ := derive_start hE hg
    have hreach : AnyHistory D g := deriveStart_reach (TmOk.any _) (TmOk.any _) hg
    obtain ⟨v0, hF⟩ := AnyHistory.free hD hreach
    have hS : SInv g := ⟨hI.find_lt, hI.find_ge, hI.idem, hI.nodes_lt, hI.nodes_ar, fun _ _ => rfl, fun _ _ => rfl,
      fun i hi => ⟨hF.data_ok i hi, hI.data_ok i hi⟩, hI.side_len, fun _ h => h.elim⟩
    rw [Scheduler.run, runSaturating, partition_all hw hs] at hout
    simp only at hout
    obtain ⟨g0, h0, hout⟩ := Option.bind_eq_some_iff.1 hout
    obtain ⟨v1, I0, E0⟩ := satLoop_ok (satInv hD hE) (anyRules _) (anyRules _) _ _ g g0 _ hS h0
    obtain ⟨g1, g2, k1, J1, hc1, J2, F1, F2, hsat⟩ := runsOut_saturated hD hE I0 (hfin rfl g g0 hg h0)
    rw [k1, Option.bind_some] at hout
    obtain ⟨⟨v3, J3, F3⟩, hc⟩ := rebuild_ok (satInv hD hE) J2 hout
    have r0 := Rep.ext hS E0 _ _ (Rep.lt hI hi) hi
    have r1 := Rep.ext I0 F1 _ _ (Rep.lt I0 r0) r0
    have key : ∀ u, Rep g1 u i → out.lookupTm u = some (out.find i) := by
      intro u hu
      have r2 := Rep.ext J1 F2 _ _ (Rep.lt J1 hu) hu
      exact rep_lookupTm J3 hc _ _ (Rep.ext J2 F3 _ _ (Rep.lt J2 r2) r2)
    have r2 := saturated_reps (val := fun _ => ()) ⟨J1.find_lt, J1.find_ge, J1.idem, J1.nodes_lt, J1.nodes_ar, fun _ _ => rfl, fun _ _ => rfl,
      fun _ _ => trivial, fun _ h => (by cases h), fun _ h => h.elim⟩ hc1 J1.defined hsat ((provable_iff_rewritesTo hrev).1 hp) r1
    rw [key _ r1, key _ r2] at h
    simp at h

/-- An iteration in which all matches are applied; if that changes nothing, neither does the rebuild. -/
private theorem full_iteration {S : Side O} {I : O → List V → V} {ok : Signature O C → V → Prop} (hI : DataInvS S D ar I ok)
    (hT : StepTotal S D ar I ok) {E : Egg} (hE : 2 ≤ E.depth) {rules : List (Rule O)} (hr : RulesSafe ar I rules) {g : EGraph O C} {val : Nat → V}
    (hg : InvS S ar I ok g val) (hc : g.closed = true) :
    ∃ it g', AllPicked rules g it ∧ runOne D E rules g it = some g' ∧
      (((rules.zip (rules.map fun r => g.search r.lhs)).zip it.picks).foldlM (applyPicked D E) g = some g → g' = g) := by
  obtain ⟨⟨picks, reps⟩, ⟨h1, _⟩, g', h2⟩ := runOne_goes (E := E) hI hT hE hr hg
    ⟨rules.map fun r => List.range (g.search r.lhs).length, []⟩
  simp only at h1
  subst h1
  have hall : ∀ reps, AllPicked rules g ⟨rules.map fun r => List.range (g.search r.lhs).length, reps⟩ := by
    refine fun reps => ⟨by simp, ?_⟩
    intro k r ps hk hps j hj
    simp only [List.getElem?_map, hk, Option.map_some, Option.some.injEq] at hps
    rw [← hps]
    exact List.mem_range.2 hj
  by_cases hid : ((rules.zip (rules.map fun r => g.search r.lhs)).zip (rules.map fun r => List.range (g.search r.lhs).length)).foldlM
      (applyPicked D E) g = some g
  · refine ⟨⟨rules.map fun r => List.range (g.search r.lhs).length, []⟩, g, hall [], ?_, fun _ => rfl⟩
    unfold runOne
    simp only [hid, Option.bind_some]
    simp [EGraph.rebuild, hc]
  · exact ⟨_, g', hall reps, h2, fun h => absurd h hid⟩

/-- Iterations in which all matches are applied come to an end. -/
private theorem full_run (hD : NoFold D) (hE : EmptyVectors D) {S : Side O} {I : O → List V → V} {ok : Signature O C → V → Prop}
    (hI : DataInvS S D ar I ok) (hT : StepTotal S D ar I ok) {E : Egg} (hdep : 2 ≤ E.depth) {rules : List (Rule O)} (hr : RulesSafe ar I rules)
    (hargs : ∀ r ∈ rules, ArgsOccur r.lhs r.rhs) {n : Nat} (d : Nat) :
    ∀ {g : EGraph O C} {val : Nat → V}, InvS S ar I ok g val → SInv g → g.closed = true → OldIds n g → workBound rules n ≤ d + known rules n g →
      ∃ (ts : List IterTrace) (it : IterTrace) (g1 : EGraph O C), ts.length ≤ d ∧ ts.foldlM (runOne D E rules) g = some g1 ∧
        AllPicked rules g1 it ∧ runOne D E rules g1 it = some g1 := by
  have step : ∀ {g : EGraph O C} {val : Nat → V}, InvS S ar I ok g val → SInv g → g.closed = true → OldIds n g →
      ∃ it g', AllPicked rules g it ∧ runOne D E rules g it = some g' ∧ (g' = g ∨ ((∃ val', InvS S ar I ok g' val') ∧ SInv g' ∧
        g'.closed = true ∧ OldIds n g' ∧ known rules n g < known rules n g')) := by
    intro g val hg hs hc ho
    obtain ⟨it, g', h1, h2, h3⟩ := full_iteration (E := E) hI hT hdep hr hg hc
    refine ⟨it, g', h1, h2, ?_⟩
    have h2' := h2
    unfold runOne at h2
    obtain ⟨h, h4, h5⟩ := Option.bind_eq_some_iff.1 h2
    by_cases he : h = g
    · subst he
      exact .inl (h3 h4)
    · right
      obtain ⟨ms, h6, h7, _⟩ := iteration_jobs h4
      have ha : Applies D (· ∈ rules) g g h := applies_of_jobs ms g h6 h7
      obtain ⟨I1, E1, I2, E2, c2, o2⟩ := iteration_old hD hE hargs hs ha h5
      obtain ⟨⟨val', hI', _⟩, _⟩ := runOne_ok hI hr.rulesOk hg h2'
      exact ⟨⟨val', hI'⟩, I2, c2, ho.next (Ext.trans hs I1 E1 E2) o2, busy_known hD hE hargs hs hc ho ha he h5⟩
  induction d with
  | zero =>
    intro g val hg hs hc ho hb
    obtain ⟨it, g', h1, h2, rfl | ⟨_, _, _, _, h3⟩⟩ := step hg hs hc ho
    · exact ⟨[], it, g', by simp, rfl, h1, h2⟩
    · have := known_le rules n g'
      omega
  | succ d ih =>
    intro g val hg hs hc ho hb
    obtain ⟨it, g', h1, h2, rfl | ⟨⟨val', h4⟩, h5, h6, h7, h3⟩⟩ := step hg hs hc ho
    · exact ⟨[], it, g', by simp, rfl, h1, h2⟩
    · obtain ⟨ts, it', g1, k1, k2, k3, k4⟩ := ih h4 h5 h6 h7 (by omega)
      exact ⟨it :: ts, it', g1, by simp [k1], by rw [List.foldlM_cons, h2]; exact k2, k3, k4⟩

/-- Phases without iterations make no ids. -/
private theorem satLoop_still (hD : NoFold D) (hE : EmptyVectors D) {E : Egg} {sat other : List (Rule O)} {rounds : Nat → RunTrace × RunTrace}
    (hr : ∀ j, (rounds j).1.iters = [] ∧ (rounds j).2.iters = []) (k : Nat) :
    ∀ {g g' : EGraph O C}, SInv g → satLoop D E sat other rounds k g = some g' → SInv g' ∧ UExt g g' ∧ g'.n = g.n := by
  induction k with
  | zero => intro g g' hg h; cases h; exact ⟨hg, Ext.refl _ _, rfl⟩
  | succ k ih =>
    intro g g' hg h
    rw [satLoop] at h
    obtain ⟨a, h1, h⟩ := Option.bind_eq_some_iff.1 h
    obtain ⟨b, h2, h⟩ := Option.bind_eq_some_iff.1 h
    have key : ∀ {rules : List (Rule O)} {n : Nat} {t : RunTrace} {x y : EGraph O C}, SInv x → t.iters = [] → runRules D E n rules t x = some y →
        SInv y ∧ UExt x y ∧ y.n = x.n := by
      intro rules n t x y hx ht h
      unfold runRules at h
      obtain ⟨z, h3, h4⟩ := Option.bind_eq_some_iff.1 h
      rw [ht, List.take_nil] at h4
      cases h4
      obtain ⟨⟨_, I1, E1⟩, _⟩ := rebuild_ok (satInv hD hE) hx h3
      exact ⟨I1, E1, (rebuild_shrinks hD hx.free h3).2.n_eq⟩
    obtain ⟨I1, E1, n1⟩ := key hg (hr k).1 h1
    obtain ⟨I2, E2, n2⟩ := key I1 (hr k).2 h2
    obtain ⟨I3, E3, n3⟩ := ih I2 h
    exact ⟨I3, Ext.trans hg I1 E1 (Ext.trans I1 I2 E2 E3), by omega⟩

private theorem start_sinv (hD : NoFold D) (hE : EmptyVectors D) {E : Egg} {ty : DeriveType} {l r : Tm O} {g : EGraph O C}
    (h : deriveStart D E ty l r = some g) : SInv g := by
  obtain ⟨val, hI, _⟩ := derive_start hE h
  obtain ⟨v0, hF⟩ := AnyHistory.free hD (deriveStart_reach (TmOk.any _) (TmOk.any _) h)
  exact ⟨hI.find_lt, hI.find_ge, hI.idem, hI.nodes_lt, hI.nodes_ar, fun _ _ => rfl, fun _ _ => rfl,
    fun i hi => ⟨hF.data_ok i hi, hI.data_ok i hi⟩, hI.side_len, fun _ h => h.elim⟩

/-- **C82 (decision).** Without constant folding, `can_derive` decides provability from rules that `is_saturating` classifies as saturating and that can be
read in both directions: it has a run that is not cut off, with at most `workBound + 1` iterations in the last phase, and such a run answers yes exactly for
what can be proved. Missing: constant folding, with which runs of such rules need not end (`C82_endless`). -/
theorem C82_decides_partial [Nonempty V] {I : O → List V → V} {mem : Interval C → V → Prop} {fits : Option C → V → Prop}
    (hS : SafeDomain D ar I mem fits) (hD : NoFold D) (hE : EmptyVectors D) {rs : Ruleset O} (hw : WellFormed rs)
    (hR : ∀ q ∈ Ruleset.iter rs, SafeRule ar I q) (hrev : Reversible (· ∈ Ruleset.iter rs))
    (hsat : ∀ q ∈ Ruleset.iter rs, ∃ E steps, isSaturating D E steps q = some true) {r : Rule O} (hr : GoodRule ar r)
    {E : Egg} (hdep : 2 ≤ E.depth) {isSat : Rule O → Bool} (hs : ∀ q ∈ Ruleset.iter rs, isSat q = true) (ty : DeriveType) (limits : Limits) :
    ∃ t g b, deriveStart D E ty r.lhs.instantiate r.rhs.instantiate = some g ∧ t.lastRun.iters.length ≤ workBound (Ruleset.iter rs) g.n + 1 ∧
      Ruleset.canDerive D E isSat ty limits t rs r = some b ∧
      (b = true ↔ Provable (· ∈ Ruleset.iter rs) (fun _ _ => False) r.lhs.instantiate r.rhs.instantiate) := by
  obtain ⟨g, hg, val, i, hB, hi, hrep⟩ := deriveStart_goes (E := E) hS.bare hdep hr.1 ty
  have hI := start_sinv hD hE hg
  have hsafe := rulesSafe_piAlg (Y := fun _ => True) hR
  have hnil : RulesSafe (arOn ar fun _ => True) (piAlg I) ([] : List (Rule O)) := fun _ h => (by cases h)
  obtain ⟨rounds, k1, g0, k2⟩ := satLoop_goes (E := E) (bareInv hS) (bareTotal hS) hdep hsafe hnil (fun _ => (⟨[], []⟩, ⟨[], []⟩)) limits.iter g val hB
  have hempty : ∀ j, (rounds j).1.iters = [] ∧ (rounds j).2.iters = [] := by
    intro j
    obtain ⟨h1, h2⟩ := k1 j
    have e1 := h1.2.length_eq
    have e2 := h2.2.length_eq
    simp only [List.length_nil] at e1 e2
    exact ⟨List.eq_nil_of_length_eq_zero e1.symm, List.eq_nil_of_length_eq_zero e2.symm⟩
  obtain ⟨val0, B0, _⟩ := satLoop_ok (bareInv hS) hsafe.rulesOk hnil.rulesOk _ _ g g0 val hB k2
  obtain ⟨I0, _, n0⟩ := satLoop_still hD hE hempty _ hI k2
  obtain ⟨first, g1, k3⟩ := rebuild_extends (E := E) (bareInv hS) (bareTotal hS) hdep B0 []
  obtain ⟨⟨val1, B1, _⟩, hc1⟩ := rebuild_ok (bareInv hS) B0 k3
  obtain ⟨⟨_, I1, _⟩, _⟩ := rebuild_ok (satInv hD hE) I0 k3
  have n1 := (rebuild_shrinks hD I0.free k3).2.n_eq
  have hargs : ∀ q ∈ Ruleset.iter rs, ArgsOccur q.lhs q.rhs :=
    sat_args hD hS.vars.1 fun q hq => ⟨(hR q hq).1.2.1, (hR q hq).1.2.2, hsat q hq⟩
  obtain ⟨ts, it, g2, k4, k5, k6, k7⟩ := full_run (E := E) hD hE (bareInv hS) (bareTotal hS) hdep hsafe hargs (n := g1.n)
    (workBound (Ruleset.iter rs) g1.n) B1 I1 hc1 ⟨Nat.le_refl _, fun i hi => ⟨i, hi, rfl⟩⟩ (Nat.le_add_right _ _)
  let t : SchedTrace := ⟨⟨[], []⟩, rounds, ⟨[] ++ first, ts ++ [it]⟩, .leaf, [], E, id, []⟩
  have hlast : runRules D E t.lastRun.iters.length (Ruleset.iter rs) t.lastRun g0 = some g2 := by
    unfold runRules
    rw [List.take_length]
    change (EGraph.rebuild D E ([] ++ first) g0).bind (fun g => (ts ++ [it]).foldlM (runOne D E (Ruleset.iter rs)) g) = some g2
    rw [k3, Option.bind_some, List.foldlM_append, k5]
    change List.foldlM (runOne D E (Ruleset.iter rs)) g2 [it] = some g2
    rw [List.foldlM_cons, k7]
    rfl
  obtain ⟨val2, B2, E2⟩ := runRules_ok (bareInv hS) hsafe.rulesOk B0 hlast
  have hc2 : g2.closed = true := (runOne_ok (bareInv hS) hsafe.rulesOk B2 k7).2
  have hrun : Scheduler.run D E isSat (.saturating limits) rs t g = some g2 := by
    rw [Scheduler.run, runSaturating, partition_all hw hs]
    simp only
    rw [show Ruleset.iter ([] : Ruleset O) = [] from rfl, show t.rounds = rounds from rfl, k2, Option.bind_some, hlast, Option.bind_some]
    simp [t, EGraph.rebuild, hc2]
  have hb : ∃ b, Ruleset.canDerive D E isSat ty limits t rs r = some b := by
    obtain ⟨⟨_, hout, he⟩, hc⟩ := run_ok (bareInv hS) hsafe.rulesOk hB hrun
    have := rep_lookupTm hout hc _ i (Rep.ext hB he _ i hi hrep)
    exact ⟨_, by rw [Ruleset.canDerive, hg, Option.bind_some, hrun, Option.bind_some, this]; rfl⟩
  obtain ⟨b, hb⟩ := hb
  refine ⟨t, g, b, hg, ?_, hb, ?_⟩
  · change (ts ++ [it]).length ≤ _
    rw [n1, n0] at k4
    simpa using k4
  · refine C79_decides hD hE hS.vars.1 hw (fun q hq => (hR q hq).1) hrev hr hs hb ?_
    intro _ g' g0' h1 h2
    rw [hg] at h1
    cases h1
    rw [show t.rounds = rounds from rfl, k2] at h2
    cases h2
    refine ⟨ts, it, g2, g2, rfl, ?_, k6, k7, rfl, fun _ _ => rfl⟩
    unfold runRules
    rw [List.take_length]
    change (EGraph.rebuild D E ([] ++ first) g0).bind (fun g => ts.foldlM (runOne D E (Ruleset.iter rs)) g) = some g2
    rw [k3, Option.bind_some, k5]

namespace Sample
/-- Two iterations of commutativity in the last phase: the first adds the other sum, the second changes nothing. -/
def commTrace : SchedTrace := { trace with lastRun := ⟨[], [⟨[[0]], [.congr 3]⟩, ⟨[[0, 1]], []⟩]⟩ }
end Sample

-- `(+ ?a ?b) ==> ?a` cannot be proved from commutativity: `can_derive` answers no, and its last run is not cut off.
example : ¬ Provable (· ∈ Ruleset.iter Sample.predRules) (fun _ _ => False) Sample.predFst.lhs.instantiate Sample.predFst.rhs.instantiate := by
  have h : ((deriveStart halideDomain Sample.egg .lhsAndRhs Sample.predFst.lhs.instantiate Sample.predFst.rhs.instantiate).all fun g =>
      (satLoop halideDomain Sample.egg (Ruleset.iter Sample.predRules) [] Sample.commTrace.rounds Sample.limits.iter g).all fun g0 =>
      (runRules halideDomain Sample.egg 1 (Ruleset.iter Sample.predRules) ⟨[], [⟨[[0]], [.congr 3]⟩]⟩ g0).any fun g1 =>
      decide ((g1.search Sample.predComm.lhs).length = 2) &&
      (runOne halideDomain Sample.egg (Ruleset.iter Sample.predRules) g1 ⟨[[0, 1]], []⟩).any fun g2 =>
      decide (g2.n = g1.n) && decide (∀ i, i < g1.n → g2.find i = g1.find i)) = true ∧
      Ruleset.canDerive halideDomain Sample.egg (fun _ => true) .lhsAndRhs Sample.limits Sample.commTrace Sample.predRules Sample.predFst =
        some false := by decide +kernel
  obtain ⟨h, hno⟩ := h
  have := C79_decides halide_noFold (C79_domains (fun _ _ => 0) 4 Sample.exactRat).2.2.2.1 (ar := fun (o : PredOp) k => k = o.arity)
    (fun _ => ⟨rfl, rfl⟩) (rs := Sample.predRules) (by simp [WellFormed, Sample.predRules]) Sample.pred_good Sample.pred_reversible Sample.predFst_good (fun _ _ => rfl) hno
    (by
      intro _ g g0 hg h0
      rw [Option.all_eq_true] at h
      have h := h g hg
      rw [Option.all_eq_true] at h
      have h := h g0 h0
      simp only [Option.any_eq_true, Bool.and_eq_true, decide_eq_true_eq] at h
      obtain ⟨g1, h1, h2, g2, h3, h4, h5⟩ := h
      refine ⟨_, _, g1, g2, rfl, h1, ⟨rfl, ?_⟩, h3, h4, h5⟩
      intro k r ps hk hps j hj
      match k with
      | 0 =>
        cases hk
        cases hps
        rw [h2] at hj
        have : j = 0 ∨ j = 1 := by omega
        simpa using this
      | k + 1 => simp [Ruleset.iter, Sample.predRules] at hk)
  simpa using this

-- Commutativity of addition in the Halide domain meets all conditions, so the decision is made for every equation.
example {r : Rule PredOp} (hr : GoodRule (fun o k => (k = o.arity ∧ PredLitFits o) ∧ o ≠ .neg ∧ o ≠ .div) r) :
    ∃ t b, Ruleset.canDerive halideDomain Sample.egg (fun _ => true) .lhs Sample.limits t Sample.predRules r = some b ∧
      (b = true ↔ Provable (· ∈ Ruleset.iter Sample.predRules) (fun _ _ => False) r.lhs.instantiate r.rhs.instantiate) := by
  have hgood : SafeRule (fun o k => (k = o.arity ∧ PredLitFits o) ∧ o ≠ .neg ∧ o ≠ .div) predOpVal Sample.predComm := by
    refine ⟨⟨⟨.node ⟨⟨rfl, trivial⟩, by simp, by simp⟩ ?_, .node ⟨⟨rfl, trivial⟩, by simp, by simp⟩ ?_⟩, .node rfl ?_, .node rfl ?_⟩, ?_, ?_⟩
    iterate 4
      intro a ha
      rcases List.mem_cons.1 ha with rfl | ha <;> first
        | exact .var
        | exact .var (by decide)
        | (rcases List.mem_singleton.1 ha with rfl; first | exact .var | exact .var (by decide))
    · intro ρ
      simp [Sample.predComm, patVal, patValL, predOpVal, Int.add_comm]
    · simp [BoundRhs, Sample.predComm, Pat.vars, Pat.varsL]
  obtain ⟨t, _, b, _, _, h⟩ := C82_decides_partial halide_safe halide_noFold (C79_domains (fun _ _ => 0) 4 Sample.exactRat).2.2.2.1
    (rs := Sample.predRules) (by simp [WellFormed, Sample.predRules]) (by
      intro q hq
      have : q = Sample.predComm := by simpa [Ruleset.iter, Sample.predRules] using hq
      exact this ▸ hgood) Sample.pred_reversible (by
      intro q hq
      have : q = Sample.predComm := by simpa [Ruleset.iter, Sample.predRules] using hq
      subst this
      exact ⟨Sample.egg, [], by decide +kernel⟩) hr (E := Sample.egg) (by decide) (isSat := fun _ => true) (fun _ _ => rfl) .lhs Sample.limits
  exact ⟨t, b, h⟩

end Ruler
