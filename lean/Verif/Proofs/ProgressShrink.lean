import Verif.Proofs.ProgressBuild
import Verif.Proofs.Minimize
/-! Shrinking, deriving and minimizing do not fail. -/
namespace Ruler
open Spec EGraph
variable {O C V : Type} [Lang O] [LinearOrder C]
variable {ar : O → Nat → Prop} {D : Domain O C} {E : Egg}
variable {I : O → List V → V} {mem : Interval C → V → Prop} {fits : Option C → V → Prop}

/-- The constraint on e-graphs without vectors. -/
abbrev noVecs (O : Type) [Lang O] : Side O := ⟨some 0, fun o => ∃ x ∈ ([] : List String), o = Lang.mkVar x⟩

/-- The invariant for e-graphs without vectors. -/
abbrev BareInv (ar : O → Nat → Prop) (I : O → List V → V) (mem : Interval C → V → Prop) (fits : Option C → V → Prop)
    (g : EGraph O C) (val : Nat → (String → V) → V) : Prop :=
  InvS (noVecs O) (arOn ar fun _ => True) (piAlg I) (SafeOk mem fits 0 []) g val

theorem bareInv [Nonempty V] (hD : SafeDomain D ar I mem fits) :
    DataInvS (noVecs O) D (arOn ar fun _ => True) (piAlg I) (SafeOk mem fits 0 []) :=
  safeInv hD.folds hD.plain hD.vars hD.leaf hD.total (fun j hj => absurd hj (Nat.not_lt_zero j))
    (fun x hx => by cases hx) fun x _ _ args cv h => by
      have := hD.computes.var 0 _ args cv (by rw [(hD.vars.1 x).1]; rfl) h
      subst this
      exact ⟨rfl, fun j hj => absurd hj (Nat.not_lt_zero j)⟩

theorem bareTotal [Nonempty V] (hD : SafeDomain D ar I mem fits) :
    StepTotal (noVecs O) D (arOn ar fun _ => True) (piAlg I) (SafeOk mem fits 0 []) :=
  DataTotal.steps (bareInv hD) (safeTotal hD.folds hD.plain hD.vars hD.leaf hD.total (fun j hj => absurd hj (Nat.not_lt_zero j))
    fun x hx => by cases hx)

/-- What is needed of a domain for e-graphs without vectors. -/
structure BareOk (D : Domain O C) (ar : O → Nat → Prop) (I : O → List V → V)
    (ok : Signature O C → ((String → V) → V) → Prop) : Prop where
  inv : DataInvS (noVecs O) D (arOn ar fun _ => True) (piAlg I) ok
  total : StepTotal (noVecs O) D (arOn ar fun _ => True) (piAlg I) ok
  vars : VarOps (O := O) ar

theorem Spec.SafeDomain.bare [Nonempty V] (hD : SafeDomain D ar I mem fits) : BareOk D ar I (SafeOk mem fits 0 []) :=
  ⟨bareInv hD, bareTotal hD, hD.vars⟩

variable {ok : Signature O C → ((String → V) → V) → Prop}

omit [LinearOrder C] in
theorem bare_empty [Nonempty V] : ∃ val, InvS (noVecs O) (arOn ar fun _ => True) (piAlg I) ok (EGraph.empty : EGraph O C) val := by
  obtain ⟨v⟩ := ‹Nonempty V›
  exact ⟨fun _ _ => v, fun _ h => absurd h (Nat.not_lt_zero _), fun _ _ => rfl, fun _ => rfl, by simp [EGraph.empty],
    by simp [EGraph.empty], fun _ h => absurd h (Nat.not_lt_zero _), by simp [EGraph.empty],
    fun _ h => absurd h (Nat.not_lt_zero _), fun m hm => Option.some.inj hm, fun o ⟨x, hx, _⟩ => by cases hx⟩

omit [LinearOrder C] in
theorem side_ok (hv : VarOps (O := O) ar) {p : Pat O} (h : PatOk ar p) : TmOk (arOn ar fun _ => True) p.instantiate :=
  TmOk.arOn (TmOk.instantiate hv.1 h) fun _ _ => trivial

/-- Adding the sides of rules does not fail. -/
theorem insertSides_total [Nonempty V] (hD : BareOk D ar I ok) (hE : 2 ≤ E.depth) (rs : List (Rule O))
    (hr : ∀ r ∈ rs, RuleOk ar r) : ∀ {g : EGraph O C} {val : Nat → (String → V) → V}, InvS (noVecs O) (arOn ar fun _ => True) (piAlg I) ok g val →
      ∃ g' l, insertSides D E rs g = some (g', l) ∧ ∃ val', InvS (noVecs O) (arOn ar fun _ => True) (piAlg I) ok g' val' := by
  induction rs with
  | nil => exact fun {g val} hg => ⟨g, [], rfl, val, hg⟩
  | cons r rs ih =>
    intro g val hg
    have hl := side_ok hD.vars (hr r (by simp)).1
    have hr' := side_ok hD.vars (hr r (by simp)).2
    obtain ⟨g1, i, h1⟩ := addTm_total (E := E) hD.inv hD.total hE _ hl g val hg
    obtain ⟨val1, hg1, -⟩ := addTm_ok hD.inv hl hg h1
    obtain ⟨g2, j, h2⟩ := addTm_total (E := E) hD.inv hD.total hE _ hr' g1 val1 hg1
    obtain ⟨val2, hg2, -⟩ := addTm_ok hD.inv hr' hg1 h2
    obtain ⟨g3, l, h3, val3, hg3⟩ := ih (fun q hq => hr q (by simp [hq])) hg2
    exact ⟨g3, (i, j, r) :: l, by rw [insertSides, h1, Option.bind_some, h2, Option.bind_some, h3]; rfl, val3, hg3⟩

/-- `shrink` does not fail; its rebuilds can be completed. -/
theorem shrink_goes [Nonempty V] (hD : BareOk D ar I ok) (hE : 2 ≤ E.depth) {cands chosen : Ruleset O}
    (hc : ∀ r ∈ Ruleset.iter cands, RuleOk ar r) (hr : RulesSafe (arOn ar fun _ => True) (piAlg I) (Ruleset.iter chosen))
    (isSat : Rule O → Bool) (s : Scheduler) (t : SchedTrace) (ht : 2 ≤ t.clone.depth) :
    ∃ t', SchedTrace.Goes t t' ∧ ∃ rest, Ruleset.shrink D E isSat s t' cands chosen = some rest := by
  obtain ⟨val, h0⟩ := bare_empty (O := O) (C := C) (ar := ar) (I := I) (ok := ok)
  obtain ⟨g, l, h1, val1, hg⟩ := insertSides_total (E := E) hD hE (Ruleset.iter cands) hc h0
  obtain ⟨t', h2, g', h3⟩ := run_goes (E := E) hD.inv hD.total hE (rules := chosen) hr isSat s hg
    t ht
  exact ⟨t', h2, _, by rw [Ruleset.shrink, h1, Option.bind_some, h3]; rfl⟩

/-- `is_saturating` does not fail on a valid rule. -/
theorem isSaturating_goes [Nonempty V] (hD : BareOk D ar I ok) (hE : 2 ≤ E.depth) {r : Rule O}
    (hr : GoodRule ar r) (hh : Holds I r) (steps : List Repair) :
    ∃ more b, isSaturating D E (steps ++ more) r = some b := by
  obtain ⟨val, h0⟩ := bare_empty (O := O) (C := C) (ar := ar) (I := I) (ok := ok)
  have hl := side_ok hD.vars hr.1.1
  have hr' := side_ok hD.vars hr.1.2
  obtain ⟨g1, i, h1⟩ := addTm_total (E := E) hD.inv hD.total hE _ hl _ _ h0
  obtain ⟨val1, hg1, -, hi, -, hvi, -⟩ := addTm_ok hD.inv hl h0 h1
  obtain ⟨g2, j, h2⟩ := addTm_total (E := E) hD.inv hD.total hE _ hr' g1 val1 hg1
  obtain ⟨val2, hg2, he, hj, -, hvj, -⟩ := addTm_ok hD.inv hr' hg1 h2
  have hval : val2 i = val2 j := by
    rw [he.val_eq i hi, hvi, hvj]
    funext env
    rw [fold_piAlg, fold_piAlg, withVars_instantiate hD.vars.1 env I hr.2.1, withVars_instantiate hD.vars.1 env I hr.2.2]
    exact hh _
  obtain ⟨g3, h3⟩ := union_total (E := E) hD.inv hD.total hE hg2 (Nat.lt_of_lt_of_le hi he.n_le) hj hval
  obtain ⟨val3, hg3, -⟩ := union_ok hD.inv hg2 (Nat.lt_of_lt_of_le hi he.n_le) hj hval h3
  obtain ⟨more, g4, h4⟩ := rebuild_extends (E := E) hD.inv hD.total hE hg3 steps
  exact ⟨more, _, by rw [isSaturating, h1, Option.bind_some, h2, Option.bind_some, h3, Option.bind_some, h4]; rfl⟩

/-- The start of `can_derive` does not fail. -/
theorem deriveStart_goes [Nonempty V] (hD : BareOk D ar I ok) (hE : 2 ≤ E.depth) {r : Rule O} (hr : RuleOk ar r) (ty : DeriveType) :
    ∃ g, deriveStart D E ty r.lhs.instantiate r.rhs.instantiate = some g ∧
      ∃ val i, InvS (noVecs O) (arOn ar fun _ => True) (piAlg I) ok g val ∧ i < g.n ∧ Rep g r.lhs.instantiate i := by
  obtain ⟨val, h0⟩ := bare_empty (O := O) (C := C) (ar := ar) (I := I) (ok := ok)
  have hl := side_ok hD.vars hr.1
  have hr' := side_ok hD.vars hr.2
  obtain ⟨g1, i, h1⟩ := addTm_total (E := E) hD.inv hD.total hE _ hl _ _ h0
  obtain ⟨val1, hg1, -, hi, -, -, hrep⟩ := addTm_ok hD.inv hl h0 h1
  cases ty with
  | lhs => exact ⟨g1, by rw [deriveStart, h1]; rfl, val1, i, hg1, hi, hrep⟩
  | lhsAndRhs =>
    obtain ⟨g2, j, h2⟩ := addTm_total (E := E) hD.inv hD.total hE _ hr' g1 val1 hg1
    obtain ⟨val2, hg2, he, -⟩ := addTm_ok hD.inv hr' hg1 h2
    exact ⟨g2, by rw [deriveStart, h1, Option.bind_some, h2]; rfl, val2, i, hg2, Nat.lt_of_lt_of_le hi he.n_le,
      Rep.ext hg1 he _ i hi hrep⟩

/-- `can_derive` does not fail. -/
theorem canDerive_goes [Nonempty V] (hD : BareOk D ar I ok) (hE : 2 ≤ E.depth) {rs : Ruleset O}
    (hrs : RulesSafe (arOn ar fun _ => True) (piAlg I) (Ruleset.iter rs)) {r : Rule O} (hr : RuleOk ar r)
    (isSat : Rule O → Bool) (ty : DeriveType) (limits : Limits) (t : SchedTrace) (ht : 2 ≤ t.clone.depth) :
    ∃ t', SchedTrace.Goes t t' ∧ ∃ b, Ruleset.canDerive D E isSat ty limits t' rs r = some b := by
  obtain ⟨g, hs, val1, i, hg, hi, hrep⟩ := deriveStart_goes (E := E) hD hE hr ty
  obtain ⟨t', h2, out, h3⟩ := run_goes (E := E) hD.inv hD.total hE (rules := rs) hrs isSat
    (.saturating limits) hg t ht
  obtain ⟨⟨val2, hout, he⟩, hc⟩ := run_ok hD.inv hrs.rulesOk hg h3
  have := rep_lookupTm hout hc _ i (Rep.ext hg he _ i hi hrep)
  exact ⟨t', h2, _, by rw [Ruleset.canDerive, hs, Option.bind_some, h3, Option.bind_some, this]; rfl⟩

theorem SchedTrace.goes_refl (t : SchedTrace) : SchedTrace.Goes t t :=
  ⟨RunTrace.goes_refl _, fun _ => ⟨RunTrace.goes_refl _, RunTrace.goes_refl _⟩, RunTrace.goes_refl _, rfl,
    List.prefix_refl _, rfl, rfl, List.prefix_refl _⟩

/-- `derive` does not fail. -/
theorem derive_goes [Nonempty V] (hD : BareOk D ar I ok) {rs against : Ruleset O}
    (hrs : RulesSafe (arOn ar fun _ => True) (piAlg I) (Ruleset.iter rs)) (hr : ∀ q ∈ Ruleset.iter against, RuleOk ar q)
    (isSat : Rule O → Bool) (ty : DeriveType) (limits : Limits) (split : Ruleset.Split) (eg : Rule O → Egg)
    (hE : ∀ q, 2 ≤ (eg q).depth) (tr : Rule O → SchedTrace) (ht : ∀ q, 2 ≤ (tr q).clone.depth) :
    ∃ tr' : Rule O → SchedTrace, (∀ q, SchedTrace.Goes (tr q) (tr' q)) ∧
      ∃ out, Ruleset.derive D isSat ty limits split eg tr' rs against = some out := by
  classical
  have key : ∀ q, ∃ t', SchedTrace.Goes (tr q) t' ∧
      (RuleOk ar q → ∃ b, Ruleset.canDerive D (eg q) isSat ty limits t' rs q = some b) := by
    intro q
    by_cases hq : RuleOk ar q
    · obtain ⟨t', h1, h2⟩ := canDerive_goes (E := eg q) hD (hE q) hrs hq isSat ty limits (tr q) (ht q)
      exact ⟨t', h1, fun _ => h2⟩
    · exact ⟨tr q, SchedTrace.goes_refl _, fun h => absurd h hq⟩
  choose tr' h1 h2 using key
  refine ⟨tr', h1, _, if_pos ?_⟩
  rw [List.all_eq_true]
  intro q hq
  obtain ⟨b, hb⟩ := h2 q (hr q hq)
  rw [hb]
  rfl

/-- A round does not depend on the traces of earlier rounds. -/
theorem minimizeLoop_congr (M : MinEnv O) (tr' : Nat → SchedTrace) (fuel : Nat) : ∀ (round : Nat) (cands chosen : Ruleset O)
    (asked : List (Rule O)) (invalid : Ruleset O), (∀ k, round ≤ k → M.tr k = tr' k) →
    minimizeLoop D M fuel round cands chosen asked invalid =
      minimizeLoop D { M with tr := tr' } fuel round cands chosen asked invalid := by
  induction fuel with
  | zero => intros; rfl
  | succ fuel ih =>
    intro round cands chosen asked invalid h
    rw [minimizeLoop, minimizeLoop]
    simp only
    rw [h round (Nat.le_refl _)]
    split
    · rfl
    · split
      · rfl
      · exact ih _ _ _ _ _ fun k hk => h k (Nat.le_of_succ_le hk)

theorem minimizeLoop_goes [Nonempty V] (hD : BareOk D ar I ok) (M : MinEnv O) (hE : ∀ k, 2 ≤ (M.eg k).depth)
    (ht : ∀ k, 2 ≤ (M.tr k).clone.depth) (fuel : Nat) : ∀ (round : Nat) (cands chosen : Ruleset O) (asked : List (Rule O))
      (invalid : Ruleset O), WellFormed cands → WellFormed invalid → (∀ q ∈ Ruleset.iter cands, GoodRule ar q ∧ BoundRhs q) →
      (∀ before q, IsCandidate cands q → M.valid before q = true → Holds I q) →
      RulesSafe (arOn ar fun _ => True) (piAlg I) (Ruleset.iter chosen) →
      ∃ tr' : Nat → SchedTrace, (∀ k, SchedTrace.Goes (M.tr k) (tr' k)) ∧
        minimizeLoop D { M with tr := tr' } fuel round cands chosen asked invalid ≠ .panic := by
  induction fuel with
  | zero =>
    intro round cands chosen asked invalid _ _ _ _ _
    refine ⟨M.tr, fun k => SchedTrace.goes_refl _, ?_⟩
    rw [minimizeLoop]
    split <;> simp
  | succ fuel ih =>
    intro round cands chosen asked invalid hw hi hc hv hch
    by_cases hne : cands.isEmpty
    · refine ⟨M.tr, fun k => SchedTrace.goes_refl _, ?_⟩
      rw [minimizeLoop, if_pos hne]
      simp
    have ok := select_ok (score := M.score) (valid := M.valid) (step := 1) hw hi asked
    have hmin : ∀ tr', minimizeLoop D { M with tr := tr' } (fuel + 1) round cands chosen asked invalid =
        match Ruleset.shrink D (M.eg round) M.isSat M.sched (tr' round)
          (Ruleset.select M.score M.valid 1 cands asked invalid).1
          (Ruleset.extend chosen (Ruleset.select M.score M.valid 1 cands asked invalid).2.selected) with
        | none => .panic
        | some rest => minimizeLoop D { M with tr := tr' } fuel (round + 1) rest
            (Ruleset.extend chosen (Ruleset.select M.score M.valid 1 cands asked invalid).2.selected)
            (Ruleset.select M.score M.valid 1 cands asked invalid).2.asked
            (Ruleset.select M.score M.valid 1 cands asked invalid).2.invalid := by
      intro tr'
      rw [minimizeLoop, if_neg hne]
      rfl
    generalize Ruleset.select M.score M.valid 1 cands asked invalid = s at ok hmin
    have hch' : RulesSafe (arOn ar fun _ => True) (piAlg I) (Ruleset.iter (Ruleset.extend chosen s.2.selected)) := by
      intro r hr
      rcases mem_extend_rules hr with hr | hr
      · exact hch r hr
      · obtain ⟨⟨before, -, ha⟩, hcand⟩ := ok.sel r hr
        have hh := hv before r hcand ha
        suffices hs : SafeRule ar I r from rulesSafe_piAlg (Y := fun _ => True) (rules := [r]) (by simpa [SafeRule] using hs) r (by simp)
        rcases hcand with hm | ⟨-, c, hm, e1, e2, hp⟩
        · exact ⟨(hc r hm).1, hh, (hc r hm).2⟩
        · obtain ⟨⟨⟨k1, k2⟩, k3, k4⟩, -⟩ := hc c hm
          exact ⟨⟨⟨e1 ▸ k2, e2 ▸ k1⟩, e1 ▸ k4, e2 ▸ k3⟩, hh, hp.2⟩
    obtain ⟨t', h1, rest, h2⟩ := shrink_goes (E := M.eg round) hD (hE round) (cands := s.1)
      (fun r hr => (hc r (ok.sub r hr)).1.1) hch' M.isSat M.sched (M.tr round) (ht round)
    obtain ⟨hsub, hwr, -⟩ := shrink_spec ok.wrest h2
    have hsub' : ∀ r ∈ Ruleset.iter rest, r ∈ Ruleset.iter cands := fun r hr => ok.sub r (hsub.subset hr)
    obtain ⟨tr', h3, h4⟩ := ih (round + 1) rest (Ruleset.extend chosen s.2.selected) s.2.asked s.2.invalid hwr ok.winv
      (fun q hq => hc q (hsub' q hq)) (fun b q hq => hv b q (IsCandidate.mono hsub' hq)) hch'
    refine ⟨fun k => if k = round then t' else tr' k, fun k => ?_, ?_⟩
    · by_cases hk : k = round
      · subst hk
        simpa using h1
      · simpa [hk] using h3 k
    · rw [hmin]
      simp only [if_true]
      rw [h2]
      simp only
      have := minimizeLoop_congr (D := D) { M with tr := tr' } (fun k => if k = round then t' else tr' k) fuel (round + 1) rest
        (Ruleset.extend chosen s.2.selected) s.2.asked s.2.invalid fun k hk => by
          have : k ≠ round := by omega
          simp [this]
      simp only at this
      rw [← this]
      exact h4

/-- `minimize` does not fail. -/
theorem minimize_goes [Nonempty V] (hD : BareOk D ar I ok) (M : MinEnv O) (hE : ∀ k, 2 ≤ (M.eg k).depth)
    (ht : ∀ k, 2 ≤ (M.tr k).clone.depth) {cands prior : Ruleset O} (hw : WellFormed cands)
    (hc : ∀ q ∈ Ruleset.iter cands, GoodRule ar q ∧ BoundRhs q)
    (hv : ∀ before q, IsCandidate cands q → M.valid before q = true → Holds I q)
    (hp : RulesSafe (arOn ar fun _ => True) (piAlg I) (Ruleset.iter prior)) :
    ∃ tr' : Nat → SchedTrace, (∀ k, SchedTrace.Goes (M.tr k) (tr' k)) ∧
      ∃ out inv asked, Ruleset.minimize D { M with tr := tr' } cands.length cands prior = .done out inv asked := by
  obtain ⟨tr', h1, h2⟩ := minimizeLoop_goes hD M hE ht cands.length 0 cands prior [] [] hw Ruleset.WellFormed.nil hc hv hp
  refine ⟨tr', h1, ?_⟩
  have h3 := minimizeLoop_stops (D := D) (M := { M with tr := tr' }) cands.length (round := 0) (asked := []) (chosen := prior)
    hw Ruleset.WellFormed.nil (Nat.le_refl _)
  unfold Ruleset.minimize
  split
  · exact ⟨_, _, _, rfl⟩
  · rename_i r hr
    cases hm : minimizeLoop D { M with tr := tr' } cands.length 0 cands prior [] [] with
    | done a b c => exact absurd hm (hr a b c)
    | panic => exact absurd hm h2
    | running => exact absurd hm h3

end Ruler
