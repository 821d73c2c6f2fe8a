import Verif.Proofs.ProgressBlind
import Verif.Props.Progress
import Verif.Props.Cad
import Verif.Props.MaxMin
import Verif.Props.Exp
import Verif.Props.BvBool
import Verif.Props.RecipeWorkloads
import Verif.Props.RecipeProgress
/-!
# C85: fast-forwarding does not panic
-/
namespace Ruler
open Spec EGraph
variable {O C V : Type} [Lang O] [LinearOrder C] {D : Domain O C} {ar : O → Nat → Prop}
variable {I : O → List V → V} {mem : Interval C → V → Prop} {fits : Option C → V → Prop}

/-! ## Auxiliary lemmas -/

omit [LinearOrder C] in
theorem leafSort_leaf : LeafAr (O := O) LeafSort := fun _ _ h => h

omit [LinearOrder C] in
theorem usable_safe {X : List String} {rules : List (Rule O)} (h : ∀ r ∈ rules, UsableRule X r) :
    RulesSafe (arOn LeafSort (· ∈ X)) (piAlg (unitAlg (O := O))) rules :=
  fun r hr => ⟨(h r hr).1, fun _ => funext fun _ => rfl, (h r hr).2⟩

omit [LinearOrder C] in
theorem usable_mono {X Y : List String} (h : ∀ x ∈ X, x ∈ Y) {r : Rule O} (hr : UsableRule X r) : UsableRule Y r :=
  have hm : ∀ (o : O) k, LeafIn X o k → LeafIn Y o k := fun _ _ h' => ⟨h'.1, fun x hx => h x (h'.2 x hx)⟩
  ⟨⟨PatOk.mono hm hr.1.1, PatOk.mono hm hr.1.2⟩, hr.2⟩

theorem FastEnv.goes_refl (F : FastEnv O C) : FastEnv.Goes F F :=
  ⟨_, _, _, _, SchedTrace.goes_refl _, SchedTrace.goes_refl _, SchedTrace.goes_refl _, fun _ => SchedTrace.goes_refl _, rfl⟩

/-- `fastRuns` when every run completes. -/
theorem fastRuns_goes {P : Rule O → Prop} {expl : Ruleset O} {limits : Limits} (steps : List (FastEnv O C × Workload))
    (h : ∀ st ∈ steps, ∀ prior, WellFormed prior → (∀ r ∈ Ruleset.iter prior, P r) →
      ∃ F', FastEnv.Goes st.1 F' ∧ ∃ out asked, runFastForwarding D F' st.2 prior expl limits limits = some (out, asked) ∧
        WellFormed out ∧ ∀ q ∈ Ruleset.iter out, P q) :
    ∀ {all new : Ruleset O}, WellFormed all → (∀ r ∈ Ruleset.iter all, P r) →
      ∃ steps', List.Forall₂ (fun (a b : FastEnv O C × Workload) => FastEnv.Goes a.1 b.1 ∧ b.2 = a.2) steps steps' ∧
        ∃ out, fastRuns D expl limits steps' all new = some out := by
  induction steps with
  | nil => exact fun _ _ => ⟨[], .nil, _, rfl⟩
  | cons st steps ih =>
    intro all new hw hp
    obtain ⟨F', h1, out, asked, h2, h3, h4⟩ := h st (by simp) all hw hp
    obtain ⟨steps', k1, out', k2⟩ := ih (fun st' hst => h st' (by simp [hst])) (new := Ruleset.extend new out)
      (Ruleset.WellFormed.extend hw h3) fun r hr => (mem_extend_rules hr).elim (hp r) (h4 r)
    exact ⟨(F', st.2) :: steps', .cons ⟨h1, rfl⟩ k1, out', by rw [fastRuns, h2, Option.bind_some]; exact k2⟩

/-- `fastRecipe` when every run completes. -/
theorem fastRecipe_goes {P : Rule O → Prop} {expl : Ruleset O} (steps : List (FastStep O C))
    (h : ∀ st ∈ steps, ∀ prior, WellFormed prior → (∀ r ∈ Ruleset.iter prior, P r) →
      ∃ F', FastEnv.Goes st.env F' ∧ ∃ out asked,
        runFastForwarding D F' st.workload prior expl st.priorLimits st.minLimits = some (out, asked) ∧
        WellFormed out ∧ ∀ q ∈ Ruleset.iter out, P q) :
    ∀ {prior : Ruleset O}, WellFormed prior → (∀ r ∈ Ruleset.iter prior, P r) →
      ∃ steps', List.Forall₂ FastStep.Goes steps steps' ∧
        ∃ out, fastRecipe D expl steps' prior = some out ∧ WellFormed out ∧ ∀ r ∈ Ruleset.iter out, P r := by
  induction steps with
  | nil => exact fun hw hp => ⟨[], .nil, _, rfl, hw, hp⟩
  | cons st steps ih =>
    intro prior hw hp
    obtain ⟨F', h1, out, asked, h2, h3, h4⟩ := h st (by simp) prior hw hp
    obtain ⟨steps', k1, out', k2, k3⟩ := ih (fun st' hst => h st' (by simp [hst]))
      (Ruleset.WellFormed.extend hw h3) fun r hr => (mem_extend_rules hr).elim (hp r) (h4 r)
    exact ⟨{ st with env := F' } :: steps', .cons ⟨F', h1, rfl⟩ k1, out', by
      rw [fastRecipe, h2, Option.bind_some]; exact k2, k3⟩

/-! ## C85 -/

/-- **C85.** Rule lifting by fast-forwarding does not panic, for every domain whose analysis is correct and total, if the prior
and the exploratory rules are safe and the workload has one to 26 variables: whatever egg has done, there is a way to go on
to the end. The rules that are found are safe again, whatever the validator accepts. -/
theorem C85_fast_forward [Nonempty V] (hD : SafeDomain D ar I mem fits) (hI : InitOk D) {F : FastEnv O C} (hF : FastOk D F)
    {w : Workload} {ts : List (Tm O)} (hts : TermsOf w ts) (hok : ∀ t ∈ ts, TmOk ar t) (hfew : FewVars ts)
    (hinit : ∀ X : List String, X ≠ [] → X.Nodup → ∃ n tbl, D.initVars X = some (n, tbl) ∧
      ∀ j, j < n → ∃ env : String → V, SampleAt fits tbl j env)
    {prior expl : Ruleset O} (hw : WellFormed prior) (hp : ∀ r ∈ Ruleset.iter prior, SafeRule ar I r)
    (he : ∀ r ∈ Ruleset.iter expl, SafeRule ar I r) (pl ml : Limits) :
    ∃ F', FastEnv.Goes F F' ∧ ∃ out asked, runFastForwarding D F' w prior expl pl ml = some (out, asked) ∧
      WellFormed out ∧ ∀ q ∈ Ruleset.iter out, SafeRule ar I q := by
  obtain ⟨ss, hss, hts⟩ := hts
  obtain ⟨n, tbl, h1, h2⟩ := hinit _ (collectVars_ne hfew.1) (collectVars_nodup ts)
  obtain ⟨g, hg, ⟨val, hinv⟩, hr⟩ := toEGraph_safe (E := F.build) hD hI hF.2.2.1 hss hts hok h1 h2
  exact fast_goes hD.bare (safeInv_plain hD n tbl (collectVars ts)) (safeTotal_plain hD (collectVars ts) h2)
    (collectVars_few hfew.2) hF.1 hF.2.1 hF.2.2 hg hinv (Reach.any (hr fun _ => True)) hw (rulesSafe_piAlg hp)
    (rulesSafe_piAlg he) pl ml

/-- **C85.** In a domain without samples and intervals, whose hook at most adds missing constants, fast-forwarding does not panic whatever the rules say and whatever
the validator accepts: it is enough that there are no more than 26 variables in the workload and the rules, and that the rules
have no free variables on the right. The same then holds of the rules that are found, which mention no variables of the
language. -/
theorem C85_blind (hD : Blind D LeafSort) (hv : VarOps (O := O) LeafSort) (hps : ParsesSorted (O := O) LeafSort)
    {F : FastEnv O C} (hF : FastOk D F) {X : List String} (hX : X.length ≤ 26) {w : Workload} (hw : ReadsIn O X w)
    {prior expl : Ruleset O} (hwf : WellFormed prior) (hp : ∀ r ∈ Ruleset.iter prior, UsableRule X r)
    (he : ∀ r ∈ Ruleset.iter expl, UsableRule X r) (pl ml : Limits) :
    ∃ F', FastEnv.Goes F F' ∧ ∃ out asked, runFastForwarding D F' w prior expl pl ml = some (out, asked) ∧
      WellFormed out ∧ ∀ q ∈ Ruleset.iter out, UsableRule [] q := by
  obtain ⟨ts, hts, hx⟩ := hw
  obtain ⟨g, hg, ⟨val, hinv⟩, hr⟩ := toEGraph_blind (E := F.build) hD hv leafSort_leaf hF.2.2.1 hts (tmOk_sorted hps hts) hx
  obtain ⟨F', h1, out, asked, h2, h3, h4⟩ := fast_goes (blind_bare hD hv leafSort_leaf) (blindInv hD hv leafSort_leaf (· ∈ X))
    (blindTotal hD hv leafSort_leaf (· ∈ X)) hX hF.1 hF.2.1 hF.2.2 hg hinv hr hwf (usable_safe hp) (usable_safe he) pl ml
  refine ⟨F', h1, out, asked, h2, h3, fun q hq => ?_⟩
  obtain ⟨⟨⟨a, b⟩, c, d⟩, -, e⟩ := h4 q hq
  exact ⟨⟨PatOk.arOn (Y := (· ∈ ([] : List String))) a c, PatOk.arOn (Y := (· ∈ ([] : List String))) b d⟩, e⟩

/-- **C85.** Neither does deriving rules. -/
theorem C85_blind_derive (hD : Blind D LeafSort) (hv : VarOps (O := O) LeafSort) {rs against : Ruleset O}
    (hrs : ∀ q ∈ Ruleset.iter rs, RuleOk LeafSort q ∧ BoundRhs q) (hr : ∀ q ∈ Ruleset.iter against, RuleOk LeafSort q)
    (isSat : Rule O → Bool) (ty : DeriveType) (limits : Limits) (split : Ruleset.Split) (eg : Rule O → Egg)
    (hE : ∀ q, 2 ≤ (eg q).depth) (tr : Rule O → SchedTrace) (ht : ∀ q, 2 ≤ (tr q).clone.depth) :
    ∃ tr' : Rule O → SchedTrace, (∀ q, SchedTrace.Goes (tr q) (tr' q)) ∧
      ∃ out, Ruleset.derive D isSat ty limits split eg tr' rs against = some out :=
  derive_goes (blind_bare hD hv leafSort_leaf) (fun q hq =>
    have hm : ∀ (o : O) k, LeafSort o k → arOn LeafSort (fun _ => True) o k := fun _ _ h => ⟨h, fun _ _ => trivial⟩
    ⟨⟨PatOk.mono hm (hrs q hq).1.1, PatOk.mono hm (hrs q hq).1.2⟩, fun _ => funext fun _ => rfl, (hrs q hq).2⟩)
    hr isSat ty limits split eg hE tr ht

/-- **C85.** A chain of fast-forwarding runs, each from all rules known so far, does not panic either. -/
theorem C85_recipe (hD : Blind D LeafSort) (hv : VarOps (O := O) LeafSort) (hps : ParsesSorted (O := O) LeafSort)
    {X : List String} (hX : X.length ≤ 26) {steps : List (FastStep O C)}
    (hs : ∀ st ∈ steps, FastOk D st.env ∧ ReadsIn O X st.workload) {prior expl : Ruleset O} (hwf : WellFormed prior)
    (hp : ∀ r ∈ Ruleset.iter prior, UsableRule X r) (he : ∀ r ∈ Ruleset.iter expl, UsableRule X r) :
    ∃ steps', List.Forall₂ FastStep.Goes steps steps' ∧
      ∃ out, fastRecipe D expl steps' prior = some out ∧ WellFormed out ∧ ∀ r ∈ Ruleset.iter out, UsableRule X r :=
  fastRecipe_goes steps (fun st hst prior hw hp => by
    obtain ⟨F', h1, out, asked, h2, h3, h4⟩ := C85_blind hD hv hps (hs st hst).1 hX (hs st hst).2 hw hp he
      st.priorLimits st.minLimits
    exact ⟨F', h1, out, asked, h2, h3, fun q hq => usable_mono (by simp) (h4 q hq)⟩) hwf hp

/-! ## The languages -/

omit [LinearOrder C] in
theorem noHook {D : Domain O C} (h : ∀ nodes i, D.custom nodes i = []) : ∃ mark, HookAdds D ar mark :=
  ⟨fun _ => false, fun nodes i _ => h nodes i, fun nodes i t ht => by rw [h] at ht; cases ht⟩

omit [LinearOrder C] in
theorem blind_noInit {D : Domain O C} (h1 : ∀ n o args, D.eval n o args = some []) (h2 : ∀ o Js, D.mkInterval o Js = some ⟨none, none⟩)
    (h3 : ∀ nodes i, D.custom nodes i = []) (h4 : ∀ X, D.initVars X = some (0, [])) (h5 : ∀ x, D.varTerms x = []) :
    Blind D ar :=
  ⟨h1, h2, noHook h3, fun X => ⟨[], h4 X, by simp⟩, fun x t ht => by rw [h5] at ht; cases ht⟩

theorem pos_blind : Blind posDomain LeafSort :=
  blind_noInit (fun _ _ _ => rfl) (fun _ _ => rfl) (fun _ _ => rfl) (fun _ => rfl) fun _ => rfl

theorem cad_blind : Blind cadDomain LeafSort :=
  blind_noInit (fun _ _ _ => rfl) (fun _ _ => rfl) (fun _ _ => rfl) (fun _ => rfl) fun _ => rfl

theorem maxMin_blind : Blind maxMinDomain LeafSort :=
  blind_noInit (fun _ _ _ => rfl) (fun _ _ => rfl) (fun _ _ => rfl) (fun _ => rfl) fun _ => rfl

theorem exp_blind : Blind expDomain LeafSort where
  eval _ _ _ := rfl
  interval _ _ := rfl
  hook := noHook fun _ _ => rfl
  init X := ⟨_, rfl, by simp⟩
  varTerms x t ht := by
    have ha : ∀ (o : ExpOp) k, ((Lang.toVar o).isSome || Lang.isConst o) = false → LeafSort o k := fun o k h h' => by
      rw [h] at h'; cases h'
    have hx : TmOk LeafSort (.node (ExpOp.var x) []) := .node (fun _ => rfl) (by simp)
    have hs : ∀ {o : ExpOp} {u : Tm ExpOp}, ((Lang.toVar o).isSome || Lang.isConst o) = false → TmOk LeafSort u →
        TmOk LeafSort (.node o [u]) := fun h hu => .node (ha _ _ h) (by simpa using hu)
    have hvx : ∀ y, HasVar y (.node (ExpOp.var x) []) → y = x := by
      intro y h
      cases h with
      | here h => cases h; rfl
      | there hm _ => cases hm
    have hvs : ∀ {o : ExpOp} {u : Tm ExpOp}, Lang.toVar o = none → (∀ y, HasVar y u → y = x) →
        ∀ y, HasVar y (.node o [u]) → y = x := by
      intro o u ho hu y h
      cases h with
      | here h => rw [ho] at h; cases h
      | there hm h' =>
        rw [List.mem_singleton] at hm
        subst hm
        exact hu y h'
    simp only [expDomain, List.mem_cons, List.not_mem_nil, or_false] at ht
    rcases ht with rfl | rfl
    · exact ⟨hs rfl (hs rfl hx), hvs rfl (hvs rfl hvx)⟩
    · exact ⟨hs rfl (hs rfl hx), hvs rfl (hvs rfl hvx)⟩

omit [LinearOrder C] in
theorem varOps_leaf (h1 : ∀ s, Lang.toVar (Lang.mkVar s : O) = some s)
    (h2 : ∀ (o : O) x, Lang.toVar o = some x → o = Lang.mkVar x) : VarOps (O := O) LeafSort :=
  ⟨fun s => ⟨h1 s, fun _ => rfl⟩, fun o x h => ⟨h2 o x h, fun k hk => hk (by rw [h]; rfl)⟩⟩

theorem pos_varOps : VarOps (O := PosOp) LeafSort :=
  varOps_leaf (fun _ => rfl) fun o x h => by cases o <;> cases h; rfl
theorem cad_varOps : VarOps (O := CadOp) LeafSort :=
  varOps_leaf (fun _ => rfl) fun o x h => by cases o <;> cases h; rfl
theorem maxMin_varOps : VarOps (O := MaxMinOp) LeafSort :=
  varOps_leaf (fun _ => rfl) fun o x h => by cases o <;> cases h; rfl
theorem exp_varOps : VarOps (O := ExpOp) LeafSort :=
  varOps_leaf (fun _ => rfl) fun o x h => by cases o <;> cases h; rfl

theorem pos_parsesLeaf : ParsesSorted (O := PosOp) LeafSort := by
  intro s k o h hl
  simp only [Lang.fromOp] at h
  split_ifs at h <;> simp_all <;> subst h <;> simp_all [Lang.toVar, Lang.isConst]

theorem ite_some_or {c : Prop} [Decidable c] {A : Type} {a o : A} {r : Option A} (h : (if c then some a else r) = some o) :
    o = a ∨ r = some o := by
  split at h
  · cases h; exact .inl rfl
  · exact .inr h

theorem exp_parsesLeaf : ParsesSorted (O := ExpOp) LeafSort := by
  intro s k o h hl
  simp only [Lang.fromOp] at h
  by_cases hk : k = 0
  · exact hk
  · rw [if_neg hk] at h
    repeat (rcases ite_some_or h with rfl | h; · cases hl)
    cases h

theorem cad_parsesLeaf : ParsesSorted (O := CadOp) LeafSort := by
  intro s k o h hl
  match k with
  | 0 => rfl
  | 1 | 2 | 3 | 4 =>
    dsimp only [Lang.fromOp] at h
    repeat (rcases ite_some_or h with rfl | h; · cases hl)
    cases h
  | k + 5 => cases h

theorem maxMin_parsesLeaf : ParsesSorted (O := MaxMinOp) LeafSort := by
  intro s k o h hl
  match k with
  | 0 => rfl
  | 1 | 2 | 3 =>
    dsimp only [Lang.fromOp] at h
    repeat (rcases ite_some_or h with rfl | h; · cases hl)
    cases h
  | k + 4 => cases h

/-! ## The rule tables -/

mutual
/-- `PatOk (LeafIn X)` as a check. -/
def leafB (X : List String) : Pat O → Bool
  | .var _ => true
  | .node o args => (!((Lang.toVar o).isSome || Lang.isConst o) || args.isEmpty) &&
      (match Lang.toVar o with | some x => decide (x ∈ X) | none => true) && leafBL X args
/-- As `leafB`, for a list. -/
def leafBL (X : List String) : List (Pat O) → Bool
  | [] => true
  | a :: l => leafB X a && leafBL X l
end

omit [LinearOrder C] in
theorem leafBL_iff (X : List String) (l : List (Pat O)) : leafBL X l = true ↔ ∀ a ∈ l, leafB X a = true := by
  induction l with
  | nil => simp [leafBL]
  | cons a l ih => simp [leafBL, ih]

omit [LinearOrder C] in
theorem leafB_sound (X : List String) (p : Pat O) (h : leafB X p = true) : PatOk (LeafIn X) p := by
  induction p using Pat.ind with
  | hv v => exact .var
  | hn o l ih =>
    rw [leafB, Bool.and_eq_true, Bool.and_eq_true, leafBL_iff] at h
    obtain ⟨⟨h1, h2⟩, h3⟩ := h
    refine .node ⟨fun hl => ?_, fun x hx => ?_⟩ fun a ha => ih a ha (h3 a ha)
    · rw [hl] at h1
      simpa using h1
    · rw [hx] at h2
      simpa using h2

/-- `UsableRule` as a check of the sides. -/
def usableB (X : List String) (s : Pat O × Pat O) : Bool :=
  leafB X s.1 && leafB X s.2 && s.2.vars.all fun v => decide (v ∈ s.1.vars)

omit [LinearOrder C] in
theorem usable_table {X : List String} {texts : List String} {l : List (Pat O × Pat O)} (h : tableSides texts = some l)
    (hl : ∀ s ∈ l, usableB X s = true) {lines : List String} (hsub : ∀ t ∈ lines, t ∈ texts) {rs : Ruleset O}
    (hr : Ruleset.new (lines.map String.toList) = some rs) :
    WellFormed rs ∧ ∀ r ∈ Ruleset.iter rs, UsableRule X r := by
  obtain ⟨m, e, s⟩ := tableSides_subset h hsub
  obtain ⟨hw, hm⟩ := table_sides e hr
  refine ⟨hw, fun r hr => ?_⟩
  have := hl _ (s _ (hm r hr))
  rw [usableB, Bool.and_eq_true, Bool.and_eq_true, List.all_eq_true] at this
  exact ⟨⟨leafB_sound X _ this.1.1, leafB_sound X _ this.1.2⟩, fun v hv => of_decide_eq_true (this.2 v hv)⟩

/-- **C85** (binary numbers). Whatever chain of fast-forwarding runs is made with (some of) the rules of tests/pos.rs: it does not
panic, if the workloads have at most 26 variables. -/
theorem C85_pos {explLines lines : List String} (hel : ∀ t ∈ explLines, t ∈ PosOp.exploratoryTexts)
    (hpl : ∀ t ∈ lines, t ∈ PosOp.natTexts) {expl prior : Ruleset PosOp}
    (he : Ruleset.new (explLines.map String.toList) = some expl) (hp : Ruleset.new (lines.map String.toList) = some prior)
    {X : List String} (hX : X.length ≤ 26) {steps : List (FastStep PosOp Nat)}
    (hs : ∀ st ∈ steps, FastOk posDomain st.env ∧ ReadsIn PosOp X st.workload) :
    ∃ steps', List.Forall₂ FastStep.Goes steps steps' ∧
      ∃ out, fastRecipe posDomain expl steps' prior = some out ∧ WellFormed out ∧ ∀ r ∈ Ruleset.iter out, UsableRule X r :=
  have h1 := usable_table (X := []) posExploratory_sides (by decide +kernel) hel he
  have h2 := usable_table (X := []) posNat_sides (by decide +kernel) hpl hp
  C85_recipe pos_blind pos_varOps pos_parsesLeaf hX hs h2.1 (fun r hr => usable_mono (by simp) (h2.2 r hr))
    fun r hr => usable_mono (by simp) (h1.2 r hr)

/-- **C85** (constructive solid geometry). Likewise for the rules of tests/szalinski.rs. -/
theorem C85_cad {explLines lines : List String} (hel : ∀ t ∈ explLines, t ∈ CadOp.liftingTexts)
    (hpl : ∀ t ∈ lines, t ∈ CadOp.priorTexts) {expl prior : Ruleset CadOp}
    (he : Ruleset.new (explLines.map String.toList) = some expl) (hp : Ruleset.new (lines.map String.toList) = some prior)
    {X : List String} (hX : X.length ≤ 26) {steps : List (FastStep CadOp Int)}
    (hs : ∀ st ∈ steps, FastOk cadDomain st.env ∧ ReadsIn CadOp X st.workload) :
    ∃ steps', List.Forall₂ FastStep.Goes steps steps' ∧
      ∃ out, fastRecipe cadDomain expl steps' prior = some out ∧ WellFormed out ∧ ∀ r ∈ Ruleset.iter out, UsableRule X r :=
  have h1 := usable_table (X := []) cadLifting_sides (by decide +kernel) hel he
  have h2 := usable_table (X := []) cadPrior_sides (by decide +kernel) hpl hp
  C85_recipe cad_blind cad_varOps cad_parsesLeaf hX hs h2.1 (fun r hr => usable_mono (by simp) (h2.2 r hr))
    fun r hr => usable_mono (by simp) (h1.2 r hr)

/-- **C85** (maximum and minimum). Likewise for the rules of tests/maxmin.rs. Four names of operators occur in them without arguments
and count as variables, although none of the rules means that. -/
theorem C85_maxmin {explLines lines : List String} (hel : ∀ t ∈ explLines, t ∈ MaxMinOp.exploratoryTexts)
    (hpl : ∀ t ∈ lines, t ∈ MaxMinOp.natTexts) {expl prior : Ruleset MaxMinOp}
    (he : Ruleset.new (explLines.map String.toList) = some expl) (hp : Ruleset.new (lines.map String.toList) = some prior)
    {X : List String} (hX : X.length ≤ 26) (hops : ∀ x ∈ ["<", "&", "|", "!"], x ∈ X) {steps : List (FastStep MaxMinOp Rat)}
    (hs : ∀ st ∈ steps, FastOk maxMinDomain st.env ∧ ReadsIn MaxMinOp X st.workload) :
    ∃ steps', List.Forall₂ FastStep.Goes steps steps' ∧
      ∃ out, fastRecipe maxMinDomain expl steps' prior = some out ∧ WellFormed out ∧ ∀ r ∈ Ruleset.iter out, UsableRule X r :=
  have h1 := usable_table (X := []) maxMinExploratory_sides (by decide +kernel) hel he
  have h2 := usable_table (X := ["<", "&", "|", "!"]) maxMinNat_sides (by decide +kernel) hpl hp
  C85_recipe maxMin_blind maxMin_varOps maxMin_parsesLeaf hX hs h2.1 (fun r hr => usable_mono hops (h2.2 r hr))
    fun r hr => usable_mono (by simp) (h1.2 r hr)

/-! ## Two-bit vectors -/

theorem bvBool_hook : HookAdds bvBoolDomain LeafSort fun o => match o with | .num _ => true | _ => false := by
  refine ⟨fun nodes i ⟨nd, h1, h2⟩ => ?_, fun nodes i t ht => ?_⟩
  · show BvBoolOp.custom nodes i = []
    rw [BvBoolOp.custom, if_pos (List.any_eq_true.2 ⟨nd, h1, h2⟩)]
  · change t ∈ BvBoolOp.custom nodes i at ht
    unfold BvBoolOp.custom at ht
    split at ht
    · cases ht
    · rw [Option.mem_toList] at ht
      obtain ⟨nd, -, h⟩ := List.exists_of_findSome?_eq_some ht
      split at h
      · obtain ⟨x, -, h⟩ := Option.bind_eq_some_iff.1 h
        obtain ⟨y, -, rfl⟩ := Option.map_eq_some_iff.1 h
        exact ⟨_, rfl, rfl, fun _ => rfl, rfl⟩
      · cases h

theorem bvBool_blind : Blind bvBoolDomain LeafSort where
  eval _ _ _ := rfl
  interval _ _ := rfl
  hook := ⟨_, bvBool_hook⟩
  init X := ⟨_, rfl, by simp⟩
  varTerms x t ht := by
    simp only [bvBoolDomain, List.mem_singleton] at ht
    subst ht
    have hx : TmOk LeafSort (.node (BvBoolOp.var x) []) := .node (fun _ => rfl) (by simp)
    have ha : ∀ (o : BvBoolOp) k, ((Lang.toVar o).isSome || Lang.isConst o) = false → LeafSort o k := fun o k h h' => by
      rw [h] at h'; cases h'
    refine ⟨.node (ha _ _ rfl) fun a h => ?_, fun y h => ?_⟩
    · simp only [List.mem_cons, List.not_mem_nil, or_false] at h
      rcases h with rfl | rfl <;> exact .node (ha _ _ rfl) (by simpa using hx)
    · have hvx : ∀ y, HasVar y (.node (BvBoolOp.var x) []) → y = x := by
        intro y h
        cases h with
        | here h => cases h; rfl
        | there hm _ => cases hm
      cases h with
      | here h => cases h
      | there hm h =>
        simp only [List.mem_cons, List.not_mem_nil, or_false] at hm
        rcases hm with rfl | rfl
        all_goals
          cases h with
          | here h => cases h
          | there hm h =>
            rw [List.mem_singleton] at hm
            subst hm
            exact hvx y h

theorem bvBool_varOps : VarOps (O := BvBoolOp) LeafSort :=
  varOps_leaf (fun _ => rfl) fun o x h => by cases o <;> cases h; rfl

theorem bvBool_parsesLeaf : ParsesSorted (O := BvBoolOp) LeafSort := by
  intro s k o h hl
  by_cases hk : k = 0
  · exact hk
  · dsimp only [Lang.fromOp] at h
    simp only [hk, and_false, if_false] at h
    repeat (rcases ite_some_or h with rfl | h; · cases hl)
    cases h

/-- **C85** (two-bit vectors). Whatever chain of fast-forwarding runs is made with the exploratory rules of tests/bv-bool.rs,
from whatever rules: it does not panic, if there are at most 26 variables in the rules and the workloads. The hook, which adds
the number to a pair of Boolean constants, comes to an end even if the rules are wrong and all numbers are united. -/
theorem C85_bvbool {expl : Ruleset BvBoolOp} (he : bvBoolExploratory = some expl) {X : List String} (hX : X.length ≤ 26)
    {steps : List (FastStep BvBoolOp (BV 2))} (hs : ∀ st ∈ steps, FastOk bvBoolDomain st.env ∧ ReadsIn BvBoolOp X st.workload)
    {prior : Ruleset BvBoolOp} (hw : WellFormed prior) (hp : ∀ r ∈ Ruleset.iter prior, UsableRule X r) :
    ∃ steps', List.Forall₂ FastStep.Goes steps steps' ∧
      ∃ out, fastRecipe bvBoolDomain expl steps' prior = some out ∧ WellFormed out ∧ ∀ r ∈ Ruleset.iter out, UsableRule X r := by
  refine C85_recipe bvBool_blind bvBool_varOps bvBool_parsesLeaf hX hs hw hp fun r hr => usable_mono (X := []) (by simp) ?_
  obtain ⟨rs, h1, rfl⟩ := Option.map_eq_some_iff.1 he
  rcases mem_add hr with hr | rfl
  · exact (usable_table (X := []) bvBool_sides (by decide +kernel) (fun _ h => h) h1).2 r hr
  · exact ⟨⟨leafB_sound [] _ (by decide +kernel), leafB_sound [] _ (by decide +kernel)⟩, by
      unfold BoundRhs; decide +kernel⟩

/-! ## The exponential recipe -/

theorem exp_reads {w : Workload} {ws : List Workload} (h : expWorkloads = some ws) (hw : w ∈ ws) :
    ReadsIn ExpOp ["a", "b", "c"] w := by
  obtain ⟨l, k1, -, k3⟩ := C66_exp
  rw [h] at k1
  cases k1
  obtain ⟨ss, e1, e2⟩ := k3 w hw
  have hread : ∀ s ∈ ss, ∃ t : Tm ExpOp, Tm.ofSexp s = some t ∧ ∀ x, HasVar x t → x ∈ ["a", "b", "c"] := fun s hs =>
    kinded_vars (fun a k hk => wordCheck_of (O := ExpOp) (by decide +kernel) hk) (langTerm_kinded (e2 s hs).1)
  have hM : ∀ l : List Sexp, (∀ s ∈ l, ∃ t : Tm ExpOp, Tm.ofSexp s = some t ∧ ∀ x, HasVar x t → x ∈ ["a", "b", "c"]) →
      ∃ ts : List (Tm ExpOp), l.mapM Tm.ofSexp = some ts := by
    intro l
    induction l with
    | nil => exact fun _ => ⟨[], rfl⟩
    | cons s l ih =>
      intro h
      obtain ⟨t, h1, -⟩ := h s (by simp)
      obtain ⟨ts, h3⟩ := ih fun a ha => h a (by simp [ha])
      exact ⟨t :: ts, by simp [List.mapM_cons, h1, h3]⟩
  obtain ⟨ts, hts⟩ := hM ss hread
  refine ⟨ts, ⟨ss, e1, hts⟩, fun t ht x hx => ?_⟩
  obtain ⟨s, hs, e⟩ := mapM_option_mem hts ht
  obtain ⟨t', e', h⟩ := hread s hs
  rw [e] at e'
  cases e'
  exact h x hx

/-- **C85** (exponentials). `make_rules` of tests/recipes/exponential.rs, with (some of) its exploratory rules, does not panic,
whatever the validators accept. -/
theorem C85_exp {explLines : List String} (hel : ∀ t ∈ explLines, t ∈ ExpOp.exploratoryTexts) {expl : Ruleset ExpOp}
    (he : Ruleset.new (explLines.map String.toList) = some expl) {F : Nat → FastEnv ExpOp Rat}
    (hF : ∀ i < 6, FastOk expDomain (F i)) :
    ∃ F' : Nat → FastEnv ExpOp Rat, (∀ i, FastEnv.Goes (F i) (F' i)) ∧ ∃ out, expRules expl F' = some out := by
  obtain ⟨ws, hws, hlen, -⟩ := C66_exp
  obtain ⟨rational, hr, -⟩ := table_new expRational_sides
  obtain ⟨starting, hst, -⟩ := table_new expStarting_sides
  have h1 := usable_table (X := ["a", "b", "c"]) expExploratory_sides (by decide +kernel) hel he
  have h2 := usable_table (X := ["a", "b", "c"]) expRational_sides (by decide +kernel) (fun _ h => h) hr
  have h3 := usable_table (X := ["a", "b", "c"]) expStarting_sides (by decide +kernel) (fun _ h => h) hst
  obtain ⟨steps', k1, out, k2⟩ := fastRuns_goes (D := expDomain) (P := UsableRule ["a", "b", "c"]) (expl := expl) (limits := fastLimits)
    (ws.mapIdx fun i w => (F i, w)) (fun st hst prior hw hp => by
      obtain ⟨i, hi, rfl⟩ := List.mem_mapIdx.1 hst
      obtain ⟨F', a, out, asked, b, c, d⟩ := C85_blind exp_blind exp_varOps exp_parsesLeaf (hF i (hlen ▸ hi)) (by decide)
        (exp_reads hws (List.getElem_mem hi)) hw hp h1.2 fastLimits fastLimits
      exact ⟨F', a, out, asked, b, c, fun q hq => usable_mono (by simp) (d q hq)⟩)
    (new := Ruleset.extend [] starting) (Ruleset.WellFormed.extend h2.1 h3.1)
    fun r hr => (mem_extend_rules hr).elim (h2.2 r) (h3.2 r)
  have hl : steps'.length = ws.length := by rw [← k1.length_eq, List.length_mapIdx]
  refine ⟨fun i => if h : i < steps'.length then (steps'[i]).1 else F i, fun i => ?_, out, ?_⟩
  · simp only
    split
    · rename_i h
      have := (List.forall₂_iff_get.1 k1).2 i (by rw [List.length_mapIdx]; omega) h
      simpa using this.1
    · exact FastEnv.goes_refl _
  · have : (ws.mapIdx fun i w => ((if h : i < steps'.length then (steps'[i]).1 else F i), w)) = steps' := by
      refine List.ext_getElem (by simp [hl]) fun i h h' => ?_
      have := (List.forall₂_iff_get.1 k1).2 i (by rw [List.length_mapIdx]; omega) h'
      simp only [List.get_eq_getElem, List.getElem_mapIdx] at this
      simp only [List.getElem_mapIdx, dif_pos h']
      rw [← this.2]
    unfold expRules
    simp only [hst, hr, hws, Option.bind_eq_bind, Option.bind_some]
    rw [this]
    exact k2

end Ruler
