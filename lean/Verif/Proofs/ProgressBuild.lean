import Verif.Proofs.ProgressData
/-! Building the e-graph of a workload does not fail. -/
namespace Ruler
open Spec EGraph
variable {O C V : Type} [Lang O] [LinearOrder C]
variable {ar : O → Nat → Prop} {D : Domain O C} {E : Egg}
variable {I : O → List V → V} {mem : Interval C → V → Prop} {fits : Option C → V → Prop}

/-- The invariant for the variables `X`. -/
abbrev SafeInv (ar : O → Nat → Prop) (I : O → List V → V) (mem : Interval C → V → Prop) (fits : Option C → V → Prop)
    (n : Nat) (tbl : List (String × CVec C)) (X : List String) (g : EGraph O C) (val : Nat → (String → V) → V) : Prop :=
  InvS ⟨some n, fun o => ∃ x ∈ X, o = Lang.mkVar x⟩ (arOn ar (· ∈ X)) (piAlg I) (SafeOk mem fits n tbl) g val

theorem safeInv_plain [Nonempty V] (hD : SafeDomain D ar I mem fits) (n : Nat) (tbl : List (String × CVec C)) (X : List String) :
    DataInvS ⟨some n, fun o => ∃ x ∈ X, o = Lang.mkVar x⟩ D (arOn ar (· ∈ X)) (piAlg I) (SafeOk mem fits n tbl) :=
  safeInv hD.folds hD.plain hD.vars hD.leaf hD.total (fun j hj o args vs cv => hD.computes.node n j o args vs cv hj)
    (fun x _ args cv => hD.computes.var n _ args cv (by rw [(hD.vars.1 x).1]; rfl)) fun x hx hx' => absurd hx hx'

theorem safeTotal_plain [Nonempty V] (hD : SafeDomain D ar I mem fits) {n : Nat} {tbl : List (String × CVec C)} (X : List String)
    (hpos : ∀ j, j < n → ∃ env : String → V, SampleAt fits tbl j env) :
    StepTotal ⟨some n, fun o => ∃ x ∈ X, o = Lang.mkVar x⟩ D (arOn ar (· ∈ X)) (piAlg I) (SafeOk mem fits n tbl) :=
  DataTotal.steps (safeInv_plain hD n tbl X) (safeTotal hD.folds hD.plain hD.vars hD.leaf hD.total hpos
    fun x _ args cv => hD.computes.var n _ args cv (by rw [(hD.vars.1 x).1]; rfl))

theorem modify_noop {g : EGraph O C} {i : Nat} (hc : ∀ nodes i, D.custom nodes i = [])
    (hi : ∀ c, (g.dataOf i).interval ≠ ⟨some c, some c⟩) (hE : 2 ≤ E.depth) : EGraph.modify D E g i = some g := by
  unfold EGraph.modify
  obtain ⟨d, hd⟩ : ∃ d, E.depth = d + 1 := ⟨E.depth - 1, by omega⟩
  rw [hd, modifyD, hc, List.foldlM_nil]
  simp only [pure, Option.bind_some]
  split
  · rename_i lo hi' hiv
    split
    · rename_i e
      subst e
      exact absurd hiv (hi lo)
    · rfl
  · rfl

theorem initVar_safe [Nonempty V] (hD : SafeDomain D ar I mem fits) (hE : 2 ≤ E.depth) {n : Nat} {tbl : List (String × CVec C)}
    {X : List String} {x : String} {cv : CVec C} (hx : x ∉ X) (hcv : CvOk n tbl fits cv fun env => env x)
    {g : EGraph O C} {val : Nat → (String → V) → V} (hg : SafeInv ar I mem fits n tbl X g val) :
    ∃ g', initVar D E g (x, cv) = some g' ∧ ∃ val', SafeInv ar I mem fits n tbl (X ++ [x]) g' val' := by
  have hP := hD.plain
  have hv := hD.vars
  have hinj : ∀ a b, (Lang.mkVar a : O) = Lang.mkVar b → a = b := by
    intro a b e
    have := (hv.1 a).1
    rw [e, (hv.1 b).1] at this
    exact (Option.some.inj this).symm
  have hl : g.lookup ⟨Lang.mkVar x, []⟩ = none := by
    cases hl : g.lookup ⟨Lang.mkVar x, []⟩ with
    | none => rfl
    | some i =>
      obtain ⟨e, he, h1, -⟩ := lookup_some hl
      have := (hg.nodes_ar e he).2 x (by rw [h1]; exact (hv.1 x).1)
      exact absurd this hx
  have htot : ∃ g', initVar D E g (x, cv) = some g' := by
    obtain ⟨w, hw, -⟩ := hD.total.eval g.cvecLen (Lang.mkVar x) [] (hv.1 x).2 (by simp)
    obtain ⟨J, hJ⟩ := hD.total.interval (Lang.mkVar x) [] [] (hv.1 x).2 .nil
    rw [initVar]
    unfold add addWith
    simp only [hl]
    have hs : ∃ s, makeSig D g.cvecLen (g.canon ⟨Lang.mkVar x, []⟩) g.dataOf = some s ∧ s.interval = J := by
      unfold makeSig
      simp only [EGraph.canon, List.map_nil, hw, Option.bind_some, hJ, Option.map_some]
      exact ⟨_, rfl, rfl⟩
    obtain ⟨s, hs, hsJ⟩ := hs
    rw [hs, Option.bind_some]
    rw [modify_noop hP.custom _ hE]
    · simp [hP.varTerms]
    · intro c
      simp only [EGraph.dataOf, if_true]
      rw [hsJ]
      exact hP.varInterval x _ c hJ
  obtain ⟨g', h⟩ := htot
  refine ⟨g', h, ?_⟩
  have hadd := initVar_eq hP hl h
  have hF' : ∀ env, FoldsIn (setVar D x cv) ar (withVars env I) mem :=
    fun env => ⟨(hD.folds env).interval, (hD.folds env).join, (hD.folds env).const, (hD.folds env).custom,
      (hD.folds env).varTerms⟩
  have hP' : PlainFolding (setVar D x cv) ar := ⟨hP.custom, hP.varTerms, hP.const, hP.varInterval⟩
  have hT' : NoFail (setVar D x cv) ar I mem fits := by
    refine ⟨?_, hD.total.interval, hD.total.join, hD.total.const, hD.total.args, hD.total.same, hD.total.sample⟩
    intro n o args har hlen
    by_cases ho : o = Lang.mkVar x
    · refine ⟨cv, by simp [setVar, ho], fun h => ?_⟩
      rw [ho, (hv.1 x).1] at h
      cases h
    · simpa [setVar, ho] using hD.total.eval n o args har hlen
  have hDI := safeInv (X := X) (Y := (· ∈ X ++ [x])) (n := n) (tbl := tbl) hF' hP' hv hD.leaf hT' (fits := fits)
    (by
      intro j hj o args vs cv' ho har hf he
      have hne : o ≠ Lang.mkVar x := by
        rintro rfl
        rw [(hv.1 x).1] at ho
        cases ho
      exact hD.computes.node n j o args vs cv' hj ho har hf (by simpa [setVar, hne] using he))
    (by
      intro y hy args cv' he
      have hne : (Lang.mkVar y : O) ≠ Lang.mkVar x := fun e => hx (hinj _ _ e ▸ hy)
      exact hD.computes.var n _ args cv' (by rw [(hv.1 y).1]; rfl) (by simpa [setVar, hne] using he))
    (by
      intro y hy hy' args cv' he
      have : y = x := by
        rcases List.mem_append.1 hy with hy | hy
        · exact absurd hy hy'
        · simpa using hy
      subst this
      simp only [setVar, if_true, Option.some.injEq] at he
      exact he ▸ hcv)
  have hgm : InvS ⟨some n, fun o => ∃ x ∈ X, o = Lang.mkVar x⟩ (arOn ar (· ∈ X ++ [x])) (piAlg I)
      (SafeOk mem fits n tbl) g val := hg.mono fun o k ho => ⟨ho.1, fun y hy => by simp [ho.2 y hy]⟩
  obtain ⟨val', h1, -, -, -, -, e, he, k1, k2, -⟩ := addWith_ok hDI
    (mod := fun g _ => some g) (fun g val i g' hI _ e => by cases e; exact ⟨val, hI, Ext.refl _ _⟩) hgm
    ⟨(hv.1 x).2, fun y hy => by rw [(hv.1 x).1] at hy; cases hy; simp⟩ (by simp) hadd
  refine ⟨val', ⟨h1.find_lt, h1.find_ge, h1.idem, h1.nodes_lt, h1.nodes_ar, h1.val_find, h1.val_node, h1.data_ok,
    h1.side_len, ?_⟩⟩
  rintro o ⟨y, hy, rfl⟩
  rcases List.mem_append.1 hy with hy | hy
  · exact h1.side_nodes _ ⟨y, hy, rfl⟩
  · obtain rfl : y = x := by simpa using hy
    refine ⟨e, he, ?_⟩
    obtain ⟨⟨op, ch⟩, c⟩ := e
    simp only [List.map_nil, List.map_eq_nil_iff] at k1 k2 ⊢
    rw [k1, k2]

theorem initVars_safe [Nonempty V] (hD : SafeDomain D ar I mem fits) (hE : 2 ≤ E.depth) {n : Nat} {tbl : List (String × CVec C)}
    (l : List (String × CVec C)) :
    ∀ (X : List String), (X ++ l.map Prod.fst).Nodup → (∀ p ∈ l, CvOk n tbl fits p.2 fun env => env p.1) →
    ∀ (g : EGraph O C) (val : Nat → (String → V) → V), SafeInv ar I mem fits n tbl X g val →
    ∃ g', l.foldlM (initVar D E) g = some g' ∧ ∃ val', SafeInv ar I mem fits n tbl (X ++ l.map Prod.fst) g' val' := by
  induction l with
  | nil => intro X _ _ g val hg; exact ⟨g, rfl, val, by simpa using hg⟩
  | cons p l ih =>
    intro X hn hp g val hg
    have hx : p.1 ∉ X := by
      intro hx
      have := (List.nodup_append.1 hn).2.2 p.1 hx p.1 (by simp)
      exact this rfl
    obtain ⟨g1, h1, val1, hg1⟩ := initVar_safe (E := E) hD hE hx (hp p (by simp)) hg
    obtain ⟨g2, h2, val2, hg2⟩ := ih (X ++ [p.1]) (by simpa using hn) (fun q hq => hp q (by simp [hq])) g1 val1 hg1
    refine ⟨g2, ?_, val2, by simpa using hg2⟩
    rw [List.foldlM_cons]
    exact (congrArg (Option.bind · _) h1).trans h2

theorem addTms_total {S : Side O} {ok : Signature O C → V → Prop} (hD : DataInvS S D ar I ok) (hT : StepTotal S D ar I ok)
    (hE : 2 ≤ E.depth) (ts : List (Tm O)) (ht : ∀ t ∈ ts, TmOk ar t) : ∀ {g : EGraph O C} {val : Nat → V},
      InvS S ar I ok g val → ∃ g' ids, addTms D E ts g = some (g', ids) := by
  induction ts with
  | nil => exact fun {g} _ _ => ⟨g, [], rfl⟩
  | cons t ts ih =>
    intro g val hg
    obtain ⟨g1, i, h1⟩ := addTm_total (E := E) hD hT hE t (ht t (by simp)) g val hg
    obtain ⟨val1, hg1, -⟩ := addTm_ok hD (ht t (by simp)) hg h1
    obtain ⟨g2, ids, h2⟩ := ih (fun u hu => ht u (by simp [hu])) hg1
    exact ⟨g2, i :: ids, by rw [addTms, h1, Option.bind_some, h2]; rfl⟩

/-- Building the e-graph of a list of terms does not fail; the invariant holds. -/
theorem termsToEGraph_safe [Nonempty V] (hD : SafeDomain D ar I mem fits) (hI : InitOk D) (hE : 2 ≤ E.depth) {ts : List (Tm O)}
    (hts : ∀ t ∈ ts, TmOk ar t) {n : Nat} {tbl : List (String × CVec C)}
    (hinit : D.initVars (collectVars ts) = some (n, tbl))
    (hpos : ∀ j, j < n → ∃ env : String → V, SampleAt fits tbl j env) :
    ∃ g, termsToEGraph D E ts = some g ∧ ∃ val, SafeInv ar I mem fits n tbl (collectVars ts) g val := by
  obtain ⟨hnames, hlen⟩ := hI _ n tbl (collectVars_nodup ts) hinit
  obtain ⟨v⟩ := ‹Nonempty V›
  haveI : Nonempty V := ⟨v⟩
  have h0 : SafeInv ar I mem fits n tbl [] ({ EGraph.empty with cvecLen := n } : EGraph O C) (fun _ _ => v) :=
    ⟨fun _ h => absurd h (Nat.not_lt_zero _), fun _ _ => rfl, fun _ => rfl, by simp [EGraph.empty],
      by simp [EGraph.empty], fun _ h => absurd h (Nat.not_lt_zero _), by simp [EGraph.empty],
      fun _ h => absurd h (Nat.not_lt_zero _), fun m hm => Option.some.inj hm, fun o ⟨x, hx, _⟩ => by cases hx⟩
  obtain ⟨g1, h1, val1, hg1⟩ := initVars_safe (E := E) hD hE tbl [] (by
      rw [List.nil_append, hnames]
      exact collectVars_nodup ts)
    (fun p hp => ⟨hlen p hp, fun j _ env hs => ⟨hlen p hp, hs p hp⟩⟩) _ _ h0
  rw [List.nil_append, hnames] at hg1
  have hok : ∀ t ∈ ts, TmOk (arOn ar (· ∈ collectVars ts)) t :=
    fun t ht => TmOk.arOn (hts t ht) fun x hx => mem_collectVars ht hx
  obtain ⟨g2, ids, h2⟩ := addTms_total (E := E) (safeInv_plain hD n tbl (collectVars ts)) (safeTotal_plain hD _ hpos) hE ts
    hok hg1
  obtain ⟨val2, hg2, -⟩ := addTms_ok (safeInv_plain hD n tbl (collectVars ts)) ts hok hg1 h2
  refine ⟨g2, ?_, val2, hg2⟩
  rw [termsToEGraph, initializeVars, hinit, Option.bind_some, h1, Option.bind_some, h2]
  rfl

omit [LinearOrder C] in
/-- Good rules are safe in the algebra of functions. -/
theorem rulesSafe_piAlg {Y : String → Prop} {rules : List (Rule O)}
    (h : ∀ r ∈ rules, GoodRule ar r ∧ Holds I r ∧ BoundRhs r) : RulesSafe (arOn ar Y) (piAlg I) rules :=
  fun r hr =>
    let ⟨h1, h2, h3⟩ := h r hr
    ⟨⟨PatOk.arOn h1.1.1 h1.2.1, PatOk.arOn h1.1.2 h1.2.2⟩, Holds.piAlg h1 h2, h3⟩

/-- E-graphs obtained by growing keep the invariant. -/
theorem Grows.safe [Nonempty V] (hD : SafeDomain D ar I mem fits) {n : Nat} {tbl : List (String × CVec C)} {X : List String}
    {R : Rule O → Prop} (hR : ∀ r, R r → GoodRule ar r ∧ Holds I r) {g g' : EGraph O C} {val : Nat → (String → V) → V}
    (hg : SafeInv ar I mem fits n tbl X g val) (h : Grows D ar R X g g') :
    ∃ val', SafeInv ar I mem fits n tbl X g' val' := by
  have hDI := safeInv_plain hD n tbl X
  induction h with
  | refl => exact ⟨val, hg⟩
  | addTm _ ht hx h ih =>
    obtain ⟨val1, h1⟩ := ih
    obtain ⟨val2, h2, -⟩ := addTm_ok hDI (TmOk.arOn ht hx) h1 h
    exact ⟨val2, h2⟩
  | rebuild _ h ih =>
    obtain ⟨val1, h1⟩ := ih
    obtain ⟨⟨val2, h2, -⟩, -⟩ := rebuild_ok hDI h1 h
    exact ⟨val2, h2⟩
  | run _ hr h ih =>
    obtain ⟨val1, h1⟩ := ih
    obtain ⟨⟨val2, h2, -⟩, -⟩ := run_ok hDI (fun r hm => by
      obtain ⟨hk, hh⟩ := hR r (hr r hm)
      exact ⟨⟨PatOk.arOn hk.1.1 hk.2.1, PatOk.arOn hk.1.2 hk.2.2⟩, Holds.piAlg hk hh⟩) h1 h
    exact ⟨val2, h2⟩

end Ruler
