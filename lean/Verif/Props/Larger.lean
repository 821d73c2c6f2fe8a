import Verif.Spec.Larger
import Verif.Proofs.Size
import Verif.Props.SynthesisDomains
/-!
# C90: found rules are about the terms of the workload, and a larger workload loses none of them
-/
namespace Ruler
open Spec EGraph
variable {O C V : Type} [Lang O] [LinearOrder C] {D : Domain O C} {ar : O → Nat → Prop}

omit [Lang O] in
theorem Spec.TmSub.trans {a b c : Tm O} (h1 : TmSub a b) (h2 : TmSub b c) : TmSub a c := by
  induction h2 with
  | refl => exact h1
  | arg hm _ ih => exact .arg hm ih

omit [Lang O] in
theorem Spec.TmSub.of_arg {o : O} {l : List (Tm O)} {a u : Tm O} (ha : a ∈ l) (h : TmSub (.node o l) u) : TmSub a u :=
  (TmSub.arg ha (.refl a)).trans h

omit [LinearOrder C] in
theorem partOf_addsSmall (hD : AddsConstants D) (w : Workload) : AddsSmall D fun t => PartOf w t ∨ PartOfConst D t where
  args := by
    rintro o l (⟨ss, h1, s, h2, u, h3, h4⟩ | ⟨c, u, h1, h2⟩) a ha
    · exact .inl ⟨ss, h1, s, h2, u, h3, h4.of_arg ha⟩
    · exact .inr ⟨c, u, h1, h2.of_arg ha⟩
  custom := hD.custom
  varTerms := hD.varTerms
  const := fun c t h => .inr ⟨c, t, h, .refl t⟩

/-- The variables of a term occur in it as terms. -/
theorem hasVar_sub (hv : VarOps (O := O) ar) {x : String} {t : Tm O} (ht : TmOk ar t) (h : HasVar x t) :
    TmSub (.node (Lang.mkVar x) []) t := by
  induction h with
  | @here o args ho =>
    obtain ⟨rfl, h0⟩ := hv.2 o x ho
    cases ht with
    | node ha _ =>
      have := h0 _ ha
      obtain rfl : args = [] := List.length_eq_zero_iff.1 this
      exact .refl _
  | there hm _ ih =>
    cases ht with
    | node _ hl => exact .arg hm (ih (hl _ hm))

/-- Arguments of represented terms are represented. -/
theorem rep_sub {g : EGraph O C} {t u : Tm O} (hs : TmSub t u) : ∀ {i}, Rep g u i → ∃ j, Rep g t j := by
  induction hs with
  | refl => exact fun h => ⟨_, h⟩
  | arg hm _ ih =>
    rintro i ⟨e, -, -, -, h4⟩
    rw [RepL_iff] at h4
    obtain ⟨j, -, hj⟩ := forall2_mem_left h4 hm
    exact ih hj

/-- After compression every class has a term that occurs in the workload, or in a constant. -/
theorem run_within (hD : AddsConstants D) (hv : VarOps (O := O) ar) (hI : InitOk D) (hps : ParsesSorted (O := O) ar) {R : RunEnv O C}
    {w : Workload} {prior : Ruleset O} {pl : Limits} {g g' : EGraph O C} (hg : w.toEGraph D R.build = some g)
    (hg' : Scheduler.run D R.eg R.isSat (.compress pl) prior R.tr g = some g') :
    Within (fun t => PartOf w t ∨ PartOfConst D t) g' := by
  refine runCompress_within (partOf_addsSmall hD w) ?_ hg'
  obtain ⟨ts, h0, hts, ss, h1, h2⟩ := toEGraph_terms hps hg
  have hpart : ∀ t ∈ ts, ∀ u, TmSub u t → PartOf w u := fun t ht u hu => by
    obtain ⟨s, hs, e⟩ := mapM_option_mem h2 ht
    exact ⟨ss, h1, s, hs, t, e, hu⟩
  refine termsToEGraph_within (partOf_addsSmall hD w) (fun n tbl hi p hp => .inl ?_) (fun t ht => .inl (hpart t ht t (.refl t))) h0
  have hm : p.1 ∈ collectVars ts := by
    rw [← (hI _ _ _ (collectVars_nodup ts) hi).1]
    exact List.mem_map_of_mem hp
  obtain ⟨t, ht, hx⟩ := ((collectVars_spec ts).2 p.1).1 hm
  exact hpart t ht _ (hasVar_sub hv (hts t ht) hx)

/-- **C90.** Given the prior rules, a found rule says that two terms are equal which occur in the workload (or in constants that
folding adds). -/
theorem C90_about (hD : AddsConstants D) (hv : VarOps (O := O) ar) (hI : InitOk D) (hps : ParsesSorted (O := O) ar) {R : RunEnv O C}
    (hR : RunOk D R) {w : Workload} {prior out : Ruleset O} {pl ml : Limits} {fast allowEmpty : Bool} {asked : List (Rule O)}
    (hp : WellFormed prior) (hpr : ∀ r ∈ Ruleset.iter prior, GoodRule ar r)
    (h : runWorkloadInternal D R w prior pl ml fast allowEmpty = some (out, asked)) :
    ∀ q ∈ Ruleset.iter out, ∃ t u : Tm O, (PartOf w t ∨ PartOfConst D t) ∧ (PartOf w u ∨ PartOfConst D u) ∧
      Says D ar prior q t u := by
  have hreach : ∀ {g g'}, w.toEGraph D R.build = some g → Scheduler.run D R.eg R.isSat (.compress pl) prior R.tr g = some g' →
      Reach D ar (fun r => r ∈ Ruleset.iter prior) g' := fun hg hg' =>
    .run (toEGraph_reach hv.1 (fun ss _ s _ t ht => tmOk_ofSexp hps s t ht) hg) (fun _ h => h) hg'
  obtain ⟨g, g', hg, hg', hq⟩ := runWorkloadInternal_origin_of hp (fun g g' hg hg' => (hR g' (Reach.any (hreach hg hg'))).1) h
  have hw := run_within hD hv hI hps hg hg'
  have hr := hreach hg hg'
  have hbest := (hR g' (Reach.any hr)).2
  intro q hq'
  obtain ⟨i, hi, j, hj, -, -, -, hrel⟩ := hq q hq'
  have lt : ∀ {k}, k ∈ g'.classes → k < g'.n := fun hk => by
    simp only [EGraph.classes, List.mem_filter, List.mem_range] at hk
    exact hk.1
  obtain ⟨t, t1, t2⟩ := hw.2 i (lt hi)
  obtain ⟨u, u1, u2⟩ := hw.2 j (lt hj)
  refine ⟨t, u, t2, u2, fun V I mem hF hI => ?_⟩
  have hs : ∀ r, r ∈ Ruleset.iter prior → GoodRule ar r ∧ Holds I r := fun r hr => ⟨hpr r hr, hI r hr⟩
  rw [Relates.holds_iff hrel]
  have e1 : ∀ env, tmVal env I (R.best g' i) = tmVal env I t := fun env => sound_vars hF hs hr (hbest i hi) t1 rfl env
  have e2 : ∀ env, tmVal env I (R.best g' j) = tmVal env I u := fun env => sound_vars hF hs hr (hbest j hj) u1 rfl env
  simp only [e1, e2]

/-- **C90.** A run on a larger workload, with a prior that contains the prior of the first run, loses no rule. Let samples determine values, and let the validator of the second run accept what
holds in the domain. A rule that the run on the smaller workload found, and that holds in the domain, follows from the prior and the rules
of the second run. The exceptions are rules about a constant that does not occur in the larger workload, and rules about two
of its terms whose classes have representatives with incomparable variables. -/
theorem C90_larger {I : O → List V → V} {mem : Interval C → V → Prop} {fits : Option C → V → Prop} [Nonempty V] (hD : AddsConstants D)
    (hF : ∀ env, FoldsIn D ar (withVars env I) mem) (hP : PlainFolding D ar)
    (hv : VarOps (O := O) ar) (hC : Computes D ar I fits) (hI : InitOk D)
    (hfun : ∀ a b v, fits a v → fits b v → a.isSome ∧ a = b)
    (hpos : ∀ X n tbl, X.Nodup → D.initVars X = some (n, tbl) → 0 < n ∧ ∀ j, j < n → ∃ env, SampleAt fits tbl j env)
    (hps : ParsesSorted (O := O) ar) (hor : OpsReadable (O := O) ar) {R R' : RunEnv O C} (hR : RunOk D R) (hR' : RunOk D R')
    (hacc : ∀ before q, GoodRule ar q → Holds I q → R'.min.valid before q = true) {w w' : Workload}
    (hsub : ∀ t : Tm O, PartOf w t → PartOf w' t) {prior prior' out out' : Ruleset O}
    {pl ml pl' ml' : Limits} {fast allowEmpty fast' allowEmpty' : Bool} {asked asked' : List (Rule O)} (hp : WellFormed prior) (hp' : WellFormed prior')
    (hpp : ∀ r ∈ Ruleset.iter prior, r ∈ Ruleset.iter prior')
    (hpr : ∀ r ∈ Ruleset.iter prior', Rule.Textual r ∧ GoodRule ar r ∧ Holds I r)
    (h : runWorkloadInternal D R w prior pl ml fast allowEmpty = some (out, asked))
    (h' : runWorkloadInternal D R' w' prior' pl' ml' fast' allowEmpty' = some (out', asked'))
    {W : Type} {J : O → List W → W} {memJ : Interval C → W → Prop} (hFJ : ∀ env, FoldsIn D ar (withVars env J) memJ)
    (hJ : ∀ q, q ∈ Ruleset.iter prior' ∨ q ∈ Ruleset.iter out' → Holds J q) :
    ∀ q ∈ Ruleset.iter out, Holds I q → Holds J q ∨ ∃ t u : Tm O, (PartOf w t ∨ PartOfConst D t) ∧ (PartOf w u ∨ PartOfConst D u) ∧
      Says D ar prior q t u ∧
      ((PartOfConst D t ∧ ¬ PartOf w' t ∨ PartOfConst D u ∧ ¬ PartOf w' u) ∨
      ∃ g g' i j, w'.toEGraph D R'.build = some g ∧ Scheduler.run D R'.eg R'.isSat (.compress pl') prior' R'.tr g = some g' ∧
        i ∈ g'.classes ∧ j ∈ g'.classes ∧ Rep g' t i ∧ Rep g' u j ∧
        ¬ Covers (R'.best g' i) (R'.best g' j) ∧ ¬ Covers (R'.best g' j) (R'.best g' i)) := by
  intro q hq hqI
  obtain ⟨t, u, ht, hu, hsay⟩ := C90_about hD hv hI hps hR hp (fun r hr => (hpr r (hpp r hr)).2.1) h q hq
  by_cases hct : PartOfConst D t ∧ ¬ PartOf w' t
  · exact .inr ⟨t, u, ht, hu, hsay, .inl (.inl hct)⟩
  by_cases hcu : PartOfConst D u ∧ ¬ PartOf w' u
  · exact .inr ⟨t, u, ht, hu, hsay, .inl (.inr hcu)⟩
  have part : ∀ {x : Tm O}, PartOf w x ∨ PartOfConst D x → ¬ (PartOfConst D x ∧ ¬ PartOf w' x) → PartOf w' x := fun hx hn => by
    rcases hx with hx | hx
    · exact hsub _ hx
    · by_contra hc
      exact hn ⟨hx, hc⟩
  obtain ⟨g, g', hg, hg', hrep, key⟩ :=
    C65_complete hF hP hv hC hI hfun hpos hps hor hR' hacc hp' hpr h' hFJ hJ
  have hreach : AnyHistory D g' := .run (toEGraph_reach (fun s => ⟨(hv.1 s).1, trivial⟩) (fun _ _ _ _ _ _ => TmOk.any _) hg)
    (fun _ _ => trivial) hg'
  obtain ⟨val, hInv⟩ := AnyHistory.inv hreach
  have found : ∀ {x : Tm O}, PartOf w' x → ∃ i ∈ g'.classes, Rep g' x i := by
    rintro x ⟨ss, hss, s, hs, y, hy, hxy⟩
    obtain ⟨i, -, hi⟩ := hrep ss hss s hs y hy
    obtain ⟨j, hj⟩ := rep_sub hxy hi
    refine ⟨g'.find j, ?_, Rep.congr hj (hInv.idem j).symm⟩
    have := hInv.find_lt j (Rep.lt hInv hj)
    simp [EGraph.classes, hInv.idem j, this]
  obtain ⟨i, hi, ri⟩ := found (part ht hct)
  obtain ⟨j, hj, rj⟩ := found (part hu hcu)
  by_cases hcov : Covers (R'.best g' i) (R'.best g' j) ∨ Covers (R'.best g' j) (R'.best g' i)
  · refine .inl ((hsay W J memJ hFJ fun r hr => hJ r (.inl (hpp r hr))).2 (key i hi j hj hcov t u ri rj ?_))
    exact (hsay V I mem hF fun r hr => (hpr r (hpp r hr)).2.2).1 hqI
  · rw [not_or] at hcov
    exact .inr ⟨t, u, ht, hu, hsay, .inr ⟨g, g', i, j, hg, hg', hi, hj, ri, rj, hcov.1, hcov.2⟩⟩

/-- **C90 (Booleans).** A rule found for a workload follows from the prior and the rules found for a larger workload (and prior) in which the two
constants occur, unless it is about two of its formulas whose classes have representatives with incomparable variables. -/
theorem C90_bool {R R' : RunEnv BoolOp Bool} (hR : RunOk boolDomain R) (hR' : RunOk boolDomain R') (hval : BoolAnswers R'.min.valid)
    {w w' : Workload} (hsub : ∀ t : Tm BoolOp, PartOf w t → PartOf w' t) (hc : ∀ b, PartOf w' (.node (.lit b) [] : Tm BoolOp))
    {prior prior' out out' : Ruleset BoolOp} {pl ml pl' ml' : Limits} {fast allowEmpty fast' allowEmpty' : Bool}
    {asked asked' : List (Rule BoolOp)} (hp : WellFormed prior) (hp' : WellFormed prior')
    (hpp : ∀ r ∈ Ruleset.iter prior, r ∈ Ruleset.iter prior')
    (hpr : ∀ r ∈ Ruleset.iter prior', Rule.Textual r ∧ GoodRule (fun o k => k = o.arity) r ∧ Holds boolOpVal r)
    (h : runWorkloadInternal boolDomain R w prior pl ml fast allowEmpty = some (out, asked))
    (h' : runWorkloadInternal boolDomain R' w' prior' pl' ml' fast' allowEmpty' = some (out', asked'))
    {W : Type} {J : BoolOp → List W → W} {memJ : Interval Bool → W → Prop}
    (hFJ : ∀ env, FoldsIn boolDomain (fun o k => k = o.arity) (withVars env J) memJ)
    (hJ : ∀ q, q ∈ Ruleset.iter prior' ∨ q ∈ Ruleset.iter out' → Holds J q) :
    ∀ q ∈ Ruleset.iter out, Holds J q ∨ ∃ t u : Tm BoolOp, PartOf w' t ∧ PartOf w' u ∧
      Says boolDomain (fun o k => k = o.arity) prior q t u ∧
      ∃ g g' i j, w'.toEGraph boolDomain R'.build = some g ∧
        Scheduler.run boolDomain R'.eg R'.isSat (.compress pl') prior' R'.tr g = some g' ∧
        i ∈ g'.classes ∧ j ∈ g'.classes ∧ Rep g' t i ∧ Rep g' u j ∧
        ¬ Covers (R'.best g' i) (R'.best g' j) ∧ ¬ Covers (R'.best g' j) (R'.best g' i) := by
  have const : ∀ {x : Tm BoolOp}, PartOfConst boolDomain x → PartOf w' x := by
    rintro x ⟨c, u, hu, hx⟩
    cases hu
    cases hx with
    | refl => exact hc c
    | arg hm _ => cases hm
  have hh := (C64_sound hR hp (fun r hr => (hpr r (hpp r hr)).2) h)
  intro q hq
  have key := C90_larger (D := boolDomain) (fits := fun e b => e = some b) ⟨fun _ _ => rfl, fun _ => rfl⟩ bool_folds bool_plain bool_varOps
    bool_computes bool_initOk (by rintro a b v rfl rfl; exact ⟨rfl, rfl⟩)
    (fun X n tbl hX hi => initProduct_positions hX hi (by simp [boolSamples]) (by
      intro c hc
      simp only [boolSamples, List.mem_cons, List.not_mem_nil, or_false] at hc
      rcases hc with rfl | rfl <;> exact ⟨_, rfl⟩))
    bool_parsesSorted bool_opsReadable hR hR' (fun before q _ _ => boolAnswers_all hval before q) hsub hp hp' hpp hpr h h' hFJ hJ q hq
    (hh q hq).2.2
  rcases key with key | ⟨t, u, ht, hu, hs, hcs | hi⟩
  · exact .inl key
  · rcases hcs with hcs | hcs <;> exact absurd (const hcs.1) hcs.2
  · exact .inr ⟨t, u, ht.elim (hsub t) const, hu.elim (hsub u) const, hs, hi⟩

/-- **C90 (bit vectors).** Likewise for words of up to 64 bits, with a solver that is right and a validator that accepts what holds; rules
about literals that do not occur in the larger workload are a further exception. -/
theorem C90_bv {N : Nat} (hN : N ≤ 64) {R R' : RunEnv (BvOp N) (BV N)} (hR : RunOk (bvDomain N) R) (hR' : RunOk (bvDomain N) R')
    (ha : AnswersFrom (SolverSoundBV N) bvValidate R.min.valid)
    (hacc : ∀ before q, GoodRule (fun o k => k = o.arity ∧ LitProper o) q → Holds bvOpVal q → R'.min.valid before q = true)
    {w w' : Workload} (hsub : ∀ t : Tm (BvOp N), PartOf w t → PartOf w' t)
    {prior prior' out out' : Ruleset (BvOp N)} {pl ml pl' ml' : Limits} {fast allowEmpty fast' allowEmpty' : Bool}
    {asked asked' : List (Rule (BvOp N))} (hp : WellFormed prior) (hp' : WellFormed prior')
    (hpp : ∀ r ∈ Ruleset.iter prior, r ∈ Ruleset.iter prior')
    (hpr : ∀ r ∈ Ruleset.iter prior', Rule.Textual r ∧ GoodRule (fun o k => k = o.arity ∧ LitProper o) r ∧ Holds bvOpVal r)
    (h : runWorkloadInternal (bvDomain N) R w prior pl ml fast allowEmpty = some (out, asked))
    (h' : runWorkloadInternal (bvDomain N) R' w' prior' pl' ml' fast' allowEmpty' = some (out', asked'))
    {W : Type} {J : BvOp N → List W → W} {memJ : Interval (BV N) → W → Prop}
    (hFJ : ∀ env, FoldsIn (bvDomain N) (fun o k => k = o.arity ∧ LitProper o) (withVars env J) memJ)
    (hJ : ∀ q, q ∈ Ruleset.iter prior' ∨ q ∈ Ruleset.iter out' → Holds J q) :
    ∀ q ∈ Ruleset.iter out, Holds J q ∨ ∃ t u : Tm (BvOp N),
      Says (bvDomain N) (fun o k => k = o.arity ∧ LitProper o) prior q t u ∧
      ((∃ c, (t = .node (.lit c) [] ∨ u = .node (.lit c) []) ∧ ¬ PartOf w' (.node (.lit c) [] : Tm (BvOp N))) ∨
      ∃ g g' i j, w'.toEGraph (bvDomain N) R'.build = some g ∧
        Scheduler.run (bvDomain N) R'.eg R'.isSat (.compress pl') prior' R'.tr g = some g' ∧
        i ∈ g'.classes ∧ j ∈ g'.classes ∧ Rep g' t i ∧ Rep g' u j ∧
        ¬ Covers (R'.best g' i) (R'.best g' j) ∧ ¬ Covers (R'.best g' j) (R'.best g' i)) := by
  have const : ∀ {x : Tm (BvOp N)}, PartOfConst (bvDomain N) x → ∃ c, x = .node (.lit c) [] := by
    rintro x ⟨c, u, hu, hx⟩
    cases hu
    cases hx with
    | refl => exact ⟨c, rfl⟩
    | arg hm _ => cases hm
  have hh := C65_bv hN hR ha hp (fun r hr => (hpr r (hpp r hr)).2.1) h
  intro q hq
  have key := C90_larger (D := bvDomain N) ⟨fun _ _ => rfl, fun _ => rfl⟩ bv_folds_proper bv_plain bv_varOps
    (bv_computes (by omega)) bv_initOk (by
      rintro a b v ⟨w, rfl, h2, h3⟩ ⟨w', rfl, h2', h3'⟩
      exact ⟨rfl, congrArg some (BV.bits_inj h2 h2' (h3.trans h3'.symm))⟩)
    (fun X n tbl hX hi => initProduct_positions hX hi (by simpa using bvSamples_ne N) (by
      intro c hc
      obtain ⟨w, hw, rfl⟩ := List.mem_map.1 hc
      exact ⟨bits w, w, rfl, bvSamples_proper (by omega) w hw, rfl⟩))
    (bv_parsesSorted (by omega)) (bv_opsReadable (by omega)) hR hR' hacc hsub hp hp' hpp hpr h h' hFJ hJ q hq (hh q hq).2.2
  rcases key with key | ⟨t, u, ht, hu, hs, (⟨k1, k2⟩ | ⟨k1, k2⟩) | hi⟩
  · exact .inl key
  · obtain ⟨c, rfl⟩ := const k1
    exact .inr ⟨_, u, hs, .inl ⟨c, .inl rfl, k2⟩⟩
  · obtain ⟨c, rfl⟩ := const k1
    exact .inr ⟨t, _, hs, .inl ⟨c, .inr rfl, k2⟩⟩
  · exact .inr ⟨t, u, hs, .inr hi⟩

/-! ## Examples -/

/-- `(& x y)`, `(& y x)` and the constants. -/
def Sample.conjsConst : Workload := .set [.list [.atom "&", .atom "x", .atom "y"], .list [.atom "&", .atom "y", .atom "x"],
  .atom "true", .atom "false"]

theorem Sample.conjs_sub (t : Tm BoolOp) (h : PartOf Sample.conjs t) : PartOf Sample.conjsConst t := by
  obtain ⟨ss, h1, s, h2, u, h3, h4⟩ := h
  cases (h1 : some _ = some ss)
  refine ⟨_, rfl, s, ?_, u, h3, h4⟩
  rcases List.mem_cons.1 h2 with rfl | h2
  · exact List.mem_cons_self ..
  · cases List.mem_singleton.1 h2
    exact List.mem_cons_of_mem _ (List.mem_cons_self ..)

theorem Sample.consts_part (b : Bool) : PartOf Sample.conjsConst (.node (.lit b) [] : Tm BoolOp) := by
  cases b
  · exact ⟨_, rfl, .atom "false", List.mem_cons_of_mem _ (List.mem_cons_of_mem _ (List.mem_cons_of_mem _ (List.mem_cons_self ..))), _,
      by decide +kernel, .refl _⟩
  · exact ⟨_, rfl, .atom "true", List.mem_cons_of_mem _ (List.mem_cons_of_mem _ (List.mem_cons_self ..)), _,
      by decide +kernel, .refl _⟩

-- Commutativity is found for the small workload; it is about parts of it; the larger workload's rules give it in every algebra.
example : ∃ out asked out' asked',
    runWorkloadInternal boolDomain Sample.boolEnv Sample.conjs [] Sample.limits Sample.limits true false = some (out, asked) ∧
    out.length = 2 ∧
    runWorkloadInternal boolDomain Sample.boolEnv Sample.conjsConst [] Sample.limits Sample.limits true false = some (out', asked') ∧
    (∀ q ∈ Ruleset.iter out, ∃ t u : Tm BoolOp, (PartOf Sample.conjs t ∨ PartOfConst boolDomain t) ∧
      (PartOf Sample.conjs u ∨ PartOfConst boolDomain u) ∧ Says boolDomain (fun o k => k = o.arity) [] q t u) ∧
    ∀ (W : Type) (J : BoolOp → List W → W) (memJ : Interval Bool → W → Prop),
      (∀ env, FoldsIn boolDomain (fun o k => k = o.arity) (withVars env J) memJ) → (∀ q ∈ Ruleset.iter out', Holds J q) →
      ∀ q ∈ Ruleset.iter out, Holds J q ∨ ∃ g g' i j, Sample.conjsConst.toEGraph boolDomain Sample.boolEnv.build = some g ∧
        Scheduler.run boolDomain Sample.boolEnv.eg Sample.boolEnv.isSat (.compress Sample.limits) [] Sample.boolEnv.tr g = some g' ∧
        i ∈ g'.classes ∧ j ∈ g'.classes ∧ ¬ Covers (Sample.boolEnv.best g' i) (Sample.boolEnv.best g' j) := by
  have key : (runWorkloadInternal boolDomain Sample.boolEnv Sample.conjs [] Sample.limits Sample.limits true false).map
    (fun r => r.1.length) = some 2 := by decide +kernel
  have key' : (runWorkloadInternal boolDomain Sample.boolEnv Sample.conjsConst [] Sample.limits Sample.limits true false).map
    (fun r => r.1.length) = some 2 := by decide +kernel
  obtain ⟨⟨out, asked⟩, h, hl⟩ := Option.map_eq_some_iff.1 key
  obtain ⟨⟨out', asked'⟩, h', -⟩ := Option.map_eq_some_iff.1 key'
  refine ⟨out, asked, out', asked', h, hl, h', ?_, fun W J memJ hF hJ q hq => ?_⟩
  · exact C90_about ⟨fun _ _ => rfl, fun _ => rfl⟩ bool_varOps bool_initOk bool_parsesSorted Sample.boolEnv_ok
      (by simp [WellFormed]) (by simp [Ruleset.iter]) h
  · rcases C90_bool Sample.boolEnv_ok Sample.boolEnv_ok boolAnswers_true Sample.conjs_sub Sample.consts_part (prior := []) (prior' := [])
      (by simp [WellFormed]) (by simp [WellFormed]) (fun _ h => h) (by simp [Ruleset.iter]) h h' hF (by simpa [Ruleset.iter] using hJ) q hq with k | ⟨_, _, _, _, _, k⟩
    · exact .inl k
    · obtain ⟨g, g', i, j, k1, k2, k3, k4, -, -, k5, -⟩ := k
      exact .inr ⟨g, g', i, j, k1, k2, k3, k4, k5⟩

end Ruler
