import Verif.Props.Progress
import Verif.Props.SynthesisRational
import Verif.Props.ProgressExamples
import Verif.Proofs.ProgressRational
/-!
# C81: rational runs can panic
-/
namespace Ruler
open Spec EGraph
variable {K : Type} [Field K] [LinearOrder K] [IsStrictOrderedRing K] {ck : Checked}

theorem mathOpVal_some {o : MathOp} {vs : List K} (h : vs.length = o.arity) (hv : Lang.toVar o = none) (hd : o ≠ .div) :
    mathOpVal o (vs.map some) = some (totalOpVal o vs) := by
  cases o with
  | var x => cases hv
  | div => exact absurd rfl hd
  | lit c => cases list_len0 h; rfl
  | neg | abs => obtain ⟨x, rfl⟩ := list_len1 h; rfl
  | add | sub | mul => obtain ⟨x, y, rfl⟩ := list_len2 h; rfl
  | ite =>
    obtain ⟨x, y, z, rfl⟩ := list_len3 h
    by_cases hx : x = 0 <;> simp [mathOpVal, totalOpVal, hx]

theorem noDivision_safe (hck : ExactOrNone ck) (hk : Results64 ck) :
    SafeDomain (rationalDomain ck) (fun o k => RatSafe o k ∧ o ≠ .div) (totalOpVal (K := K))
      (fun J v => ConstOf (fun c : Rat => some (c : K)) J (some v) ∧ ∀ c, J.low = some c → Fits64 c)
      (fun (e : Option Rat) (v : K) => ∀ q, e = some q → some v = some (q : K)) :=
  safeDomain_restrict (rational_safe hck hk) (ι := some) (Option.some_injective K) (fun _ _ h => h.1)
    (fun o vs h hv => mathOpVal_some h.1.1.1 hv h.2)
    (fun s => ⟨(rational_safe (K := K) hck hk).vars.1 s |>.2, by simp [Lang.mkVar]⟩)
    (by
      intro c t h ht
      cases h
      cases ht with
      | node h hl => exact .node ⟨h, by simp⟩ (by simp))
    (by
      intro c c' t t' h h' _ _ he
      cases h
      cases h'
      have : (c : K) = (c' : K) := he fun _ => 0
      rw [Rat.cast_injective this])

theorem noIte_safe (hck : ExactOrNone ck) (hk : Results64 ck) :
    SafeDomain (rationalDomain ck) (fun o k => RatSafe o k ∧ o ≠ .ite) (mathOpVal (K := K))
      (fun J v => ConstOf (fun c : Rat => some (c : K)) J v ∧ ∀ c, J.low = some c → Fits64 c)
      (fun (e : Option Rat) (v : Option K) => ∀ q, e = some q → v = some (q : K)) :=
  safeDomain_restrict (rational_safe hck hk) (ι := id) Function.injective_id (fun _ _ h => h.1)
    (fun o vs h hv => by rw [List.map_id]; rfl)
    (fun s => ⟨(rational_safe (K := K) hck hk).vars.1 s |>.2, by simp [Lang.mkVar]⟩)
    (by
      intro c t h ht
      cases h
      cases ht with
      | node h hl => exact .node ⟨h, by simp⟩ (by simp))
    (by
      intro c c' t t' h h' _ _ he
      cases h
      cases h'
      have : some (c : K) = some (c' : K) := he fun _ => none
      rw [Rat.cast_injective (Option.some.inj this)])

theorem patOk_weaken {O : Type} {ar ar' : O → Nat → Prop} (har : ∀ o k, ar' o k → ar o k) {p : Pat O} (hp : PatOk ar' p) : PatOk ar p := by
  induction hp with
  | var => exact .var
  | node h _ ih => exact .node (har _ _ h) ih

theorem goodRule_weaken {O : Type} [Lang O] {ar ar' : O → Nat → Prop} (har : ∀ o k, ar' o k → ar o k) {q : Rule O} (hq : GoodRule ar' q) :
    GoodRule ar q :=
  ⟨⟨patOk_weaken har hq.1.1, patOk_weaken har hq.1.2⟩, hq.2⟩

theorem patVal_total {p : Pat MathOp} (hp : PatOk (fun o k => RatSafe o k ∧ o ≠ .div) p) (hs : Schematic p) (ρ : String → K) :
    ratVal ρ p = some (patVal ρ totalOpVal p) := by
  induction hp with
  | var => rfl
  | @node o args h _ ih =>
    cases hs with
    | node hv hl =>
      have : patValL (fun x => some (ρ x)) mathOpVal args = (patValL ρ totalOpVal args).map some := by
        rw [patValL_eq, patValL_eq, List.map_map]
        exact List.map_congr_left fun a ha => ih a ha (hl a ha)
      rw [ratVal, patVal, patVal, this]
      exact mathOpVal_some (by rw [patValL_eq, List.length_map]; exact h.1.1.1) hv h.2

/-- **C81 (part).** A run over terms without negation, absolute value and division does not panic, if the prior rules are
identities without them and if z3 is right when it says unsatisfiable. Missing: these operators, which can panic
(`C81_negation_panics`, `C81_division_panics`). -/
theorem C81_no_division_partial (hck : ExactOrNone ck) (hk : Results64 ck) {R : RunEnv MathOp Rat}
    (hR : RunOk (rationalDomain ck) R) (hd : RunEnv.Deep R) (ha : AnswersFrom (SolverSoundReal K) ratValidate R.min.valid)
    {w : Workload} {prior : Ruleset MathOp}
    (hpr : ∀ r ∈ Ruleset.iter prior, SafeRule (fun o k => RatSafe o k ∧ o ≠ .div) (totalOpVal (K := K)) r)
    {ts : List (Tm MathOp)} (hts : TermsOf w ts) (hok : ∀ t ∈ ts, TmOk (fun o k => RatSafe o k ∧ o ≠ .div) t)
    (hfew : FewVars ts) (pl ml : Limits) (fast : Bool) : Completes (rationalDomain ck) R w prior pl ml fast := by
  refine C68_runWorkload (noDivision_safe (K := K) hck hk) (rational_initOk ck) (fun o k h => rational_opsReadable o k h.1.1)
    hR hd hpr hts hok hfew
    (fun X hX hn => initProduct_total (consts := rationalSamples) (by simp [rationalSamples]) (fun c _ => ?_) hX hn)
    (fun before q hq hb => ?_) pl ml fast
  · cases c with
    | none => exact ⟨0, by simp⟩
    | some c => exact ⟨c, by simp⟩
  · intro ρ
    have h := rational_accepted ha (goodRule_weaken (fun _ _ h => h.1.1) hq) (asked := q :: before) ⟨before, List.suffix_rfl, hb⟩
    exact h ρ _ _ (patVal_total hq.1.1 hq.2.1 ρ) (patVal_total hq.1.2 hq.2.2 ρ)

/-- **C81 (part).** A run over terms without negation, absolute value and conditional, but possibly with division, does not
panic, if moreover only rules with the same variables on both sides are accepted. The code leaves this test out
(tests/rational.rs:160-165, where it is commented out). -/
theorem C81_same_variables_partial (hck : ExactOrNone ck) (hk : Results64 ck) {R : RunEnv MathOp Rat}
    (hR : RunOk (rationalDomain ck) R) (hd : RunEnv.Deep R) (ha : AnswersFrom (SolverSoundReal K) ratValidate R.min.valid)
    (hvars : ∀ before q, R.min.valid before q = true → ∀ v, v ∈ q.lhs.vars ↔ v ∈ q.rhs.vars)
    {w : Workload} {prior : Ruleset MathOp}
    (hpr : ∀ r ∈ Ruleset.iter prior, SafeRule (fun o k => RatSafe o k ∧ o ≠ .ite) (mathOpVal (K := K)) r)
    {ts : List (Tm MathOp)} (hts : TermsOf w ts) (hok : ∀ t ∈ ts, TmOk (fun o k => RatSafe o k ∧ o ≠ .ite) t)
    (hfew : FewVars ts) (pl ml : Limits) (fast : Bool) : Completes (rationalDomain ck) R w prior pl ml fast := by
  have noIte : ∀ {p : Pat MathOp}, PatOk (fun o k => RatSafe o k ∧ o ≠ .ite) p → NoIte p := by
    intro p hp
    induction hp with
    | var => exact .var _
    | node h _ ih => exact .node h.2 ih
  refine C68_runWorkload (noIte_safe (K := K) hck hk) (rational_initOk ck) (fun o k h => rational_opsReadable o k h.1.1)
    hR hd hpr hts hok hfew
    (fun X hX hn => initProduct_total (consts := rationalSamples) (by simp [rationalSamples]) (fun c _ => ?_) hX hn)
    (fun before q hq hb => ?_) pl ml fast
  · cases c with
    | none => exact ⟨none, by simp⟩
    | some c => exact ⟨some c, by simp⟩
  · exact (C65_rational_functions ha (goodRule_weaken (fun _ _ h => h.1.1) hq) (asked := q :: before) ⟨before, List.suffix_rfl, hb⟩).2
      (noIte hq.1.1) (noIte hq.1.2) (hvars before q hb)

/-! ## The panic -/

namespace Sample

/-- `(- (fabs ?x) ?x)` -/
def negPart : Pat MathOp := .node .sub [.node .abs [.var "?x"], .var "?x"]
/-- `(+ (fabs ?x) ?x)` -/
def posPart : Pat MathOp := .node .add [.node .abs [.var "?x"], .var "?x"]
/-- `(* (- (fabs ?x) ?x) (+ (fabs ?x) ?x)) ==> 0` -/
def partsRule : Rule MathOp := ⟨"parts".toList, .node .mul [negPart, posPart], ratLit 0⟩
/-- `(/ 0 ?x) ==> (* (/ 1 ?x) 0)` -/
def overRule0 : Rule MathOp := ⟨"over".toList, .node .div [ratLit 0, .var "?x"], .node .mul [.node .div [ratLit 1, .var "?x"], ratLit 0]⟩
/-- `(/ (* ?x ?y) ?x) ==> (+ ?y (/ 0 ?x))` -/
def cancelRule : Rule MathOp :=
  ⟨"cancel".toList, .node .div [.node .mul [.var "?x", .var "?y"], .var "?x"], .node .add [.var "?y", .node .div [ratLit 0, .var "?x"]]⟩
/-- The first three rules. -/
def partsRules : Ruleset MathOp := [(partsRule.name, partsRule), (overRule0.name, overRule0), (mulZero.name, mulZero)]

/-- `(- (fabs a) a)` as text -/
def negSexp : Sexp := .list [.atom "-", .list [.atom "fabs", .atom "a"], .atom "a"]
/-- `(+ (fabs a) a)` as text -/
def posSexp : Sexp := .list [.atom "+", .list [.atom "fabs", .atom "a"], .atom "a"]
/-- The workload `(/ (* d e) d)`, `(+ e (/ 0 d))`, `(* (/ 1 d) 0)` with `d = (- (fabs a) a)` and `e = (+ (fabs a) a)`. -/
def partsWorkload : Workload :=
  .set [.list [.atom "/", .list [.atom "*", negSexp, posSexp], negSexp],
    .list [.atom "+", posSexp, .list [.atom "/", .atom "0", negSexp]],
    .list [.atom "*", .list [.atom "/", .atom "1", negSexp], .atom "0"]]

/-- `d` -/
def negTerm : Tm MathOp := .node .sub [.node .abs [.node (.var "a") []], .node (.var "a") []]
/-- `e` -/
def posTerm : Tm MathOp := .node .add [.node .abs [.node (.var "a") []], .node (.var "a") []]
/-- The terms. -/
def partsTerms : List (Tm MathOp) :=
  [.node .div [.node .mul [negTerm, posTerm], negTerm], .node .add [posTerm, .node .div [ratZero, negTerm]],
    .node .mul [.node .div [.node (.lit 1) [], negTerm], ratZero]]

/-- One iteration that applies each of the three rules once, and the work of its rebuild. -/
def partsTrace : SchedTrace :=
  { trace with simple := ⟨[], [⟨[[0], [0], [0]], [.congr 5, .congr 7, .analyse 10]⟩]⟩ }

/-- The e-graph after it. -/
def partsOut : Option (EGraph MathOp Rat) :=
  (partsWorkload.toEGraph (rationalDomain rat64) egg).bind
    (Scheduler.run (rationalDomain rat64) egg (fun _ => false) (.simple limits) partsRules partsTrace)

theorem partsTermsOf : TermsOf partsWorkload partsTerms := ⟨_, rfl, by decide +kernel⟩

theorem cut64_exact {x r : Rat} (h : cut64 x = some r) : r = x := by
  unfold cut64 at h
  split at h
  · cases h; rfl
  · cases h

theorem rat64_exact : ExactOrNone rat64 where
  add _ _ _ h := cut64_exact h
  sub _ _ _ h := cut64_exact h
  mul _ _ _ h := cut64_exact h
  div x y r h := by
    simp only [rat64] at h
    split at h
    · cases h
    · rename_i hy; exact ⟨hy, cut64_exact h⟩
  neg _ _ h := cut64_exact h
  abs _ _ h := cut64_exact h

end Sample

/-- **C81.** A run can panic although all its rules are accepted, by a solver that is always right, and each of them has the
same partial function on both sides (and the arithmetic is that of `Ratio<i64>`, exact where it does not overflow): after the first three rules have been applied, the class of `(/ (* d e) d)` has value
zero for every sample, and the right-hand side of `(/ (* ?x ?y) ?x) ==> (+ ?y (/ 0 ?x))` is added with the value of `e`. -/
theorem C81_division_panics (check : SmtFm Rat → SatResult) (hc : SolverExactReal K check) :
    (∀ q ∈ [Sample.partsRule, Sample.overRule0, Sample.mulZero, Sample.cancelRule], SameFunction K q.lhs q.rhs ∧
      ∃ l r, FlatOf l q.lhs ∧ FlatOf r q.rhs ∧ ratValidate check l r = some .valid) ∧
    (ExactOrNone Sample.rat64 ∧ Results64 Sample.rat64) ∧
    (TermsOf Sample.partsWorkload Sample.partsTerms ∧ FewVars Sample.partsTerms) ∧
    ∃ (E : Egg) (tr : SchedTrace) (g g' : EGraph MathOp Rat), 2 ≤ E.depth ∧
      Sample.partsWorkload.toEGraph (rationalDomain Sample.rat64) E = some g ∧
      Scheduler.run (rationalDomain Sample.rat64) E (fun _ => false) (.simple Sample.limits) Sample.partsRules tr g = some g' ∧
      ∃ m ∈ g'.search Sample.cancelRule.lhs, ∃ r, addPat (rationalDomain Sample.rat64) E m.2 Sample.cancelRule.rhs g' = some r ∧
        EGraph.union (rationalDomain Sample.rat64) E r.1 r.2 m.1 = none ∧
        applyOne (rationalDomain Sample.rat64) E Sample.cancelRule.rhs g' m = none := by
  have e : ∀ f, (∀ (d0 : K → K) env, realHolds d0 env f = false) → (check f).toValidation = .valid := by
    intro f h; rw [(hc f).2 h]; rfl
  have parts : ∀ x : K, (|x| - x) * (|x| + x) = 0 := fun x => by
    rw [mul_comm, ← mul_self_sub_mul_self, abs_mul_abs_self, sub_self]
  have absz : ∀ x : K, (if x ≤ 0 then -x else x) = |x| := fun x => by
    split
    · rename_i h; rw [abs_of_nonpos h]
    · rename_i h; rw [abs_of_pos (not_le.1 h)]
  refine ⟨?_, ⟨Sample.rat64_exact, Sample.rat64_results⟩,
    ⟨Sample.partsTermsOf, Sample.few (x := "a") (l := []) (by decide +kernel) (by simp)⟩, ?_⟩
  · intro q hq
    simp only [List.mem_cons, List.not_mem_nil, or_false] at hq
    rcases hq with rfl | rfl | rfl | rfl
    · refine ⟨fun ρ => by simp [ratVal, patVal, patValL, mathOpVal, Sample.ratLit, Sample.partsRule, Sample.negPart, Sample.posPart, parts],
        [⟨.var "?x", []⟩, ⟨.op .abs, [0]⟩, ⟨.op .sub, [1, 0]⟩, ⟨.op .add, [1, 0]⟩, ⟨.op .mul, [2, 3]⟩], [⟨.op (.lit 0), []⟩],
        ⟨rfl, by simp⟩, ⟨rfl, by simp⟩, ?_⟩
      show some (check (.not (ratAssertion (.mul (.sub (.ite (.le (.const "x") (.num 0)) (.neg (.const "x")) (.const "x")) (.const "x"))
        (.add (.ite (.le (.const "x") (.num 0)) (.neg (.const "x")) (.const "x")) (.const "x"))) (.num 0) [] []))).toValidation = _
      rw [e]
      intro d0 env
      have := parts (env "x")
      simp [ratAssertion, SmtFm.anyOf, realHolds, realVal, absz, -mul_eq_zero, this]
    · refine ⟨fun ρ => ?_,
        [⟨.op (.lit 0), []⟩, ⟨.var "?x", []⟩, ⟨.op .div, [0, 1]⟩],
        [⟨.op (.lit 1), []⟩, ⟨.var "?x", []⟩, ⟨.op .div, [0, 1]⟩, ⟨.op (.lit 0), []⟩, ⟨.op .mul, [2, 3]⟩],
        ⟨rfl, by simp⟩, ⟨rfl, by simp⟩, ?_⟩
      · by_cases h : ρ "?x" = 0 <;> simp [ratVal, patVal, patValL, mathOpVal, Sample.overRule0, Sample.ratLit, h]
      · show some (check (.not (ratAssertion (.div (.num 0) (.const "x")) (.mul (.div (.num 1) (.const "x")) (.num 0))
          [.and (.eq (.const "x") (.num 0)) (.lit true)] [.and (.eq (.const "x") (.num 0)) (.lit true)]))).toValidation = _
        rw [e]
        intro d0 env
        by_cases h : env "x" = 0 <;> simp [ratAssertion, SmtFm.anyOf, realHolds, realVal, h]
    · refine ⟨fun ρ => by simp [ratVal, patVal, patValL, mathOpVal, Sample.mulZero],
        [⟨.var "?x", []⟩, ⟨.op (.lit 0), []⟩, ⟨.op .mul, [0, 1]⟩], [⟨.op (.lit 0), []⟩], ⟨rfl, by simp⟩, ⟨rfl, by simp⟩, ?_⟩
      show some (check (.not (ratAssertion (.mul (.const "x") (.num 0)) (.num 0) [] []))).toValidation = _
      rw [e]
      intro d0 env
      simp [ratAssertion, SmtFm.anyOf, realHolds, realVal]
    · refine ⟨fun ρ => ?_,
        [⟨.var "?x", []⟩, ⟨.var "?y", []⟩, ⟨.op .mul, [0, 1]⟩, ⟨.op .div, [2, 0]⟩],
        [⟨.var "?y", []⟩, ⟨.op (.lit 0), []⟩, ⟨.var "?x", []⟩, ⟨.op .div, [1, 2]⟩, ⟨.op .add, [0, 3]⟩],
        ⟨rfl, by simp⟩, ⟨rfl, by simp⟩, ?_⟩
      · by_cases h : ρ "?x" = 0 <;> simp [ratVal, patVal, patValL, mathOpVal, Sample.cancelRule, Sample.ratLit, h]
      · show some (check (.not (ratAssertion (.div (.mul (.const "x") (.const "y")) (.const "x"))
          (.add (.const "y") (.div (.num 0) (.const "x")))
          [.and (.eq (.const "x") (.num 0)) (.lit true)] [.and (.eq (.const "x") (.num 0)) (.lit true)]))).toValidation = _
        rw [e]
        intro d0 env
        by_cases h : env "x" = 0 <;> simp [ratAssertion, SmtFm.anyOf, realHolds, realVal, h]
  · obtain ⟨g', hg'⟩ := Option.isSome_iff_exists.1 (show Sample.partsOut.isSome = true by decide +kernel)
    have key : ∀ {P : EGraph MathOp Rat → Bool}, Sample.partsOut.all P = true → P g' = true := by
      intro P h
      rwa [hg'] at h
    obtain ⟨g, hg, hrun⟩ := Option.bind_eq_some_iff.1 hg'
    have h := key (P := fun g => (g.search Sample.cancelRule.lhs).any fun m =>
      match addPat (rationalDomain Sample.rat64) Sample.egg m.2 Sample.cancelRule.rhs g with
      | some r => (EGraph.union (rationalDomain Sample.rat64) Sample.egg r.1 r.2 m.1).isNone &&
        (applyOne (rationalDomain Sample.rat64) Sample.egg Sample.cancelRule.rhs g m).isNone
      | none => false) (by decide +kernel)
    obtain ⟨m, hm, h⟩ := List.any_eq_true.1 h
    cases ha : addPat (rationalDomain Sample.rat64) Sample.egg m.2 Sample.cancelRule.rhs g' with
    | none => rw [ha] at h; cases h
    | some r =>
      rw [ha] at h
      simp only [Bool.and_eq_true, Option.isNone_iff_eq_none] at h
      exact ⟨Sample.egg, Sample.partsTrace, g, g', by decide, hg, hrun, m, hm, r, ha, h⟩

/-- The workload `(+ x (~ -9223372036854775808))`. -/
def Sample.leastWorkload : Workload := .set [.list [.atom "+", .atom "x", .list [.atom "~", .atom "-9223372036854775808"]]]

/-- The term. -/
def Sample.leastTm : Tm MathOp := .node .add [.node (.var "x") [], .node .neg [.node (.lit (-9223372036854775808)) []]]

/-- **C81.** Negation of the least number overflows, so that the e-graph of this workload cannot be built. -/
theorem C81_negation_panics : TermsOf Sample.leastWorkload [Sample.leastTm] ∧ FewVars [Sample.leastTm] ∧
    TmOk (fun o k => k = o.arity ∧ MathLitFits o) Sample.leastTm ∧
    Sample.leastWorkload.toEGraph (rationalDomain Sample.rat64) Sample.egg = none := by
  have h : TermsOf Sample.leastWorkload [Sample.leastTm] := ⟨_, rfl, by decide +kernel⟩
  exact ⟨h, Sample.few (x := "x") (l := []) (by decide +kernel) (by simp), tmOk_sorted rational_parsesSorted h _ (List.mem_singleton_self _),
    Option.isNone_iff_eq_none.1 (by decide +kernel)⟩

/-- `(* ?a ?b) ==> (* ?b ?a)` -/
def Sample.timesComm : Rule MathOp :=
  ⟨"(* ?a ?b) ==> (* ?b ?a)".toList, .node .mul [.var "?a", .var "?b"], .node .mul [.var "?b", .var "?a"]⟩

theorem Sample.timesComm_safe {V : Type} {I : MathOp → List V → V} {ex : MathOp → Prop} (he : ex .mul)
    (hI : ∀ x y, I .mul [x, y] = I .mul [y, x]) : SafeRule (fun o k => RatSafe o k ∧ ex o) I Sample.timesComm := by
  have hm : RatSafe .mul 2 := ⟨⟨rfl, trivial⟩, by simp, by simp⟩
  refine ⟨⟨⟨.node ⟨hm, he⟩ ?_, .node ⟨hm, he⟩ ?_⟩, .node rfl ?_, .node rfl ?_⟩, fun ρ => hI _ _, show ∀ v ∈ _, v ∈ _ by decide +kernel⟩
  all_goals
    intro a ha
    simp only [List.mem_cons, List.not_mem_nil, or_false] at ha
    rcases ha with rfl | rfl
  all_goals first | exact .var | exact .var rfl

theorem Sample.rat_answers : AnswersFrom (SolverSoundReal Rat) ratValidate
    (Sample.commEnv (rationalDomain Sample.rat64) MathOp.mul).min.valid := by
  refine Sample.answers Sample.ratSolver_sound fun a b ha hb => ?_
  rcases ha with rfl | rfl <;> rcases hb with rfl | rfl
  all_goals
    show some (Sample.ratSolver (.not (ratAssertion (.mul (.const _) (.const _)) (.mul (.const _) (.const _)) [] []))).toValidation = _
    rw [Sample.ratSolver, if_pos fun d0 env => by simp [ratAssertion, SmtFm.anyOf, realHolds, realVal, mul_comm]]
    rfl

theorem Sample.timesTerms {ex : MathOp → Prop} (hv : ∀ x, ex (.var x)) (he : ex .mul) :
    ∀ t ∈ ([.node .mul [.node (.var "x") [], .node (.var "y") []], .node .mul [.node (.var "y") [], .node (.var "x") []]] : List (Tm MathOp)),
      TmOk (fun o k => RatSafe o k ∧ ex o) t := by
  have leaf : ∀ x, TmOk (fun o k => RatSafe o k ∧ ex o) (.node (.var x) [] : Tm MathOp) :=
    fun x => .node ⟨⟨⟨rfl, trivial⟩, by simp, by simp⟩, hv x⟩ (by simp)
  intro t ht
  simp only [List.mem_cons, List.not_mem_nil, or_false] at ht
  rcases ht with rfl | rfl <;> exact .node ⟨⟨⟨rfl, trivial⟩, by simp, by simp⟩, he⟩ (by simp [leaf])

-- A run over rational numbers whose prior contains commutativity.
example (fast : Bool) : Completes (rationalDomain Sample.rat64) (Sample.commEnv (rationalDomain Sample.rat64) MathOp.mul)
    (Sample.bothWays "*") (Ruleset.add [] Sample.timesComm) Sample.limits Sample.limits fast :=
  C81_no_division_partial (K := Rat) Sample.rat64_exact Sample.rat64_results (Sample.commEnv_ok _ _) (Sample.commEnv_deep _ _) Sample.rat_answers
    (by simpa [Ruleset.iter, Ruleset.add, IndexMap.insert, IndexMap.containsKey] using
      Sample.timesComm_safe (by simp) fun x y => by simp [totalOpVal, mul_comm])
    ⟨_, rfl, by decide +kernel⟩ (Sample.timesTerms (by simp) (by simp))
    (Sample.few (x := "x") (l := ["y"]) (by decide +kernel) (by simp)) _ _ fast

example (fast : Bool) : Completes (rationalDomain Sample.rat64) (Sample.commEnv (rationalDomain Sample.rat64) MathOp.mul)
    (Sample.bothWays "*") (Ruleset.add [] Sample.timesComm) Sample.limits Sample.limits fast :=
  C81_same_variables_partial (K := Rat) Sample.rat64_exact Sample.rat64_results (Sample.commEnv_ok _ _) (Sample.commEnv_deep _ _) Sample.rat_answers
    (fun before q hb v => by
      obtain ⟨a, b, -, -, e1, e2⟩ := Sample.isCommOf_sides hb
      rw [e1, e2]
      simp [Pat.vars, Pat.varsL, or_comm])
    (by simpa [Ruleset.iter, Ruleset.add, IndexMap.insert, IndexMap.containsKey] using
      Sample.timesComm_safe (by simp) fun x y => by cases x <;> cases y <;> simp [mathOpVal, mul_comm])
    ⟨_, rfl, by decide +kernel⟩ (Sample.timesTerms (by simp) (by simp))
    (Sample.few (x := "x") (l := ["y"]) (by decide +kernel) (by simp)) _ _ fast

end Ruler
