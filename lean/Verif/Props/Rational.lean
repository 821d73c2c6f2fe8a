import Verif.Proofs.Rational
import Verif.Proofs.Halide
/-!
# C49: validation in the rational domain
-/
namespace Ruler
open Spec
variable {K : Type} [Field K] [LinearOrder K] [IsStrictOrderedRing K]

/-- C49: with a sound solver, a rule the validator accepts gives equal values wherever both sides are defined. -/
theorem C49_equal (check : SmtFm Rat → SatResult) (hc : SolverSoundReal K check)
    (lhs rhs : PatternAst MathOp) (lp rp : Pat MathOp) (hl : FlatOf lhs lp) (hr : FlatOf rhs rp)
    (ls : PatSorted MathOp.arity (fun o => ∀ x, o ≠ .var x) lp)
    (rs : PatSorted MathOp.arity (fun o => ∀ x, o ≠ .var x) rp)
    (hv : ratValidate check lhs rhs = some .valid) (ρ : String → K) (a b : K)
    (ha : patVal (fun x => some (ρ x)) mathOpVal lp = some a)
    (hb : patVal (fun x => some (ρ x)) mathOpVal rp = some b) : a = b := by
  obtain ⟨l, r, cl, cr, h1, h2, h3, h4, h5⟩ := ratValidate_valid hc hl hr hv
  have h := h5 (fun _ => 0) (fun x => ρ ("?" ++ x))
  unfold ratAssertion at h
  rw [realHolds, Bool.and_eq_true] at h
  have he := implies_chain _ _ _ _ h.1 (by
    intro c hc
    rcases List.mem_append.1 hc with hc | hc
    · exact errorConditions_defined ls _ ρ h3 ha hc
    · exact errorConditions_defined rs _ ρ h4 hb hc)
  rw [realHolds, decide_eq_true_eq, ratPatSmt_val ls _ ρ h1 ha, ratPatSmt_val rs _ ρ h2 hb] at he
  exact he

/-- C49: if no `if` has a division in its condition, an accepted rule is defined on the left exactly where it is defined
on the right. Missing: divisions inside conditions, where this fails (`C49_condition_errors`). -/
theorem C49_defined_partial (check : SmtFm Rat → SatResult) (hc : SolverSoundReal K check)
    (lhs rhs : PatternAst MathOp) (lp rp : Pat MathOp) (hl : FlatOf lhs lp) (hr : FlatOf rhs rp)
    (ls : PatSorted MathOp.arity (fun o => ∀ x, o ≠ .var x) lp)
    (rs : PatSorted MathOp.arity (fun o => ∀ x, o ≠ .var x) rp) (lc : PlainConditions lp) (rc : PlainConditions rp)
    (hv : ratValidate check lhs rhs = some .valid) (ρ : String → K) :
    patVal (fun x => some (ρ x)) mathOpVal lp = patVal (fun x => some (ρ x)) mathOpVal rp := by
  obtain ⟨l, r, cl, cr, h1, h2, h3, h4, h5⟩ := ratValidate_valid hc hl hr hv
  have h := h5 (fun _ => 0) (fun x => ρ ("?" ++ x))
  unfold ratAssertion at h
  rw [realHolds, Bool.and_eq_true] at h
  have hiff : (∃ c ∈ cr, realHolds (fun _ => (0 : K)) (fun x => ρ ("?" ++ x)) c = true) ↔
      ∃ c ∈ cl, realHolds (fun _ => (0 : K)) (fun x => ρ ("?" ++ x)) c = true := by
    rw [← anyOf_holds, ← anyOf_holds]
    have := h.2
    rw [realHolds, decide_eq_true_eq] at this
    rw [this]
  cases ha : patVal (fun x => some (ρ x)) mathOpVal lp with
  | none =>
    cases hb : patVal (fun x => some (ρ x)) mathOpVal rp with
    | none => rfl
    | some b =>
      obtain ⟨c, hc, ht⟩ := hiff.2 (errorConditions_undefined ls lc _ ρ h3 rfl ha)
      rw [errorConditions_defined rs _ ρ h4 hb hc] at ht
      cases ht
  | some a =>
    cases hb : patVal (fun x => some (ρ x)) mathOpVal rp with
    | none =>
      obtain ⟨c, hc, ht⟩ := hiff.1 (errorConditions_undefined rs rc _ ρ h4 rfl hb)
      rw [errorConditions_defined ls _ ρ h3 ha hc] at ht
      cases ht
    | some b => rw [C49_equal check hc lhs rhs lp rp hl hr ls rs hv ρ a b ha hb]

/-- `?x` -/
def ratL : PatternAst MathOp := [⟨.var "?x", []⟩]
/-- `(if (/ 1 ?x) ?x ?x)` -/
def ratR : PatternAst MathOp := [⟨.op (.lit 1), []⟩, ⟨.var "?x", []⟩, ⟨.op .div, [0, 1]⟩, ⟨.op .ite, [2, 1, 1]⟩]

omit [IsStrictOrderedRing K] in
/-- C49 fails when a condition divides: a complete solver accepts `?x ==> (if (/ 1 ?x) ?x ?x)`, whose right side is
undefined at `x = 0` although the left side is defined. -/
theorem C49_condition_errors (check : SmtFm Rat → SatResult) (hc : SolverExactReal K check) :
    ratValidate check ratL ratR = some .valid ∧
    patVal (fun _ => some (0 : K)) mathOpVal (.var "?x") = some 0 ∧
    patVal (fun _ => some (0 : K)) mathOpVal
      (.node .ite [.node .div [.node (.lit 1) [], .var "?x"], .var "?x", .var "?x"]) = none := by
  refine ⟨?_, rfl, ?_⟩
  · have e : ∀ f, check f = .unsat → (check f).toValidation = .valid := by intro f h; rw [h]; rfl
    show some (check (.not (ratAssertion (.const "x")
      (.ite (.not (.eq (.div (.num 1) (.const "x")) (.num 0))) (.const "x") (.const "x")) [] []))).toValidation = _
    rw [e]
    rw [hc]
    intro d0 env
    simp [ratAssertion, SmtFm.anyOf, realHolds, realVal]
  · simp [patVal, patValL, mathOpVal]

/-- `(/ ?x ?x)` and `1` satisfy the hypotheses of the theorems above. -/
example : FlatOf [⟨.var "?x", []⟩, ⟨.op .div, [0, 0]⟩] (.node MathOp.div [.var "?x", .var "?x"]) ∧
    PatSorted MathOp.arity (fun o => ∀ x, o ≠ .var x) (.node .div [.var "?x", .var "?x"]) ∧
    PlainConditions (.node .div [.var "?x", .var "?x"]) := by
  refine ⟨⟨rfl, by simp⟩, .node rfl (by intro x h; cases h) ?_, .node (by simp) ?_⟩
  · intro a ha
    simp at ha; subst ha
    exact .var rfl
  · intro a ha
    simp at ha; subst ha
    exact .var _

/-- The evaluator: wherever a sample vector is defined, it holds the value of the expression; where the expression has
no value, the sample is undefined. -/
theorem C49_eval (ck : Checked) (hck : ExactOrNone ck) (t : Tm MathOp)
    (ws : WellSorted MathOp.arity (fun _ => True) t) (vars : String → CVec Rat) (len : Nat)
    (hlen : ∀ x, HasVar x t → (vars x).length = len) (cv : CVec Rat)
    (h : termCvecP (MathOp.eval ck len) vars t = some cv) :
    cv.length = len ∧ ∀ (j : Nat) (v : Rat),
      cv[j]? = some (some v) → tmVal (fun x => ((vars x)[j]?).join) mathOpVal t = some v := by
  induction t using Tm.ind generalizing cv with
  | hn o l ih =>
    cases ws with
    | node ha _ hargs =>
    cases hv : Lang.toVar o with
    | some x =>
      rw [termCvecP_var _ _ hv] at h
      cases h
      refine ⟨hlen x (.here hv), ?_⟩
      intro j v hj
      rw [tmVal_var _ _ hv, hj]
      rfl
    | none =>
      rw [termCvecP_node _ _ hv] at h
      have child : ∀ a ∈ l, ∀ ca, termCvecP (MathOp.eval ck len) vars a = some ca → ca.length = len ∧
          ∀ (j : Nat) (v : Rat), ca[j]? = some (some v) →
            tmVal (fun x => ((vars x)[j]?).join) mathOpVal a = some v :=
        fun a hal ca hca => ih a hal (hargs a hal) (fun x hx => hlen x (.there hal hx)) ca hca
      cases o with
      | var x => cases hv
      | lit c =>
        have := list_len0 ha; subst this
        simp [MathOp.eval] at h
        subst h
        refine ⟨by simp, ?_⟩
        intro j v hj
        simp only [List.getElem?_replicate] at hj
        split at hj
        · cases hj; rw [tmVal_node _ _ hv]; simp [mathOpVal]
        · cases hj
      | neg | abs =>
        obtain ⟨a, rfl⟩ := list_len1 ha
        cases hca : termCvecP (MathOp.eval ck len) vars a with
        | none => simp [hca] at h
        | some ca =>
        simp [hca, MathOp.eval] at h
        obtain ⟨c1, c2⟩ := child a (by simp) ca hca
        obtain ⟨r1, r2⟩ := cmapP1_get h c1
        refine ⟨r1, ?_⟩
        intro j v hj
        obtain ⟨x, e1, e2⟩ := r2 j v hj
        simp only [Option.map_eq_some_iff, Option.some.injEq, exists_eq_right] at e2
        rw [tmVal_node _ _ hv]
        simp only [List.map_cons, List.map_nil, c2 j x e1, mathOpVal]
        first
          | rw [hck.neg _ _ e2]
          | rw [hck.abs _ _ e2]
      | add | sub | mul | div =>
        obtain ⟨a, b, rfl⟩ := list_len2 ha
        cases hca : termCvecP (MathOp.eval ck len) vars a with
        | none => simp [hca] at h
        | some ca =>
        cases hcb : termCvecP (MathOp.eval ck len) vars b with
        | none => simp [hca, hcb] at h
        | some cb =>
        simp [hca, hcb, MathOp.eval] at h
        subst h
        obtain ⟨c1, c2⟩ := child a (by simp) ca hca
        obtain ⟨d1, d2⟩ := child b (by simp) cb hcb
        refine ⟨cmap2_length _ c1 d1, ?_⟩
        intro j v hj
        have hjl : j < len := by
          rw [← cmap2_length _ c1 d1]; exact (List.getElem?_eq_some_iff.1 hj).1
        rw [cmap2_get _ c1 d1 hjl] at hj
        simp only [Option.some.injEq, Option.bind_eq_some_iff, Option.join_eq_some_iff] at hj
        obtain ⟨x, e1, y, e2, e3⟩ := hj
        rw [tmVal_node _ _ hv]
        simp only [List.map_cons, List.map_nil, c2 j x e1, d2 j y e2, mathOpVal]
        first
          | rw [hck.add _ _ _ e3]
          | rw [hck.sub _ _ _ e3]
          | rw [hck.mul _ _ _ e3]
          | rw [if_neg (hck.div _ _ _ e3).1, (hck.div _ _ _ e3).2]
      | ite =>
        obtain ⟨a, b, c, rfl⟩ := list_len3 ha
        cases hca : termCvecP (MathOp.eval ck len) vars a with
        | none => simp [hca] at h
        | some ca =>
        cases hcb : termCvecP (MathOp.eval ck len) vars b with
        | none => simp [hca, hcb] at h
        | some cb =>
        cases hcc : termCvecP (MathOp.eval ck len) vars c with
        | none => simp [hca, hcb, hcc] at h
        | some cc =>
        simp only [List.mapM_cons, List.mapM_nil, hca, hcb, hcc, MathOp.eval, Option.bind_eq_bind,
          Option.bind_some, Option.pure_def, Option.some.injEq] at h
        obtain ⟨c1, c2⟩ := child a (by simp) ca hca
        obtain ⟨d1, d2⟩ := child b (by simp) cb hcb
        obtain ⟨f1, f2⟩ := child c (by simp) cc hcc
        subst h
        refine ⟨by simp [c1, d1, f1], ?_⟩
        intro j v hj
        have hjl : j < len := by
          have := (List.getElem?_eq_some_iff.1 hj).1
          simp [c1, d1, f1] at this
          exact this
        have g1 : j < ca.length := by omega
        have g2 : j < cb.length := by omega
        have g3 : j < cc.length := by omega
        simp only [List.getElem?_map, List.zip, List.getElem?_zipWith, List.getElem?_eq_getElem g1,
          List.getElem?_eq_getElem g2, List.getElem?_eq_getElem g3, Option.map_some, Option.some.injEq] at hj
        cases hx : ca[j] with
        | none => rw [hx] at hj; cases hj
        | some x =>
        rw [hx] at hj
        rw [tmVal_node _ _ hv]
        simp only [List.map_cons, List.map_nil, c2 j x (by rw [List.getElem?_eq_getElem g1, hx]), mathOpVal]
        by_cases h0 : x = 0
        · rw [if_pos h0]
          simp only [h0, ne_eq, not_true_eq_false, ↓reduceIte] at hj
          exact f2 j v (by rw [List.getElem?_eq_getElem g3, hj])
        · rw [if_neg h0]
          simp only [h0, ne_eq, not_false_eq_true, ↓reduceIte] at hj
          exact d2 j v (by rw [List.getElem?_eq_getElem g2, hj])

end Ruler
