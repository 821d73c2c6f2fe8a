import Verif.Proofs.DomPoint
/-!
# C46 (natural numbers), C47, C50: natural-number and Halide domains
-/
namespace Ruler
open Spec

/-- C46 (Nat), one node: from intervals with non-negative lower bounds that contain the values of the children,
`mk_interval` computes, without panic, such an interval that contains the value of the node. -/
theorem C46_nat_node (o : NatOp) (ho : Lang.toVar o = none) (Is : List (Interval Int)) (hl : Is.length = o.arity)
    (hb : ∀ I ∈ Is, NonNeg I) (hne : ∃ vs : List Nat, List.Forall₂ (fun I (v : Nat) => InInterval I (v : Int)) Is vs) :
    ∃ I, o.mkInterval Is = some I ∧ NonNeg I ∧ ∀ vs : List Nat,
      List.Forall₂ (fun I (v : Nat) => InInterval I (v : Int)) Is vs → InInterval I (natOpVal o vs : Nat) := by
  -- construction of the result interval succeeds if it has a member
  have mk : ∀ (l : Int) (h : Option Int) (v : Int), (l ≤ v) → (∀ b, h = some b → v ≤ b) →
      Interval.new (some l) h = some ⟨some l, h⟩ := by
    intro l h v h1 h2
    cases h with
    | none => rfl
    | some b =>
      have : l ≤ b := le_trans h1 (h2 b rfl)
      simp [Interval.new, this]
  have low : ∀ (I : Interval Int) (l : Int) (v : Nat), I.low = some l → InInterval I (v : Int) → l ≤ v :=
    fun I l v h hv => hv.1 l h
  cases o with
  | var x => cases ho
  | z =>
    have := list_len0 hl; subst this
    refine ⟨⟨some 0, some 0⟩, by simp [NatOp.mkInterval, Interval.new], ⟨0, rfl, le_refl _⟩, ?_⟩
    intro vs hvs
    cases hvs
    exact ⟨by intro a ha; cases ha; exact le_refl _, by intro a ha; cases ha; exact le_refl _⟩
  | s =>
    obtain ⟨I, rfl⟩ := list_len1 hl
    obtain ⟨l, hl1, hl2⟩ := hb I (by simp)
    have key : ∀ v : Nat, InInterval I (v : Int) → (l + 1 ≤ (v : Int) + 1) ∧
        ∀ b, I.high.map (· + 1) = some b → (v : Int) + 1 ≤ b := by
      intro v hv
      refine ⟨by have := low I l v hl1 hv; omega, ?_⟩
      intro b hb
      cases hh : I.high with
      | none => rw [hh] at hb; cases hb
      | some h =>
        rw [hh] at hb
        cases hb
        have := hv.2 h hh
        show (v : Int) + 1 ≤ h + 1
        omega
    obtain ⟨vs, hvs⟩ := hne
    cases hvs with
    | cons h1 h0 =>
    have hk := key _ h1
    refine ⟨_, by rw [NatOp.mkInterval, hl1, Option.bind_some, mk _ _ _ hk.1 hk.2], ⟨l + 1, rfl, by omega⟩, ?_⟩
    intro vs hvs
    cases hvs with
    | cons k1 k0 =>
    cases k0
    have hk := key _ k1
    exact ⟨by intro a ha; cases ha; simpa [natOpVal] using hk.1, by
      intro a ha; simpa [natOpVal] using hk.2 a ha⟩
  | add =>
    obtain ⟨I, J, rfl⟩ := list_len2 hl
    obtain ⟨l, hl1, hl2⟩ := hb I (by simp)
    obtain ⟨m, hm1, hm2⟩ := hb J (by simp)
    have key : ∀ v w : Nat, InInterval I (v : Int) → InInterval J (w : Int) → (l + m ≤ (v : Int) + w) ∧
        ∀ b, NatOp.zipWith? (· + ·) I.high J.high = some b → (v : Int) + w ≤ b := by
      intro v w hv hw
      refine ⟨by have := low I l v hl1 hv; have := low J m w hm1 hw; omega, ?_⟩
      intro b hb
      cases hh : I.high with
      | none => rw [hh] at hb; cases hb
      | some h =>
        cases hj : J.high with
        | none => rw [hh, hj] at hb; cases hb
        | some k =>
          rw [hh, hj] at hb
          cases hb
          have := hv.2 h hh
          have := hw.2 k hj
          show (v : Int) + w ≤ h + k
          omega
    obtain ⟨vs, hvs⟩ := hne
    cases hvs with
    | cons h1 h0 =>
    cases h0 with
    | cons h2 h0 =>
    have hk := key _ _ h1 h2
    refine ⟨⟨some (l + m), NatOp.zipWith? (· + ·) I.high J.high⟩, ?_, ⟨l + m, rfl, by omega⟩, ?_⟩
    · rw [NatOp.mkInterval, hl1, hm1]
      exact mk _ _ _ hk.1 hk.2
    · intro vs hvs
      cases hvs with
      | cons k1 k0 =>
      cases k0 with
      | cons k2 k0 =>
      cases k0
      have hk := key _ _ k1 k2
      exact ⟨by intro a ha; cases ha; simpa [natOpVal] using hk.1, by
        intro a ha; simpa [natOpVal] using hk.2 a ha⟩
  | mul =>
    obtain ⟨I, J, rfl⟩ := list_len2 hl
    obtain ⟨l, hl1, hl2⟩ := hb I (by simp)
    obtain ⟨m, hm1, hm2⟩ := hb J (by simp)
    have key : ∀ v w : Nat, InInterval I (v : Int) → InInterval J (w : Int) → (l * m ≤ (v : Int) * w) ∧
        ∀ b, NatOp.zipWith? (· * ·) I.high J.high = some b → (v : Int) * w ≤ b := by
      intro v w hv hw
      have hv0 : (0 : Int) ≤ v := Int.natCast_nonneg v
      have hw0 : (0 : Int) ≤ w := Int.natCast_nonneg w
      refine ⟨Int.mul_le_mul (low I l v hl1 hv) (low J m w hm1 hw) hm2 hv0, ?_⟩
      intro b hb
      cases hh : I.high with
      | none => rw [hh] at hb; cases hb
      | some h =>
        cases hj : J.high with
        | none => rw [hh, hj] at hb; cases hb
        | some k =>
          rw [hh, hj] at hb
          cases hb
          have h1 := hv.2 h hh
          have h2 := hw.2 k hj
          exact Int.mul_le_mul h1 h2 hw0 (le_trans hv0 h1)
    obtain ⟨vs, hvs⟩ := hne
    cases hvs with
    | cons h1 h0 =>
    cases h0 with
    | cons h2 h0 =>
    have hk := key _ _ h1 h2
    refine ⟨⟨some (l * m), NatOp.zipWith? (· * ·) I.high J.high⟩, ?_, ⟨l * m, rfl, Int.mul_nonneg hl2 hm2⟩, ?_⟩
    · rw [NatOp.mkInterval, hl1, hm1]
      exact mk _ _ _ hk.1 hk.2
    · intro vs hvs
      cases hvs with
      | cons k1 k0 =>
      cases k0 with
      | cons k2 k0 =>
      cases k0
      have hk := key _ _ k1 k2
      exact ⟨by intro a ha; cases ha; simpa [natOpVal] using hk.1, by
        intro a ha; simpa [natOpVal] using hk.2 a ha⟩

/-- C46 (Nat): the interval of an expression is computed without panic and contains its value for every assignment of
natural numbers. -/
theorem C46_nat (t : Tm NatOp) (ws : WellSorted NatOp.arity (fun _ => True) t) :
    ∃ I, termInterval NatOp.mkInterval t = some I ∧ NonNeg I ∧ ∀ env, InInterval I (natVal env t : Nat) :=
  termInterval_sound (f := natOpVal) (mk := NatOp.mkInterval) (Good := NonNeg)
    (mem := fun I (v : Nat) => InInterval I (v : Int)) ⟨0⟩
    (fun o Is _ hv hl hg hne => C46_nat_node o hv Is hl hg hne)
    (by
      intro o x hv _
      cases o with
      | var y =>
        refine ⟨⟨some 0, none⟩, rfl, ⟨0, rfl, le_refl _⟩, fun v => ⟨?_, ?_⟩⟩
        · intro a ha; cases ha; exact Int.natCast_nonneg v
        · intro a ha; cases ha
      | _ => cases hv)
    (by
      intro o x hv
      cases o with
      | var y => rfl
      | _ => cases hv) ws

example : termInterval NatOp.mkInterval (.node .s [.node .s [.node .z []]]) = some ⟨some 2, some 2⟩ := by rfl

/-- C47: with a sound solver, a rule the validator accepts holds for all natural numbers. -/
theorem C47_valid (check : SmtTm Int → SmtTm Int → SatResult) (hc : SolverSoundInt check)
    (lhs rhs : PatternAst NatOp) (lp rp : Pat NatOp) (hl : FlatOf lhs lp) (hr : FlatOf rhs rp)
    (ls : PatSorted NatOp.arity (fun o => ∀ x, o ≠ .var x) lp) (rs : PatSorted NatOp.arity (fun o => ∀ x, o ≠ .var x) rp)
    (hv : validateEq NatOp.toSmt check lhs rhs = some .valid) (ρ : String → Nat) :
    patVal ρ natOpVal lp = patVal ρ natOpVal rp := by
  have h := validateEq_sound (V := Int) (P := fun o => ∀ x, o ≠ .var x) (opVal := natOpInt)
    (fun env => intVal (fun _ => 0) env) (fun a b hab env => hc a b hab _ env)
    (fun env x => by simp [Lang.mkVar, NatOp.toSmt, intVal])
    (fun env o args => nat_toSmt_val _ env o args) hl hr ls rs hv (fun v => (ρ v : Int))
  have cast : ∀ p : Pat NatOp, PatSorted NatOp.arity (fun o => ∀ x, o ≠ .var x) p →
      patVal (fun v => (ρ v : Int)) natOpInt p = (patVal ρ natOpVal p : Nat) := by
    intro p
    induction p using Pat.ind with
    | hv v => intro _; rfl
    | hn o l ih =>
      intro hs
      cases hs with
      | node ha hp hargs =>
      rw [patVal_node, patVal_node, ← natOp_cast o _ (by simpa using ha), List.map_map]
      congr 1
      apply List.map_congr_left
      intro a ha
      exact ih a ha (hargs a ha)
  rw [cast lp ls, cast rp rs] at h
  exact Int.ofNat.inj h

/-- C47: constant folding. If the interval of an expression is a single number, the expression always has this value,
the constant added to the e-graph exists and has the same value. -/
theorem C47_fold (t : Tm NatOp) (ws : WellSorted NatOp.arity (fun _ => True) t) (c : Int)
    (h : termInterval NatOp.mkInterval t = some ⟨some c, some c⟩) :
    ∃ k, NatOp.mkConstant c = some k ∧ ∀ env, natVal env k = natVal env t ∧ (natVal env t : Int) = c := by
  obtain ⟨I, h1, ⟨l, h2, h2'⟩, h3⟩ := C46_nat t ws
  rw [h] at h1
  cases h1
  cases h2
  have hc : ∀ n env, natVal env (NatOp.const n) = n := by
    intro n env
    induction n with
    | zero => rfl
    | succ n ih =>
      unfold natVal at *
      rw [NatOp.const, tmVal_node _ _ rfl]
      simp [natOpVal, ih]
  refine ⟨NatOp.const c.toNat, by rw [NatOp.mkConstant, if_neg (by omega)], fun env => ?_⟩
  have hv : (natVal env t : Int) = c := le_antisymm ((h3 env).2 c rfl) ((h3 env).1 c rfl)
  refine ⟨?_, hv⟩
  rw [hc]
  omega

/-- C47: the evaluator computes the value on every sample. -/
theorem C47_eval (t : Tm NatOp) (ws : WellSorted NatOp.arity (fun _ => True) t) (vars : String → CVec Int) (len : Nat)
    (σ : Nat → String → Nat) (hlen : ∀ x, HasVar x t → (vars x).length = len)
    (hσ : ∀ x, HasVar x t → ∀ i, i < len → (vars x)[i]? = some (some (σ i x : Int))) :
    ∀ i, i < len → (termCvec (NatOp.eval len) vars t)[i]? = some (some (natVal (σ i) t : Int)) := by
  intro i hi
  rw [(termCvec_get (nat_lifts len) vars ws hlen).2 i hi]
  rw [sampleVal_total nat_point_total ws (env := fun x => (σ i x : Int)) (fun x hx => by rw [hσ x hx i hi]; rfl)]
  congr 2
  clear hlen hσ
  unfold natVal
  induction t using Tm.ind with
  | hn o l ih =>
    cases ws with
    | node ha hp hargs =>
    cases hv : Lang.toVar o with
    | some x => rw [tmVal_var _ _ hv, tmVal_var _ _ hv]
    | none =>
      rw [tmVal_node _ _ hv, tmVal_node _ _ hv, ← natOp_cast o _ (by simpa using ha), List.map_map]
      congr 1
      apply List.map_congr_left
      intro a ha
      exact ih a ha (hargs a ha)

/-- `(+ ?a ?b)`: patterns satisfying the hypotheses of `C47_valid`. -/
example : FlatOf (O := NatOp) [⟨.var "?a", []⟩, ⟨.var "?b", []⟩, ⟨.op .add, [0, 1]⟩]
    (.node .add [.var "?a", .var "?b"]) ∧
    PatSorted NatOp.arity (fun o => ∀ x, o ≠ .var x) (.node .add [.var "?a", .var "?b"]) := by
  refine ⟨⟨rfl, by simp⟩, .node rfl (by intro x hx; cases hx) ?_⟩
  intro a ha
  rcases List.mem_cons.1 ha with rfl | ha
  · exact .var rfl
  · rw [List.mem_singleton.1 ha]; exact .var rfl

/-- C50: the evaluator. Wherever the sample vector of an expression is defined, it holds the value of the expression
under the assignment of that position, computed without overflow, with division truncating towards zero. -/
theorem C50_eval (t : Tm PredOp) (ws : WellSorted PredOp.arity (fun _ => True) t) (vars : String → CVec Int) (len : Nat)
    (hlen : ∀ x, HasVar x t → (vars x).length = len) (cv : CVec Int)
    (h : termCvecP (PredOp.eval len) vars t = some cv) :
    cv.length = len ∧ ∀ (j : Nat) (v : Int) (σ : String → Int),
      (∀ x, HasVar x t → (vars x)[j]? = some (some (σ x))) → cv[j]? = some (some v) → v = tmVal σ evalOpVal t := by
  induction t using Tm.ind generalizing cv with
  | hn o l ih =>
    cases ws with
    | node ha hp hargs =>
    cases hv : Lang.toVar o with
    | some x =>
      rw [termCvecP_var _ _ hv] at h
      cases h
      refine ⟨hlen x (.here hv), ?_⟩
      intro j v σ hσ hj
      rw [hσ x (.here hv)] at hj
      cases hj
      rw [tmVal_var _ _ hv]
    | none =>
      rw [termCvecP_node _ _ hv] at h
      cases hargsv : l.mapM (termCvecP (PredOp.eval len) vars) with
      | none => rw [hargsv] at h; cases h
      | some cvs =>
        rw [hargsv, Option.bind_some] at h
        obtain ⟨m1, m2⟩ := mapM_get _ _ _ hargsv
        have hnv : ∀ x, o ≠ .var x := by rintro x rfl; cases hv
        have child : ∀ (j : Nat) (hj : j < cvs.length), ∃ a ∈ l, l[j]? = some a ∧
            termCvecP (PredOp.eval len) vars a = some cvs[j] := by
          intro j hj
          obtain ⟨a, b, e1, e2, e3⟩ := m2 j (by omega)
          rw [List.getElem?_eq_getElem hj] at e2
          cases e2
          exact ⟨a, List.mem_of_getElem? e1, e1, e3⟩
        have hlens : ∀ c ∈ cvs, c.length = len := by
          intro c hc
          obtain ⟨j, hj, rfl⟩ := List.mem_iff_getElem.1 hc
          obtain ⟨a, ha, _, e⟩ := child j hj
          exact (ih a ha (hargs a ha) (fun x hx => hlen x (.there ha hx)) _ e).1
        obtain ⟨r1, r2⟩ := pred_eval_get len o cvs cv hnv (m1.trans ha) hlens h
        refine ⟨r1, ?_⟩
        intro j v σ hσ hj
        obtain ⟨wsv, f1, f2⟩ := r2 j v hj
        have hws : wsv = l.map (tmVal σ evalOpVal) := by
          have hl := f1.length_eq
          apply List.ext_getElem
          · simp [← hl, m1]
          · intro i h1 h2
            have hi : i < cvs.length := by omega
            obtain ⟨a, ha, e0, e⟩ := child i hi
            have := (ih a ha (hargs a ha) (fun x hx => hlen x (.there ha hx)) _ e).2 j _ σ
              (fun x hx => hσ x (.there ha hx)) (List.forall₂_iff_get.1 f1 |>.2 i hi h1)
            rw [List.getElem_map]
            have e1 : l[i] = a := by
              have := List.getElem?_eq_getElem (l := l) (i := i) (by omega)
              rw [e0] at this
              exact (Option.some.inj this).symm
            rw [e1]
            exact this
        rw [tmVal_node _ _ hv, ← hws]
        have hwl : wsv.length = o.arity := by rw [hws]; simpa using ha
        exact pred_point_val hnv hwl f2

/-- C50: the translation to the solver computes the mathematical value, with Euclidean division. -/
theorem C50_translation (e : RecExpr PredOp) (t : Tm PredOp) (he : e.tree = some t)
    (ws : WellSorted PredOp.arity (fun _ => True) t) :
    ∃ s, RecExpr.run PredOp.toSmt e = some s ∧ ∀ d0 env, intVal d0 env s = tmVal env predOpVal t := by
  refine ⟨Tm.fold PredOp.toSmt t, by rw [RecExpr.run_eq_tree, he]; rfl, fun d0 env => ?_⟩
  clear he
  induction t using Tm.ind with
  | hn o l ih =>
    cases ws with
    | node ha _ hargs =>
    cases hv : Lang.toVar o with
    | some x =>
      rw [tmVal_var _ _ hv]
      cases o with
      | var y =>
        have := list_len0 ha; subst this
        cases hv
        rw [Tm.fold_node]
        simp [PredOp.toSmt, intVal]
      | _ => cases hv
    | none =>
      have hnv : ∀ x, o ≠ .var x := by rintro x rfl; cases hv
      rw [tmVal_node _ _ hv, Tm.fold_node, pat_toSmt_val d0 env o _ hnv (by simpa using ha), List.map_map]
      congr 1
      exact List.map_congr_left fun a ha => ih a ha (hargs a ha)

/-- C50, for expressions without division: the evaluator and the translation agree wherever the evaluator is defined.
Missing: expressions with division, for which `C50_division_differs` shows that they do not agree. -/
theorem C50_agree_partial (e : RecExpr PredOp) (t : Tm PredOp) (he : e.tree = some t)
    (ws : WellSorted PredOp.arity NoDiv t) (vars : String → CVec Int) (len : Nat)
    (hlen : ∀ x, HasVar x t → (vars x).length = len) (cv : CVec Int)
    (h : termCvecP (PredOp.eval len) vars t = some cv) (j : Nat) (v : Int) (σ : String → Int)
    (hσ : ∀ x, HasVar x t → (vars x)[j]? = some (some (σ x))) (hj : cv[j]? = some (some v)) :
    ∃ s, RecExpr.run PredOp.toSmt e = some s ∧ ∀ d0, intVal d0 σ s = v := by
  have weaken : ∀ t : Tm PredOp, WellSorted PredOp.arity NoDiv t → WellSorted PredOp.arity (fun _ => True) t := by
    intro t
    induction t using Tm.ind with
    | hn o l ih =>
      intro hw
      cases hw with
      | node ha _ hargs => exact .node ha trivial fun a ha => ih a ha (hargs a ha)
  have same : ∀ t : Tm PredOp, WellSorted PredOp.arity NoDiv t → tmVal σ evalOpVal t = tmVal σ predOpVal t := by
    intro t
    induction t using Tm.ind with
    | hn o l ih =>
      intro hw
      cases hw with
      | node ha hp hargs =>
      cases hv : Lang.toVar o with
      | some x => rw [tmVal_var _ _ hv, tmVal_var _ _ hv]
      | none =>
        rw [tmVal_node _ _ hv, tmVal_node _ _ hv]
        have : l.map (tmVal σ evalOpVal) = l.map (tmVal σ predOpVal) :=
          List.map_congr_left fun a ha => ih a ha (hargs a ha)
        rw [this]
        cases o with
        | div => exact absurd rfl hp
        | _ => rfl
  obtain ⟨s, h1, h2⟩ := C50_translation e t he (weaken t ws)
  refine ⟨s, h1, fun d0 => ?_⟩
  rw [h2, ← same t ws]
  exact ((C50_eval t (weaken t ws) vars len hlen cv h).2 j v σ hσ hj).symm

/-- C50: with a sound solver, a rule the validator accepts holds over the unbounded integers with Euclidean
division. -/
theorem C50_valid (check : SmtTm Int → SmtTm Int → SatResult) (hc : SolverSoundInt check)
    (lhs rhs : PatternAst PredOp) (lp rp : Pat PredOp) (hl : FlatOf lhs lp) (hr : FlatOf rhs rp)
    (ls : PatSorted PredOp.arity (fun o => ∀ x, o ≠ .var x) lp)
    (rs : PatSorted PredOp.arity (fun o => ∀ x, o ≠ .var x) rp)
    (hv : halideValidate check lhs rhs = some .valid) (ρ : String → Int) :
    patVal ρ predOpVal lp = patVal ρ predOpVal rp :=
  validateEq_sound (V := Int) (P := fun o => ∀ x, o ≠ .var x) (opVal := predOpVal)
    (fun env => intVal (fun _ => 0) env) (fun a b hab env => hc a b hab _ env)
    (fun env x => by simp [Lang.mkVar, PredOp.toSmt, intVal])
    (fun env o args => pat_toSmt_val _ env o args) hl hr ls rs hv ρ

/-- `(/ (+ a 2) 2)` -/
def halideL : Tm PredOp := .node .div [.node .add [.node (.var "a") [], .node (.lit 2) []], .node (.lit 2) []]
/-- `(+ (/ a 2) 1)` -/
def halideR : Tm PredOp := .node .add [.node .div [.node (.var "a") [], .node (.lit 2) []], .node (.lit 1) []]

/-- C50 fails for division: an exact solver accepts `(/ (+ ?a 2) 2) ==> (+ (/ ?a 2) 1)`, but the evaluator computes
`0` and `1` for the two sides at the sample `a = -1`. -/
theorem C50_division_differs (check : SmtTm Int → SmtTm Int → SatResult) (hc : SolverExactInt check) :
    halideValidate check
      [⟨.var "?a", []⟩, ⟨.op (.lit 2), []⟩, ⟨.op .add, [0, 1]⟩, ⟨.op (.lit 2), []⟩, ⟨.op .div, [2, 3]⟩]
      [⟨.var "?a", []⟩, ⟨.op (.lit 2), []⟩, ⟨.op .div, [0, 1]⟩, ⟨.op (.lit 1), []⟩, ⟨.op .add, [2, 3]⟩] = some .valid ∧
    termCvecP (PredOp.eval 1) (fun _ => [some (-1)]) halideL = some [some 0] ∧
    termCvecP (PredOp.eval 1) (fun _ => [some (-1)]) halideR = some [some 1] := by
  refine ⟨?_, by decide, by decide⟩
  have hq : "?a".toList.head? = some '?' := by decide
  have e : ∀ a b, check a b = .unsat → (check a b).toValidation = .valid := by intro a b h; rw [h]; rfl
  show some (check _ _).toValidation = _
  rw [e]
  rw [hc]
  intro d0 env
  simp [intVal, intHolds, PredOp.toSmt]
  omega

end Ruler
