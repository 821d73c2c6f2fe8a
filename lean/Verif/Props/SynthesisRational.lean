import Verif.Props.SynthesisDomains
import Verif.Props.Conditional
/-!
# C65: recursive runs, and how far the rules of the rational domain can be trusted together
-/
namespace Ruler
open Spec EGraph

/-! ## Recursive runs -/

/-- **C65 (natural numbers).** The same for `recursive_rules`. -/
theorem C65_nat_recursive {rnd : Nat → Nat → Nat} {envs : Nat → RunEnv NatOp Int} (hR : ∀ k, RunOk (natDomain rnd) (envs k))
    (ha : ∀ k, AnswersFrom SolverSoundInt (validateEq NatOp.toSmt) (envs k).min.valid) {metric : Metric} {lang : RecipeLang}
    {prior : Ruleset NatOp} (hp : WellFormed prior) (hpr : ∀ r ∈ Ruleset.iter prior, GoodRule (fun o k => k = o.arity) r)
    (n : Nat) {out : Ruleset NatOp} {log : List (Nat × List (Rule NatOp))}
    (h : recursiveRules (natDomain rnd) envs metric lang prior n = some (out, log)) :
    ∀ q ∈ Ruleset.iter out, q ∈ Ruleset.iter prior ∨
      (Rule.Textual q ∧ GoodRule (fun o k => k = o.arity) q ∧ Holds natOpVal q) := by
  intro q hq
  rcases C65_shape_recursive (nat_foldsSorted rnd) nat_varOps.1 nat_parsesSorted nat_opsReadable hR hp hpr n h q hq with
    hq | ⟨h1, h2, k, asked, -, h3⟩
  · exact .inl hq
  · exact .inr ⟨h1, h2, nat_accepted (ha k) h2 h3⟩

/-- **C65 (bit vectors).** The same for `recursive_rules`. -/
theorem C65_bv_recursive {N : Nat} (hN : N ≤ 64) {envs : Nat → RunEnv (BvOp N) (BV N)}
    (hR : ∀ k, RunOk (bvDomain N) (envs k)) (ha : ∀ k, AnswersFrom (SolverSoundBV N) bvValidate (envs k).min.valid)
    {metric : Metric} {lang : RecipeLang} {prior : Ruleset (BvOp N)} (hp : WellFormed prior)
    (hpr : ∀ r ∈ Ruleset.iter prior, GoodRule (fun o k => k = o.arity ∧ LitProper o) r)
    (n : Nat) {out : Ruleset (BvOp N)} {log : List (Nat × List (Rule (BvOp N)))}
    (h : recursiveRules (bvDomain N) envs metric lang prior n = some (out, log)) :
    ∀ q ∈ Ruleset.iter out, q ∈ Ruleset.iter prior ∨
      (Rule.Textual q ∧ GoodRule (fun o k => k = o.arity ∧ LitProper o) q ∧ Holds bvOpVal q) := by
  intro q hq
  rcases C65_shape_recursive bv_foldsSorted bv_varOps.1 (bv_parsesSorted (by omega)) (bv_opsReadable (by omega)) hR hp hpr
    n h q hq with hq | ⟨h1, h2, k, asked, -, h3⟩
  · exact .inl hq
  · exact .inr ⟨h1, h2, bv_accepted hN (ha k) h2 h3⟩

/-- **C65 (Halide).** The same for `recursive_rules`. -/
theorem C65_halide_recursive {envs : Nat → RunEnv PredOp Int} (hR : ∀ k, RunOk halideDomain (envs k))
    (ha : ∀ k, AnswersFrom SolverSoundInt halideValidate (envs k).min.valid) {metric : Metric} {lang : RecipeLang}
    {prior : Ruleset PredOp} (hp : WellFormed prior)
    (hpr : ∀ r ∈ Ruleset.iter prior, GoodRule (fun o k => k = o.arity ∧ PredLitFits o) r)
    (n : Nat) {out : Ruleset PredOp} {log : List (Nat × List (Rule PredOp))}
    (h : recursiveRules halideDomain envs metric lang prior n = some (out, log)) :
    ∀ q ∈ Ruleset.iter out, q ∈ Ruleset.iter prior ∨
      (Rule.Textual q ∧ GoodRule (fun o k => k = o.arity ∧ PredLitFits o) q ∧ Holds predOpVal q) := by
  intro q hq
  rcases C65_shape_recursive halide_foldsSorted halide_litVarOps.1 halide_parsesSorted halide_opsReadable hR hp hpr
    n h q hq with hq | ⟨h1, h2, k, asked, -, h3⟩
  · exact .inl hq
  · exact .inr ⟨h1, h2, halide_accepted (ha k) h2 h3⟩

section
variable {K : Type} [Field K] [LinearOrder K] [IsStrictOrderedRing K]

/-- **C65 (rational numbers).** The same for `recursive_rules`. -/
theorem C65_rational_recursive {ck : Checked} (hk : Results64 ck) {envs : Nat → RunEnv MathOp Rat}
    (hR : ∀ k, RunOk (rationalDomain ck) (envs k)) (ha : ∀ k, AnswersFrom (SolverSoundReal K) ratValidate (envs k).min.valid)
    {metric : Metric} {lang : RecipeLang} {prior : Ruleset MathOp} (hp : WellFormed prior)
    (hpr : ∀ r ∈ Ruleset.iter prior, GoodRule (fun o k => k = o.arity ∧ MathLitFits o) r)
    (n : Nat) {out : Ruleset MathOp} {log : List (Nat × List (Rule MathOp))}
    (h : recursiveRules (rationalDomain ck) envs metric lang prior n = some (out, log)) :
    ∀ q ∈ Ruleset.iter out, q ∈ Ruleset.iter prior ∨
      (Rule.Textual q ∧ GoodRule (fun o k => k = o.arity ∧ MathLitFits o) q ∧ EqualWhereDefined K q.lhs q.rhs) := by
  intro q hq
  rcases C65_shape_recursive (rational_foldsSorted hk) rational_litVarOps.1 rational_parsesSorted rational_opsReadable hR
    hp hpr n h q hq with hq | ⟨h1, h2, k, asked, -, h3⟩
  · exact .inl hq
  · exact .inr ⟨h1, h2, rational_accepted (ha k) h2 h3⟩

/-! ## Rational rules together -/

theorem rational_same {valid : List (Rule MathOp) → Rule MathOp → Bool} (ha : AnswersFrom (SolverSoundReal K) ratValidate valid)
    {q : Rule MathOp} (hq : GoodRule (fun o k => k = o.arity ∧ MathLitFits o) q) {asked : List (Rule MathOp)}
    (h : Answered valid asked true q) (h1 : PlainConditions q.lhs) (h2 : PlainConditions q.rhs) :
    SameFunction K q.lhs q.rhs := by
  obtain ⟨before, -, hb⟩ := h
  obtain ⟨check, l, r, hc, hl, hr, hv⟩ := ha before q hb
  have key : ∀ o : MathOp, Lang.toVar o = none → ∀ x, o ≠ .var x := by rintro o h x rfl; cases h
  exact fun ρ => C49_defined_partial check hc l r _ _ hl hr
    (Schematic.patSorted (fun _ _ h => h.1) key hq.1.1 hq.2.1) (Schematic.patSorted (fun _ _ h => h.1) key hq.1.2 hq.2.2)
    h1 h2 hv ρ

omit [IsStrictOrderedRing K] in
/-- Without conditionals, a pattern is undefined when one of its variables is. -/
theorem NoIte.strict {p : Pat MathOp} (h : NoIte p) {ρ : String → Option K} {v : String} (hv : v ∈ p.vars)
    (hn : ρ v = none) : patVal ρ mathOpVal p = none := by
  induction h with
  | var x =>
    simp only [Pat.vars, List.mem_singleton] at hv
    subst hv
    exact hn
  | @node o args hne hargs ih =>
    rw [patVal_node]
    have : ∃ a ∈ args, v ∈ a.vars := by
      rw [Pat.vars] at hv
      clear ih hargs
      induction args with
      | nil => simp [Pat.varsL] at hv
      | cons a l ihl =>
        rw [Pat.varsL, List.mem_append] at hv
        rcases hv with hv | hv
        · exact ⟨a, by simp, hv⟩
        · obtain ⟨b, hb, e⟩ := ihl hv
          exact ⟨b, by simp [hb], e⟩
    obtain ⟨a, ham, hva⟩ := this
    have hnone : none ∈ args.map (patVal ρ mathOpVal) := List.mem_map.2 ⟨a, ham, ih a ham hva⟩
    generalize args.map (patVal ρ mathOpVal) = l at hnone
    unfold mathOpVal
    split <;> simp_all

theorem patVal_agree {O B : Type} {ρ ρ' : String → B} {f : O → List B → B} (p : Pat O) :
    (∀ v ∈ p.vars, ρ v = ρ' v) → patVal ρ f p = patVal ρ' f p := by
  induction p using Pat.ind with
  | hv v => intro h; exact h v (by simp [Pat.vars])
  | hn o l ih =>
    intro h
    rw [patVal_node, patVal_node]
    congr 1
    refine List.map_congr_left fun a ha => ih a ha fun v hv => h v ?_
    rw [Pat.vars]
    clear ih h
    induction l with
    | nil => simp at ha
    | cons b l ihl =>
      rw [Pat.varsL, List.mem_append]
      rcases List.mem_cons.1 ha with rfl | ha
      · exact .inl hv
      · exact .inr (ihl ha)

/-- **C65 (rational numbers).** An accepted rule without division in conditions has the same partial function on both sides.
If moreover it has no conditional and the same variables on both sides, then it also holds for undefined values of the
variables; so all such rules hold together in one algebra, in which numbers are distinct. -/
theorem C65_rational_functions {valid : List (Rule MathOp) → Rule MathOp → Bool}
    (ha : AnswersFrom (SolverSoundReal K) ratValidate valid)
    {q : Rule MathOp} (hq : GoodRule (fun o k => k = o.arity ∧ MathLitFits o) q) {asked : List (Rule MathOp)}
    (h : Answered valid asked true q) :
    (PlainConditions q.lhs → PlainConditions q.rhs → SameFunction K q.lhs q.rhs) ∧
    (NoIte q.lhs → NoIte q.rhs → (∀ v, v ∈ q.lhs.vars ↔ v ∈ q.rhs.vars) → Holds (mathOpVal (K := K)) q) := by
  refine ⟨rational_same ha hq h, fun h1 h2 hvars ρ => ?_⟩
  have plain : ∀ {p : Pat MathOp}, NoIte p → PlainConditions p := by
    intro p hp
    induction hp with
    | var x => exact .var x
    | node hne _ ih => exact .node hne ih
  have hs := rational_same ha hq h (plain h1) (plain h2)
  by_cases hn : ∃ v ∈ q.lhs.vars, ρ v = none
  · obtain ⟨v, hv, e⟩ := hn
    rw [NoIte.strict h1 hv e, NoIte.strict h2 ((hvars v).1 hv) e]
  · have hd : ∀ v ∈ q.lhs.vars, ρ v = some ((ρ v).getD 0) := by
      intro v hv
      cases e : ρ v with
      | none => exact absurd ⟨v, hv, e⟩ hn
      | some x => rfl
    rw [patVal_agree (ρ' := fun v => some ((ρ v).getD 0)) _ hd,
      patVal_agree (ρ' := fun v => some ((ρ v).getD 0)) q.rhs fun v hv => hd v ((hvars v).2 hv)]
    exact hs fun v => (ρ v).getD 0

namespace Sample

/-- A constant as pattern. -/
def ratLit (c : Rat) : Pat MathOp := .node (.lit c) []
/-- Five equations of rational numbers. -/
def fieldRules : List (Rule MathOp) := [
  ⟨"(* ?x 0) ==> 0".toList, .node .mul [.var "?x", ratLit 0], ratLit 0⟩,
  ⟨"(* ?x 1) ==> ?x".toList, .node .mul [.var "?x", ratLit 1], .var "?x"⟩,
  ⟨"(+ ?x 0) ==> ?x".toList, .node .add [.var "?x", ratLit 0], .var "?x"⟩,
  ⟨"(* (/ ?x ?y) ?z) ==> (/ (* ?x ?z) ?y)".toList, .node .mul [.node .div [.var "?x", .var "?y"], .var "?z"],
    .node .div [.node .mul [.var "?x", .var "?z"], .var "?y"]⟩,
  ⟨"(+ 1 (/ ?x ?y)) ==> (/ (+ ?y ?x) ?y)".toList, .node .add [ratLit 1, .node .div [.var "?x", .var "?y"]],
    .node .div [.node .add [.var "?y", .var "?x"], .var "?y"]⟩]

end Sample

omit [IsStrictOrderedRing K] in
/-- **C65 (rational numbers), negative.** Rules that the validator accepts one by one can contradict each other: a complete
solver accepts the five equations `x · 0 = 0`, `x · 1 = x`, `x + 0 = x`, `(x / y) · z = (x · z) / y` and
`1 + x / y = (y + x) / y` — each has the same partial function on both sides — but they hold together in algebras with one
element only (the first rule also applies to terms without value). -/
theorem C65_rational_inconsistent (check : SmtFm Rat → SatResult) (hc : SolverExactReal K check) :
    (∀ q ∈ Sample.fieldRules, SameFunction K q.lhs q.rhs ∧
      ∃ l r, FlatOf l q.lhs ∧ FlatOf r q.rhs ∧ ratValidate check l r = some .valid) ∧
    ∀ (V : Type) (I : MathOp → List V → V), (∀ q ∈ Sample.fieldRules, Holds I q) → ∀ a b : V, a = b := by
  have e : ∀ f, (∀ (d0 : K → K) env, realHolds d0 env f = false) → (check f).toValidation = .valid := by
    intro f h; rw [(hc f).2 h]; rfl
  constructor
  · intro q hq
    simp only [Sample.fieldRules, List.mem_cons, List.not_mem_nil, or_false] at hq
    rcases hq with rfl | rfl | rfl | rfl | rfl
    · refine ⟨fun ρ => by simp [ratVal, patVal, patValL, mathOpVal, Sample.ratLit],
        [⟨.var "?x", []⟩, ⟨.op (.lit 0), []⟩, ⟨.op .mul, [0, 1]⟩], [⟨.op (.lit 0), []⟩], ⟨rfl, by simp⟩, ⟨rfl, by simp⟩, ?_⟩
      show some (check (.not (ratAssertion (.mul (.const "x") (.num 0)) (.num 0) [] []))).toValidation = _
      rw [e]
      intro d0 env
      simp [ratAssertion, SmtFm.anyOf, realHolds, realVal]
    · refine ⟨fun ρ => by simp [ratVal, patVal, patValL, mathOpVal, Sample.ratLit],
        [⟨.var "?x", []⟩, ⟨.op (.lit 1), []⟩, ⟨.op .mul, [0, 1]⟩], [⟨.var "?x", []⟩], ⟨rfl, by simp⟩, ⟨rfl, by simp⟩, ?_⟩
      show some (check (.not (ratAssertion (.mul (.const "x") (.num 1)) (.const "x") [] []))).toValidation = _
      rw [e]
      intro d0 env
      simp [ratAssertion, SmtFm.anyOf, realHolds, realVal]
    · refine ⟨fun ρ => by simp [ratVal, patVal, patValL, mathOpVal, Sample.ratLit],
        [⟨.var "?x", []⟩, ⟨.op (.lit 0), []⟩, ⟨.op .add, [0, 1]⟩], [⟨.var "?x", []⟩], ⟨rfl, by simp⟩, ⟨rfl, by simp⟩, ?_⟩
      show some (check (.not (ratAssertion (.add (.const "x") (.num 0)) (.const "x") [] []))).toValidation = _
      rw [e]
      intro d0 env
      simp [ratAssertion, SmtFm.anyOf, realHolds, realVal]
    · refine ⟨fun ρ => ?_,
        [⟨.var "?x", []⟩, ⟨.var "?y", []⟩, ⟨.op .div, [0, 1]⟩, ⟨.var "?z", []⟩, ⟨.op .mul, [2, 3]⟩],
        [⟨.var "?x", []⟩, ⟨.var "?z", []⟩, ⟨.op .mul, [0, 1]⟩, ⟨.var "?y", []⟩, ⟨.op .div, [2, 3]⟩],
        ⟨rfl, by simp⟩, ⟨rfl, by simp⟩, ?_⟩
      · by_cases h : ρ "?y" = 0
        · simp [ratVal, patVal, patValL, mathOpVal, h]
        · simp only [ratVal, patVal, patValL, mathOpVal, h, if_false, Option.some.injEq]
          rw [div_mul_eq_mul_div]
      · show some (check (.not (ratAssertion (.mul (.div (.const "x") (.const "y")) (.const "z"))
          (.div (.mul (.const "x") (.const "z")) (.const "y"))
          [.and (.eq (.const "y") (.num 0)) (.lit true)] [.and (.eq (.const "y") (.num 0)) (.lit true)]))).toValidation = _
        rw [e]
        intro d0 env
        by_cases h : env "y" = 0
        · simp [ratAssertion, SmtFm.anyOf, realHolds, realVal, h]
        · simp [ratAssertion, SmtFm.anyOf, realHolds, realVal, h, div_mul_eq_mul_div]
    · refine ⟨fun ρ => ?_,
        [⟨.op (.lit 1), []⟩, ⟨.var "?x", []⟩, ⟨.var "?y", []⟩, ⟨.op .div, [1, 2]⟩, ⟨.op .add, [0, 3]⟩],
        [⟨.var "?y", []⟩, ⟨.var "?x", []⟩, ⟨.op .add, [0, 1]⟩, ⟨.op .div, [2, 0]⟩],
        ⟨rfl, by simp⟩, ⟨rfl, by simp⟩, ?_⟩
      · by_cases h : ρ "?y" = 0
        · simp [ratVal, patVal, patValL, mathOpVal, h]
        · simp only [ratVal, patVal, patValL, mathOpVal, h, if_false, Option.some.injEq, Sample.ratLit]
          rw [Rat.cast_one, add_div, div_self h]
      · show some (check (.not (ratAssertion (.add (.num 1) (.div (.const "x") (.const "y")))
          (.div (.add (.const "y") (.const "x")) (.const "y"))
          [.and (.eq (.const "y") (.num 0)) (.lit true)] [.and (.eq (.const "y") (.num 0)) (.lit true)]))).toValidation = _
        rw [e]
        intro d0 env
        by_cases h : env "y" = 0
        · simp [ratAssertion, SmtFm.anyOf, realHolds, realVal, h]
        · simp [ratAssertion, SmtFm.anyOf, realHolds, realVal, h, add_div]
  · intro V I h
    simp only [Sample.fieldRules, List.forall_mem_cons] at h
    obtain ⟨h1, h2, h3, h4, h5, -⟩ := h
    let z := I (.lit 0) []
    have e1 : ∀ x, I .mul [x, z] = z := fun x => h1 fun _ => x
    have e2 : ∀ x, I .mul [x, I (.lit 1) []] = x := fun x => h2 fun _ => x
    have e3 : ∀ x, I .add [x, z] = x := fun x => h3 fun _ => x
    have e4 : ∀ x y w, I .mul [I .div [x, y], w] = I .div [I .mul [x, w], y] := fun x y w =>
      h4 fun v => if v = "?x" then x else if v = "?y" then y else w
    have e5 : ∀ x y, I .add [I (.lit 1) [], I .div [x, y]] = I .div [I .add [y, x], y] := fun x y =>
      h5 fun v => if v = "?x" then x else y
    have d0 : ∀ y, I .div [z, y] = z := fun y => by
      have := e4 z y z
      rw [e1, e1] at this
      exact this.symm
    have one : I (.lit 1) [] = z := by
      have := e5 z z
      rw [d0, e3, e3, d0] at this
      exact this
    have all : ∀ x, x = z := fun x => by
      have := e2 x
      rw [one, e1] at this
      exact this.symm
    intro a b
    rw [all a, all b]

end
end Ruler
