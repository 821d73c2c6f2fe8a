import Verif.Props.Lifting
import Verif.Proofs.ExpVal
/-!
# C60: rule lifting for exponentials, logarithms and roots
-/
namespace Ruler
open Spec EGraph
open scoped List

namespace Spec
variable {O V : Type}

/-- The two sides agree for all values of the variables that satisfy `P`. -/
def HoldsOn (P : V → Prop) (I : O → List V → V) (r : Rule O) : Prop :=
  ∀ ρ, (∀ x, P (ρ x)) → patVal ρ I r.lhs = patVal ρ I r.rhs

end Spec

section
variable {O C V : Type} [Lang O] [LinearOrder C] {D : Domain O C} {ar : O → Nat → Prop}

theorem sound_vars_at {f : O → List V → V} {mem : Interval C → V → Prop} {R : Rule O → Prop} {env : String → V}
    (hF : FoldsIn D ar (withVars env f) mem) (hR : ∀ r, R r → GoodRule ar r ∧ Holds f r) {g : EGraph O C} (hg : Reach D ar R g)
    {t u : Tm O} {i j : Nat} (ht : Rep g t i) (hu : Rep g u j) (hij : g.find i = g.find j) :
    Tm.fold (withVars env f) t = Tm.fold (withVars env f) u :=
  C29_sound hF (fun r hr => ⟨(hR r hr).1.1, Holds.withVars (hR r hr).1.2.1 (hR r hr).1.2.2 (hR r hr).2 env⟩) hg ht hu hij

theorem candidates_on {P : V → Prop} {I : O → List V → V} {mem : Interval C → V → Prop} {R : Rule O → Prop}
    (hF : ∀ env, (∀ x, P (env x)) → FoldsIn D ar (withVars env I) mem)
    (hR : ∀ r, R r → GoodRule ar r ∧ Holds I r) {g1 g2 : EGraph O C} (hg : Reach D ar R g1) {E : Egg}
    {isSat : Rule O → Bool} {s : Scheduler} {rules : Ruleset O} (hrules : ∀ r ∈ Ruleset.iter rules, R r)
    {tr : SchedTrace} (hrun : Scheduler.run D E isSat s rules tr g1 = some g2) {ids keys : List Nat}
    (hids : ids.Perm g1.classes) {best : Nat → Nat × Tm O} (hb : ExtractsCost g1 best) {rs : Ruleset O}
    (h : extractCandidates g2 ids keys best = some rs) (q : Rule O) (hq : q ∈ Ruleset.iter rs) : HoldsOn P I q := by
  obtain ⟨_, _, t, u, i, j, ht, hu, _, hij, ⟨ρ, _, hl, hr, _⟩, _⟩ := C36_sound hids hb h q hq
  have hgrow := (C30_grows (Reach.any hg) hrun).2
  intro ν hν
  rw [hl, hr, patVal_schema, patVal_schema]
  exact sound_vars_at (hF _ fun x => hν _) hR (.run hg hrules hrun) (hgrow t i ht) (hgrow u j hu) hij

/-- **C60** (any domain). If what `initialize_vars` and constant folding do is correct for the values that satisfy `P`, and the
prior and the exploratory rules hold for all values, then the rules that one fast-forwarding run returns hold whenever the
values of their variables satisfy `P`. -/
theorem C60_restricted {P : V → Prop} {I : O → List V → V} {mem : Interval C → V → Prop}
    (hF : ∀ env, (∀ x, P (env x)) → FoldsIn D ar (withVars env I) mem)
    (hv : VarsOk (O := O) ar) {F : FastEnv O C} (hb : ExtractorOk D F.best) (hids : ∀ g, (F.ids g).Perm g.classes)
    {w : Workload} (hw : ∀ ss, w.force = some ss → ∀ s ∈ ss, ∀ t, Tm.ofSexp s = some t → TmOk ar t)
    {prior expl out : Ruleset O} {pl ml : Limits} {asked : List (Rule O)} (hp : WellFormed prior)
    (hgood : ∀ r, r ∈ Ruleset.iter prior ∨ r ∈ Ruleset.iter expl → GoodRule ar r ∧ Holds I r)
    (h : runFastForwarding D F w prior expl pl ml = some (out, asked)) : ∀ q ∈ Ruleset.iter out, HoldsOn P I q := by
  obtain ⟨g0, g1, g2, g3, c1, c2, inv, h0, h1, h2, hc1, h3, hc2, hm⟩ := runFastForwarding_some h
  let R : Rule O → Prop := fun r => r ∈ Ruleset.iter prior ∨ r ∈ Ruleset.iter expl
  have r0 : Reach D ar R g0 := toEGraph_reach hv hw h0
  have r1 : Reach D ar R g1 := by
    refine .run r0 (fun r hr => Or.inl ?_) h1
    rw [C17_partition _ _ _ hp] at hr
    obtain ⟨e, he, rfl⟩ := List.mem_map.1 hr
    exact List.mem_map_of_mem (List.mem_of_mem_filter he)
  have hex : ∀ r ∈ Ruleset.iter expl, R r := fun r hr => Or.inr hr
  have r2 : Reach D ar R g2 := .run r1 hex h2
  have hall : ∀ r ∈ Ruleset.iter (Ruleset.extend prior expl), R r := fun r hr => mem_extend_rules hr
  have key : ∀ c ∈ Ruleset.iter (Ruleset.extend c1 c2), HoldsOn P I c := by
    intro c hc
    rcases mem_extend_rules hc with hc | hc
    · exact candidates_on hF hgood r1 hex h2 (hids g1) (hb g1 (Reach.any r1)) hc1 c hc
    · exact candidates_on hF hgood r2 hall h3 (hids g2) (hb g2 (Reach.any r2)) hc2 c hc
  intro q hq
  obtain ⟨-, hcand, -⟩ :=
    (C22_validated (Ruleset.WellFormed.extend (addPairs_wf hc1) (addPairs_wf hc2)) hp hm).2 q hq
  rcases hcand with hcand | ⟨-, c, hc, e1, e2, -⟩
  · exact key q hcand
  · intro ρ hρ
    rw [e1, e2]
    exact (key c hc ρ hρ).symm

end

/-! ## The exponential domain -/

theorem expSides_sch (p : Pat ExpOp × Pat ExpOp)
    (h : p ∈ expExploratorySides ∨ p ∈ expStartingGood ++ [expLogSides] ∨ p ∈ expRationalSides) :
    Schematic p.1 ∧ Schematic p.2 := by
  have : schematicB p.1 = true ∧ schematicB p.2 = true := by
    rcases h with h | h | h
    · exact expSides_schematic p (List.mem_append.2 (.inl h))
    · exact expSides_schematic p (List.mem_append.2 (.inr h))
    · exact expRational_schematic p h
  exact ⟨schematicB_sound _ this.1, schematicB_sound _ this.2⟩

/-- **C60** (tables). The three rule tables of tests/exponential.rs are read without a panic, and every one of their rules
holds for real numbers wherever both sides are defined; those of `rational_rules` even hold everywhere if a quotient by zero
is taken to be zero. -/
theorem C60_tables : ∃ expl starting rational : Ruleset ExpOp,
    Ruleset.new (ExpOp.exploratoryTexts.map String.toList) = some expl ∧
    Ruleset.new (ExpOp.startingTexts.map String.toList) = some starting ∧
    Ruleset.new (ExpOp.rationalTexts.map String.toList) = some rational ∧
    (∀ r ∈ Ruleset.iter expl, HoldsWhereDefined expVal expOk r) ∧
    (∀ r ∈ Ruleset.iter starting, HoldsWhereDefined expVal expOk r) ∧ ∀ r ∈ Ruleset.iter rational, Holds expVal r := by
  obtain ⟨expl, h1, -, h2⟩ := table_new expExploratory_sides
  obtain ⟨starting, h3, -, h4⟩ := table_new expStarting_sides
  obtain ⟨rational, h5, -, h6⟩ := table_new expRational_sides
  refine ⟨expl, starting, rational, h1, h3, h5, fun r hr => expExploratory_real _ (h2 r hr), fun r hr ρ d1 _ => ?_,
    fun r hr => expRational_holds expVal_arith _ (h6 r hr)⟩
  rcases List.mem_append.1 (h4 r hr) with h | h
  · exact expStarting_real _ h ρ
  · rw [List.mem_singleton] at h
    have e1 : r.lhs = expLogSides.1 := congrArg Prod.fst h
    have e2 : r.rhs = expLogSides.2 := congrArg Prod.snd h
    rw [e1] at d1
    rw [e1, e2]
    exact expLog_real ρ d1

/-- **C60** (total functions). For total functions in place of the partial ones (a quotient by zero is zero, the logarithm is
that of the absolute value and zero at zero, powers and roots are defined by `exp` and `log`) all rules of the tables hold but
`(exp (log ?a)) ==> ?a`, which holds for positive values only. The functions are the usual ones at positive arguments. -/
theorem C60_total {expl starting rational : Ruleset ExpOp}
    (h1 : Ruleset.new (ExpOp.exploratoryTexts.map String.toList) = some expl)
    (h2 : Ruleset.new (ExpOp.startingTexts.map String.toList) = some starting)
    (h3 : Ruleset.new (ExpOp.rationalTexts.map String.toList) = some rational) :
    (∀ r, r ∈ Ruleset.iter expl ∨ r ∈ Ruleset.iter starting ∨ r ∈ Ruleset.iter rational →
      Holds expTotal r ∨ r.lhs = .node .exp [.node .log [.var "?a"]] ∧ r.rhs = .var "?a" ∧ ¬ Holds expTotal r ∧
        HoldsOn (0 < ·) expTotal r) ∧
    ∀ a : ℝ, 0 < a → (∀ b, expTotal .pow [a, b] = a ^ b) ∧ expTotal .sqrt [a] = √a ∧
      expTotal .cbrt [a] ^ 3 = a := by
  refine ⟨fun r hr => ?_, fun a ha => ⟨fun b => ?_, ?_, ?_⟩⟩
  · rcases hr with hr | hr | hr
    · exact .inl (expExploratory_total _ ((table_sides expExploratory_sides h1).2 r hr))
    · rcases List.mem_append.1 ((table_sides expStarting_sides h2).2 r hr) with h | h
      · exact .inl (expStarting_total _ h)
      · rw [List.mem_singleton] at h
        have e1 : r.lhs = expLogSides.1 := congrArg Prod.fst h
        have e2 : r.rhs = expLogSides.2 := congrArg Prod.snd h
        refine .inr ⟨e1, e2, fun hh => ?_, fun ρ hρ => ?_⟩
        · have := hh (fun _ => 0)
          rw [e1, e2] at this
          simp [expLogSides, patVal, patValL, expTotal, expVal] at this
        · rw [e1, e2]
          simp only [expLogSides, patVal, patValL, expTotal, expVal]
          exact Real.exp_log (hρ _)
    · exact .inl (expRational_holds expTotal_arith _ ((table_sides expRational_sides h3).2 r hr))
  · rw [Real.rpow_def_of_pos ha, mul_comm]; rfl
  · rw [Real.sqrt_eq_rpow, Real.rpow_def_of_pos ha, mul_comm]; rfl
  · simp only [expTotal]
    rw [← Real.exp_nat_mul, ← mul_assoc]
    norm_num
    exact Real.exp_log ha

/-- **C60** (the prior is contradictory). No algebra with two different values satisfies all lines of `rational_rules` and
`starting_exponential_rules`: if all of them hold then any two values are equal. -/
theorem C60_inconsistent {V : Type} (I : ExpOp → List V → V)
    (h : ∀ t ∈ ExpOp.rationalTexts ++ ExpOp.startingTexts, ∀ r, Rule.fromString t.toList = some (some (r, none)) → Holds I r)
    (x y : V) : x = y := by
  have hm : ∀ t ∈ ["(- ?a ?a) ==> 0", "(- ?a 0) ==> ?a", "(* ?a 0) ==> (- ?a ?a)", "(- ?c (- ?b ?a)) ==> (+ ?a (- ?c ?b))",
      "(+ ?b ?a) ==> (+ ?a ?b)", "(* (exp ?a) (exp ?b)) ==> (exp (+ ?a ?b))", "(exp (log ?a)) ==> ?a",
      "(log (exp ?a)) ==> ?a"], t ∈ ExpOp.rationalTexts ++ ExpOp.startingTexts := by decide +kernel
  have use : ∀ (t : String) (r : Rule ExpOp), t ∈ ExpOp.rationalTexts ++ ExpOp.startingTexts →
      Rule.fromString t.toList = some (some (r, none)) → ∀ a b c : V,
      patVal (fun s => if s = "?a" then a else if s = "?b" then b else c) I r.lhs =
        patVal (fun s => if s = "?a" then a else if s = "?b" then b else c) I r.rhs := fun t r ht hr a b c => h t ht r hr _
  have h1 := use "(- ?a ?a) ==> 0" ⟨"(- ?a ?a) ==> 0".toList, .node .sub [.var "?a", .var "?a"], .node (.num 0) []⟩
    (hm _ (by simp)) (by decide +kernel)
  have h2 := use "(- ?a 0) ==> ?a" ⟨"(- ?a 0) ==> ?a".toList, .node .sub [.var "?a", .node (.num 0) []], .var "?a"⟩
    (hm _ (by simp)) (by decide +kernel)
  have h3 := use "(* ?a 0) ==> (- ?a ?a)" ⟨"(* ?a 0) ==> (- ?a ?a)".toList, .node .mul [.var "?a", .node (.num 0) []],
    .node .sub [.var "?a", .var "?a"]⟩ (hm _ (by simp)) (by decide +kernel)
  have h4 := use "(- ?c (- ?b ?a)) ==> (+ ?a (- ?c ?b))" ⟨"(- ?c (- ?b ?a)) ==> (+ ?a (- ?c ?b))".toList,
    .node .sub [.var "?c", .node .sub [.var "?b", .var "?a"]], .node .add [.var "?a", .node .sub [.var "?c", .var "?b"]]⟩
    (hm _ (by simp)) (by decide +kernel)
  have h5 := use "(+ ?b ?a) ==> (+ ?a ?b)" ⟨"(+ ?b ?a) ==> (+ ?a ?b)".toList, .node .add [.var "?b", .var "?a"],
    .node .add [.var "?a", .var "?b"]⟩ (hm _ (by simp)) (by decide +kernel)
  have h6 := use "(* (exp ?a) (exp ?b)) ==> (exp (+ ?a ?b))" ⟨"(* (exp ?a) (exp ?b)) ==> (exp (+ ?a ?b))".toList,
    .node .mul [.node .exp [.var "?a"], .node .exp [.var "?b"]], .node .exp [.node .add [.var "?a", .var "?b"]]⟩
    (hm _ (by simp)) (by decide +kernel)
  have h7 := use "(exp (log ?a)) ==> ?a" ⟨"(exp (log ?a)) ==> ?a".toList, .node .exp [.node .log [.var "?a"]], .var "?a"⟩
    (hm _ (by simp)) (by decide +kernel)
  have h8 := use "(log (exp ?a)) ==> ?a" ⟨"(log (exp ?a)) ==> ?a".toList, .node .log [.node .exp [.var "?a"]], .var "?a"⟩
    (hm _ (by simp)) (by decide +kernel)
  simp only [patVal, patValL, if_true, show ¬ "?b" = "?a" by decide, show ¬ "?c" = "?a" by decide,
    show ¬ "?c" = "?b" by decide, if_false] at h1 h2 h3 h4 h5 h6 h7 h8
  let Z := I (.num 0) []
  let L := I .log [Z]
  have e : ∀ v, I .exp [v] = Z := fun v => by
    have s1 : v = I .add [L, I .sub [v, L]] := by rw [← h4 L L v, h1 L v v, h2 v v v]
    have s2 : I .exp [L] = Z := h7 Z Z Z
    rw [s1, h5 (I .sub [v, L]) L v, ← h6 (I .sub [v, L]) L v, s2, h3 _ v v, h1 _ v v]
  have z : ∀ v, v = L := fun v => by rw [← h8 v v v, e v]
  rw [z x, z y]

/-- An algebra with a single value meets the hypothesis. -/
example : ∀ t ∈ ExpOp.rationalTexts ++ ExpOp.startingTexts, ∀ r : Rule ExpOp, Rule.fromString t.toList = some (some (r, none)) →
    Holds (fun _ _ => ()) r := fun _ _ _ _ _ => rfl

/-- The real numbers do not: a line fails at zero. -/
example : ∃ t ∈ ExpOp.rationalTexts ++ ExpOp.startingTexts, ∃ r, Rule.fromString t.toList = some (some (r, none)) ∧
    ¬ Holds expTotal r := by
  by_contra h
  push Not at h
  exact zero_ne_one (C60_inconsistent expTotal h 0 1)

/-- **C60** (variables). `initialize_vars` unites a variable with `(exp (log x))` and `(log (exp x))`. The second has the
value of the variable always, the first if and only if that value is positive. -/
theorem C60_variables (env : String → ℝ) (x : String) : ∃ t u, expDomain.varTerms x = [t, u] ∧
    (Tm.fold (withVars env expTotal) t = env x ↔ 0 < env x) ∧ Tm.fold (withVars env expTotal) u = env x := by
  refine ⟨_, _, rfl, ?_, ?_⟩
  · simp only [Tm.fold, Tm.foldL, withVars, Lang.toVar, expTotal, expVal]
    constructor
    · intro h
      rw [← h]
      exact Real.exp_pos _
    · exact Real.exp_log
  · simp only [Tm.fold, Tm.foldL, withVars, Lang.toVar, expTotal, expVal, Real.log_exp]

theorem exp_folds (env : String → ℝ) (h : ∀ x, 0 < env x) :
    FoldsIn expDomain AnySort (withVars env expTotal) (fun J _ => J = ⟨none, none⟩) where
  interval := by
    intro o Js vs J _ _ h
    cases h
    rfl
  join := by
    intro a b c v ha hb h
    subst ha hb
    simp only [mergeInterval, maxLow, minHigh, Interval.new, Option.some.injEq] at h
    exact h.symm
  const := by
    intro c v t h
    cases h
  custom := by
    intro nodes val i hval t ht
    cases ht
  varTerms := by
    intro x t ht
    obtain ⟨t1, t2, e, h1, h2⟩ := C60_variables env x
    rw [e] at ht
    refine ⟨TmOk.any _, ?_⟩
    rw [show withVars env expTotal (Lang.mkVar x) [] = env x from rfl]
    rcases List.mem_pair.1 ht with rfl | rfl
    · exact h1.2 (h x)
    · exact h2

/-- **C60** (rule lifting, one run). From any prior rules that hold for all real numbers (with the total functions of
`C60_total`), whatever the workload, limits and choices: all rules that a fast-forwarding run returns hold for positive values
of their variables.

Missing: the recipe's prior contains `(exp (log ?a)) ==> ?a`, which does not hold for all real numbers, and later runs are given
the rules found by earlier ones, which are known for positive values only. For that prior the conclusion fails
(`C60_unsound`). -/
theorem C60_lifting_partial {expl prior out : Ruleset ExpOp} {asked : List (Rule ExpOp)}
    (he : Ruleset.new (ExpOp.exploratoryTexts.map String.toList) = some expl)
    (hp : WellFormed prior) (hg : ∀ r ∈ Ruleset.iter prior, (Schematic r.lhs ∧ Schematic r.rhs) ∧ Holds expTotal r)
    {F : FastEnv ExpOp Rat} {w : Workload} {pl ml : Limits} (hs : StepOk expDomain ⟨F, w, pl, ml⟩)
    (h : runFastForwarding expDomain F w prior expl pl ml = some (out, asked)) :
    ∀ q ∈ Ruleset.iter out, HoldsOn (0 < ·) expTotal q :=
  C60_restricted (P := (0 < ·)) exp_folds (fun _ => ⟨rfl, trivial⟩) hs.1 hs.2 (fun _ _ _ _ _ _ => TmOk.any _) hp
    (fun r hr => hr.elim (fun h => ⟨goodRule_any (hg r h).1, (hg r h).2⟩) fun h =>
      have := (table_sides expExploratory_sides he).2 r h
      ⟨goodRule_any (expSides_sch _ (.inl this)), expExploratory_total _ this⟩) h

end Ruler
