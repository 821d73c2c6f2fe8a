import Verif.Props.Exp
import Verif.Props.BvBool
/-!
# C60: a run that finds `(exp ?a) ==> 0`
-/
namespace Ruler
open Spec EGraph
open scoped List

namespace Sample

/-- The workload `(* (exp (- a (log 0))) (exp (log 0)))`, `(exp (- a (- (log 0) (log 0))))`. -/
def expZero : Workload :=
  .set [.list [.atom "*", .list [.atom "exp", .list [.atom "-", .atom "a", .list [.atom "log", .atom "0"]]],
      .list [.atom "exp", .list [.atom "log", .atom "0"]]],
    .list [.atom "exp", .list [.atom "-", .atom "a",
      .list [.atom "-", .list [.atom "log", .atom "0"], .list [.atom "log", .atom "0"]]]]]

/-- Five lines of `rational_rules` and two of `starting_exponential_rules`. -/
def logZeroTexts : List String := [
  "(- ?a ?a) ==> 0",
  "(- ?a 0) ==> ?a",
  "(* ?a 0) ==> (- ?a ?a)",
  "(- ?c (- ?b ?a)) ==> (+ ?a (- ?c ?b))",
  "(+ ?b ?a) ==> (+ ?a ?b)",
  "(* (exp ?a) (exp ?b)) ==> (exp (+ ?a ?b))",
  "(exp (log ?a)) ==> ?a"]

/-- These lines as read. -/
def logZeroRules : Ruleset ExpOp := [
  ("(- ?a ?a) ==> 0".toList, ⟨"(- ?a ?a) ==> 0".toList, .node .sub [.var "?a", .var "?a"],
    .node (.num 0) []⟩),
  ("(- ?a 0) ==> ?a".toList, ⟨"(- ?a 0) ==> ?a".toList, .node .sub [.var "?a", .node (.num 0) []],
    .var "?a"⟩),
  ("(* ?a 0) ==> (- ?a ?a)".toList, ⟨"(* ?a 0) ==> (- ?a ?a)".toList, .node .mul [.var "?a", .node (.num 0) []],
    .node .sub [.var "?a", .var "?a"]⟩),
  ("(- ?c (- ?b ?a)) ==> (+ ?a (- ?c ?b))".toList, ⟨"(- ?c (- ?b ?a)) ==> (+ ?a (- ?c ?b))".toList, .node .sub [.var "?c", .node .sub [.var "?b", .var "?a"]],
    .node .add [.var "?a", .node .sub [.var "?c", .var "?b"]]⟩),
  ("(+ ?b ?a) ==> (+ ?a ?b)".toList, ⟨"(+ ?b ?a) ==> (+ ?a ?b)".toList, .node .add [.var "?b", .var "?a"],
    .node .add [.var "?a", .var "?b"]⟩),
  ("(* (exp ?a) (exp ?b)) ==> (exp (+ ?a ?b))".toList, ⟨"(* (exp ?a) (exp ?b)) ==> (exp (+ ?a ?b))".toList, .node .mul [.node .exp [.var "?a"], .node .exp [.var "?b"]],
    .node .exp [.node .add [.var "?a", .var "?b"]]⟩),
  ("(exp (log ?a)) ==> ?a".toList, ⟨"(exp (log ?a)) ==> ?a".toList, .node .exp [.node .log [.var "?a"]],
    .var "?a"⟩)]

/-- Enough repairs. -/
def expRepairs : List Repair := List.replicate 60 (.congr 0)

/-- Apply the first matches of the rules at the given positions. -/
def expPicks (ks : List Nat) : IterTrace :=
  ⟨(List.range 7).map fun k => if k ∈ ks then List.range 10 else [], expRepairs⟩

/-- Choices of a fast-forwarding run. -/
noncomputable def expEnv : FastEnv ExpOp Rat where
  build := egg
  split := .leaf
  isSat _ := false
  egAllowed := egg
  trAllowed := { trace with
    simple := ⟨[], [expPicks [0, 6], expPicks [1, 2], expPicks [0]]⟩, cloneRepairs := expRepairs }
  egDenote := egg
  trDenote := quiet
  egFinal := egg
  trFinal := { trace with simple := ⟨[], [expPicks [3, 5], expPicks [4]]⟩, cloneRepairs := expRepairs }
  ids g := g.classes
  keys g h := (g.classes.map h.find).eraseDups
  best := extracted expDomain extractableCost_laws
  min := ⟨.simple limits, fun _ => false, fun _ => egg, fun _ => quiet, fun r => [(r.name.length : Int)], fun _ _ => true⟩

/-- A run with the limits of tests/recipes/exponential.rs. -/
noncomputable def expStep : FastStep ExpOp Rat := ⟨expEnv, expZero, ⟨3, 2000000, 200000⟩, limits⟩

theorem expStep_ok : StepOk expDomain expStep :=
  ⟨fun _ hg _ hi => extracted_ok extractableCost_laws hg hi, fun _ => List.Perm.refl _⟩

/-- What the run finds. -/
theorem expStep_finds : (fastRecipe expDomain [] [expStep] logZeroRules).map (fun out =>
      (out.drop 7).map fun e => (e.2.lhs, e.2.rhs)) = some [
    (.var "?a", .node .log [.node (.num 0) []]), (.node .exp [.var "?a"], .node (.num 0) []),
    (.node .sub [.var "?a", .node .log [.node (.num 0) []]], .node (.num 0) []),
    (.node .exp [.var "?a"], .node .sub [.var "?a", .node .log [.node (.num 0) []]]),
    (.node .sub [.var "?a", .node .log [.node (.num 0) []]], .node .exp [.var "?a"])] := by
  decide +kernel

end Sample

namespace Sample

/-- A product of exponentials. -/
def expMulRules : Ruleset ExpOp := [
  ("(* (exp ?a) (exp ?b)) ==> (exp (+ ?a ?b))".toList, ⟨"(* (exp ?a) (exp ?b)) ==> (exp (+ ?a ?b))".toList,
    .node .mul [.node .exp [.var "?a"], .node .exp [.var "?b"]], .node .exp [.node .add [.var "?a", .var "?b"]]⟩)]

/-- Choices of a run in which the only rule is applied last. -/
noncomputable def expEnv2 : FastEnv ExpOp Rat :=
  { expEnv with trAllowed := quiet, trFinal := { trace with simple := ⟨[], [expPicks [0]]⟩, cloneRepairs := expRepairs } }

/-- The workload `(* (exp (log a)) (exp b))`, `(exp (+ (log a) b))`. -/
noncomputable def expStep2 : FastStep ExpOp Rat := ⟨expEnv2, .set [
  .list [.atom "*", .list [.atom "exp", .list [.atom "log", .atom "a"]], .list [.atom "exp", .atom "b"]],
  .list [.atom "exp", .list [.atom "+", .list [.atom "log", .atom "a"], .atom "b"]]], ⟨3, 2000000, 200000⟩, limits⟩

/-- What this run finds. -/
theorem expStep2_finds : (fastRecipe expDomain [] [expStep2] expMulRules).map (fun out =>
      (out.drop 1).map fun e => (e.2.lhs, e.2.rhs)) = some [
    (.node .mul [.var "?b", .node .exp [.var "?a"]], .node .exp [.node .add [.node .log [.var "?b"], .var "?a"]]),
    (.node .exp [.node .add [.node .log [.var "?b"], .var "?a"]], .node .mul [.var "?b", .node .exp [.var "?a"]])] := by
  decide +kernel

end Sample

/-- The hypotheses of `C60_lifting_partial` met: from a rule that holds for all real numbers a run yields
`(exp (+ (log ?b) ?a)) ==> (* ?b (exp ?a))`, which holds for positive numbers and not for all. -/
example : ∃ (out : Ruleset ExpOp) (q : Rule ExpOp), StepOk expDomain Sample.expStep2 ∧ WellFormed Sample.expMulRules ∧
    (∀ r ∈ Ruleset.iter Sample.expMulRules, (Schematic r.lhs ∧ Schematic r.rhs) ∧ Holds expTotal r) ∧
    fastRecipe expDomain [] [Sample.expStep2] Sample.expMulRules = some out ∧ q ∈ Ruleset.iter out ∧
    HoldsOn (0 < ·) expTotal q ∧ ¬ Holds expTotal q := by
  obtain ⟨out, ho, h⟩ := Option.map_eq_some_iff.1 Sample.expStep2_finds
  have hm : ((.node .exp [.node .add [.node .log [.var "?b"], .var "?a"]], .node .mul [.var "?b", .node .exp [.var "?a"]]) :
      Pat ExpOp × Pat ExpOp) ∈ (out.drop 1).map fun e => (e.2.lhs, e.2.rhs) := by rw [h]; simp
  obtain ⟨e, he, e'⟩ := List.mem_map.1 hm
  simp only [Prod.mk.injEq] at e'
  refine ⟨out, e.2, ⟨fun _ hg _ hi => Sample.extracted_ok extractableCost_laws hg hi, fun _ => List.Perm.refl _⟩, ?_, ?_,
    ho, List.mem_map.2 ⟨e, List.mem_of_mem_drop he, rfl⟩, fun ρ hρ => ?_, fun hq => ?_⟩
  · exact ⟨by simp [Sample.expMulRules], by simp [Sample.expMulRules]⟩
  · intro r hr
    simp only [Sample.expMulRules, Ruleset.iter, List.map_cons, List.map_nil, List.mem_singleton] at hr
    subst hr
    refine ⟨⟨schematicB_sound _ (by decide +kernel), schematicB_sound _ (by decide +kernel)⟩, fun ρ => ?_⟩
    simp only [patVal, patValL, expTotal, expVal, Real.exp_add]
  · rw [e'.1, e'.2]
    simp only [patVal, patValL, expTotal, expVal, Real.exp_add, Real.exp_log (hρ _)]
  · have := hq fun _ => -1
    rw [e'.1, e'.2] at this
    simp only [patVal, patValL, expTotal, expVal, Real.exp_add] at this
    rw [← sub_eq_zero, ← sub_mul, mul_eq_zero, sub_eq_zero] at this
    rcases this with h | h
    · have := Real.exp_pos (Real.log (-1))
      rw [h] at this
      linarith
    · exact (Real.exp_pos _).ne' h

/-- **C60** (false rules). There are lines of `rational_rules` and `starting_exponential_rules` and a fast-forwarding run that
starts from them and yields `(exp ?a) ==> 0`, which is wrong for every value of `?a` although both sides are defined
everywhere. So `C60_lifting_partial` does not extend to the prior of the recipe. -/
theorem C60_unsound : ∃ (prior out : Ruleset ExpOp) (lines : List String) (st : FastStep ExpOp Rat)
    (q : Rule ExpOp), (∀ t ∈ lines, t ∈ ExpOp.rationalTexts ++ ExpOp.startingTexts) ∧
    Ruleset.new (lines.map String.toList) = some prior ∧
    StepOk expDomain st ∧ fastRecipe expDomain [] [st] prior = some out ∧ q ∈ Ruleset.iter out ∧
    q.lhs = .node .exp [.var "?a"] ∧ q.rhs = .node (.num 0) [] ∧
    ∀ ρ, DefinedAt expVal expOk ρ q.lhs ∧ DefinedAt expVal expOk ρ q.rhs ∧ patVal ρ expVal q.lhs ≠ patVal ρ expVal q.rhs := by
  obtain ⟨out, ho, h⟩ := Option.map_eq_some_iff.1 Sample.expStep_finds
  have hm : ((.node .exp [.var "?a"], .node (.num 0) []) : Pat ExpOp × Pat ExpOp) ∈
      (out.drop 7).map fun e => (e.2.lhs, e.2.rhs) := by rw [h]; simp
  obtain ⟨e, he, e'⟩ := List.mem_map.1 hm
  simp only [Prod.mk.injEq] at e'
  refine ⟨Sample.logZeroRules, out, Sample.logZeroTexts, Sample.expStep, e.2,
    by decide +kernel, by decide +kernel, Sample.expStep_ok, ho, List.mem_map.2 ⟨e, List.mem_of_mem_drop he, rfl⟩,
    e'.1, e'.2, fun ρ => ?_⟩
  rw [e'.1, e'.2]
  refine ⟨.node trivial fun p hp => ?_, .node trivial (by simp), ?_⟩
  · rw [List.mem_singleton] at hp
    subst hp
    exact .var _
  · simp only [patVal, patValL, expVal, Rat.cast_zero]
    exact (Real.exp_pos _).ne'

end Ruler
