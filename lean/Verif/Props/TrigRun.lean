import Verif.Props.Trig
/-!
# C59: a run that finds `0 ==> 1`
-/
namespace Ruler
open Spec EGraph
open scoped List

namespace Sample

/-- The workload `(/ (sin 0) (sin 0))`, `1`. -/
def sinOverSin : Workload :=
  .set [.list [.atom "/", .list [.atom "sin", .atom "0"], .list [.atom "sin", .atom "0"]], .atom "1"]

/-- Three lines of scripts/oopsla21/trig/complex.rules. -/
def zeroTexts : List String := ["(- ?a ?a) ==> 0", "(/ ?a ?a) ==> 1", "(/ 0 ?a) ==> 0"]

/-- These lines as read. -/
def zeroRules : Ruleset TrigOp := [
  ("(- ?a ?a) ==> 0".toList, ⟨"(- ?a ?a) ==> 0".toList, .node .sub [.var "?a", .var "?a"], .node (.real "0") []⟩),
  ("(/ ?a ?a) ==> 1".toList, ⟨"(/ ?a ?a) ==> 1".toList, .node .div [.var "?a", .var "?a"], .node (.real "1") []⟩),
  ("(/ 0 ?a) ==> 0".toList, ⟨"(/ 0 ?a) ==> 0".toList, .node .div [.node (.real "0") [], .var "?a"], .node (.real "0") []⟩)]

/-- One exploratory rule. -/
def sinTexts : List String := ["(sin ?a) ==> (/ (- (cis ?a) (cis (~ ?a))) (* 2 I))"]

/-- The rule as read. -/
def sinRules : Ruleset TrigOp := [("(sin ?a) ==> (/ (- (cis ?a) (cis (~ ?a))) (* 2 I))".toList,
  ⟨"(sin ?a) ==> (/ (- (cis ?a) (cis (~ ?a))) (* 2 I))".toList, .node .sin [.var "?a"],
    .node .div [.node .sub [.node .cis [.var "?a"], .node .cis [.node .neg [.var "?a"]]],
      .node .mul [.node (.real "2") [], .node .imag []]]⟩)]

/-- Apply the first matches of the rules at the given positions. -/
def picks (ks : List Nat) : IterTrace := ⟨(List.range 3).map fun k => if k ∈ ks then [0, 1, 2, 3] else [], congrs⟩

/-- Choices of a fast-forwarding run. -/
noncomputable def trigEnv : FastEnv TrigOp Rat where
  build := egg
  split := .leaf
  isSat _ := false
  egAllowed := egg
  trAllowed := { trace with simple := ⟨[], [picks [1]]⟩, cloneRepairs := congrs }
  egDenote := egg
  trDenote := { trace with simple := ⟨[], [picks [0]]⟩ }
  egFinal := egg
  trFinal := { trace with simple := ⟨[], [picks [0], picks [2], picks [1, 2]]⟩, cloneRepairs := congrs }
  ids g := g.classes
  keys g h := (g.classes.map h.find).eraseDups
  best := extracted trigDomain extractableCost_laws
  min := ⟨.simple limits, fun _ => false, fun _ => egg, fun _ => quiet, fun r => [(r.name.length : Int)], fun _ _ => true⟩

/-- A run with the limits of tests/recipes/trig.rs. -/
noncomputable def trigStep : FastStep TrigOp Rat := ⟨trigEnv, sinOverSin, ⟨3, 2000000, 200000⟩, limits⟩

theorem trigStep_ok : StepOk trigDomain trigStep :=
  ⟨fun _ hg _ hi => extracted_ok extractableCost_laws hg hi, fun _ => List.Perm.refl _⟩

/-- What the run finds. -/
theorem trigStep_finds : (fastRecipe trigDomain sinRules [trigStep] zeroRules).map (fun out =>
      (out.drop 3).map fun e => (e.2.lhs, e.2.rhs)) = some [
    (.node (.real "1") [], .node (.real "0") []), (.node (.real "0") [], .node (.real "1") []),
    (.node (.real "1") [], .node .sin [.node (.real "0") []]), (.node .sin [.node (.real "0") []], .node (.real "0") []),
    (.node (.real "0") [], .node .sin [.node (.real "0") []]), (.node .sin [.node (.real "0") []], .node (.real "1") [])] := by
  decide +kernel

end Sample

/-- **C59** (false rules). There are exploratory rules of tests/trig.rs, prior rules of scripts/oopsla21/trig/complex.rules and
a fast-forwarding run with them that yields a rule which is wrong although both its sides are defined everywhere: the workload
`(/ (sin 0) (sin 0))`, `1` gives `1 ==> 0`. So rule lifting does not preserve the truth of rules "where defined", which is all
that `C59_tables` says about the prior of the recipe. -/
theorem C59_unsound : ∃ (expl prior out : Ruleset TrigOp) (explLines lines : List String) (st : FastStep TrigOp Rat)
    (q : Rule TrigOp), (∀ t ∈ explLines, t ∈ TrigOp.exploratoryTexts) ∧
    Ruleset.new (explLines.map String.toList) = some expl ∧
    (∀ t ∈ lines, t ∈ TrigOp.complexTexts) ∧ Ruleset.new (lines.map String.toList) = some prior ∧
    StepOk trigDomain st ∧ fastRecipe trigDomain expl [st] prior = some out ∧ q ∈ Ruleset.iter out ∧
    ¬ HoldsWhereDefined trigVal trigOk q := by
  obtain ⟨out, ho, h⟩ := Option.map_eq_some_iff.1 Sample.trigStep_finds
  have hm : ((.node (.real "1") [], .node (.real "0") []) : Pat TrigOp × Pat TrigOp) ∈
      (out.drop 3).map fun e => (e.2.lhs, e.2.rhs) := by rw [h]; simp
  obtain ⟨e, he, e'⟩ := List.mem_map.1 hm
  refine ⟨Sample.sinRules, Sample.zeroRules, out, Sample.sinTexts, Sample.zeroTexts, Sample.trigStep, e.2,
    by decide +kernel, by decide +kernel, by decide +kernel, by decide +kernel, Sample.trigStep_ok, ho, List.mem_map.2 ⟨e, List.mem_of_mem_drop he, rfl⟩, ?_⟩
  simp only [Prod.mk.injEq] at e'
  intro hq
  have := hq (fun _ => 0)
  rw [e'.1, e'.2] at this
  have := this (.node trivial (by simp)) (.node trivial (by simp))
  simp only [patVal, patValL, real_one, real_zero] at this
  exact one_ne_zero this

end Ruler
