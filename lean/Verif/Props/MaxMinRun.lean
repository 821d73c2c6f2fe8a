import Verif.Props.MaxMin
import Verif.Props.CadRun
/-!
# C78: a run that finds `(max ?a ?a) ==> ?a`
-/
namespace Ruler
open Spec EGraph
open scoped List

namespace Sample

/-- The workload `(max a a)`, `a`. -/
def maxSame : Workload := .set [.list [.atom "max", .atom "a", .atom "a"], .atom "a"]

/-- Three lines of the prior rules. -/
def maxLines : List String :=
  ["(| ?a (! ?a)) ==> true", "(case ?c1 ?t (case ?c2 ?t ?rest)) ==> (case (| ?c1 ?c2) ?t ?rest)", "(case true ?t ?rest) ==> ?t"]

/-- These lines as read. -/
def maxRules : Ruleset MaxMinOp := [
  ("(| ?a (! ?a)) ==> true".toList, ⟨"(| ?a (! ?a)) ==> true".toList,
    .node .or [.var "?a", .node .not [.var "?a"]], .node .true []⟩),
  ("(case ?c1 ?t (case ?c2 ?t ?rest)) ==> (case (| ?c1 ?c2) ?t ?rest)".toList,
   ⟨"(case ?c1 ?t (case ?c2 ?t ?rest)) ==> (case (| ?c1 ?c2) ?t ?rest)".toList,
    .node .case [.var "?c1", .var "?t", .node .case [.var "?c2", .var "?t", .var "?rest"]],
    .node .case [.node .or [.var "?c1", .var "?c2"], .var "?t", .var "?rest"]⟩),
  ("(case true ?t ?rest) ==> ?t".toList, ⟨"(case true ?t ?rest) ==> ?t".toList,
    .node .case [.node .true [], .var "?t", .var "?rest"], .var "?t"⟩)]

/-- Two exploratory rules. -/
def maxExplLines : List String :=
  ["(ite ?c ?t ?e) ==> (case ?c ?t (case (! ?c) ?e endcase))", "(max ?a ?b) ==> (ite (< ?a ?b) ?b ?a)"]

/-- The rules as read. -/
def maxExplRules : Ruleset MaxMinOp := [
  ("(ite ?c ?t ?e) ==> (case ?c ?t (case (! ?c) ?e endcase))".toList,
   ⟨"(ite ?c ?t ?e) ==> (case ?c ?t (case (! ?c) ?e endcase))".toList,
    .node .ite [.var "?c", .var "?t", .var "?e"],
    .node .case [.var "?c", .var "?t", .node .case [.node .not [.var "?c"], .var "?e", .node .endcase []]]⟩),
  ("(max ?a ?b) ==> (ite (< ?a ?b) ?b ?a)".toList,
   ⟨"(max ?a ?b) ==> (ite (< ?a ?b) ?b ?a)".toList,
    .node .max [.var "?a", .var "?b"], .node .ite [.node .less [.var "?a", .var "?b"], .var "?b", .var "?a"]⟩)]

/-- Choices of a fast-forwarding run. -/
noncomputable def maxEnv : FastEnv MaxMinOp Rat where
  build := egg
  split := .leaf
  isSat _ := false
  egAllowed := egg
  trAllowed := quiet
  egDenote := egg
  trDenote := { trace with simple := ⟨[], [cadPicks [1], cadPicks [0]]⟩ }
  egFinal := egg
  trFinal := { trace with simple := ⟨[], [cadPicks [1], cadPicks [0], cadPicks [2]]⟩, cloneRepairs := cadRepairs }
  ids g := g.classes
  keys g h := (g.classes.map h.find).eraseDups
  best := extracted maxMinDomain extractableCost_laws
  min := ⟨.simple limits, fun _ => false, fun _ => egg, fun _ => quiet, fun r => [(r.name.length : Int)], fun _ _ => true⟩

/-- A run with the limits of tests/maxmin.rs:507-511. -/
noncomputable def maxStep : FastStep MaxMinOp Rat := ⟨maxEnv, maxSame, ⟨3, 1000000, 200000⟩, ⟨3, 1000000, 200000⟩⟩

theorem maxStep_ok : StepOk maxMinDomain maxStep :=
  ⟨fun _ hg _ hi => extracted_ok extractableCost_laws hg hi, fun _ => List.Perm.refl _⟩

/-- `(max ?a ?a)`. -/
def maxSamePat : Pat MaxMinOp := .node .max [.var "?a", .var "?a"]

/-- What the run finds. -/
theorem maxStep_finds : (fastRecipe maxMinDomain maxExplRules [maxStep] maxRules).map (fun out =>
      (out.drop 3).map fun e => (e.2.lhs, e.2.rhs)) = some [(.var "?a", maxSamePat), (maxSamePat, .var "?a")] := by
  decide +kernel

end Sample

/-- The hypotheses of `C78_allowed` and `C78_order_partial` met: lines of the tables and a run that finds `(max ?a ?a) ==> ?a`, which
therefore holds for natural numbers. -/
example : (∀ t ∈ Sample.maxExplLines, t ∈ MaxMinOp.exploratoryTexts) ∧ (∀ t ∈ Sample.maxLines, t ∈ maxMinSound) ∧
    (∀ t ∈ Sample.maxLines, t ∈ MaxMinOp.natTexts) ∧
    Ruleset.new (Sample.maxExplLines.map String.toList) = some Sample.maxExplRules ∧
    Ruleset.new (Sample.maxLines.map String.toList) = some Sample.maxRules ∧ StepOk maxMinDomain Sample.maxStep ∧
    ∃ out, fastRecipe maxMinDomain Sample.maxExplRules [Sample.maxStep] Sample.maxRules = some out ∧
      ∃ q ∈ Ruleset.iter out, q.lhs = Sample.maxSamePat ∧ q.rhs = .var "?a" ∧ Holds (orderVal (0 : Nat)) q := by
  have h1 : ∀ t ∈ Sample.maxExplLines, t ∈ MaxMinOp.exploratoryTexts := by simp [Sample.maxExplLines, MaxMinOp.exploratoryTexts]
  have h2 : ∀ t ∈ Sample.maxLines, t ∈ maxMinSound := by simp [Sample.maxLines, maxMinSound]
  have h2' : ∀ t ∈ Sample.maxLines, t ∈ MaxMinOp.natTexts := by simp [Sample.maxLines, MaxMinOp.natTexts]
  have h3 : Ruleset.new (Sample.maxExplLines.map String.toList) = some Sample.maxExplRules := by decide +kernel
  have h4 : Ruleset.new (Sample.maxLines.map String.toList) = some Sample.maxRules := by decide +kernel
  obtain ⟨out, ho, h⟩ := Option.map_eq_some_iff.1 Sample.maxStep_finds
  have hm : (Sample.maxSamePat, .var "?a") ∈ (out.drop 3).map fun e => (e.2.lhs, e.2.rhs) := by rw [h]; simp
  obtain ⟨e, he, e'⟩ := List.mem_map.1 hm
  simp only [Prod.mk.injEq] at e'
  have hq : e.2 ∈ Ruleset.iter out := List.mem_map.2 ⟨e, List.mem_of_mem_drop he, rfl⟩
  refine ⟨h1, h2, h2', h3, h4, Sample.maxStep_ok, out, ho, e.2, hq, e'.1, e'.2, ?_⟩
  rcases C78_order_partial h1 h3 h2 h4 (List.forall_mem_singleton.2 Sample.maxStep_ok) ho _ hq with h | h
  · have : ∀ q ∈ Ruleset.iter Sample.maxRules, q.lhs ≠ Sample.maxSamePat := by decide +kernel
    exact absurd e'.1 (this _ h)
  · exact h Nat 0

/-- Equations that hold in every ordered set need not be trivial: the interpretation tells maximum from minimum. -/
example : ¬ Holds (orderVal (0 : Nat)) ⟨[], .node .max [.var "?a", .var "?b"], .node .min [.var "?a", .var "?b"]⟩ := fun h => by
  have := h fun v => if v = "?a" then 1 else 0
  revert this
  decide

end Ruler
