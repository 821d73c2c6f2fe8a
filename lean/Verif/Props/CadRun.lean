import Verif.Props.Cad
import Verif.Props.BvBool
/-!
# C61: a run that finds `(Trans (Vec3 (Lit 0) (Lit 0) (Lit 0)) ?a) ==> ?a`
-/
namespace Ruler
open Spec EGraph
open scoped List

namespace Sample

/-- `(Lit 0)`. -/
def litZero : Pat CadOp := .node .lit [.node (.num 0) []]

/-- The workload `(Trans (Vec3 (Lit 0) (Lit 0) (Lit 0)) a)`, `a`. -/
def transZero : Workload :=
  .set [.list [.atom "Trans", .list [.atom "Vec3", .list [.atom "Lit", .atom "0"], .list [.atom "Lit", .atom "0"],
    .list [.atom "Lit", .atom "0"]], .atom "a"], .atom "a"]

/-- Three lines of the prior rules. -/
def cadLines : List String := ["(Lit ?x) ==> (Scalar (Lit ?x))", "(op - ?a (Lit 0)) ==> ?a", "(subst x y z ?a) ==> ?a"]

/-- These lines as read. -/
def cadRules : Ruleset CadOp := [
  ("(Lit ?x) ==> (Scalar (Lit ?x))".toList, ⟨"(Lit ?x) ==> (Scalar (Lit ?x))".toList,
    .node .lit [.var "?x"], .node .scalar [.node .lit [.var "?x"]]⟩),
  ("(op - ?a (Lit 0)) ==> ?a".toList, ⟨"(op - ?a (Lit 0)) ==> ?a".toList,
    .node .op [.node .sub [], .var "?a", litZero], .var "?a"⟩),
  ("(subst x y z ?a) ==> ?a".toList, ⟨"(subst x y z ?a) ==> ?a".toList,
    .node .subst [.node .dimX [], .node .dimY [], .node .dimZ [], .var "?a"], .var "?a"⟩)]

/-- One exploratory rule. -/
def transLines : List String :=
  ["(Trans (Vec3 ?a ?b ?c) ?e) ==> (subst (op - x (Scalar ?a)) (op - y (Scalar ?b)) (op - z (Scalar ?c)) ?e)"]

/-- The rule as read. -/
def transRules : Ruleset CadOp := [
  ("(Trans (Vec3 ?a ?b ?c) ?e) ==> (subst (op - x (Scalar ?a)) (op - y (Scalar ?b)) (op - z (Scalar ?c)) ?e)".toList,
   ⟨"(Trans (Vec3 ?a ?b ?c) ?e) ==> (subst (op - x (Scalar ?a)) (op - y (Scalar ?b)) (op - z (Scalar ?c)) ?e)".toList,
    .node .trans [.node .vec3 [.var "?a", .var "?b", .var "?c"], .var "?e"],
    .node .subst [.node .op [.node .sub [], .node .dimX [], .node .scalar [.var "?a"]],
      .node .op [.node .sub [], .node .dimY [], .node .scalar [.var "?b"]],
      .node .op [.node .sub [], .node .dimZ [], .node .scalar [.var "?c"]], .var "?e"]⟩)]

/-- Enough repairs. -/
def cadRepairs : List Repair := List.replicate 60 (.congr 0)

/-- Apply the first matches of the rules at the given positions. -/
def cadPicks (ks : List Nat) : IterTrace :=
  ⟨(List.range 3).map fun k => if k ∈ ks then List.range 10 else [], cadRepairs⟩

/-- Choices of a fast-forwarding run. -/
noncomputable def cadEnv : FastEnv CadOp Int where
  build := egg
  split := .leaf
  isSat _ := false
  egAllowed := egg
  trAllowed := quiet
  egDenote := egg
  trDenote := { trace with simple := ⟨[], [cadPicks [0]]⟩ }
  egFinal := egg
  trFinal := { trace with simple := ⟨[], [cadPicks [0], cadPicks [1], cadPicks [2]]⟩, cloneRepairs := cadRepairs }
  ids g := g.classes
  keys g h := (g.classes.map h.find).eraseDups
  best := extracted cadDomain extractableCost_laws
  min := ⟨.simple limits, fun _ => false, fun _ => egg, fun _ => quiet, fun r => [(r.name.length : Int)], fun _ _ => true⟩

/-- A run with the limits of tests/szalinski.rs. -/
noncomputable def cadStep : FastStep CadOp Int := ⟨cadEnv, transZero, ⟨4, 10000000, 1000000⟩, ⟨4, 10000000, 1000000⟩⟩

theorem cadStep_ok : StepOk cadDomain cadStep :=
  ⟨fun _ hg _ hi => extracted_ok extractableCost_laws hg hi, fun _ => List.Perm.refl _⟩

/-- The translation by zero. -/
def transZeroPat : Pat CadOp := .node .trans [.node .vec3 [litZero, litZero, litZero], .var "?a"]

/-- What the run finds. -/
theorem cadStep_finds : (fastRecipe cadDomain transRules [cadStep] cadRules).map (fun out =>
      (out.drop 3).map fun e => (e.2.lhs, e.2.rhs)) = some [(.var "?a", transZeroPat), (transZeroPat, .var "?a")] := by
  decide +kernel

end Sample

/-- The hypotheses of `C61_lifting` met: lines of the tables and a run that finds `(Trans (Vec3 (Lit 0) (Lit 0) (Lit 0)) ?a) ==> ?a`,
both sides of which describe functions. -/
example : (∀ t ∈ Sample.transLines, t ∈ CadOp.liftingTexts) ∧ (∀ t ∈ Sample.cadLines, t ∈ CadOp.priorTexts) ∧
    Ruleset.new (Sample.transLines.map String.toList) = some Sample.transRules ∧
    Ruleset.new (Sample.cadLines.map String.toList) = some Sample.cadRules ∧ StepOk cadDomain Sample.cadStep ∧
    ∃ out, fastRecipe cadDomain Sample.transRules [Sample.cadStep] Sample.cadRules = some out ∧
      ∃ q ∈ Ruleset.iter out, q.lhs = Sample.transZeroPat ∧ q.rhs = .var "?a" ∧
        ∀ ω ρ, ∃ f, FRep ω ρ q.lhs f ∧ FRep ω ρ q.rhs f := by
  have h1 : ∀ t ∈ Sample.transLines, t ∈ CadOp.liftingTexts := by simp [Sample.transLines, CadOp.liftingTexts]
  have h2 : ∀ t ∈ Sample.cadLines, t ∈ CadOp.priorTexts := by
    simp [Sample.cadLines, CadOp.priorTexts, CadOp.frepTexts, CadOp.substTexts]
  have h3 : Ruleset.new (Sample.transLines.map String.toList) = some Sample.transRules := by decide +kernel
  have h4 : Ruleset.new (Sample.cadLines.map String.toList) = some Sample.cadRules := by decide +kernel
  obtain ⟨out, ho, h⟩ := Option.map_eq_some_iff.1 Sample.cadStep_finds
  have hm : (Sample.transZeroPat, .var "?a") ∈ (out.drop 3).map fun e => (e.2.lhs, e.2.rhs) := by rw [h]; simp
  obtain ⟨e, he, e'⟩ := List.mem_map.1 hm
  simp only [Prod.mk.injEq] at e'
  have hq : e.2 ∈ Ruleset.iter out := List.mem_map.2 ⟨e, List.mem_of_mem_drop he, rfl⟩
  refine ⟨h1, h2, h3, h4, Sample.cadStep_ok, out, ho, e.2, hq, e'.1, e'.2, fun ω ρ => ?_⟩
  have hs := (C61_lifting h1 h3 h2 h4 (List.forall_mem_singleton.2 Sample.cadStep_ok) ho _ hq).1 ω ρ
  rw [e'.1, e'.2] at hs ⊢
  have : ∃ f, FRep ω ρ Sample.transZeroPat f := by
    rw [Sample.transZeroPat, Sample.litZero]
    apply Exists.intro
    frep
  obtain ⟨f, hf⟩ := this
  exact ⟨f, hf, hs f _ hf (.var _ (by decide)) ▸ .var _ (by decide)⟩

/-- With quotients by zero equal to zero instead of undefined, the prior rule
`(op - (op / ?a ?c) ?b) ==> (op / (op - ?a (op * ?b ?c)) ?c)` would be false. -/
example : ¬ ∀ a b c : ℝ, a / c - b = (a - b * c) / c := fun h => by
  have := h 0 1 0
  norm_num at this

end Ruler
