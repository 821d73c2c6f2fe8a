import Verif.Proofs.BvBool
/-!
# C58: rules for two-bit vectors lifted from rules for Booleans
-/
namespace Ruler
open Spec EGraph

theorem bvBoolVarsOk : VarsOk (O := BvBoolOp) AnySort := fun _ => ⟨rfl, trivial⟩

/-- **C58** (tables). The exploratory rules of tests/bv-bool.rs are read without a panic, and every one of them is well-sorted
and true of all two-bit vectors. -/
theorem C58_tables : ∃ expl, bvBoolExploratory = some expl ∧
    ∀ r ∈ Ruleset.iter expl, ∃ τ, HasSort (fun _ => .vec) r.lhs τ ∧ HasSort (fun _ => .vec) r.rhs τ ∧
      TrueAt (fun _ => .vec) r := by
  obtain ⟨rs, h1, -, h2⟩ := table_new bvBool_sides
  have he : bvBoolExploratory = some (Ruleset.add rs BvBoolOp.defBv) := by rw [bvBoolExploratory, h1]; rfl
  refine ⟨_, he, fun r hr => ?_⟩
  suffices h : ∃ τ, HasSort (fun _ => .vec) r.lhs τ ∧ HasSort (fun _ => .vec) r.rhs τ by
    obtain ⟨τ, hl, hr'⟩ := h
    exact ⟨τ, hl, hr', (holds_seq_iff hl hr').1 (bvBoolExploratory_good he r hr).2⟩
  have v : ∀ x, HasSort (fun _ => .vec) (.var x) .vec := fun x => .var x
  rcases mem_iter_add hr with rfl | hr
  · exact ⟨.vec, v _, .make (.first (v _)) (.second (v _))⟩
  · have hm := h2 r hr
    simp only [bvBoolSides, List.mem_cons, Prod.mk.injEq, List.not_mem_nil, or_false] at hm
    rcases hm with ⟨e1, e2⟩ | ⟨e1, e2⟩ | ⟨e1, e2⟩ | ⟨e1, e2⟩ | ⟨e1, e2⟩ | ⟨e1, e2⟩ | ⟨e1, e2⟩ | ⟨e1, e2⟩ <;> rw [e1, e2]
    · exact ⟨_, .first (.bnot (v _)), .not (.first (v _))⟩
    · exact ⟨_, .second (.bnot (v _)), .not (.second (v _))⟩
    · exact ⟨_, .first (.band (v _) (v _)), .and (.first (v _)) (.first (v _))⟩
    · exact ⟨_, .second (.band (v _) (v _)), .and (.second (v _)) (.second (v _))⟩
    · exact ⟨_, .first (.bor (v _) (v _)), .or (.first (v _)) (.first (v _))⟩
    · exact ⟨_, .second (.bor (v _) (v _)), .or (.second (v _)) (.second (v _))⟩
    · exact ⟨_, .first (.bxor (v _) (v _)), .xor (.first (v _)) (.first (v _))⟩
    · exact ⟨_, .second (.bxor (v _) (v _)), .xor (.second (v _)) (.second (v _))⟩

/-- **C58** (constant folding). The constant that `custom_modify` makes of two Booleans is the vector with these bits, and
that constant is what `first` and `second` take apart. -/
theorem C58_constant (x y : Bool) :
    bvBoolVal (.num (BvBoolOp.pairConst x y)) [] = bvBoolVal .make [.bool x, .bool y] ∧
    bvBoolVal .first [bvBoolVal (.num (BvBoolOp.pairConst x y)) []] = .bool x ∧
    bvBoolVal .second [bvBoolVal (.num (BvBoolOp.pairConst x y)) []] = .bool y := by
  have h : (BvBoolOp.pairConst x y).val.setWidth 2 = BitVec.ofBool x ++ BitVec.ofBool y := by
    cases x <;> cases y <;> decide +kernel
  simp only [bvBoolVal, h, lsb_append, and_self]

/-- Operators of vectors. -/
def VectorOp (o : BvBoolOp) : Prop :=
  o = .band ∨ o = .bor ∨ o = .bxor ∨ o = .bnot ∨ o = .make ∨ (∃ n, o = .num n) ∨ ∃ x, o = .var x

theorem vectorOp_allowed (o : BvBoolOp) (h : Lang.allowed o = true) : VectorOp o := by
  cases o <;> first | cases h; done | simp [VectorOp]

/-- **C58** (rule lifting). Whatever chain of fast-forwarding runs is made with the exploratory rules of tests/bv-bool.rs
(constant folding and the definition of variables by their bits taking place all along), from any prior of well-sorted rules
that are true of Booleans and two-bit vectors: every resulting rule is true of them under every assignment of sorts that
makes it well-sorted, and a rule not in the prior has only the operators of vectors. -/
theorem C58_lifting {expl prior out : Ruleset BvBoolOp} (he : bvBoolExploratory = some expl) (hp : WellFormed prior)
    (hg : ∀ r ∈ Ruleset.iter prior, (Schematic r.lhs ∧ Schematic r.rhs) ∧
      ∃ Γ τ, HasSort Γ r.lhs τ ∧ HasSort Γ r.rhs τ ∧ TrueAt Γ r)
    {steps : List (FastStep BvBoolOp (BV 2))} (hs : ∀ st ∈ steps, StepOk bvBoolDomain st)
    (h : fastRecipe bvBoolDomain expl steps prior = some out) :
    ∀ q ∈ Ruleset.iter out, (∀ Γ τ, HasSort Γ q.lhs τ → HasSort Γ q.rhs τ → TrueAt Γ q) ∧
      (q ∈ Ruleset.iter prior ∨ OnlyOps VectorOp q.lhs ∧ OnlyOps VectorOp q.rhs) := by
  obtain ⟨-, hout⟩ := C57_recipe bvBool_folds bvBoolVarsOk (bvBoolExploratory_good he) steps hs hp
    (fun r hr => ⟨(hg r hr).1, by
      obtain ⟨Γ, τ, hl, hr', ht⟩ := (hg r hr).2
      exact (holds_seq_iff hl hr').2 ht⟩) h
  exact fun q hq => ⟨fun Γ τ hl hr => (holds_seq_iff hl hr).1 (hout q hq).1,
    (hout q hq).2.imp_right fun a => ⟨a.1.ops vectorOp_allowed, a.2.ops vectorOp_allowed⟩⟩

/-- A pattern over vectors only: no Boolean operators, no conversions. -/
inductive OnlyBits : Pat BvBoolOp → Prop
  | var (x : String) : OnlyBits (.var x)
  | num (n : BV 2) : OnlyBits (.node (.num n) [])
  | bnot {a} : OnlyBits a → OnlyBits (.node .bnot [a])
  | band {a b} : OnlyBits a → OnlyBits b → OnlyBits (.node .band [a, b])
  | bor {a b} : OnlyBits a → OnlyBits b → OnlyBits (.node .bor [a, b])
  | bxor {a b} : OnlyBits a → OnlyBits b → OnlyBits (.node .bxor [a, b])

theorem OnlyBits.hasSort {p : Pat BvBoolOp} (h : OnlyBits p) : HasSort (fun _ => .vec) p .vec := by
  induction h with
  | var x => exact .var x
  | num n => exact .num n
  | bnot _ ih => exact .bnot ih
  | band _ _ h1 h2 => exact .band h1 h2
  | bor _ _ h1 h2 => exact .bor h1 h2
  | bxor _ _ h1 h2 => exact .bxor h1 h2

/-- Two-bit vectors. -/
def bitsVal : BvBoolOp → List (BitVec 2) → BitVec 2
  | .band, [a, b] => a &&& b
  | .bor, [a, b] => a ||| b
  | .bxor, [a, b] => a ^^^ b
  | .bnot, [a] => ~~~a
  | .num n, [] => n.val.setWidth 2
  | _, _ => 0

theorem bitsVal_eq {p : Pat BvBoolOp} (h : OnlyBits p) (ρ : String → BitVec 2) :
    patVal (fun x => .vec (ρ x)) bvBoolVal p = .vec (patVal ρ bitsVal p) := by
  induction h with
  | var x => rfl
  | num n => rfl
  | bnot _ ih => simp only [patVal, patValL, ih, bvBoolVal, bitsVal]
  | band _ _ h1 h2 | bor _ _ h1 h2 | bxor _ _ h1 h2 => simp only [patVal, patValL, h1, h2, bvBoolVal, bitsVal]

/-- **C58** (rules about vectors). In particular every resulting rule that is about vectors only holds for all two-bit
vectors. -/
theorem C58_vectors {expl prior out : Ruleset BvBoolOp} (he : bvBoolExploratory = some expl) (hp : WellFormed prior)
    (hg : ∀ r ∈ Ruleset.iter prior, (Schematic r.lhs ∧ Schematic r.rhs) ∧
      ∃ Γ τ, HasSort Γ r.lhs τ ∧ HasSort Γ r.rhs τ ∧ TrueAt Γ r)
    {steps : List (FastStep BvBoolOp (BV 2))} (hs : ∀ st ∈ steps, StepOk bvBoolDomain st)
    (h : fastRecipe bvBoolDomain expl steps prior = some out) :
    ∀ q ∈ Ruleset.iter out, OnlyBits q.lhs → OnlyBits q.rhs → Holds bitsVal q := by
  intro q hq hl hr ρ
  have hv : TrueAt (fun _ => .vec) q := (C58_lifting he hp hg hs h q hq).1 (fun _ => .vec) .vec hl.hasSort hr.hasSort
  have e := hv (fun x => .vec (ρ x)) (fun _ => rfl)
  rw [bitsVal_eq hl, bitsVal_eq hr] at e
  exact BvBoolValue.vec.inj e

/-! ## Example -/

namespace Sample

/-- The workload `(and a b)`, `(and b a)`. -/
def ands : Workload := .set [.list [.atom "and", .atom "a", .atom "b"], .list [.atom "and", .atom "b", .atom "a"]]

/-- `(& ?x ?y) ==> (& ?y ?x)` -/
def boolComm : Rule BvBoolOp := ⟨"(& ?x ?y) ==> (& ?y ?x)".toList, .node .and [.var "?x", .var "?y"], .node .and [.var "?y", .var "?x"]⟩

theorem boolComm_good : (Schematic boolComm.lhs ∧ Schematic boolComm.rhs) ∧ ∃ Γ τ, HasSort Γ boolComm.lhs τ ∧
    HasSort Γ boolComm.rhs τ ∧ TrueAt Γ boolComm := by
  refine ⟨⟨schematicB_sound _ (by decide +kernel), schematicB_sound _ (by decide +kernel)⟩, fun _ => .bool, .bool,
    .and (.var "?x") (.var "?y"), .and (.var "?y") (.var "?x"), ?_⟩
  intro ρ hρ
  have key : ∀ u v : BvBoolValue, u.sort = .bool → v.sort = .bool → bvBoolVal .and [u, v] = bvBoolVal .and [v, u] := by
    intro u v hu hv
    obtain ⟨a, rfl⟩ := sort_bool hu
    obtain ⟨b, rfl⟩ := sort_bool hv
    exact congrArg BvBoolValue.bool (Bool.and_comm a b)
  exact key _ _ (hρ _) (hρ _)

/-- Enough steps to restore congruence. -/
def congrs : List Repair := List.replicate 40 (.congr 0)

/-- Choices of a fast-forwarding run: the two conjunctions are split into their bits, then the prior is applied. -/
noncomputable def bvBoolEnv : FastEnv BvBoolOp (BV 2) where
  build := egg
  split := .leaf
  isSat _ := false
  egAllowed := egg
  trAllowed := quiet
  egDenote := egg
  trDenote := { trace with simple := ⟨[], [⟨[[], [], [], [], [], [], [], [], [6, 7]], congrs⟩,
    ⟨[[], [], [0, 1], [0, 1], [], [], [], [], []], congrs⟩]⟩ }
  egFinal := egg
  trFinal := { trace with simple := ⟨[], [⟨[[0, 1, 2, 3]], congrs⟩]⟩, cloneRepairs := congrs }
  ids g := g.classes
  keys g h := (g.classes.map h.find).eraseDups
  best := extracted bvBoolDomain extractableCost_laws
  min := ⟨.simple limits, fun _ => false, fun _ => egg, fun _ => quiet, fun r => [(r.name.length : Int)], fun _ _ => true⟩

theorem bvBoolEnv_ok : StepOk bvBoolDomain ⟨bvBoolEnv, ands, ⟨2, 100, 100⟩, limits⟩ :=
  ⟨fun _ hg _ hi => extracted_ok extractableCost_laws hg hi, fun _ => List.Perm.refl _⟩

end Sample

-- Commutativity of `and` is found from commutativity of `&`.
example : (bvBoolExploratory.bind fun expl =>
    (fastRecipe bvBoolDomain expl [⟨Sample.bvBoolEnv, Sample.ands, ⟨2, 100, 100⟩, Sample.limits⟩]
      [(Sample.boolComm.name, Sample.boolComm)]).map fun out => (out.map fun e => String.ofList e.1).drop 1) =
    some ["(and ?b ?a) ==> (and ?a ?b)", "(and ?a ?b) ==> (and ?b ?a)"] := by
  decide +kernel
-- A class with two constant bits gets a number.
example : BvBoolOp.custom (fun i => if i = 0 then [⟨.make, [1, 2]⟩] else [⟨.lit (i == 1), []⟩]) 0 =
    [.node (.num (BvBoolOp.pairConst true false)) []] := by decide +kernel

end Ruler
