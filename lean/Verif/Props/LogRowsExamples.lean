import Verif.Props.BvCompare
import Verif.Props.SynthesisRuns
import Verif.Spec.SampleEGraph
/-!
# Cases that meet the hypotheses of C76 and C77
-/
namespace Ruler
open Spec

namespace Sample
/-- Runs of `derive` that apply the first two matches. -/
def rowEnv (_ : DeriveType) : DeriveEnv NatOp :=
  ⟨fun _ => false, .fork 1 .leaf .leaf, fun _ => egg, fun _ => trace, "0.25".toList⟩
/-- A rule that does not hold. -/
def addFst : Rule NatOp := ⟨"fst".toList, .node .add [.var "?a", .var "?b"], .var "?a"⟩

theorem addFst_good : GoodRule (fun o k => k = o.arity) addFst := by
  exact ⟨⟨addComm_good.1.1, .var⟩, addComm_good.2.1, .var (by decide)⟩
/-- Commutativity, and a rule that does not follow from it. -/
def rowBaseline : Ruleset NatOp :=
  [("comm".toList, addComm), ("fst".toList, addFst)]
/-- A recipe of two lines. -/
def rowFiles (name : List Char) : Option (List Char) := if name = "nat".toList then some "a\nb".toList else none
end Sample

-- A row over natural numbers: the recipe has two lines, one of the two rules is derivable and the other is not.
example : ∃ f row, writeBaseline Sample.natDom Sample.rowEnv Sample.rowEnv Sample.rowFiles Sample.commRules "nat".toList
      Sample.rowBaseline "old".toList "1.5".toList none = some f ∧ Logged f [row] ∧ HasText row ["loc"] "2".toList ∧
    (∃ l, HasTexts row ["derivability", "enumo_derives_baseline", "lhs_rhs", "can"] l ∧ "comm".toList ∈ l) ∧
    ∃ l, HasTexts row ["derivability", "enumo_derives_baseline", "lhs_rhs", "cannot"] l ∧ "fst".toList ∈ l := by
  obtain ⟨row, hrow⟩ := Option.isSome_iff_exists.1 (show (baselineRow Sample.natDom Sample.rowEnv Sample.rowEnv Sample.rowFiles
    Sample.commRules "nat".toList Sample.rowBaseline "old".toList "1.5".toList).isSome = true by decide +kernel)
  obtain ⟨f, hf⟩ : ∃ f, writeBaseline Sample.natDom Sample.rowEnv Sample.rowEnv Sample.rowFiles Sample.commRules "nat".toList
      Sample.rowBaseline "old".toList "1.5".toList none = some f := by
    rw [writeBaseline, hrow]
    exact ⟨_, rfl⟩
  obtain ⟨row, h1, -, -, -, -, -, -, h2, -, h3, -⟩ := C76_baseline (rows := []) (Or.inl ⟨rfl, rfl⟩) (by simp)
    ⟨by simp [Sample.commRules], by simp [Sample.commRules]⟩ ⟨by simp [Sample.rowBaseline, Sample.addComm, Sample.addFst], by decide⟩
    (by decide +kernel) (fun _ => by show Numeral "0.25".toList; decide +kernel)
    (fun _ => by show Numeral "0.25".toList; decide +kernel) hf
  refine ⟨f, row, hf, h1, h2 "a\nb".toList (by decide), ?_⟩
  obtain ⟨-, can, cannot, k1, k2, k3, k4⟩ := h3 (by unfold TooSlow; decide)
  refine ⟨⟨can, k1, ?_⟩, cannot, k2, ?_⟩
  · rcases List.mem_append.1 (k3.mem_iff.2 (List.mem_map_of_mem (f := Rule.name) (show Sample.addComm ∈ _ from .head _))) with h | h
    · exact h
    · exact absurd ((k4 _ (show Sample.addComm ∈ _ from .head _)).2 h) (by decide +kernel)
  · rcases List.mem_append.1 (k3.mem_iff.2 (List.mem_map_of_mem (f := Rule.name) (show Sample.addFst ∈ _ from .tail _ (.head _)))) with h | h
    · exact absurd ((k4 _ (show Sample.addFst ∈ _ from .tail _ (.head _))).1 h) (by decide +kernel)
    · exact h

-- `C76_listed` for a row over natural numbers.
example {row : Json} (h : Reports row ["lhs"] Sample.rowBaseline ((Sample.rowEnv .lhs).found Sample.natDom .lhs Sample.commRules))
    (hr : Listed row ["lhs", "can"] Sample.rowBaseline Sample.addComm) : Holds natOpVal Sample.addComm :=
  C76_listed (path := ["lhs"]) (nat_folds _) Sample.natVarsOk
    (fun q hq => by rw [List.mem_singleton.1 hq]; exact ⟨Sample.addComm_good, Sample.addComm_holds⟩)
    (fun q hq => by
      rcases List.mem_cons.1 hq with rfl | hq
      · exact Sample.addComm_good
      · rw [List.mem_singleton.1 hq]; exact Sample.addFst_good) h hr

-- A row of phases, added to an empty log.
example : ∃ f' row, writeFfPhase (.saturating Sample.limits, "allowed".toList) (.simple Sample.limits, "exploratory".toList)
      (.compress Sample.limits, "all".toList) "2".toList Sample.commRules none = some f' ∧ Logged f' [row] ∧
    HasTexts row ["rules"] ["comm".toList] ∧ HasText row ["phase1"] "sat (allowed)".toList := by
  obtain ⟨f', row, h1, h2, -, -, h3, -, h4⟩ := C76_ff (f := none) (rows := []) (Or.inl ⟨rfl, rfl⟩) (by simp)
    (.saturating Sample.limits, "allowed".toList) (.simple Sample.limits, "exploratory".toList)
    (.compress Sample.limits, "all".toList) (time := "2".toList) (by decide +kernel) (rules := Sample.commRules)
    ⟨by simp [Sample.commRules], by simp [Sample.commRules]⟩
  obtain ⟨w, k1, -, k2, -⟩ := h4 "phase1" _ (.head _)
  rw [k2.2 ⟨_, rfl⟩] at k1
  exact ⟨f', row, h1, h2, h3, by convert k1 using 1; decide⟩

namespace Sample
/-- `(& ?a ?a) ==> ?a`. -/
def isIdem {N : Nat} (q : Rule (BvOp N)) : Bool :=
  match q.lhs, q.rhs with
  | .node .and [.var a, .var b], .var c => a == "?a" && b == "?a" && c == "?a"
  | _, _ => false
/-- Choices of a run whose validator accepts this rule only. -/
noncomputable def idemEnv (N : Nat) : RunEnv (BvOp N) (BV N) :=
  { commEnv (bvDomain N) BvOp.and with min := { (commEnv (bvDomain N) BvOp.and).min with valid := fun _ => isIdem } }

theorem idemEnv_ok (N : Nat) : RunOk (bvDomain N) (idemEnv N) := commEnv_ok (bvDomain N) BvOp.and

theorem idem_answers (N : Nat) : AnswersFrom (SolverSoundBV N) bvValidate fun _ => isIdem (N := N) := by
  intro _ q h
  obtain ⟨nm, l, r⟩ := q
  replace h : isIdem ⟨nm, l, r⟩ = true := h
  unfold isIdem at h
  split at h
  · rename_i a b c hl hr
    simp only [Bool.and_eq_true, beq_iff_eq] at h
    obtain ⟨⟨rfl, rfl⟩, rfl⟩ := h
    refine ⟨bvSolver N, flat2 .and "?a" "?a", [⟨.var "?a", []⟩], bvSolver_sound N, ?_, ?_, ?_⟩
    · rw [show l = _ from hl]; exact flat2_of _ _ _
    · rw [show r = _ from hr]; exact ⟨rfl, by simp⟩
    · show some (bvSolver N (.bvand (.const _) (.const _)) (.const _)).toValidation = _
      rw [bvSolver, if_pos fun env => by exact BitVec.and_self]
      rfl
  · cases h

theorem bvSamples8 : bvSamples 8 = [⟨0⟩, ⟨1⟩, ⟨126⟩, ⟨127⟩, ⟨128⟩, ⟨129⟩, ⟨255⟩] := by
  simp [bvSamples, BV.min, BV.max, BV.new, BV.wrappingAdd, BV.wrappingSub, BV.wrappingNeg, List.mergeSort,
    List.MergeSort.Internal.splitInTwo, BV.allOnes]
  decide

/-- Runs of `derive` for bit vectors. -/
def bvRowEnv (_ : DeriveType) : DeriveEnv (BvOp 8) :=
  ⟨fun _ => false, .leaf, fun _ => egg, fun _ => quiet, "0.25".toList⟩

theorem bvDomain4 : bvDomain 4 = { bvDomain 4 with initVars := initProduct ([⟨0⟩, ⟨1⟩, ⟨6⟩, ⟨7⟩, ⟨8⟩, ⟨9⟩, ⟨15⟩].map some) } := by
  rw [← Sample.bvSamples4]; rfl
theorem bvDomain8 : bvDomain 8 = { bvDomain 8 with initVars := initProduct ([⟨0⟩, ⟨1⟩, ⟨126⟩, ⟨127⟩, ⟨128⟩, ⟨129⟩, ⟨255⟩].map some) } := by
  rw [← Sample.bvSamples8]; rfl
end Sample

-- Porting a rule; it is one that does not hold for eight bits.
example : ∃ out, portRules (N := 8) [(Sample.shiftAll.name, Sample.shiftAll)] = some out ∧
    Ruleset.iter out = [widenRule Sample.shiftAll] := by
  have hg : AllRules (fun o k => k = o.arity ∧ LitProper o) (fun _ => True) [(Sample.shiftAll.name, Sample.shiftAll)] :=
    ⟨by simp [WellFormed], fun q hq => by rw [List.mem_singleton.1 hq]; exact Sample.shiftAll_ok.1,
      fun q hq => by rw [List.mem_singleton.1 hq]; exact Sample.shiftAll_ok.2, fun _ _ => trivial⟩
  obtain ⟨out, h1, h2, -⟩ := C77_port (M := 4) (N := 8) (by decide) (by decide) hg
  exact ⟨out, h1, h2⟩

-- A comparison for eight bits with small sizes: it finds a rule for four bits, which is accepted for eight bits.
example : ∃ (f' : LogFile) (row : Json) (actual : Ruleset (BvOp 4)) (gen sound : Ruleset (BvOp 8)), Logged f' [row] ∧ bv4FancySized 0 3 (fun _ _ => Sample.idemEnv 4) = some actual ∧
    bvGenSized 0 3 (fun _ _ => Sample.idemEnv 8) = some gen ∧
    HasTexts row ["from_bv4", "rules"] ((Ruleset.iter sound).map Rule.name) ∧
    Ruleset.iter sound = ((Ruleset.iter actual).map widenRule).filter Sample.isIdem ∧
    (∀ r ∈ Ruleset.iter gen, Holds bvOpVal r) ∧ 1 ≤ (Ruleset.iter sound).length := by
  have key : (bvCompare 0 3 0 3 (fun _ _ => Sample.idemEnv 4) (fun _ _ => Sample.idemEnv 8) Sample.bvRowEnv Sample.isIdem .leaf
      "0.5".toList "bv8".toList "1.5".toList none).isSome = true := by
    unfold bvCompare bv4FancySized bvGenSized Sample.idemEnv
    rw [Sample.bvDomain4, Sample.bvDomain8]
    decide +kernel
  have key' : (bv4FancySized 0 3 fun _ _ => Sample.idemEnv 4).map
      (fun rs => decide (1 ≤ (((Ruleset.iter rs).map (widenRule (N := 8))).filter Sample.isIdem).length)) = some true := by
    unfold bv4FancySized Sample.idemEnv
    rw [Sample.bvDomain4]
    decide +kernel
  obtain ⟨f', h⟩ := Option.isSome_iff_exists.1 key
  obtain ⟨row, actual, gen, sound, h1, h2, h3, -, h4, -, h5, -, h6, -⟩ := C77_compare (N := 8) (rows := []) (by decide) (by decide)
    (by decide) (by decide) (fun _ _ => Sample.idemEnv_ok 4) (fun _ _ => Sample.idem_answers 4) (fun _ _ => Sample.idemEnv_ok 8)
    (fun _ _ => Sample.idem_answers 8) (fun _ => by show Numeral "0.25".toList; decide +kernel) (Sample.idem_answers 8)
    (by decide +kernel) (by decide +kernel) (Or.inl ⟨rfl, rfl⟩) (by simp) h
  refine ⟨f', row, actual, gen, sound, h1, h2, h3, h4, h5, h6, ?_⟩
  rw [h2, Option.map_some, Option.some.injEq, decide_eq_true_eq] at key'
  rw [h5]
  exact key'

end Ruler
