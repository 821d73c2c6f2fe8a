import Verif.Props.BvWide
import Verif.Props.LogRowsExamples
/-!
# A case that meets the hypotheses of C77 at width 128
-/
namespace Ruler
open Spec

namespace Sample
/-- Runs of `derive` for 128 bits. -/
def wideRowEnv (_ : DeriveType) : DeriveEnv (BvOp 128) :=
  ⟨fun _ => false, .leaf, fun _ => egg, fun _ => quiet, "0.25".toList⟩
end Sample

-- The comparison for 128 bits with small sizes: it finds a rule for four bits, which is accepted and holds.
example : ∃ (f' : LogFile) (row : Json) (actual : Ruleset (BvOp 4)) (gen sound : Ruleset (BvOp 128)), Logged f' [row] ∧ bv4FancySized 0 3 (fun _ _ => Sample.idemEnv 4) = some actual ∧
    bvGenFirst 0 (fun _ => Sample.idemEnv 128) = some gen ∧
    HasTexts row ["from_bv4", "rules"] ((Ruleset.iter sound).map Rule.name) ∧
    Ruleset.iter sound = ((Ruleset.iter actual).map widenRule).filter Sample.isIdem ∧
    (∀ r ∈ Ruleset.iter sound, Holds bvOpVal r) ∧ 1 ≤ (Ruleset.iter sound).length := by
  have key : (bvCompareFirst 0 3 0 (fun _ _ => Sample.idemEnv 4) (fun _ => Sample.idemEnv 128) Sample.wideRowEnv Sample.isIdem .leaf
      "0.5".toList "bv128".toList "1.5".toList none).isSome = true := by
    unfold bvCompareFirst bv4FancySized bvGenFirst Sample.idemEnv
    rw [Sample.bvDomain4]
    decide +kernel
  have key' : (bv4FancySized 0 3 fun _ _ => Sample.idemEnv 4).map
      (fun rs => decide (1 ≤ (((Ruleset.iter rs).map (widenRule (N := 128))).filter Sample.isIdem).length)) = some true := by
    unfold bv4FancySized Sample.idemEnv
    rw [Sample.bvDomain4]
    decide +kernel
  obtain ⟨f', h⟩ := Option.isSome_iff_exists.1 key
  obtain ⟨row, actual, gen, sound, h1, h2, h3, -, h4, -, h5, h6, -⟩ := C77_compare_wide (N := 128) (rows := []) (by decide) (by decide)
    (by decide) (fun _ _ => Sample.idemEnv_ok 4) (fun _ _ => Sample.idem_answers 4) (fun _ => Sample.idemEnv_ok 128)
    (fun _ => Sample.idem_answers 128) (fun _ => by show Numeral "0.25".toList; decide +kernel) (Sample.idem_answers 128)
    (by decide +kernel) (by decide +kernel) (Or.inl ⟨rfl, rfl⟩) (by simp) h
  refine ⟨f', row, actual, gen, sound, h1, h2, h3, h4, h5, h6, ?_⟩
  rw [h2, Option.map_some, Option.some.injEq, decide_eq_true_eq] at key'
  rw [h5]
  exact key'

-- A rule that holds with its literal reduced and not as it is.
example : Holds (cutOpVal (N := 128)) ⟨[], .node (.lit ⟨18446744073709551616⟩) [], .node (.lit ⟨0⟩) []⟩ ∧
    ¬ RuleUses (LitNarrow (N := 128)) ⟨[], .node (.lit ⟨18446744073709551616⟩) [], .node (.lit ⟨0⟩) []⟩ := by
  refine ⟨fun ρ => ?_, fun h => ?_⟩
  · simp only [patVal, patValL, cutOpVal]; decide +kernel
  · cases h.1 with
    | node h _ => revert h; unfold LitNarrow; decide +kernel

end Ruler
