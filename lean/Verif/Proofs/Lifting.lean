import Verif.Spec.Lifting
import Verif.Proofs.Chars
import Verif.Props.Inference
import Mathlib.Tactic.Ring
/-!
# Lemmas about rule lifting
-/
namespace Ruler
open Spec EGraph
open scoped List
variable {O C V : Type} [Lang O] [LinearOrder C] {D : Domain O C} {ar : O → Nat → Prop}

/-- Every proposed rule is schematic. -/
theorem addPairs_schematic {ps : List (Tm O × Tm O)} {rs : Ruleset O} (h : Ruleset.addPairs [] ps = some rs) {q : Rule O}
    (hq : q ∈ Ruleset.iter rs) : Schematic q.lhs ∧ Schematic q.rhs := by
  rw [(addPairs_eq h).2] at hq
  rcases mem_iter_addAll' hq with hq | hq
  · simp [Ruleset.iter] at hq
  · obtain ⟨p, -, hq⟩ := List.mem_flatMap.1 hq
    cases hg : generalizePair p.1 p.2 with
    | none => simp [dirsOf, hg] at hq
    | some lr =>
      obtain ⟨l, r⟩ := lr
      obtain ⟨m, hm, rfl, rfl, hmem⟩ := generalizePair_spec hg
      have key : ∀ x, PairVar p.1 p.2 x → (m.fn x).toList.head? = some '?' := fun x hx =>
        LetterVar.head (hm.fn_letter ((hmem x).2 hx))
      have hl : Schematic (schema m.fn p.1) := schema_schematic fun x hx => key x (.inl hx)
      have hr : Schematic (schema m.fn p.2) := schema_schematic fun x hx => key x (.inr hx)
      simp only [dirsOf, hg, dirs, Option.toList_some, List.flatMap_cons, List.flatMap_nil, List.append_nil,
        List.mem_append, Option.mem_toList] at hq
      rcases hq with hq | hq
      · obtain ⟨e1, e2, -⟩ := new_sides hq
        exact e1 ▸ e2 ▸ ⟨hl, hr⟩
      · obtain ⟨e1, e2, -⟩ := new_sides hq
        exact e1 ▸ e2 ▸ ⟨hr, hl⟩

/-- The sides of `PosOp.exploratoryTexts`. -/
def posExploratorySides : List (Pat PosOp × Pat PosOp) := [
  (.node .xh [], .node .s [.node .z []]),
  (.node .s [.node .z []], .node .xh []),
  (.node .xo [.var "?a"], .node .add [.var "?a", .var "?a"]),
  (.node .add [.var "?a", .var "?a"], .node .xo [.var "?a"]),
  (.node .xi [.var "?a"], .node .add [.var "?a", .node .add [.var "?a", .node .s [.node .z []]]]),
  (.node .add [.var "?a", .node .add [.var "?a", .node .s [.node .z []]]], .node .xi [.var "?a"])]

/-- The sides of `PosOp.natTexts`. -/
def posNatSides : List (Pat PosOp × Pat PosOp) := [
  (.node .add [.var "?b", .var "?a"], .node .add [.var "?a", .var "?b"]),
  (.node .mul [.var "?b", .var "?a"], .node .mul [.var "?a", .var "?b"]),
  (.node .add [.node .z [], .var "?a"], .var "?a"),
  (.node .mul [.var "?a", .node .z []], .node .z []),
  (.node .s [.node .add [.var "?b", .var "?a"]], .node .add [.var "?b", .node .s [.var "?a"]]),
  (.node .mul [.var "?a", .node .s [.node .z []]], .var "?a"),
  (.node .add [.var "?a", .node .s [.node .z []]], .node .s [.var "?a"]),
  (.node .add [.var "?c", .node .add [.var "?b", .var "?a"]], .node .add [.var "?a", .node .add [.var "?b", .var "?c"]]),
  (.node .mul [.node .mul [.var "?c", .var "?b"], .var "?a"], .node .mul [.var "?b", .node .mul [.var "?c", .var "?a"]]),
  (.node .add [.var "?b", .node .mul [.var "?b", .var "?a"]], .node .mul [.var "?b", .node .s [.var "?a"]]),
  (.node .mul [.node .add [.var "?b", .var "?b"], .var "?a"], .node .mul [.var "?b", .node .add [.var "?a", .var "?a"]]),
  (.node .add [.var "?a", .var "?a"], .node .mul [.var "?a", .node .s [.node .s [.node .z []]]])]

set_option maxRecDepth 20000 in
theorem posExploratory_sides : tableSides PosOp.exploratoryTexts = some posExploratorySides :=
  (tableSides_chars (chars_of% PosOp.exploratoryTexts)).trans (by decide +kernel)
set_option maxRecDepth 20000 in
theorem posNat_sides : tableSides PosOp.natTexts = some posNatSides :=
  (tableSides_chars (chars_of% PosOp.natTexts)).trans (by decide +kernel)

theorem posExploratory_good : ∀ p ∈ posExploratorySides, (Schematic p.1 ∧ Schematic p.2) ∧
    ∀ ρ, patVal ρ posVal p.1 = patVal ρ posVal p.2 := by
  have h : ∀ p ∈ posExploratorySides, schematicB p.1 = true ∧ schematicB p.2 = true := by decide +kernel
  refine fun p hp => ⟨⟨schematicB_sound _ (h p hp).1, schematicB_sound _ (h p hp).2⟩, ?_⟩
  clear h
  revert p
  simp only [posExploratorySides, List.forall_mem_cons]
  refine ⟨?_, ?_, ?_, ?_, ?_, ?_, by simp⟩ <;> intro ρ <;> simp only [patVal, patValL, posVal] <;> ring

theorem posNat_good : ∀ p ∈ posNatSides, (Schematic p.1 ∧ Schematic p.2) ∧
    ∀ ρ, patVal ρ posVal p.1 = patVal ρ posVal p.2 := by
  have h : ∀ p ∈ posNatSides, schematicB p.1 = true ∧ schematicB p.2 = true := by decide +kernel
  refine fun p hp => ⟨⟨schematicB_sound _ (h p hp).1, schematicB_sound _ (h p hp).2⟩, ?_⟩
  clear h
  revert p
  simp only [posNatSides, List.forall_mem_cons]
  refine ⟨?_, ?_, ?_, ?_, ?_, ?_, ?_, ?_, ?_, ?_, ?_, ?_, by simp⟩ <;> intro ρ <;>
    simp only [patVal, patValL, posVal] <;> ring

end Ruler
