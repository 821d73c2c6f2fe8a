import Verif.Spec.MaxMin
import Verif.Proofs.Chars
import Verif.Proofs.Tables
/-!
# The rule tables of maximum and minimum as patterns
-/
namespace Ruler
open Spec

/-- The sides of the rules of `maxMinSound`. -/
def maxMinSoundSides : List (Pat MaxMinOp × Pat MaxMinOp) := [
  (.node .and [.node .false [], .var "?a"], .node .false []),
  (.node .and [.node .true [], .var "?a"], .var "?a"),
  (.node .and [.var "?a", .node .not [.var "?a"]], .node .false []),
  (.node .or [.node .true [], .var "?a"], .node .true []),
  (.node .or [.node .false [], .var "?a"], .var "?a"),
  (.node .or [.var "?a", .node .not [.var "?a"]], .node .true []),
  (.node .not [.node .true []], .node .false []),
  (.node .not [.node .false []], .node .true []),
  (.node .and [.var "?b", .var "?a"], .node .and [.var "?a", .var "?b"]),
  (.node .and [.var "?a", .var "?a"], .var "?a"),
  (.node .and [.var "?c", .node .and [.var "?b", .var "?a"]], .node .and [.var "?a", .node .and [.var "?b", .var "?c"]]),
  (.node .or [.var "?b", .var "?a"], .node .or [.var "?a", .var "?b"]),
  (.node .or [.var "?a", .var "?a"], .var "?a"),
  (.node .or [.var "?c", .node .or [.var "?b", .var "?a"]], .node .or [.var "?a", .node .or [.var "?b", .var "?c"]]),
  (.node .not [.node .not [.var "?a"]], .var "?a"),
  (.var "?a", .node .not [.node .not [.var "?a"]]),
  (.node .binop [.var "?op", .var "?a", .node .case [.var "?c", .var "?t", .var "?rest"]], .node .case [.var "?c", .node .binop [.var "?op", .var "?a", .var "?t"], .node .binop [.var "?op", .var "?a", .var "?rest"]]),
  (.node .binop [.var "?op", .node .case [.var "?c", .var "?t", .var "?rest"], .var "?a"], .node .case [.var "?c", .node .binop [.var "?op", .var "?t", .var "?a"], .node .binop [.var "?op", .var "?rest", .var "?a"]]),
  (.node .binop [.var "?op", .var "?a", .node .endcase []], .node .endcase []),
  (.node .binop [.var "?op", .node .endcase [], .var "?a"], .node .endcase []),
  (.node .case [.node .false [], .var "?t", .var "?rest"], .var "?rest"),
  (.node .case [.node .true [], .var "?t", .var "?rest"], .var "?t"),
  (.node .case [.var "?x", .node .case [.var "?c", .var "?t", .var "?rest"], .var "?outer"], .node .case [.node .and [.var "?x", .var "?c"], .var "?t", .node .case [.node .and [.var "?x", .node .not [.var "?c"]], .var "?rest", .var "?outer"]]),
  (.node .case [.var "?c1", .var "?t", .node .case [.var "?c2", .var "?t", .var "?rest"]], .node .case [.node .or [.var "?c1", .var "?c2"], .var "?t", .var "?rest"]),
  (.node .case [.var "?c", .var "?t", .var "?rest"], .node .case [.var "?c", .node .know [.var "?c", .var "?t"], .var "?rest"]),
  (.node .know [.var "?k", .var "?e"], .var "?e"),
  (.node .know [.var "?k", .node .case [.var "?c", .var "?t", .var "?rest"]], .node .know [.var "?k", .node .case [.node .know [.var "?k", .var "?c"], .node .know [.var "?k", .var "?t"], .var "?rest"]]),
  (.node .know [.var "?k", .node .binop [.var "?op", .var "?a", .var "?b"]], .node .know [.var "?k", .node .binop [.var "?op", .node .know [.var "?k", .var "?a"], .node .know [.var "?k", .var "?b"]]]),
  (.node .know [.var "?k", .node .unop [.var "?op", .var "?a"]], .node .know [.var "?k", .node .unop [.var "?op", .node .know [.var "?k", .var "?a"]]]),
  (.node .know [.node .and [.var "?k1", .var "?k2"], .var "?e"], .node .know [.var "?k1", .node .know [.var "?k2", .var "?e"]]),
  (.node .know [.var "?k1", .node .know [.var "?k2", .var "?e"]], .node .know [.node .and [.var "?k1", .var "?k2"], .var "?e"]),
  (.node .know [.var "?k", .node .bool [.var "?a"]], .node .know [.var "?k", .node .or [.node .not [.var "?k"], .node .bool [.var "?a"]]])]

/-- The sides of the exploratory rules. -/
def maxMinExploratorySides : List (Pat MaxMinOp × Pat MaxMinOp) := [
  (.node .ite [.var "?c", .var "?t", .var "?e"], .node .case [.var "?c", .var "?t", .node .case [.node .not [.var "?c"], .var "?e", .node .endcase []]]),
  (.node .max [.var "?a", .var "?b"], .node .ite [.node .less [.var "?a", .var "?b"], .var "?b", .var "?a"]),
  (.node .min [.var "?a", .var "?b"], .node .ite [.node .less [.var "?a", .var "?b"], .var "?a", .var "?b"])]

/-- The sides of the rules of `natTexts`. -/
def maxMinNatSides : List (Pat MaxMinOp × Pat MaxMinOp) := [
  (.node .and [.var "?a", .var "?b"], .node .binop [.node (.var "&") [], .var "?a", .var "?b"]),
  (.node .binop [.node (.var "&") [], .var "?a", .var "?b"], .node .and [.var "?a", .var "?b"]),
  (.node .or [.var "?a", .var "?b"], .node .binop [.node (.var "|") [], .var "?a", .var "?b"]),
  (.node .binop [.node (.var "|") [], .var "?a", .var "?b"], .node .or [.var "?a", .var "?b"]),
  (.node .less [.var "?a", .var "?b"], .node .binop [.node (.var "<") [], .var "?a", .var "?b"]),
  (.node .binop [.node (.var "<") [], .var "?a", .var "?b"], .node .less [.var "?a", .var "?b"]),
  (.node .not [.var "?a"], .node .unop [.node (.var "!") [], .var "?a"]),
  (.node .unop [.node (.var "!") [], .var "?a"], .node .not [.var "?a"]),
  (.node .and [.node .false [], .var "?a"], .node .false []),
  (.node .and [.node .true [], .var "?a"], .var "?a"),
  (.node .and [.var "?a", .node .not [.var "?a"]], .node .false []),
  (.node .or [.node .true [], .var "?a"], .node .true []),
  (.node .or [.node .false [], .var "?a"], .var "?a"),
  (.node .or [.var "?a", .node .not [.var "?a"]], .node .true []),
  (.node .not [.node .true []], .node .false []),
  (.node .not [.node .false []], .node .true []),
  (.node .and [.var "?b", .var "?a"], .node .and [.var "?a", .var "?b"]),
  (.node .and [.var "?a", .var "?a"], .var "?a"),
  (.node .and [.var "?c", .node .and [.var "?b", .var "?a"]], .node .and [.var "?a", .node .and [.var "?b", .var "?c"]]),
  (.node .or [.var "?b", .var "?a"], .node .or [.var "?a", .var "?b"]),
  (.node .or [.var "?a", .var "?a"], .var "?a"),
  (.node .or [.var "?c", .node .or [.var "?b", .var "?a"]], .node .or [.var "?a", .node .or [.var "?b", .var "?c"]]),
  (.node .not [.node .not [.var "?a"]], .var "?a"),
  (.var "?a", .node .not [.node .not [.var "?a"]]),
  (.node .not [.var "?a"], .node .bool [.node .dummy2 [.node (.var "!") [], .var "?a"]]),
  (.node .bool [.node .dummy2 [.node (.var "!") [], .var "?a"]], .node .not [.var "?a"]),
  (.node .less [.var "?a", .var "?b"], .node .bool [.node .dummy3 [.node (.var "<") [], .var "?a", .var "?b"]]),
  (.node .bool [.node .dummy3 [.node (.var "<") [], .var "?a", .var "?b"]], .node .less [.var "?a", .var "?b"]),
  (.node .and [.var "?a", .var "?b"], .node .bool [.node .dummy3 [.node (.var "&") [], .var "?a", .var "?b"]]),
  (.node .bool [.node .dummy3 [.node (.var "&") [], .var "?a", .var "?b"]], .node .and [.var "?a", .var "?b"]),
  (.node .or [.var "?a", .var "?b"], .node .bool [.node .dummy3 [.node (.var "|") [], .var "?a", .var "?b"]]),
  (.node .bool [.node .dummy3 [.node (.var "|") [], .var "?a", .var "?b"]], .node .or [.var "?a", .var "?b"]),
  (.node .binop [.var "?op", .var "?a", .node .case [.var "?c", .var "?t", .var "?rest"]], .node .case [.var "?c", .node .binop [.var "?op", .var "?a", .var "?t"], .node .binop [.var "?op", .var "?a", .var "?rest"]]),
  (.node .binop [.var "?op", .node .case [.var "?c", .var "?t", .var "?rest"], .var "?a"], .node .case [.var "?c", .node .binop [.var "?op", .var "?t", .var "?a"], .node .binop [.var "?op", .var "?rest", .var "?a"]]),
  (.node .binop [.var "?op", .var "?a", .node .endcase []], .node .endcase []),
  (.node .binop [.var "?op", .node .endcase [], .var "?a"], .node .endcase []),
  (.node .case [.node .false [], .var "?t", .var "?rest"], .var "?rest"),
  (.node .case [.node .true [], .var "?t", .var "?rest"], .var "?t"),
  (.node .case [.var "?c1", .var "?t1", .node .case [.var "?c2", .var "?t2", .var "?rest"]], .node .case [.var "?c2", .var "?t2", .node .case [.var "?c1", .var "?t1", .var "?rest"]]),
  (.node .case [.var "?x", .node .case [.var "?c", .var "?t", .var "?rest"], .var "?outer"], .node .case [.node .and [.var "?x", .var "?c"], .var "?t", .node .case [.node .and [.var "?x", .node .not [.var "?c"]], .var "?rest", .var "?outer"]]),
  (.node .case [.var "?x", .node .endcase [], .var "?outer"], .var "?outer"),
  (.node .case [.var "?c1", .var "?t", .node .case [.var "?c2", .var "?t", .var "?rest"]], .node .case [.node .or [.var "?c1", .var "?c2"], .var "?t", .var "?rest"]),
  (.node .case [.var "?c", .var "?t", .var "?rest"], .node .case [.var "?c", .node .know [.var "?c", .var "?t"], .var "?rest"]),
  (.node .know [.var "?k", .var "?e"], .var "?e"),
  (.node .know [.var "?k", .node .case [.var "?c", .var "?t", .var "?rest"]], .node .know [.var "?k", .node .case [.node .know [.var "?k", .var "?c"], .node .know [.var "?k", .var "?t"], .var "?rest"]]),
  (.node .know [.var "?k", .node .binop [.var "?op", .var "?a", .var "?b"]], .node .know [.var "?k", .node .binop [.var "?op", .node .know [.var "?k", .var "?a"], .node .know [.var "?k", .var "?b"]]]),
  (.node .know [.var "?k", .node .unop [.var "?op", .var "?a"]], .node .know [.var "?k", .node .unop [.var "?op", .node .know [.var "?k", .var "?a"]]]),
  (.node .know [.node .and [.var "?k1", .var "?k2"], .var "?e"], .node .know [.var "?k1", .node .know [.var "?k2", .var "?e"]]),
  (.node .know [.var "?k1", .node .know [.var "?k2", .var "?e"]], .node .know [.node .and [.var "?k1", .var "?k2"], .var "?e"]),
  (.node .know [.var "?k", .node .bool [.var "?a"]], .node .know [.var "?k", .node .or [.node .not [.var "?k"], .node .bool [.var "?a"]]])]

set_option maxRecDepth 20000 in
theorem maxMinSound_sides : tableSides maxMinSound = some maxMinSoundSides :=
  (tableSides_chars (chars_of% maxMinSound)).trans (by decide +kernel)
set_option maxRecDepth 20000 in
theorem maxMinExploratory_sides : tableSides MaxMinOp.exploratoryTexts = some maxMinExploratorySides :=
  (tableSides_chars (chars_of% MaxMinOp.exploratoryTexts)).trans (by decide +kernel)
set_option maxRecDepth 20000 in
theorem maxMinNat_sides : tableSides MaxMinOp.natTexts = some maxMinNatSides :=
  (tableSides_chars (chars_of% MaxMinOp.natTexts)).trans (by decide +kernel)

/-- Truth values, with maximum as disjunction. Applications with a wrong number of arguments do not matter; `d` stands for those without
arguments. -/
def maxMinBool (d : Bool) : MaxMinOp → List Bool → Bool
  | .less, [a, b] => !a && b
  | .case, [c, t, e] => if c then t else e
  | .ite, [c, t, e] => if c then t else e
  | .not, [a] => !a
  | .and, [a, b] => a && b
  | .or, [a, b] => a || b
  | .max, [a, b] => a || b
  | .min, [a, b] => a && b
  | .true, [] => true
  | .false, [] => false
  | .bool, _ => true
  | .binop, _ => d
  | .know, [_, e] => e
  | _, a :: _ => a
  | _, [] => d

theorem maxMinSound_schematic : ∀ p ∈ maxMinSoundSides ++ maxMinExploratorySides, schematicB p.1 = true ∧ schematicB p.2 = true := by
  decide +kernel

theorem maxMin_holds : ∀ p ∈ maxMinSoundSides ++ maxMinExploratorySides, ∀ d ρ,
    patVal ρ (maxMinBool d) p.1 = patVal ρ (maxMinBool d) p.2 := by
  simp only [maxMinSoundSides, maxMinExploratorySides, List.cons_append, List.nil_append, List.forall_mem_cons]
  refine ⟨?_, ?_, ?_, ?_, ?_, ?_, ?_, ?_, ?_, ?_, ?_, ?_, ?_, ?_, ?_, ?_, ?_, ?_, ?_, ?_, ?_, ?_, ?_, ?_, ?_, ?_, ?_, ?_, ?_, ?_, ?_, ?_, ?_, ?_, ?_, by simp⟩ <;> intro d ρ <;> simp only [patVal, patValL, maxMinBool] <;> grind

/-- `(case true ?t ?rest) ==> ?t`. -/
def caseTrueSides : Pat MaxMinOp × Pat MaxMinOp := (.node .case [.node .true [], .var "?t", .var "?rest"], .var "?t")

/-- `(case ?c1 ?t1 (case ?c2 ?t2 ?rest)) ==> (case ?c2 ?t2 (case ?c1 ?t1 ?rest))`. -/
def caseReorderSides : Pat MaxMinOp × Pat MaxMinOp :=
  (.node .case [.var "?c1", .var "?t1", .node .case [.var "?c2", .var "?t2", .var "?rest"]],
    .node .case [.var "?c2", .var "?t2", .node .case [.var "?c1", .var "?t1", .var "?rest"]])

theorem ofList_new (cs : List (List Char)) : Ruleset.new (O := MaxMinOp) ((cs.map String.ofList).map String.toList) = Ruleset.new cs := by
  rw [List.map_map]
  congr 1
  exact List.map_id'' (fun _ => String.toList_ofList) cs

set_option maxRecDepth 20000 in
theorem maxMinNat_new : (Ruleset.new (O := MaxMinOp) (MaxMinOp.natTexts.map String.toList)).map (fun rs =>
    [caseTrueSides, caseReorderSides].all fun s => rs.any fun e => decide ((e.2.lhs, e.2.rhs) = s)) = some true :=
  (congrArg _ (ofList_new (chars_of% MaxMinOp.natTexts))).trans (by decide +kernel)

end Ruler
