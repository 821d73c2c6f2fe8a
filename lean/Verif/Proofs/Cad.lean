import Verif.Model.DomCad
import Verif.Proofs.Chars
/-!
# The rule tables of the domain of solids as patterns
-/
namespace Ruler
open Spec

set_option maxRecDepth 20000

/-- The sides of the rules of `CadOp.substTexts`. -/
def cadSubstSides : List (Pat CadOp × Pat CadOp) := [
  (.node .lit [.var "?x"], .node .scalar [.node .lit [.var "?x"]]),
  (.node .subst [.var "?x", .var "?y", .var "?z", .node .scalar [.var "?a"]], .node .scalar [.var "?a"]),
  (.node .subst [.var "?x", .var "?y", .var "?z", .node .dimX []], .var "?x"),
  (.node .subst [.var "?x", .var "?y", .var "?z", .node .dimY []], .var "?y"),
  (.node .subst [.var "?x", .var "?y", .var "?z", .node .dimZ []], .var "?z"),
  (.node .subst [.var "?x", .var "?y", .var "?z", .node .op [.var "?op", .var "?a", .var "?b"]], .node .op [.var "?op",
    .node .subst [.var "?x", .var "?y", .var "?z", .var "?a"], .node .subst [.var "?x", .var "?y", .var "?z", .var "?b"]]),
  (.node .subst [.var "?x", .var "?y", .var "?z", .node .subst [.var "?x2", .var "?y2", .var "?z2", .var "?a"]],
    .node .subst [.node .subst [.var "?x", .var "?y", .var "?z", .var "?x2"], .node .subst [.var "?x", .var "?y",
    .var "?z", .var "?y2"], .node .subst [.var "?x", .var "?y", .var "?z", .var "?z2"], .var "?a"]),
  (.node .subst [.node .dimX [], .node .dimY [], .node .dimZ [], .var "?a"], .var "?a"),
  (.node .scalar [.node .op [.var "?op", .var "?a", .var "?b"]], .node .op [.var "?op", .node .scalar [.var "?a"],
    .node .scalar [.var "?b"]])]

/-- The sides of the rules of `CadOp.frepTexts`. -/
def cadFrepSides : List (Pat CadOp × Pat CadOp) := [
  (.node .op [.node .div [], .var "?a", .node .lit [.node (.num 1) []]], .var "?a"),
  (.node .op [.node .sub [], .var "?a", .node .lit [.node (.num 0) []]], .var "?a"),
  (.node .op [.node .sub [], .node .op [.node .div [], .var "?a", .var "?c"], .node .op [.node .div [], .var "?b",
    .var "?c"]], .node .op [.node .div [], .node .op [.node .sub [], .var "?a", .var "?b"], .var "?c"]),
  (.node .op [.node .sub [], .node .op [.node .div [], .var "?a", .var "?c"], .var "?b"], .node .op [.node .div [],
    .node .op [.node .sub [], .var "?a", .node .op [.node .mul [], .var "?b", .var "?c"]], .var "?c"]),
  (.node .op [.node .div [], .node .op [.node .div [], .var "?a", .var "?b"], .var "?c"], .node .op [.node .div [],
    .var "?a", .node .op [.node .mul [], .var "?b", .var "?c"]]),
  (.node .op [.node .sub [], .var "?a", .node .op [.node .add [], .var "?b", .var "?c"]], .node .op [.node .sub [],
    .node .op [.node .sub [], .var "?a", .var "?b"], .var "?c"])]

/-- The sides of the rules of `CadOp.liftingTexts`. -/
def cadLiftingSides : List (Pat CadOp × Pat CadOp) := [
  (.node .scale [.node .vec3 [.var "?w", .var "?h", .var "?l"], .var "?e"], .node .subst [.node .op [.node .div [],
    .node .dimX [], .node .scalar [.var "?w"]], .node .op [.node .div [], .node .dimY [], .node .scalar [.var "?h"]],
    .node .op [.node .div [], .node .dimZ [], .node .scalar [.var "?l"]], .var "?e"]),
  (.node .cube [.node .vec3 [.var "?a", .var "?b", .var "?c"], .node .false []], .node .op [.node .min [],
    .node .op [.node .min [], .node .op [.node .min [], .node .op [.node .div [], .node .dimX [],
    .node .scalar [.var "?a"]], .node .op [.node .div [], .node .dimY [], .node .scalar [.var "?b"]]],
    .node .op [.node .div [], .node .dimZ [], .node .scalar [.var "?c"]]], .node .op [.node .min [],
    .node .op [.node .min [], .node .op [.node .sub [], .node .lit [.node (.num 1) []], .node .op [.node .div [],
    .node .dimX [], .node .scalar [.var "?a"]]], .node .op [.node .sub [], .node .lit [.node (.num 1) []],
    .node .op [.node .div [], .node .dimY [], .node .scalar [.var "?b"]]]], .node .op [.node .sub [],
    .node .lit [.node (.num 1) []], .node .op [.node .div [], .node .dimZ [], .node .scalar [.var "?c"]]]]]),
  (.node .cylinder [.node .vec3 [.var "?h", .var "?r", .var "?r"], .var "?params", .node .true []],
    .node .op [.node .min [], .node .op [.node .sub [], .node .op [.node .sub [], .node .lit [.node (.num 1) []],
    .node .op [.node .mul [], .node .op [.node .div [], .node .dimX [], .node .scalar [.var "?r"]],
    .node .op [.node .div [], .node .dimX [], .node .scalar [.var "?r"]]]], .node .op [.node .mul [],
    .node .op [.node .div [], .node .dimY [], .node .scalar [.var "?r"]], .node .op [.node .div [], .node .dimY [],
    .node .scalar [.var "?r"]]]], .node .op [.node .min [], .node .op [.node .sub [], .node .op [.node .div [],
    .node .lit [.node (.num 1) []], .node .lit [.node (.num 2) []]], .node .op [.node .div [], .node .dimZ [],
    .node .scalar [.var "?h"]]], .node .op [.node .add [], .node .op [.node .div [], .node .lit [.node (.num 1) []],
    .node .lit [.node (.num 2) []]], .node .op [.node .div [], .node .dimZ [], .node .scalar [.var "?h"]]]]]),
  (.node .sphere [.var "?r", .var "?params"], .node .op [.node .sub [], .node .op [.node .sub [],
    .node .op [.node .sub [], .node .lit [.node (.num 1) []], .node .op [.node .mul [], .node .op [.node .div [],
    .node .dimX [], .node .scalar [.var "?r"]], .node .op [.node .div [], .node .dimX [], .node .scalar [.var "?r"]]]],
    .node .op [.node .mul [], .node .op [.node .div [], .node .dimY [], .node .scalar [.var "?r"]],
    .node .op [.node .div [], .node .dimY [], .node .scalar [.var "?r"]]]], .node .op [.node .mul [],
    .node .op [.node .div [], .node .dimZ [], .node .scalar [.var "?r"]], .node .op [.node .div [], .node .dimZ [],
    .node .scalar [.var "?r"]]]]),
  (.node .trans [.node .vec3 [.var "?a", .var "?b", .var "?c"], .var "?e"], .node .subst [.node .op [.node .sub [],
    .node .dimX [], .node .scalar [.var "?a"]], .node .op [.node .sub [], .node .dimY [], .node .scalar [.var "?b"]],
    .node .op [.node .sub [], .node .dimZ [], .node .scalar [.var "?c"]], .var "?e"])]

/-- The sides of the rules of `CadOp.expectedTexts`. -/
def cadExpectedSides : List (Pat CadOp × Pat CadOp) := [
  (.var "?a", .node .trans [.node .vec3 [.node .lit [.node (.num 0) []], .node .lit [.node (.num 0) []],
    .node .lit [.node (.num 0) []]], .var "?a"]),
  (.node .trans [.node .vec3 [.node .lit [.node (.num 0) []], .node .lit [.node (.num 0) []],
    .node .lit [.node (.num 0) []]], .var "?a"], .var "?a"),
  (.var "?a", .node .scale [.node .vec3 [.node .lit [.node (.num 1) []], .node .lit [.node (.num 1) []],
    .node .lit [.node (.num 1) []]], .var "?a"]),
  (.node .scale [.node .vec3 [.node .lit [.node (.num 1) []], .node .lit [.node (.num 1) []],
    .node .lit [.node (.num 1) []]], .var "?a"], .var "?a"),
  (.node .scale [.node .vec3 [.var "?b", .var "?b", .var "?b"],
    .node .cylinder [.node .vec3 [.node .lit [.node (.num 1) []], .node .lit [.node (.num 1) []],
    .node .lit [.node (.num 1) []]], .var "?a", .node .true []]], .node .cylinder [.node .vec3 [.var "?b", .var "?b",
    .var "?b"], .var "?a", .node .true []]),
  (.node .cylinder [.node .vec3 [.var "?b", .var "?b", .var "?b"], .var "?a", .node .true []],
    .node .scale [.node .vec3 [.var "?b", .var "?b", .var "?b"],
    .node .cylinder [.node .vec3 [.node .lit [.node (.num 1) []], .node .lit [.node (.num 1) []],
    .node .lit [.node (.num 1) []]], .var "?a", .node .true []]]),
  (.node .scale [.node .vec3 [.node .op [.node .mul [], .var "?f", .var "?e"], .node .op [.node .mul [], .var "?d",
    .var "?c"], .node .op [.node .mul [], .var "?b", .var "?a"]],
    .node .cube [.node .vec3 [.node .lit [.node (.num 1) []], .node .lit [.node (.num 1) []],
    .node .lit [.node (.num 1) []]], .node .false []]], .node .scale [.node .vec3 [.var "?f", .var "?d", .var "?b"],
    .node .cube [.node .vec3 [.var "?e", .var "?c", .var "?a"], .node .false []]]),
  (.node .scale [.node .vec3 [.var "?f", .var "?d", .var "?b"], .node .cube [.node .vec3 [.var "?e", .var "?c",
    .var "?a"], .node .false []]], .node .scale [.node .vec3 [.node .op [.node .mul [], .var "?f", .var "?e"],
    .node .op [.node .mul [], .var "?d", .var "?c"], .node .op [.node .mul [], .var "?b", .var "?a"]],
    .node .cube [.node .vec3 [.node .lit [.node (.num 1) []], .node .lit [.node (.num 1) []],
    .node .lit [.node (.num 1) []]], .node .false []]]),
  (.node .scale [.node .vec3 [.var "?g", .var "?e", .var "?c"], .node .scale [.node .vec3 [.var "?f", .var "?d",
    .var "?b"], .var "?a"]], .node .scale [.node .vec3 [.node .op [.node .mul [], .var "?g", .var "?f"],
    .node .op [.node .mul [], .var "?e", .var "?d"], .node .op [.node .mul [], .var "?c", .var "?b"]], .var "?a"]),
  (.node .scale [.node .vec3 [.node .op [.node .mul [], .var "?g", .var "?f"], .node .op [.node .mul [], .var "?e",
    .var "?d"], .node .op [.node .mul [], .var "?c", .var "?b"]], .var "?a"], .node .scale [.node .vec3 [.var "?g",
    .var "?e", .var "?c"], .node .scale [.node .vec3 [.var "?f", .var "?d", .var "?b"], .var "?a"]]),
  (.node .trans [.node .vec3 [.node .op [.node .add [], .var "?g", .var "?d"], .node .op [.node .add [], .var "?f",
    .var "?c"], .node .op [.node .add [], .var "?e", .var "?b"]], .var "?a"], .node .trans [.node .vec3 [.var "?g",
    .var "?f", .var "?e"], .node .trans [.node .vec3 [.var "?d", .var "?c", .var "?b"], .var "?a"]]),
  (.node .trans [.node .vec3 [.var "?g", .var "?f", .var "?e"], .node .trans [.node .vec3 [.var "?d", .var "?c",
    .var "?b"], .var "?a"]], .node .trans [.node .vec3 [.node .op [.node .add [], .var "?g", .var "?d"],
    .node .op [.node .add [], .var "?f", .var "?c"], .node .op [.node .add [], .var "?e", .var "?b"]], .var "?a"]),
  (.node .scale [.node .vec3 [.var "?d", .var "?c", .var "?b"], .node .trans [.node .vec3 [.var "?g", .var "?f",
    .var "?e"], .var "?a"]], .node .trans [.node .vec3 [.node .op [.node .mul [], .var "?g", .var "?d"],
    .node .op [.node .mul [], .var "?f", .var "?c"], .node .op [.node .mul [], .var "?e", .var "?b"]],
    .node .scale [.node .vec3 [.var "?d", .var "?c", .var "?b"], .var "?a"]]),
  (.node .trans [.node .vec3 [.node .op [.node .mul [], .var "?g", .var "?d"], .node .op [.node .mul [], .var "?f",
    .var "?c"], .node .op [.node .mul [], .var "?e", .var "?b"]], .node .scale [.node .vec3 [.var "?d", .var "?c",
    .var "?b"], .var "?a"]], .node .scale [.node .vec3 [.var "?d", .var "?c", .var "?b"],
    .node .trans [.node .vec3 [.var "?g", .var "?f", .var "?e"], .var "?a"]]),
  (.node .trans [.node .vec3 [.var "?g", .var "?e", .var "?c"], .node .scale [.node .vec3 [.var "?f", .var "?d",
    .var "?b"], .var "?a"]], .node .scale [.node .vec3 [.var "?f", .var "?d", .var "?b"],
    .node .trans [.node .vec3 [.node .op [.node .div [], .var "?g", .var "?f"], .node .op [.node .div [], .var "?e",
    .var "?d"], .node .op [.node .div [], .var "?c", .var "?b"]], .var "?a"]]),
  (.node .scale [.node .vec3 [.var "?f", .var "?d", .var "?b"], .node .trans [.node .vec3 [.node .op [.node .div [],
    .var "?g", .var "?f"], .node .op [.node .div [], .var "?e", .var "?d"], .node .op [.node .div [], .var "?c",
    .var "?b"]], .var "?a"]], .node .trans [.node .vec3 [.var "?g", .var "?e", .var "?c"],
    .node .scale [.node .vec3 [.var "?f", .var "?d", .var "?b"], .var "?a"]]),
  (.node .scale [.node .vec3 [.var "?f", .var "?d", .var "?b"], .node .cube [.node .vec3 [.var "?e", .var "?c",
    .var "?a"], .node .false []]], .node .cube [.node .vec3 [.node .op [.node .mul [], .var "?f", .var "?e"],
    .node .op [.node .mul [], .var "?d", .var "?c"], .node .op [.node .mul [], .var "?b", .var "?a"]], .node .false []]),
  (.node .cube [.node .vec3 [.node .op [.node .mul [], .var "?f", .var "?e"], .node .op [.node .mul [], .var "?d",
    .var "?c"], .node .op [.node .mul [], .var "?b", .var "?a"]], .node .false []], .node .scale [.node .vec3 [.var "?f",
    .var "?d", .var "?b"], .node .cube [.node .vec3 [.var "?e", .var "?c", .var "?a"], .node .false []]])]

theorem cadSubst_sides : tableSides CadOp.substTexts = some cadSubstSides :=
  (tableSides_chars (chars_of% CadOp.substTexts)).trans (by decide +kernel)
theorem cadFrep_sides : tableSides CadOp.frepTexts = some cadFrepSides :=
  (tableSides_chars (chars_of% CadOp.frepTexts)).trans (by decide +kernel)
theorem cadLifting_sides : tableSides CadOp.liftingTexts = some cadLiftingSides :=
  (tableSides_chars (chars_of% CadOp.liftingTexts)).trans (by decide +kernel)

theorem cadExpected_sides : tableSides CadOp.expectedTexts = some cadExpectedSides :=
  (tableSides_chars (chars_of% CadOp.expectedTexts)).trans (by decide +kernel)

theorem cadPrior_sides : tableSides CadOp.priorTexts = some (cadFrepSides ++ cadSubstSides) :=
  tableSides_append cadFrep_sides cadSubst_sides

theorem cadSides_schematic : ∀ p ∈ cadFrepSides ++ cadSubstSides ++ cadLiftingSides,
    schematicB p.1 = true ∧ schematicB p.2 = true := by decide +kernel

end Ruler
