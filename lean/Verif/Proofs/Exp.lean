import Verif.Model.DomExp
import Verif.Proofs.Chars
/-!
# The rule tables of the exponential domain
-/
namespace Ruler

/-- The sides of the exploratory rules. -/
def expExploratorySides : List (Pat ExpOp × Pat ExpOp) := [
  (.node .pow [.var "?a", .var "?b"], .node .exp [.node .mul [.var "?b", .node .log [.var "?a"]]]),
  (.node .sqrt [.var "?a"], .node .pow [.var "?a", .node (.num (1/2)) []]),
  (.node .cbrt [.var "?a"], .node .pow [.var "?a", .node (.num (1/3)) []]),
  (.node .exp [.node .mul [.var "?b", .node .log [.var "?a"]]], .node .pow [.var "?a", .var "?b"]),
  (.node .pow [.var "?a", .node (.num (1/2)) []], .node .sqrt [.var "?a"]),
  (.node .pow [.var "?a", .node (.num (1/3)) []], .node .cbrt [.var "?a"])]

/-- The sides of the starting rules but the last. -/
def expStartingGood : List (Pat ExpOp × Pat ExpOp) := [
  (.node .exp [.node .add [.var "?a", .var "?b"]], .node .mul [.node .exp [.var "?a"], .node .exp [.var "?b"]]),
  (.node .exp [.node .neg [.var "?a"]], .node .div [.node (.num 1) [], .node .exp [.var "?a"]]),
  (.node .mul [.node .exp [.var "?a"], .node .exp [.var "?b"]], .node .exp [.node .add [.var "?a", .var "?b"]]),
  (.node .div [.node (.num 1) [], .node .exp [.var "?a"]], .node .exp [.node .neg [.var "?a"]]),
  (.node .exp [.node (.num 0) []], .node (.num 1) []),
  (.node .log [.node .exp [.var "?a"]], .var "?a")]

/-- The last starting rule. -/
def expLogSides : Pat ExpOp × Pat ExpOp := (.node .exp [.node .log [.var "?a"]], .var "?a")

set_option maxRecDepth 10000 in
set_option maxRecDepth 20000 in
theorem expExploratory_sides : tableSides ExpOp.exploratoryTexts = some expExploratorySides :=
  (tableSides_chars (chars_of% ExpOp.exploratoryTexts)).trans (by decide +kernel)
set_option maxRecDepth 10000 in
set_option maxRecDepth 20000 in
theorem expStarting_sides : tableSides ExpOp.startingTexts = some (expStartingGood ++ [expLogSides]) :=
  (tableSides_chars (chars_of% ExpOp.startingTexts)).trans (by decide +kernel)

/-- Part of the texts of the rules for arithmetic. -/
def expTexts0 : List String := [
  "(+ ?b ?a) ==> (+ ?a ?b)",
  "(* ?b ?a) ==> (* ?a ?b)",
  "(- ?a ?a) ==> 0",
  "(+ ?a 0) ==> ?a",
  "?a ==> (+ ?a 0)",
  "(* ?a 1) ==> ?a",
  "?a ==> (* ?a 1)",
  "(- ?a 0) ==> ?a",
  "?a ==> (- ?a 0)",
  "(/ ?a 1) ==> ?a",
  "?a ==> (/ ?a 1)",
  "(/ ?a -1) ==> (~ ?a)"]

/-- Their sides. -/
def expSides0 : List (Pat ExpOp × Pat ExpOp) := [
  (.node .add [.var "?b", .var "?a"], .node .add [.var "?a", .var "?b"]),
  (.node .mul [.var "?b", .var "?a"], .node .mul [.var "?a", .var "?b"]),
  (.node .sub [.var "?a", .var "?a"], .node (.num 0) []),
  (.node .add [.var "?a", .node (.num 0) []], .var "?a"),
  (.var "?a", .node .add [.var "?a", .node (.num 0) []]),
  (.node .mul [.var "?a", .node (.num 1) []], .var "?a"),
  (.var "?a", .node .mul [.var "?a", .node (.num 1) []]),
  (.node .sub [.var "?a", .node (.num 0) []], .var "?a"),
  (.var "?a", .node .sub [.var "?a", .node (.num 0) []]),
  (.node .div [.var "?a", .node (.num 1) []], .var "?a"),
  (.var "?a", .node .div [.var "?a", .node (.num 1) []]),
  (.node .div [.var "?a", .node (.num (-1)) []], .node .neg [.var "?a"])]

set_option maxRecDepth 10000 in
set_option maxRecDepth 20000 in
theorem expSides0_eq : tableSides expTexts0 = some expSides0 :=
  (tableSides_chars (chars_of% expTexts0)).trans (by decide +kernel)
set_option maxRecDepth 10000 in
theorem expSides0_schematic : ∀ p ∈ expSides0, schematicB p.1 = true ∧ schematicB p.2 = true := by decide +kernel

/-- Part of the texts of the rules for arithmetic. -/
def expTexts1 : List String := [
  "(~ ?a) ==> (/ ?a -1)",
  "(- 0 ?a) ==> (~ ?a)",
  "(~ ?a) ==> (- 0 ?a)",
  "(* ?a -1) ==> (~ ?a)",
  "(~ ?a) ==> (* ?a -1)",
  "(- ?a ?a) ==> (* ?a 0)",
  "(* ?a 0) ==> (- ?a ?a)",
  "(+ ?a 1) ==> (- ?a -1)",
  "(- ?a -1) ==> (+ ?a 1)",
  "(+ ?a -1) ==> (- ?a 1)",
  "(- ?a 1) ==> (+ ?a -1)",
  "(* (+ ?a 1) (/ -1 ?a)) ==> (/ (- -1 ?a) ?a)"]

/-- Their sides. -/
def expSides1 : List (Pat ExpOp × Pat ExpOp) := [
  (.node .neg [.var "?a"], .node .div [.var "?a", .node (.num (-1)) []]),
  (.node .sub [.node (.num 0) [], .var "?a"], .node .neg [.var "?a"]),
  (.node .neg [.var "?a"], .node .sub [.node (.num 0) [], .var "?a"]),
  (.node .mul [.var "?a", .node (.num (-1)) []], .node .neg [.var "?a"]),
  (.node .neg [.var "?a"], .node .mul [.var "?a", .node (.num (-1)) []]),
  (.node .sub [.var "?a", .var "?a"], .node .mul [.var "?a", .node (.num 0) []]),
  (.node .mul [.var "?a", .node (.num 0) []], .node .sub [.var "?a", .var "?a"]),
  (.node .add [.var "?a", .node (.num 1) []], .node .sub [.var "?a", .node (.num (-1)) []]),
  (.node .sub [.var "?a", .node (.num (-1)) []], .node .add [.var "?a", .node (.num 1) []]),
  (.node .add [.var "?a", .node (.num (-1)) []], .node .sub [.var "?a", .node (.num 1) []]),
  (.node .sub [.var "?a", .node (.num 1) []], .node .add [.var "?a", .node (.num (-1)) []]),
  (.node .mul [.node .add [.var "?a", .node (.num 1) []], .node .div [.node (.num (-1)) [], .var "?a"]], .node .div [.node .sub [.node (.num (-1)) [], .var "?a"], .var "?a"])]

set_option maxRecDepth 10000 in
set_option maxRecDepth 20000 in
theorem expSides1_eq : tableSides expTexts1 = some expSides1 :=
  (tableSides_chars (chars_of% expTexts1)).trans (by decide +kernel)
set_option maxRecDepth 10000 in
theorem expSides1_schematic : ∀ p ∈ expSides1, schematicB p.1 = true ∧ schematicB p.2 = true := by decide +kernel

/-- Part of the texts of the rules for arithmetic. -/
def expTexts2 : List String := [
  "(/ (- -1 ?a) ?a) ==> (* (+ ?a 1) (/ -1 ?a))",
  "(* (/ -1 ?a) (- 1 ?a)) ==> (/ (- ?a 1) ?a)",
  "(/ (- ?a 1) ?a) ==> (* (/ -1 ?a) (- 1 ?a))",
  "(- (/ ?a ?a) (/ 0 ?a)) ==> (* (~ ?a) (/ -1 ?a))",
  "(* (~ ?a) (/ -1 ?a)) ==> (- (/ ?a ?a) (/ 0 ?a))",
  "(* (- 1 ?a) (/ 1 ?a)) ==> (/ (- 1 ?a) ?a)",
  "(/ (- 1 ?a) ?a) ==> (* (- 1 ?a) (/ 1 ?a))",
  "(* ?a (/ 1 ?a)) ==> (- (/ ?a ?a) (/ 0 ?a))",
  "(- (/ ?a ?a) (/ 0 ?a)) ==> (* ?a (/ 1 ?a))",
  "(* (+ ?a 1) (/ 1 ?a)) ==> (/ (+ ?a 1) ?a)",
  "(/ (+ ?a 1) ?a) ==> (* (+ ?a 1) (/ 1 ?a))",
  "(* ?a (/ -1 ?a)) ==> (- (/ 0 ?a) (/ ?a ?a))"]

/-- Their sides. -/
def expSides2 : List (Pat ExpOp × Pat ExpOp) := [
  (.node .div [.node .sub [.node (.num (-1)) [], .var "?a"], .var "?a"], .node .mul [.node .add [.var "?a", .node (.num 1) []], .node .div [.node (.num (-1)) [], .var "?a"]]),
  (.node .mul [.node .div [.node (.num (-1)) [], .var "?a"], .node .sub [.node (.num 1) [], .var "?a"]], .node .div [.node .sub [.var "?a", .node (.num 1) []], .var "?a"]),
  (.node .div [.node .sub [.var "?a", .node (.num 1) []], .var "?a"], .node .mul [.node .div [.node (.num (-1)) [], .var "?a"], .node .sub [.node (.num 1) [], .var "?a"]]),
  (.node .sub [.node .div [.var "?a", .var "?a"], .node .div [.node (.num 0) [], .var "?a"]], .node .mul [.node .neg [.var "?a"], .node .div [.node (.num (-1)) [], .var "?a"]]),
  (.node .mul [.node .neg [.var "?a"], .node .div [.node (.num (-1)) [], .var "?a"]], .node .sub [.node .div [.var "?a", .var "?a"], .node .div [.node (.num 0) [], .var "?a"]]),
  (.node .mul [.node .sub [.node (.num 1) [], .var "?a"], .node .div [.node (.num 1) [], .var "?a"]], .node .div [.node .sub [.node (.num 1) [], .var "?a"], .var "?a"]),
  (.node .div [.node .sub [.node (.num 1) [], .var "?a"], .var "?a"], .node .mul [.node .sub [.node (.num 1) [], .var "?a"], .node .div [.node (.num 1) [], .var "?a"]]),
  (.node .mul [.var "?a", .node .div [.node (.num 1) [], .var "?a"]], .node .sub [.node .div [.var "?a", .var "?a"], .node .div [.node (.num 0) [], .var "?a"]]),
  (.node .sub [.node .div [.var "?a", .var "?a"], .node .div [.node (.num 0) [], .var "?a"]], .node .mul [.var "?a", .node .div [.node (.num 1) [], .var "?a"]]),
  (.node .mul [.node .add [.var "?a", .node (.num 1) []], .node .div [.node (.num 1) [], .var "?a"]], .node .div [.node .add [.var "?a", .node (.num 1) []], .var "?a"]),
  (.node .div [.node .add [.var "?a", .node (.num 1) []], .var "?a"], .node .mul [.node .add [.var "?a", .node (.num 1) []], .node .div [.node (.num 1) [], .var "?a"]]),
  (.node .mul [.var "?a", .node .div [.node (.num (-1)) [], .var "?a"]], .node .sub [.node .div [.node (.num 0) [], .var "?a"], .node .div [.var "?a", .var "?a"]])]

set_option maxRecDepth 10000 in
set_option maxRecDepth 20000 in
theorem expSides2_eq : tableSides expTexts2 = some expSides2 :=
  (tableSides_chars (chars_of% expTexts2)).trans (by decide +kernel)
set_option maxRecDepth 10000 in
theorem expSides2_schematic : ∀ p ∈ expSides2, schematicB p.1 = true ∧ schematicB p.2 = true := by decide +kernel

/-- Part of the texts of the rules for arithmetic. -/
def expTexts3 : List String := [
  "(- (/ 0 ?a) (/ ?a ?a)) ==> (* ?a (/ -1 ?a))",
  "(/ (/ 0 ?a) ?a) ==> (/ (/ 0 ?a) (+ ?a ?a))",
  "(/ (/ 0 ?a) (+ ?a ?a)) ==> (/ (/ 0 ?a) ?a)",
  "(/ (/ 0 ?a) ?a) ==> (/ (/ 0 ?a) (* ?a ?a))",
  "(/ (/ 0 ?a) (* ?a ?a)) ==> (/ (/ 0 ?a) ?a)",
  "(/ (/ 0 ?a) ?a) ==> (/ (/ 0 ?a) (fabs ?a))",
  "(/ (/ 0 ?a) (fabs ?a)) ==> (/ (/ 0 ?a) ?a)",
  "(/ 0 (* ?a ?a)) ==> (/ 0 ?a)",
  "(/ 0 ?a) ==> (/ 0 (* ?a ?a))",
  "(/ 0 (+ ?a ?a)) ==> (/ 0 ?a)",
  "(+ ?c (+ ?b ?a)) ==> (+ ?a (+ ?b ?c))",
  "(* ?c (* ?b ?a)) ==> (* ?b (* ?c ?a))"]

/-- Their sides. -/
def expSides3 : List (Pat ExpOp × Pat ExpOp) := [
  (.node .sub [.node .div [.node (.num 0) [], .var "?a"], .node .div [.var "?a", .var "?a"]], .node .mul [.var "?a", .node .div [.node (.num (-1)) [], .var "?a"]]),
  (.node .div [.node .div [.node (.num 0) [], .var "?a"], .var "?a"], .node .div [.node .div [.node (.num 0) [], .var "?a"], .node .add [.var "?a", .var "?a"]]),
  (.node .div [.node .div [.node (.num 0) [], .var "?a"], .node .add [.var "?a", .var "?a"]], .node .div [.node .div [.node (.num 0) [], .var "?a"], .var "?a"]),
  (.node .div [.node .div [.node (.num 0) [], .var "?a"], .var "?a"], .node .div [.node .div [.node (.num 0) [], .var "?a"], .node .mul [.var "?a", .var "?a"]]),
  (.node .div [.node .div [.node (.num 0) [], .var "?a"], .node .mul [.var "?a", .var "?a"]], .node .div [.node .div [.node (.num 0) [], .var "?a"], .var "?a"]),
  (.node .div [.node .div [.node (.num 0) [], .var "?a"], .var "?a"], .node .div [.node .div [.node (.num 0) [], .var "?a"], .node .abs [.var "?a"]]),
  (.node .div [.node .div [.node (.num 0) [], .var "?a"], .node .abs [.var "?a"]], .node .div [.node .div [.node (.num 0) [], .var "?a"], .var "?a"]),
  (.node .div [.node (.num 0) [], .node .mul [.var "?a", .var "?a"]], .node .div [.node (.num 0) [], .var "?a"]),
  (.node .div [.node (.num 0) [], .var "?a"], .node .div [.node (.num 0) [], .node .mul [.var "?a", .var "?a"]]),
  (.node .div [.node (.num 0) [], .node .add [.var "?a", .var "?a"]], .node .div [.node (.num 0) [], .var "?a"]),
  (.node .add [.var "?c", .node .add [.var "?b", .var "?a"]], .node .add [.var "?a", .node .add [.var "?b", .var "?c"]]),
  (.node .mul [.var "?c", .node .mul [.var "?b", .var "?a"]], .node .mul [.var "?b", .node .mul [.var "?c", .var "?a"]])]

set_option maxRecDepth 10000 in
set_option maxRecDepth 20000 in
theorem expSides3_eq : tableSides expTexts3 = some expSides3 :=
  (tableSides_chars (chars_of% expTexts3)).trans (by decide +kernel)
set_option maxRecDepth 10000 in
theorem expSides3_schematic : ∀ p ∈ expSides3, schematicB p.1 = true ∧ schematicB p.2 = true := by decide +kernel

/-- Part of the texts of the rules for arithmetic. -/
def expTexts4 : List String := [
  "(- ?c (- ?b ?a)) ==> (- ?a (- ?b ?c))",
  "(- ?c (- ?b ?a)) ==> (+ ?a (- ?c ?b))",
  "(+ (* ?b ?c) (* ?b ?a)) ==> (* ?b (+ ?a ?c))",
  "(- (* ?a ?c) (* ?b ?a)) ==> (* ?a (- ?c ?b))",
  "(* (/ ?c ?a) (* ?b ?a)) ==> (* (* ?c ?a) (/ ?b ?a))",
  "(* (* ?c ?a) (/ ?b ?a)) ==> (* (/ ?c ?a) (* ?b ?a))",
  "(- (+ ?c ?c) (+ ?b ?a)) ==> (- (- ?c ?b) (- ?a ?c))",
  "(- (+ ?b ?c) (+ ?b ?a)) ==> (- (+ ?c ?c) (+ ?a ?c))",
  "(fabs (- ?b ?a)) ==> (fabs (- ?a ?b))",
  "(* (fabs ?b) (fabs ?a)) ==> (fabs (* ?a ?b))",
  "(/ (- ?a ?b) (- ?b ?a)) ==> (/ (- ?b ?a) (- ?a ?b))",
  "(/ (- ?b ?a) (- ?b ?a)) ==> (/ (- ?a ?b) (- ?a ?b))"]

/-- Their sides. -/
def expSides4 : List (Pat ExpOp × Pat ExpOp) := [
  (.node .sub [.var "?c", .node .sub [.var "?b", .var "?a"]], .node .sub [.var "?a", .node .sub [.var "?b", .var "?c"]]),
  (.node .sub [.var "?c", .node .sub [.var "?b", .var "?a"]], .node .add [.var "?a", .node .sub [.var "?c", .var "?b"]]),
  (.node .add [.node .mul [.var "?b", .var "?c"], .node .mul [.var "?b", .var "?a"]], .node .mul [.var "?b", .node .add [.var "?a", .var "?c"]]),
  (.node .sub [.node .mul [.var "?a", .var "?c"], .node .mul [.var "?b", .var "?a"]], .node .mul [.var "?a", .node .sub [.var "?c", .var "?b"]]),
  (.node .mul [.node .div [.var "?c", .var "?a"], .node .mul [.var "?b", .var "?a"]], .node .mul [.node .mul [.var "?c", .var "?a"], .node .div [.var "?b", .var "?a"]]),
  (.node .mul [.node .mul [.var "?c", .var "?a"], .node .div [.var "?b", .var "?a"]], .node .mul [.node .div [.var "?c", .var "?a"], .node .mul [.var "?b", .var "?a"]]),
  (.node .sub [.node .add [.var "?c", .var "?c"], .node .add [.var "?b", .var "?a"]], .node .sub [.node .sub [.var "?c", .var "?b"], .node .sub [.var "?a", .var "?c"]]),
  (.node .sub [.node .add [.var "?b", .var "?c"], .node .add [.var "?b", .var "?a"]], .node .sub [.node .add [.var "?c", .var "?c"], .node .add [.var "?a", .var "?c"]]),
  (.node .abs [.node .sub [.var "?b", .var "?a"]], .node .abs [.node .sub [.var "?a", .var "?b"]]),
  (.node .mul [.node .abs [.var "?b"], .node .abs [.var "?a"]], .node .abs [.node .mul [.var "?a", .var "?b"]]),
  (.node .div [.node .sub [.var "?a", .var "?b"], .node .sub [.var "?b", .var "?a"]], .node .div [.node .sub [.var "?b", .var "?a"], .node .sub [.var "?a", .var "?b"]]),
  (.node .div [.node .sub [.var "?b", .var "?a"], .node .sub [.var "?b", .var "?a"]], .node .div [.node .sub [.var "?a", .var "?b"], .node .sub [.var "?a", .var "?b"]])]

set_option maxRecDepth 10000 in
set_option maxRecDepth 20000 in
theorem expSides4_eq : tableSides expTexts4 = some expSides4 :=
  (tableSides_chars (chars_of% expTexts4)).trans (by decide +kernel)
set_option maxRecDepth 10000 in
theorem expSides4_schematic : ∀ p ∈ expSides4, schematicB p.1 = true ∧ schematicB p.2 = true := by decide +kernel

/-- Part of the texts of the rules for arithmetic. -/
def expTexts5 : List String := [
  "(/ (* ?a ?b) (/ ?a ?a)) ==> (* (/ ?b ?a) (* ?a ?a))",
  "(* (/ ?b ?a) (* ?a ?a)) ==> (/ (* ?a ?b) (/ ?a ?a))",
  "(- (* ?b ?b) (* ?a ?a)) ==> (* (- ?b ?a) (+ ?a ?b))",
  "(- ?a (+ ?b ?a)) ==> (/ (+ ?b ?b) -2)",
  "(- (+ ?a ?b) ?a) ==> (/ (+ ?b ?b) 2)",
  "(* (- ?b ?a) -2) ==> (- (+ ?a ?a) (+ ?b ?b))",
  "(- (+ ?b ?b) (+ ?a ?a)) ==> (* (- ?b ?a) 2)",
  "(* (- ?b ?a) 2) ==> (- (+ ?b ?b) (+ ?a ?a))",
  "(/ (- ?b ?a) -2) ==> (/ (- ?a ?b) 2)",
  "(/ 0 (- ?b ?a)) ==> (/ 0 (- ?a ?b))",
  "(* (+ ?a ?b) (/ 0 ?a)) ==> (* ?b (/ 0 ?a))",
  "(* ?b (/ 0 ?a)) ==> (* (+ ?a ?b) (/ 0 ?a))"]

/-- Their sides. -/
def expSides5 : List (Pat ExpOp × Pat ExpOp) := [
  (.node .div [.node .mul [.var "?a", .var "?b"], .node .div [.var "?a", .var "?a"]], .node .mul [.node .div [.var "?b", .var "?a"], .node .mul [.var "?a", .var "?a"]]),
  (.node .mul [.node .div [.var "?b", .var "?a"], .node .mul [.var "?a", .var "?a"]], .node .div [.node .mul [.var "?a", .var "?b"], .node .div [.var "?a", .var "?a"]]),
  (.node .sub [.node .mul [.var "?b", .var "?b"], .node .mul [.var "?a", .var "?a"]], .node .mul [.node .sub [.var "?b", .var "?a"], .node .add [.var "?a", .var "?b"]]),
  (.node .sub [.var "?a", .node .add [.var "?b", .var "?a"]], .node .div [.node .add [.var "?b", .var "?b"], .node (.num (-2)) []]),
  (.node .sub [.node .add [.var "?a", .var "?b"], .var "?a"], .node .div [.node .add [.var "?b", .var "?b"], .node (.num 2) []]),
  (.node .mul [.node .sub [.var "?b", .var "?a"], .node (.num (-2)) []], .node .sub [.node .add [.var "?a", .var "?a"], .node .add [.var "?b", .var "?b"]]),
  (.node .sub [.node .add [.var "?b", .var "?b"], .node .add [.var "?a", .var "?a"]], .node .mul [.node .sub [.var "?b", .var "?a"], .node (.num 2) []]),
  (.node .mul [.node .sub [.var "?b", .var "?a"], .node (.num 2) []], .node .sub [.node .add [.var "?b", .var "?b"], .node .add [.var "?a", .var "?a"]]),
  (.node .div [.node .sub [.var "?b", .var "?a"], .node (.num (-2)) []], .node .div [.node .sub [.var "?a", .var "?b"], .node (.num 2) []]),
  (.node .div [.node (.num 0) [], .node .sub [.var "?b", .var "?a"]], .node .div [.node (.num 0) [], .node .sub [.var "?a", .var "?b"]]),
  (.node .mul [.node .add [.var "?a", .var "?b"], .node .div [.node (.num 0) [], .var "?a"]], .node .mul [.var "?b", .node .div [.node (.num 0) [], .var "?a"]]),
  (.node .mul [.var "?b", .node .div [.node (.num 0) [], .var "?a"]], .node .mul [.node .add [.var "?a", .var "?b"], .node .div [.node (.num 0) [], .var "?a"]])]

set_option maxRecDepth 10000 in
set_option maxRecDepth 20000 in
theorem expSides5_eq : tableSides expTexts5 = some expSides5 :=
  (tableSides_chars (chars_of% expTexts5)).trans (by decide +kernel)
set_option maxRecDepth 10000 in
theorem expSides5_schematic : ∀ p ∈ expSides5, schematicB p.1 = true ∧ schematicB p.2 = true := by decide +kernel

/-- Part of the texts of the rules for arithmetic. -/
def expTexts6 : List String := [
  "(* (* ?a ?b) (/ 0 ?a)) ==> (* (fabs ?a) (/ 0 ?a))",
  "(* (/ 0 ?b) (/ 0 ?a)) ==> (* (/ ?b ?a) (/ 0 ?b))",
  "(fabs (fabs ?a)) ==> (fabs ?a)",
  "(fabs ?a) ==> (fabs (fabs ?a))",
  "(fabs (* ?a ?a)) ==> (* ?a ?a)",
  "(* ?a ?a) ==> (fabs (* ?a ?a))",
  "(/ ?a (fabs ?a)) ==> (/ (fabs ?a) ?a)",
  "(/ (fabs ?a) ?a) ==> (/ ?a (fabs ?a))",
  "(/ ?a ?a) ==> (/ (fabs ?a) (fabs ?a))",
  "(/ (fabs ?a) (fabs ?a)) ==> (/ ?a ?a)",
  "(fabs (+ ?a ?a)) ==> (+ (fabs ?a) (fabs ?a))",
  "(+ (fabs ?a) (fabs ?a)) ==> (fabs (+ ?a ?a))"]

/-- Their sides. -/
def expSides6 : List (Pat ExpOp × Pat ExpOp) := [
  (.node .mul [.node .mul [.var "?a", .var "?b"], .node .div [.node (.num 0) [], .var "?a"]], .node .mul [.node .abs [.var "?a"], .node .div [.node (.num 0) [], .var "?a"]]),
  (.node .mul [.node .div [.node (.num 0) [], .var "?b"], .node .div [.node (.num 0) [], .var "?a"]], .node .mul [.node .div [.var "?b", .var "?a"], .node .div [.node (.num 0) [], .var "?b"]]),
  (.node .abs [.node .abs [.var "?a"]], .node .abs [.var "?a"]),
  (.node .abs [.var "?a"], .node .abs [.node .abs [.var "?a"]]),
  (.node .abs [.node .mul [.var "?a", .var "?a"]], .node .mul [.var "?a", .var "?a"]),
  (.node .mul [.var "?a", .var "?a"], .node .abs [.node .mul [.var "?a", .var "?a"]]),
  (.node .div [.var "?a", .node .abs [.var "?a"]], .node .div [.node .abs [.var "?a"], .var "?a"]),
  (.node .div [.node .abs [.var "?a"], .var "?a"], .node .div [.var "?a", .node .abs [.var "?a"]]),
  (.node .div [.var "?a", .var "?a"], .node .div [.node .abs [.var "?a"], .node .abs [.var "?a"]]),
  (.node .div [.node .abs [.var "?a"], .node .abs [.var "?a"]], .node .div [.var "?a", .var "?a"]),
  (.node .abs [.node .add [.var "?a", .var "?a"]], .node .add [.node .abs [.var "?a"], .node .abs [.var "?a"]]),
  (.node .add [.node .abs [.var "?a"], .node .abs [.var "?a"]], .node .abs [.node .add [.var "?a", .var "?a"]])]

set_option maxRecDepth 10000 in
set_option maxRecDepth 20000 in
theorem expSides6_eq : tableSides expTexts6 = some expSides6 :=
  (tableSides_chars (chars_of% expTexts6)).trans (by decide +kernel)
set_option maxRecDepth 10000 in
theorem expSides6_schematic : ∀ p ∈ expSides6, schematicB p.1 = true ∧ schematicB p.2 = true := by decide +kernel

/-- Part of the texts of the rules for arithmetic. -/
def expTexts7 : List String := [
  "(/ (* ?a ?a) (* ?a ?a)) ==> (/ ?a ?a)",
  "(/ ?a ?a) ==> (/ (* ?a ?a) (* ?a ?a))",
  "(/ ?a ?a) ==> (/ (+ ?a ?a) (+ ?a ?a))",
  "(/ (+ ?a ?a) (+ ?a ?a)) ==> (/ ?a ?a)",
  "(+ ?a (/ 0 ?a)) ==> (/ (* ?a ?a) ?a)",
  "(/ (* ?a ?a) ?a) ==> (+ ?a (/ 0 ?a))",
  "(/ (* ?a ?a) (fabs ?a)) ==> (+ (fabs ?a) (/ 0 ?a))",
  "(+ (fabs ?a) (/ 0 ?a)) ==> (/ (* ?a ?a) (fabs ?a))",
  "(- (/ ?a ?a) ?a) ==> (* (/ ?a ?a) (- 1 ?a))",
  "(* (/ ?a ?a) (- 1 ?a)) ==> (- (/ ?a ?a) ?a)",
  "(* (/ ?a ?a) (- ?a 1)) ==> (- ?a (/ ?a ?a))",
  "(- ?a (/ ?a ?a)) ==> (* (/ ?a ?a) (- ?a 1))"]

/-- Their sides. -/
def expSides7 : List (Pat ExpOp × Pat ExpOp) := [
  (.node .div [.node .mul [.var "?a", .var "?a"], .node .mul [.var "?a", .var "?a"]], .node .div [.var "?a", .var "?a"]),
  (.node .div [.var "?a", .var "?a"], .node .div [.node .mul [.var "?a", .var "?a"], .node .mul [.var "?a", .var "?a"]]),
  (.node .div [.var "?a", .var "?a"], .node .div [.node .add [.var "?a", .var "?a"], .node .add [.var "?a", .var "?a"]]),
  (.node .div [.node .add [.var "?a", .var "?a"], .node .add [.var "?a", .var "?a"]], .node .div [.var "?a", .var "?a"]),
  (.node .add [.var "?a", .node .div [.node (.num 0) [], .var "?a"]], .node .div [.node .mul [.var "?a", .var "?a"], .var "?a"]),
  (.node .div [.node .mul [.var "?a", .var "?a"], .var "?a"], .node .add [.var "?a", .node .div [.node (.num 0) [], .var "?a"]]),
  (.node .div [.node .mul [.var "?a", .var "?a"], .node .abs [.var "?a"]], .node .add [.node .abs [.var "?a"], .node .div [.node (.num 0) [], .var "?a"]]),
  (.node .add [.node .abs [.var "?a"], .node .div [.node (.num 0) [], .var "?a"]], .node .div [.node .mul [.var "?a", .var "?a"], .node .abs [.var "?a"]]),
  (.node .sub [.node .div [.var "?a", .var "?a"], .var "?a"], .node .mul [.node .div [.var "?a", .var "?a"], .node .sub [.node (.num 1) [], .var "?a"]]),
  (.node .mul [.node .div [.var "?a", .var "?a"], .node .sub [.node (.num 1) [], .var "?a"]], .node .sub [.node .div [.var "?a", .var "?a"], .var "?a"]),
  (.node .mul [.node .div [.var "?a", .var "?a"], .node .sub [.var "?a", .node (.num 1) []]], .node .sub [.var "?a", .node .div [.var "?a", .var "?a"]]),
  (.node .sub [.var "?a", .node .div [.var "?a", .var "?a"]], .node .mul [.node .div [.var "?a", .var "?a"], .node .sub [.var "?a", .node (.num 1) []]])]

set_option maxRecDepth 10000 in
set_option maxRecDepth 20000 in
theorem expSides7_eq : tableSides expTexts7 = some expSides7 :=
  (tableSides_chars (chars_of% expTexts7)).trans (by decide +kernel)
set_option maxRecDepth 10000 in
theorem expSides7_schematic : ∀ p ∈ expSides7, schematicB p.1 = true ∧ schematicB p.2 = true := by decide +kernel

/-- Part of the texts of the rules for arithmetic. -/
def expTexts8 : List String := [
  "(/ 0 ?a) ==> (/ 0 (fabs ?a))",
  "(/ 0 (fabs ?a)) ==> (/ 0 ?a)",
  "(/ 0 ?a) ==> (/ 0 (+ ?a ?a))",
  "?a ==> (/ ?a (/ ?a ?a))",
  "(/ ?a (/ ?a ?a)) ==> ?a",
  "(- (/ ?a 2) 1) ==> (/ (- ?a 2) 2)",
  "(/ (- ?a 2) 2) ==> (- (/ ?a 2) 1)",
  "(- 1 (/ ?a 2)) ==> (/ (- 2 ?a) 2)",
  "(/ (- 2 ?a) 2) ==> (- 1 (/ ?a 2))",
  "(/ (+ 2 ?a) 2) ==> (+ 1 (/ ?a 2))",
  "(+ 1 (/ ?a 2)) ==> (/ (+ 2 ?a) 2)",
  "(fabs (- (fabs ?a) (/ ?a 2))) ==> (- (fabs ?a) (/ ?a 2))"]

/-- Their sides. -/
def expSides8 : List (Pat ExpOp × Pat ExpOp) := [
  (.node .div [.node (.num 0) [], .var "?a"], .node .div [.node (.num 0) [], .node .abs [.var "?a"]]),
  (.node .div [.node (.num 0) [], .node .abs [.var "?a"]], .node .div [.node (.num 0) [], .var "?a"]),
  (.node .div [.node (.num 0) [], .var "?a"], .node .div [.node (.num 0) [], .node .add [.var "?a", .var "?a"]]),
  (.var "?a", .node .div [.var "?a", .node .div [.var "?a", .var "?a"]]),
  (.node .div [.var "?a", .node .div [.var "?a", .var "?a"]], .var "?a"),
  (.node .sub [.node .div [.var "?a", .node (.num 2) []], .node (.num 1) []], .node .div [.node .sub [.var "?a", .node (.num 2) []], .node (.num 2) []]),
  (.node .div [.node .sub [.var "?a", .node (.num 2) []], .node (.num 2) []], .node .sub [.node .div [.var "?a", .node (.num 2) []], .node (.num 1) []]),
  (.node .sub [.node (.num 1) [], .node .div [.var "?a", .node (.num 2) []]], .node .div [.node .sub [.node (.num 2) [], .var "?a"], .node (.num 2) []]),
  (.node .div [.node .sub [.node (.num 2) [], .var "?a"], .node (.num 2) []], .node .sub [.node (.num 1) [], .node .div [.var "?a", .node (.num 2) []]]),
  (.node .div [.node .add [.node (.num 2) [], .var "?a"], .node (.num 2) []], .node .add [.node (.num 1) [], .node .div [.var "?a", .node (.num 2) []]]),
  (.node .add [.node (.num 1) [], .node .div [.var "?a", .node (.num 2) []]], .node .div [.node .add [.node (.num 2) [], .var "?a"], .node (.num 2) []]),
  (.node .abs [.node .sub [.node .abs [.var "?a"], .node .div [.var "?a", .node (.num 2) []]]], .node .sub [.node .abs [.var "?a"], .node .div [.var "?a", .node (.num 2) []]])]

set_option maxRecDepth 10000 in
set_option maxRecDepth 20000 in
theorem expSides8_eq : tableSides expTexts8 = some expSides8 :=
  (tableSides_chars (chars_of% expTexts8)).trans (by decide +kernel)
set_option maxRecDepth 10000 in
theorem expSides8_schematic : ∀ p ∈ expSides8, schematicB p.1 = true ∧ schematicB p.2 = true := by decide +kernel

/-- Part of the texts of the rules for arithmetic. -/
def expTexts9 : List String := [
  "(- (fabs ?a) (/ ?a 2)) ==> (fabs (- (fabs ?a) (/ ?a 2)))",
  "(+ (fabs ?a) (- 1 ?a)) ==> (fabs (+ (fabs ?a) (- 1 ?a)))",
  "(fabs (+ (fabs ?a) (- 1 ?a))) ==> (+ (fabs ?a) (- 1 ?a))",
  "(fabs (+ (fabs ?a) (/ ?a 2))) ==> (+ (fabs ?a) (/ ?a 2))",
  "(+ (fabs ?a) (/ ?a 2)) ==> (fabs (+ (fabs ?a) (/ ?a 2)))",
  "(* (fabs ?a) (/ 0 ?a)) ==> (/ 0 (/ ?a ?a))",
  "(/ 0 (/ ?a ?a)) ==> (* (fabs ?a) (/ 0 ?a))",
  "(/ 0 (/ ?a ?a)) ==> (fabs (/ 0 (/ ?a ?a)))",
  "(fabs (/ 0 (/ ?a ?a))) ==> (/ 0 (/ ?a ?a))",
  "(/ (fabs ?a) 4) ==> (fabs (/ (/ ?a 2) 2))",
  "(fabs (/ (/ ?a 2) 2)) ==> (/ (fabs ?a) 4)",
  "(/ (fabs ?a) 4) ==> (fabs (/ (fabs ?a) 4))"]

/-- Their sides. -/
def expSides9 : List (Pat ExpOp × Pat ExpOp) := [
  (.node .sub [.node .abs [.var "?a"], .node .div [.var "?a", .node (.num 2) []]], .node .abs [.node .sub [.node .abs [.var "?a"], .node .div [.var "?a", .node (.num 2) []]]]),
  (.node .add [.node .abs [.var "?a"], .node .sub [.node (.num 1) [], .var "?a"]], .node .abs [.node .add [.node .abs [.var "?a"], .node .sub [.node (.num 1) [], .var "?a"]]]),
  (.node .abs [.node .add [.node .abs [.var "?a"], .node .sub [.node (.num 1) [], .var "?a"]]], .node .add [.node .abs [.var "?a"], .node .sub [.node (.num 1) [], .var "?a"]]),
  (.node .abs [.node .add [.node .abs [.var "?a"], .node .div [.var "?a", .node (.num 2) []]]], .node .add [.node .abs [.var "?a"], .node .div [.var "?a", .node (.num 2) []]]),
  (.node .add [.node .abs [.var "?a"], .node .div [.var "?a", .node (.num 2) []]], .node .abs [.node .add [.node .abs [.var "?a"], .node .div [.var "?a", .node (.num 2) []]]]),
  (.node .mul [.node .abs [.var "?a"], .node .div [.node (.num 0) [], .var "?a"]], .node .div [.node (.num 0) [], .node .div [.var "?a", .var "?a"]]),
  (.node .div [.node (.num 0) [], .node .div [.var "?a", .var "?a"]], .node .mul [.node .abs [.var "?a"], .node .div [.node (.num 0) [], .var "?a"]]),
  (.node .div [.node (.num 0) [], .node .div [.var "?a", .var "?a"]], .node .abs [.node .div [.node (.num 0) [], .node .div [.var "?a", .var "?a"]]]),
  (.node .abs [.node .div [.node (.num 0) [], .node .div [.var "?a", .var "?a"]]], .node .div [.node (.num 0) [], .node .div [.var "?a", .var "?a"]]),
  (.node .div [.node .abs [.var "?a"], .node (.num 4) []], .node .abs [.node .div [.node .div [.var "?a", .node (.num 2) []], .node (.num 2) []]]),
  (.node .abs [.node .div [.node .div [.var "?a", .node (.num 2) []], .node (.num 2) []]], .node .div [.node .abs [.var "?a"], .node (.num 4) []]),
  (.node .div [.node .abs [.var "?a"], .node (.num 4) []], .node .abs [.node .div [.node .abs [.var "?a"], .node (.num 4) []]])]

set_option maxRecDepth 10000 in
set_option maxRecDepth 20000 in
theorem expSides9_eq : tableSides expTexts9 = some expSides9 :=
  (tableSides_chars (chars_of% expTexts9)).trans (by decide +kernel)
set_option maxRecDepth 10000 in
theorem expSides9_schematic : ∀ p ∈ expSides9, schematicB p.1 = true ∧ schematicB p.2 = true := by decide +kernel

/-- Part of the texts of the rules for arithmetic. -/
def expTexts10 : List String := [
  "(fabs (/ (fabs ?a) 4)) ==> (/ (fabs ?a) 4)",
  "(/ (fabs ?a) 3) ==> (fabs (/ (fabs ?a) 3))",
  "(fabs (/ (fabs ?a) 3)) ==> (/ (fabs ?a) 3)",
  "(fabs (- (fabs ?a) (/ 0 ?a))) ==> (fabs (/ (* ?a ?a) (fabs ?a)))",
  "(fabs (/ (* ?a ?a) (fabs ?a))) ==> (fabs (- (fabs ?a) (/ 0 ?a)))",
  "(/ (+ ?a ?a) (fabs ?a)) ==> (/ (fabs ?a) (/ ?a 2))",
  "(/ (fabs ?a) (/ ?a 2)) ==> (/ (+ ?a ?a) (fabs ?a))",
  "(/ (fabs ?a) (+ ?a ?a)) ==> (/ (/ ?a 2) (fabs ?a))",
  "(/ (/ ?a 2) (fabs ?a)) ==> (/ (fabs ?a) (+ ?a ?a))",
  "(- (fabs ?a) ?a) ==> (fabs (- (fabs ?a) ?a))",
  "(fabs (- (fabs ?a) ?a)) ==> (- (fabs ?a) ?a)",
  "(fabs (+ ?a (fabs ?a))) ==> (+ ?a (fabs ?a))"]

/-- Their sides. -/
def expSides10 : List (Pat ExpOp × Pat ExpOp) := [
  (.node .abs [.node .div [.node .abs [.var "?a"], .node (.num 4) []]], .node .div [.node .abs [.var "?a"], .node (.num 4) []]),
  (.node .div [.node .abs [.var "?a"], .node (.num 3) []], .node .abs [.node .div [.node .abs [.var "?a"], .node (.num 3) []]]),
  (.node .abs [.node .div [.node .abs [.var "?a"], .node (.num 3) []]], .node .div [.node .abs [.var "?a"], .node (.num 3) []]),
  (.node .abs [.node .sub [.node .abs [.var "?a"], .node .div [.node (.num 0) [], .var "?a"]]], .node .abs [.node .div [.node .mul [.var "?a", .var "?a"], .node .abs [.var "?a"]]]),
  (.node .abs [.node .div [.node .mul [.var "?a", .var "?a"], .node .abs [.var "?a"]]], .node .abs [.node .sub [.node .abs [.var "?a"], .node .div [.node (.num 0) [], .var "?a"]]]),
  (.node .div [.node .add [.var "?a", .var "?a"], .node .abs [.var "?a"]], .node .div [.node .abs [.var "?a"], .node .div [.var "?a", .node (.num 2) []]]),
  (.node .div [.node .abs [.var "?a"], .node .div [.var "?a", .node (.num 2) []]], .node .div [.node .add [.var "?a", .var "?a"], .node .abs [.var "?a"]]),
  (.node .div [.node .abs [.var "?a"], .node .add [.var "?a", .var "?a"]], .node .div [.node .div [.var "?a", .node (.num 2) []], .node .abs [.var "?a"]]),
  (.node .div [.node .div [.var "?a", .node (.num 2) []], .node .abs [.var "?a"]], .node .div [.node .abs [.var "?a"], .node .add [.var "?a", .var "?a"]]),
  (.node .sub [.node .abs [.var "?a"], .var "?a"], .node .abs [.node .sub [.node .abs [.var "?a"], .var "?a"]]),
  (.node .abs [.node .sub [.node .abs [.var "?a"], .var "?a"]], .node .sub [.node .abs [.var "?a"], .var "?a"]),
  (.node .abs [.node .add [.var "?a", .node .abs [.var "?a"]]], .node .add [.var "?a", .node .abs [.var "?a"]])]

set_option maxRecDepth 10000 in
set_option maxRecDepth 20000 in
theorem expSides10_eq : tableSides expTexts10 = some expSides10 :=
  (tableSides_chars (chars_of% expTexts10)).trans (by decide +kernel)
set_option maxRecDepth 10000 in
theorem expSides10_schematic : ∀ p ∈ expSides10, schematicB p.1 = true ∧ schematicB p.2 = true := by decide +kernel

/-- Part of the texts of the rules for arithmetic. -/
def expTexts11 : List String := [
  "(+ ?a (fabs ?a)) ==> (fabs (+ ?a (fabs ?a)))",
  "(fabs (* (fabs ?b) (/ ?a 2))) ==> (fabs (/ (* ?a ?b) 2))",
  "(+ (fabs ?b) (fabs ?a)) ==> (fabs (+ (fabs ?b) (fabs ?a)))",
  "(fabs (+ (fabs ?b) (fabs ?a))) ==> (+ (fabs ?b) (fabs ?a))",
  "(fabs (/ ?b (fabs ?a))) ==> (fabs (/ ?b ?a))",
  "(fabs (/ ?b ?a)) ==> (fabs (/ ?b (fabs ?a)))",
  "(fabs (/ (fabs ?c) (- ?b ?a))) ==> (fabs (/ (fabs ?c) (- ?a ?b)))",
  "(fabs (* (fabs ?c) (* ?b ?a))) ==> (fabs (* (fabs ?a) (* ?b ?c)))",
  "(- (fabs ?c) (- ?b ?a)) ==> (+ (fabs ?c) (- ?a ?b))"]

/-- Their sides. -/
def expSides11 : List (Pat ExpOp × Pat ExpOp) := [
  (.node .add [.var "?a", .node .abs [.var "?a"]], .node .abs [.node .add [.var "?a", .node .abs [.var "?a"]]]),
  (.node .abs [.node .mul [.node .abs [.var "?b"], .node .div [.var "?a", .node (.num 2) []]]], .node .abs [.node .div [.node .mul [.var "?a", .var "?b"], .node (.num 2) []]]),
  (.node .add [.node .abs [.var "?b"], .node .abs [.var "?a"]], .node .abs [.node .add [.node .abs [.var "?b"], .node .abs [.var "?a"]]]),
  (.node .abs [.node .add [.node .abs [.var "?b"], .node .abs [.var "?a"]]], .node .add [.node .abs [.var "?b"], .node .abs [.var "?a"]]),
  (.node .abs [.node .div [.var "?b", .node .abs [.var "?a"]]], .node .abs [.node .div [.var "?b", .var "?a"]]),
  (.node .abs [.node .div [.var "?b", .var "?a"]], .node .abs [.node .div [.var "?b", .node .abs [.var "?a"]]]),
  (.node .abs [.node .div [.node .abs [.var "?c"], .node .sub [.var "?b", .var "?a"]]], .node .abs [.node .div [.node .abs [.var "?c"], .node .sub [.var "?a", .var "?b"]]]),
  (.node .abs [.node .mul [.node .abs [.var "?c"], .node .mul [.var "?b", .var "?a"]]], .node .abs [.node .mul [.node .abs [.var "?a"], .node .mul [.var "?b", .var "?c"]]]),
  (.node .sub [.node .abs [.var "?c"], .node .sub [.var "?b", .var "?a"]], .node .add [.node .abs [.var "?c"], .node .sub [.var "?a", .var "?b"]])]

set_option maxRecDepth 10000 in
set_option maxRecDepth 20000 in
theorem expSides11_eq : tableSides expTexts11 = some expSides11 :=
  (tableSides_chars (chars_of% expTexts11)).trans (by decide +kernel)
set_option maxRecDepth 10000 in
theorem expSides11_schematic : ∀ p ∈ expSides11, schematicB p.1 = true ∧ schematicB p.2 = true := by decide +kernel

/-- The sides of the rules for arithmetic. -/
def expRationalSides : List (Pat ExpOp × Pat ExpOp) :=
  expSides0 ++ (expSides1 ++ (expSides2 ++ (expSides3 ++ (expSides4 ++ (expSides5 ++ (expSides6 ++ (expSides7 ++ (expSides8 ++ (expSides9 ++ (expSides10 ++ (expSides11)))))))))))

theorem expRational_sides : tableSides ExpOp.rationalTexts = some expRationalSides := by
  have e : ExpOp.rationalTexts = expTexts0 ++ (expTexts1 ++ (expTexts2 ++ (expTexts3 ++ (expTexts4 ++ (expTexts5 ++ (expTexts6 ++ (expTexts7 ++ (expTexts8 ++ (expTexts9 ++ (expTexts10 ++ (expTexts11))))))))))) := by
    simp only [ExpOp.rationalTexts, expTexts0, expTexts1, expTexts2, expTexts3, expTexts4, expTexts5, expTexts6, expTexts7, expTexts8, expTexts9, expTexts10, expTexts11, List.cons_append, List.nil_append]
  rw [e]
  exact tableSides_append expSides0_eq (tableSides_append expSides1_eq (tableSides_append expSides2_eq (tableSides_append expSides3_eq (tableSides_append expSides4_eq (tableSides_append expSides5_eq (tableSides_append expSides6_eq (tableSides_append expSides7_eq (tableSides_append expSides8_eq (tableSides_append expSides9_eq (tableSides_append expSides10_eq (expSides11_eq)))))))))))

theorem expRational_schematic : ∀ p ∈ expRationalSides, schematicB p.1 = true ∧ schematicB p.2 = true := by
  simp only [expRationalSides, List.forall_mem_append]
  exact ⟨expSides0_schematic, expSides1_schematic, expSides2_schematic, expSides3_schematic, expSides4_schematic, expSides5_schematic, expSides6_schematic, expSides7_schematic, expSides8_schematic, expSides9_schematic, expSides10_schematic, expSides11_schematic⟩

set_option maxRecDepth 10000 in
theorem expSides_schematic : ∀ p ∈ expExploratorySides ++ (expStartingGood ++ [expLogSides]),
    schematicB p.1 = true ∧ schematicB p.2 = true := by decide +kernel

end Ruler
