import Verif.Model.Domains
import Verif.Model.DomTrig
/-!
# Model of the exponential domain, tests/exponential.rs
-/
namespace Ruler

/-- `enum Exponential`, tests/exponential.rs:16-39. -/
inductive ExpOp where
  | exp | log | pow | sqrt | cbrt | neg | add | sub | mul | div | ite | abs
  | num (q : Rat)
  | var (x : String)
deriving DecidableEq

namespace ExpOp

/-- The texts of `get_exploratory_rules`, tests/exponential.rs:97-108. -/
def exploratoryTexts : List String := [
  "(pow ?a ?b) ==> (exp (* ?b (log ?a)))",
  "(sqrt ?a) ==> (pow ?a 1/2)",
  "(cbrt ?a) ==> (pow ?a 1/3)",
  "(exp (* ?b (log ?a))) ==> (pow ?a ?b)",
  "(pow ?a 1/2) ==> (sqrt ?a)",
  "(pow ?a 1/3) ==> (cbrt ?a)"]

/-- The texts of `starting_exponential_rules`, tests/exponential.rs:123-136. -/
def startingTexts : List String := [
  "(exp (+ ?a ?b)) ==> (* (exp ?a) (exp ?b))",
  "(exp (~ ?a)) ==> (/ 1 (exp ?a))",
  "(* (exp ?a) (exp ?b)) ==> (exp (+ ?a ?b))",
  "(/ 1 (exp ?a)) ==> (exp (~ ?a))",
  "(exp 0) ==> 1",
  "(log (exp ?a)) ==> ?a",
  "(exp (log ?a)) ==> ?a"]

/-- The texts of `rational_rules`, tests/exponential.rs:138-282. -/
def rationalTexts : List String := [
  "(+ ?b ?a) ==> (+ ?a ?b)",
  "(* ?b ?a) ==> (* ?a ?b)",
  "(- ?a ?a) ==> 0",
  "(+ ?a 0) ==> ?a",
  "?a ==> (+ ?a 0)",
  "(* ?a 1) ==> ?a",
  "?a ==> (* ?a 1)",
  "(- ?a 0) ==> ?a",
  "?a ==> (- ?a 0)",
  "(/ ?a 1) ==> ?a",
  "?a ==> (/ ?a 1)",
  "(/ ?a -1) ==> (~ ?a)",
  "(~ ?a) ==> (/ ?a -1)",
  "(- 0 ?a) ==> (~ ?a)",
  "(~ ?a) ==> (- 0 ?a)",
  "(* ?a -1) ==> (~ ?a)",
  "(~ ?a) ==> (* ?a -1)",
  "(- ?a ?a) ==> (* ?a 0)",
  "(* ?a 0) ==> (- ?a ?a)",
  "(+ ?a 1) ==> (- ?a -1)",
  "(- ?a -1) ==> (+ ?a 1)",
  "(+ ?a -1) ==> (- ?a 1)",
  "(- ?a 1) ==> (+ ?a -1)",
  "(* (+ ?a 1) (/ -1 ?a)) ==> (/ (- -1 ?a) ?a)",
  "(/ (- -1 ?a) ?a) ==> (* (+ ?a 1) (/ -1 ?a))",
  "(* (/ -1 ?a) (- 1 ?a)) ==> (/ (- ?a 1) ?a)",
  "(/ (- ?a 1) ?a) ==> (* (/ -1 ?a) (- 1 ?a))",
  "(- (/ ?a ?a) (/ 0 ?a)) ==> (* (~ ?a) (/ -1 ?a))",
  "(* (~ ?a) (/ -1 ?a)) ==> (- (/ ?a ?a) (/ 0 ?a))",
  "(* (- 1 ?a) (/ 1 ?a)) ==> (/ (- 1 ?a) ?a)",
  "(/ (- 1 ?a) ?a) ==> (* (- 1 ?a) (/ 1 ?a))",
  "(* ?a (/ 1 ?a)) ==> (- (/ ?a ?a) (/ 0 ?a))",
  "(- (/ ?a ?a) (/ 0 ?a)) ==> (* ?a (/ 1 ?a))",
  "(* (+ ?a 1) (/ 1 ?a)) ==> (/ (+ ?a 1) ?a)",
  "(/ (+ ?a 1) ?a) ==> (* (+ ?a 1) (/ 1 ?a))",
  "(* ?a (/ -1 ?a)) ==> (- (/ 0 ?a) (/ ?a ?a))",
  "(- (/ 0 ?a) (/ ?a ?a)) ==> (* ?a (/ -1 ?a))",
  "(/ (/ 0 ?a) ?a) ==> (/ (/ 0 ?a) (+ ?a ?a))",
  "(/ (/ 0 ?a) (+ ?a ?a)) ==> (/ (/ 0 ?a) ?a)",
  "(/ (/ 0 ?a) ?a) ==> (/ (/ 0 ?a) (* ?a ?a))",
  "(/ (/ 0 ?a) (* ?a ?a)) ==> (/ (/ 0 ?a) ?a)",
  "(/ (/ 0 ?a) ?a) ==> (/ (/ 0 ?a) (fabs ?a))",
  "(/ (/ 0 ?a) (fabs ?a)) ==> (/ (/ 0 ?a) ?a)",
  "(/ 0 (* ?a ?a)) ==> (/ 0 ?a)",
  "(/ 0 ?a) ==> (/ 0 (* ?a ?a))",
  "(/ 0 (+ ?a ?a)) ==> (/ 0 ?a)",
  "(+ ?c (+ ?b ?a)) ==> (+ ?a (+ ?b ?c))",
  "(* ?c (* ?b ?a)) ==> (* ?b (* ?c ?a))",
  "(- ?c (- ?b ?a)) ==> (- ?a (- ?b ?c))",
  "(- ?c (- ?b ?a)) ==> (+ ?a (- ?c ?b))",
  "(+ (* ?b ?c) (* ?b ?a)) ==> (* ?b (+ ?a ?c))",
  "(- (* ?a ?c) (* ?b ?a)) ==> (* ?a (- ?c ?b))",
  "(* (/ ?c ?a) (* ?b ?a)) ==> (* (* ?c ?a) (/ ?b ?a))",
  "(* (* ?c ?a) (/ ?b ?a)) ==> (* (/ ?c ?a) (* ?b ?a))",
  "(- (+ ?c ?c) (+ ?b ?a)) ==> (- (- ?c ?b) (- ?a ?c))",
  "(- (+ ?b ?c) (+ ?b ?a)) ==> (- (+ ?c ?c) (+ ?a ?c))",
  "(fabs (- ?b ?a)) ==> (fabs (- ?a ?b))",
  "(* (fabs ?b) (fabs ?a)) ==> (fabs (* ?a ?b))",
  "(/ (- ?a ?b) (- ?b ?a)) ==> (/ (- ?b ?a) (- ?a ?b))",
  "(/ (- ?b ?a) (- ?b ?a)) ==> (/ (- ?a ?b) (- ?a ?b))",
  "(/ (* ?a ?b) (/ ?a ?a)) ==> (* (/ ?b ?a) (* ?a ?a))",
  "(* (/ ?b ?a) (* ?a ?a)) ==> (/ (* ?a ?b) (/ ?a ?a))",
  "(- (* ?b ?b) (* ?a ?a)) ==> (* (- ?b ?a) (+ ?a ?b))",
  "(- ?a (+ ?b ?a)) ==> (/ (+ ?b ?b) -2)",
  "(- (+ ?a ?b) ?a) ==> (/ (+ ?b ?b) 2)",
  "(* (- ?b ?a) -2) ==> (- (+ ?a ?a) (+ ?b ?b))",
  "(- (+ ?b ?b) (+ ?a ?a)) ==> (* (- ?b ?a) 2)",
  "(* (- ?b ?a) 2) ==> (- (+ ?b ?b) (+ ?a ?a))",
  "(/ (- ?b ?a) -2) ==> (/ (- ?a ?b) 2)",
  "(/ 0 (- ?b ?a)) ==> (/ 0 (- ?a ?b))",
  "(* (+ ?a ?b) (/ 0 ?a)) ==> (* ?b (/ 0 ?a))",
  "(* ?b (/ 0 ?a)) ==> (* (+ ?a ?b) (/ 0 ?a))",
  "(* (* ?a ?b) (/ 0 ?a)) ==> (* (fabs ?a) (/ 0 ?a))",
  "(* (/ 0 ?b) (/ 0 ?a)) ==> (* (/ ?b ?a) (/ 0 ?b))",
  "(fabs (fabs ?a)) ==> (fabs ?a)",
  "(fabs ?a) ==> (fabs (fabs ?a))",
  "(fabs (* ?a ?a)) ==> (* ?a ?a)",
  "(* ?a ?a) ==> (fabs (* ?a ?a))",
  "(/ ?a (fabs ?a)) ==> (/ (fabs ?a) ?a)",
  "(/ (fabs ?a) ?a) ==> (/ ?a (fabs ?a))",
  "(/ ?a ?a) ==> (/ (fabs ?a) (fabs ?a))",
  "(/ (fabs ?a) (fabs ?a)) ==> (/ ?a ?a)",
  "(fabs (+ ?a ?a)) ==> (+ (fabs ?a) (fabs ?a))",
  "(+ (fabs ?a) (fabs ?a)) ==> (fabs (+ ?a ?a))",
  "(/ (* ?a ?a) (* ?a ?a)) ==> (/ ?a ?a)",
  "(/ ?a ?a) ==> (/ (* ?a ?a) (* ?a ?a))",
  "(/ ?a ?a) ==> (/ (+ ?a ?a) (+ ?a ?a))",
  "(/ (+ ?a ?a) (+ ?a ?a)) ==> (/ ?a ?a)",
  "(+ ?a (/ 0 ?a)) ==> (/ (* ?a ?a) ?a)",
  "(/ (* ?a ?a) ?a) ==> (+ ?a (/ 0 ?a))",
  "(/ (* ?a ?a) (fabs ?a)) ==> (+ (fabs ?a) (/ 0 ?a))",
  "(+ (fabs ?a) (/ 0 ?a)) ==> (/ (* ?a ?a) (fabs ?a))",
  "(- (/ ?a ?a) ?a) ==> (* (/ ?a ?a) (- 1 ?a))",
  "(* (/ ?a ?a) (- 1 ?a)) ==> (- (/ ?a ?a) ?a)",
  "(* (/ ?a ?a) (- ?a 1)) ==> (- ?a (/ ?a ?a))",
  "(- ?a (/ ?a ?a)) ==> (* (/ ?a ?a) (- ?a 1))",
  "(/ 0 ?a) ==> (/ 0 (fabs ?a))",
  "(/ 0 (fabs ?a)) ==> (/ 0 ?a)",
  "(/ 0 ?a) ==> (/ 0 (+ ?a ?a))",
  "?a ==> (/ ?a (/ ?a ?a))",
  "(/ ?a (/ ?a ?a)) ==> ?a",
  "(- (/ ?a 2) 1) ==> (/ (- ?a 2) 2)",
  "(/ (- ?a 2) 2) ==> (- (/ ?a 2) 1)",
  "(- 1 (/ ?a 2)) ==> (/ (- 2 ?a) 2)",
  "(/ (- 2 ?a) 2) ==> (- 1 (/ ?a 2))",
  "(/ (+ 2 ?a) 2) ==> (+ 1 (/ ?a 2))",
  "(+ 1 (/ ?a 2)) ==> (/ (+ 2 ?a) 2)",
  "(fabs (- (fabs ?a) (/ ?a 2))) ==> (- (fabs ?a) (/ ?a 2))",
  "(- (fabs ?a) (/ ?a 2)) ==> (fabs (- (fabs ?a) (/ ?a 2)))",
  "(+ (fabs ?a) (- 1 ?a)) ==> (fabs (+ (fabs ?a) (- 1 ?a)))",
  "(fabs (+ (fabs ?a) (- 1 ?a))) ==> (+ (fabs ?a) (- 1 ?a))",
  "(fabs (+ (fabs ?a) (/ ?a 2))) ==> (+ (fabs ?a) (/ ?a 2))",
  "(+ (fabs ?a) (/ ?a 2)) ==> (fabs (+ (fabs ?a) (/ ?a 2)))",
  "(* (fabs ?a) (/ 0 ?a)) ==> (/ 0 (/ ?a ?a))",
  "(/ 0 (/ ?a ?a)) ==> (* (fabs ?a) (/ 0 ?a))",
  "(/ 0 (/ ?a ?a)) ==> (fabs (/ 0 (/ ?a ?a)))",
  "(fabs (/ 0 (/ ?a ?a))) ==> (/ 0 (/ ?a ?a))",
  "(/ (fabs ?a) 4) ==> (fabs (/ (/ ?a 2) 2))",
  "(fabs (/ (/ ?a 2) 2)) ==> (/ (fabs ?a) 4)",
  "(/ (fabs ?a) 4) ==> (fabs (/ (fabs ?a) 4))",
  "(fabs (/ (fabs ?a) 4)) ==> (/ (fabs ?a) 4)",
  "(/ (fabs ?a) 3) ==> (fabs (/ (fabs ?a) 3))",
  "(fabs (/ (fabs ?a) 3)) ==> (/ (fabs ?a) 3)",
  "(fabs (- (fabs ?a) (/ 0 ?a))) ==> (fabs (/ (* ?a ?a) (fabs ?a)))",
  "(fabs (/ (* ?a ?a) (fabs ?a))) ==> (fabs (- (fabs ?a) (/ 0 ?a)))",
  "(/ (+ ?a ?a) (fabs ?a)) ==> (/ (fabs ?a) (/ ?a 2))",
  "(/ (fabs ?a) (/ ?a 2)) ==> (/ (+ ?a ?a) (fabs ?a))",
  "(/ (fabs ?a) (+ ?a ?a)) ==> (/ (/ ?a 2) (fabs ?a))",
  "(/ (/ ?a 2) (fabs ?a)) ==> (/ (fabs ?a) (+ ?a ?a))",
  "(- (fabs ?a) ?a) ==> (fabs (- (fabs ?a) ?a))",
  "(fabs (- (fabs ?a) ?a)) ==> (- (fabs ?a) ?a)",
  "(fabs (+ ?a (fabs ?a))) ==> (+ ?a (fabs ?a))",
  "(+ ?a (fabs ?a)) ==> (fabs (+ ?a (fabs ?a)))",
  "(fabs (* (fabs ?b) (/ ?a 2))) ==> (fabs (/ (* ?a ?b) 2))",
  "(+ (fabs ?b) (fabs ?a)) ==> (fabs (+ (fabs ?b) (fabs ?a)))",
  "(fabs (+ (fabs ?b) (fabs ?a))) ==> (+ (fabs ?b) (fabs ?a))",
  "(fabs (/ ?b (fabs ?a))) ==> (fabs (/ ?b ?a))",
  "(fabs (/ ?b ?a)) ==> (fabs (/ ?b (fabs ?a)))",
  "(fabs (/ (fabs ?c) (- ?b ?a))) ==> (fabs (/ (fabs ?c) (- ?a ?b)))",
  "(fabs (* (fabs ?c) (* ?b ?a))) ==> (fabs (* (fabs ?a) (* ?b ?c)))",
  "(- (fabs ?c) (- ?b ?a)) ==> (+ (fabs ?c) (- ?a ?b))"]

end ExpOp

/-- Node-level functions of the language, tests/exponential.rs:16-39, 68-86 and 110-112. A leaf is a number if it is the text
of a fraction, otherwise a variable. Simplified: underscores between digits, which the number parser skips, are not. -/
instance : Lang ExpOp where
  decEq := inferInstance
  display
    | .exp => "exp" | .log => "log" | .pow => "pow" | .sqrt => "sqrt" | .cbrt => "cbrt" | .neg => "~" | .add => "+"
    | .sub => "-" | .mul => "*" | .div => "/" | .ite => "if" | .abs => "fabs"
    | .num q => String.ofList (ratText q)
    | .var x => x
  fromOp t k :=
    if t = "exp" ∧ k = 1 then some .exp else if t = "log" ∧ k = 1 then some .log
    else if t = "pow" ∧ k = 2 then some .pow else if t = "sqrt" ∧ k = 1 then some .sqrt
    else if t = "cbrt" ∧ k = 1 then some .cbrt else if t = "~" ∧ k = 1 then some .neg
    else if t = "+" ∧ k = 2 then some .add else if t = "-" ∧ k = 2 then some .sub
    else if t = "*" ∧ k = 2 then some .mul else if t = "/" ∧ k = 2 then some .div
    else if t = "if" ∧ k = 3 then some .ite else if t = "fabs" ∧ k = 1 then some .abs
    else if k = 0 then
      match ratOfText t.toList with
      | some q => some (.num q)
      | none => some (.var t)
    else none
  toVar
    | .var x => some x
    | _ => none
  mkVar x := .var x
  isConst
    | .num _ => true
    | _ => false
  allowed _ := true

/-- tests/exponential.rs: no evaluation (44-50), the default interval analysis, constants (84-86), and `initialize_vars`
(52-66), which unites every variable `x` with `(exp (log x))` and `(log (exp x))`. -/
def expDomain : Domain ExpOp Rat where
  eval _ _ _ := some []
  mkInterval _ _ := some ⟨none, none⟩
  mkConst c := some (.node (.num c) [])
  initVars vars := some (0, vars.map fun x => (x, []))
  varTerms x := [.node .exp [.node .log [.node (.var x) []]], .node .log [.node .exp [.node (.var x) []]]]

end Ruler
