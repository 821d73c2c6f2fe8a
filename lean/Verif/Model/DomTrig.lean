import Verif.Model.Domains
import Verif.Model.Rule
import Mathlib.Order.Defs.LinearOrder
/-!
# Model of the trigonometric domain, tests/trig.rs
-/
namespace Ruler

/-- `FromStr for Ratio<BigInt>` (crate num). -/
def ratOfText (s : List Char) : Option Rat := ratOfTextIn (fun _ => true) s

/-- `enum Trig`, tests/trig.rs:119-145. A real constant is its text (`Real`, 15-44). -/
inductive TrigOp where
  | sin | cos | tan | cis | neg | add | sub | mul | div | sqr | imag | pi
  | real (s : String)
  | var (x : String)
deriving DecidableEq

namespace TrigOp

/-- `FromStr for Real`, tests/trig.rs:36-45. Simplified: `is_numeric` is taken to accept the ASCII digits only. -/
def isReal (s : List Char) : Bool := !s.isEmpty && s.all fun c => c.isDigit || c == '-' || c == '/'

/-- `FromStr for Variable`, tests/trig.rs:79-90. -/
def parseVar (s : List Char) : Option String :=
  match s with
  | [c] => if c.isAlpha then some (String.singleton c) else none
  | ['?', c] => if c.isAlpha then some (String.singleton c) else none
  | _ => none

/-- `extract_constant`, tests/trig.rs:104-114. -/
def extractConstant (nodes : List (FNode TrigOp)) : Option Rat :=
  nodes.findSome? fun n => match n.op, n.children with
    | .real s, [] => ratOfText s.toList
    | _, _ => none

/-- What a node folds to, tests/trig.rs:239-279. -/
def foldNode (nodes : Nat → List (FNode TrigOp)) (n : FNode TrigOp) : Option Rat :=
  match n.op, n.children with
  | .neg, [i] => (extractConstant (nodes i)).map fun x => -x
  | .add, [i, j] => (extractConstant (nodes i)).bind fun x => (extractConstant (nodes j)).map fun y => x + y
  | .sub, [i, j] => (extractConstant (nodes i)).bind fun x => (extractConstant (nodes j)).map fun y => x - y
  | .mul, [i, j] => (extractConstant (nodes i)).bind fun x => (extractConstant (nodes j)).map fun y => x * y
  | .div, [i, j] => (extractConstant (nodes i)).bind fun x => (extractConstant (nodes j)).bind fun y =>
      if y = 0 then none else some (x / y)
  | _, _ => none

/-- The constant with the text of a number, `Real::from(x.to_string())`. -/
def constant (x : Rat) : Tm TrigOp := .node (.real (String.ofList (ratText x))) []

/-- `custom_modify`, tests/trig.rs:229-300: the first node that folds decides; for negative numbers and zero the negation of
the opposite number is added first. -/
def custom (nodes : Nat → List (FNode TrigOp)) (i : Nat) : List (Tm TrigOp) :=
  if (nodes i).any (fun n => match n.op with | .real _ => true | _ => false) then []
  else match (nodes i).findSome? (foldNode nodes) with
    | none => []
    | some v =>
      (match ratOfText (ratText v) with
        | some x => if x ≤ 0 then [.node .neg [constant (-x)]] else []
        | none => []) ++ [constant v]

/-- `get_exploratory_rules`, tests/trig.rs:154-190. -/
def exploratoryTexts : List String := [
  "(sin ?a) ==> (/ (- (cis ?a) (cis (~ ?a))) (* 2 I))",
  "(/ (- (cis ?a) (cis (~ ?a))) (* 2 I)) ==> (sin ?a)",
  "(cos ?a) ==> (/ (+ (cis ?a) (cis (~ ?a))) 2)",
  "(/ (+ (cis ?a) (cis (~ ?a))) 2) ==> (cos ?a)",
  "(tan ?a) ==> (* I (/ (- (cis (~ ?a)) (cis ?a)) (+ (cis (~ ?a)) (cis ?a))))",
  "(* I (/ (- (cis (~ ?a)) (cis ?a)) (+ (cis (~ ?a)) (cis ?a)))) ==> (tan ?a)",
  "(sin ?a) ==> (/ (- (* I (cis (~ ?a))) (* I (cis ?a))) 2)",
  "(/ (- (* I (cis (~ ?a))) (* I (cis ?a))) 2) => (sin ?a)",
  "(cos ?a) ==> (/ (+ (* I (cis ?a)) (* I (cis (~ ?a)))) (* 2 I))",
  "(/ (+ (* I (cis ?a)) (* I (cis (~ ?a)))) (* 2 I)) ==> (cos ?a)",
  "(tan ?a) ==> (/ (sin ?a) (cos ?a))",
  "(/ (sin ?a) (cos ?a)) ==> (tan ?a)",
  "(* (cos ?a) (cos ?b)) ==> (/ (+ (+ (cis (- ?a ?b)) (cis (~ (- ?a ?b)))) (+ (cis (+ ?a ?b)) (cis (~ (+ ?a ?b))))) 4)",
  "(* (sin ?a) (sin ?b)) ==> (/ (- (+ (cis (- ?a ?b)) (cis (~ (- ?a ?b)))) (+ (cis (+ ?a ?b)) (cis (~ (+ ?a ?b))))) 4)",
  "(* (cos ?a) (sin ?b)) ==> (/ (+ (- (cis (+ ?a ?b)) (cis (~ (+ ?a ?b)))) (- (cis (- ?b ?a)) (cis (~ (- ?b ?a))))) (* 4 I))",
  "(* (sin ?a) (cos ?b)) ==> (/ (+ (- (cis (+ ?a ?b)) (cis (~ (+ ?a ?b)))) (- (cis (- ?a ?b)) (cis (~ (- ?a ?b))))) (* 4 I))",
  "(sqr ?a) ==> (* ?a ?a)",
  "(* ?a ?a) ==> (sqr ?a)"]

/-- `prior_rules`, tests/trig.rs:328-350. -/
def priorTexts : List String := [
  "(+ PI PI) ==> (* 2 PI)",
  "(* 2 PI) ==> (+ PI PI)",
  "(cis 0) ==> 1",
  "(cis (/ PI 2)) ==> I",
  "(cis (~ (/ PI 2))) ==> (~ I)",
  "(cis PI) ==> -1",
  "(cis (+ ?a ?b)) ==> (* (cis ?a) (cis ?b))",
  "(* (cis ?a) (cis ?b)) ==> (cis (+ ?a ?b))",
  "(cis (- ?a ?b)) ==> (* (cis ?a) (cis (~ ?b)))",
  "(* (cis ?a) (cis (~ ?b))) ==> (cis (- ?a ?b))",
  "(cis (~ ?a)) ==> (/ 1 (cis ?a))",
  "(/ 1 (cis ?a)) ==> (cis (~ ?a))",
  "(* (cis ?a) (cis (~ ?a))) ==> 1",
  "(/ 1 I) ==> (~ I)",
  "(* I I) ==> -1"]

/-- The lines of scripts/oopsla21/trig/complex.rules, read in tests/recipes/trig.rs:15. -/
def complexTexts : List String := [
  "(- ?a (- ?b ?c)) ==> (- ?c (- ?b ?a))",
  "(* ?a (* ?b ?c)) ==> (* ?b (* ?a ?c))",
  "(- (- ?a ?b) ?c) ==> (- (- ?a ?c) ?b)",
  "(+ ?a (+ ?b ?c)) ==> (+ ?c (+ ?a ?b))",
  "(+ ?c (+ ?a ?b)) ==> (+ ?a (+ ?b ?c))",
  "(- (+ ?a ?b) ?c) ==> (+ ?a (- ?b ?c))",
  "(+ ?a (- ?b ?c)) ==> (- (+ ?a ?b) ?c)",
  "(- ?a (- ?b ?c)) ==> (+ ?a (- ?c ?b))",
  "(+ ?a (- ?c ?b)) ==> (- ?a (- ?b ?c))",
  "(/ ?a (* ?b ?c)) ==> (/ (/ ?a ?b) ?c)",
  "(/ (/ ?a ?b) ?c) ==> (/ ?a (* ?b ?c))",
  "(- ?a (+ ?b ?c)) ==> (- (- ?a ?b) ?c)",
  "(- (- ?a ?b) ?c) ==> (- ?a (+ ?b ?c))",
  "(/ (- ?a ?b) ?c) ==> (- (/ ?a ?c) (/ ?b ?c))",
  "(- (/ ?a ?c) (/ ?b ?c)) ==> (/ (- ?a ?b) ?c)",
  "(- (* ?a ?b) (* ?a ?c)) ==> (* ?a (- ?b ?c))",
  "(* ?a (- ?b ?c)) ==> (- (* ?a ?b) (* ?a ?c))",
  "(/ (+ ?a ?b) ?c) ==> (+ (/ ?b ?c) (/ ?a ?c))",
  "(+ (/ ?b ?c) (/ ?a ?c)) ==> (/ (+ ?a ?b) ?c)",
  "(+ (* ?a ?b) (* ?b ?c)) ==> (* ?b (+ ?a ?c))",
  "(* ?b (+ ?a ?c)) ==> (+ (* ?a ?b) (* ?b ?c))",
  "(/ (- (* ?a ?b) ?c) ?b) ==> (- ?a (/ ?c ?b))",
  "(- ?a (/ ?c ?b)) ==> (/ (- (* ?a ?b) ?c) ?b)",
  "(/ ?a (- (/ ?b ?c) ?a)) ==> (/ ?c (- (/ ?b ?a) ?c))",
  "(* ?a ?b) ==> (* ?b ?a)",
  "(+ ?a ?b) ==> (+ ?b ?a)",
  "(* ?a (+ ?b ?b)) ==> (* ?b (+ ?a ?a))",
  "(+ ?a ?a) ==> (* 2 ?a)",
  "(* 2 ?a) ==> (+ ?a ?a)",
  "(/ ?a ?b) ==> (/ (+ ?a ?a) (+ ?b ?b))",
  "(/ (+ ?a ?a) (+ ?b ?b)) ==> (/ ?a ?b)",
  "(- (* ?a ?a) (* ?b ?b)) ==> (* (- ?a ?b) (+ ?a ?b))",
  "(* (- ?a ?b) (+ ?a ?b)) ==> (- (* ?a ?a) (* ?b ?b))",
  "(~ (~ ?a)) ==> ?a",
  "?a ==> (~ (~ ?a))",
  "?a ==> (* ?a 1)",
  "(* ?a 1) ==> ?a",
  "?a ==> (+ ?a 0)",
  "(+ ?a 0) ==> ?a",
  "?a ==> (/ ?a 1)",
  "(/ ?a 1) ==> ?a",
  "?a ==> (- ?a 0)",
  "(- ?a 0) ==> ?a",
  "(- ?a ?a) ==> 0",
  "(/ ?a ?a) ==> 1",
  "(~ ?a) ==> (/ ?a -1)",
  "(/ ?a -1) ==> (~ ?a)",
  "(~ ?a) ==> (* ?a -1)",
  "(* ?a -1) ==> (~ ?a)",
  "(~ ?a) ==> (- 0 ?a)",
  "(- 0 ?a) ==> (~ ?a)",
  "(/ 0 ?a) ==> 0",
  "(* ?a 0) ==> 0",
  "(- ?a -1) ==> (+ ?a 1)",
  "(+ ?a 1) ==> (- ?a -1)",
  "(- ?a 1) ==> (+ ?a -1)",
  "(+ ?a -1) ==> (- ?a 1)"]

end TrigOp

/-- Node-level functions of the language, tests/trig.rs:119-145, 192-194 and 206-222. -/
instance : Lang TrigOp where
  decEq := inferInstance
  display
    | .sin => "sin" | .cos => "cos" | .tan => "tan" | .cis => "cis" | .neg => "~" | .add => "+" | .sub => "-"
    | .mul => "*" | .div => "/" | .sqr => "sqr" | .imag => "I" | .pi => "PI"
    | .real s => s
    | .var x => x
  fromOp t k :=
    if t = "sin" ∧ k = 1 then some .sin else if t = "cos" ∧ k = 1 then some .cos
    else if t = "tan" ∧ k = 1 then some .tan else if t = "cis" ∧ k = 1 then some .cis
    else if t = "~" ∧ k = 1 then some .neg else if t = "+" ∧ k = 2 then some .add
    else if t = "-" ∧ k = 2 then some .sub else if t = "*" ∧ k = 2 then some .mul
    else if t = "/" ∧ k = 2 then some .div else if t = "sqr" ∧ k = 1 then some .sqr
    else if t = "I" ∧ k = 0 then some .imag else if t = "PI" ∧ k = 0 then some .pi
    else if k = 0 then
      if TrigOp.isReal t.toList then some (.real t) else (TrigOp.parseVar t.toList).map .var
    else none
  toVar
    | .var x => some x
    | _ => none
  mkVar x := .var x
  isConst
    | .real _ => true
    | _ => false
  allowed
    | .imag | .cis | .sqr => false
    | _ => true

/-- tests/trig.rs: no evaluation (196-202), no initialisation of variables (205), the default interval analysis. The type of
constants (`Real`, ordered as symbols) plays no role without intervals; numbers stand for it. -/
def trigDomain : Domain TrigOp Rat where
  eval _ _ _ := some []
  mkInterval _ _ := some ⟨none, none⟩
  mkConst c := some (TrigOp.constant c)
  custom := TrigOp.custom

end Ruler
