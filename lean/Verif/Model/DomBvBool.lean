import Verif.Model.Domains
import Verif.Model.Rule
/-!
# Model of the domain of two-bit vectors made of Booleans, tests/bv-bool.rs
-/
namespace Ruler

/-- `enum BvBool`, tests/bv-bool.rs:8-30. -/
inductive BvBoolOp where
  | not | and | or | xor | implies
  | lit (b : Bool)
  | band | bor | bxor | bnot
  | num (n : BV 2)
  | var (x : String)
  | make | first | second
deriving DecidableEq

namespace BvBoolOp

/-- The texts of `get_exploratory_rules`, tests/bv-bool.rs:46-55. -/
def exploratoryTexts : List String := [
  "(first (not ?a)) ==> (~ (first ?a))",
  "(second (not ?a)) ==> (~ (second ?a))",
  "(first (and ?a ?b)) ==> (& (first ?a) (first ?b))",
  "(second (and ?a ?b)) ==> (& (second ?a) (second ?b))",
  "(first (or ?a ?b)) ==> (| (first ?a) (first ?b))",
  "(second (or ?a ?b)) ==> (| (second ?a) (second ?b))",
  "(first (xor ?a ?b)) ==> (^ (first ?a) (first ?b))",
  "(second (xor ?a ?b)) ==> (^ (second ?a) (second ?b))"]

/-- The rule `def-bv`, tests/bv-bool.rs:57-62. Its condition (the matched class has a node with an allowed operator,
33-36) is not part of the model's rules; a run may leave out any of the matches, in particular those that fail it. -/
def defBv : Rule BvBoolOp :=
  ⟨"def-bv".toList, .var "?a", .node make [.node first [.var "?a"], .node second [.var "?a"]]⟩

/-- `get_bool_const`, tests/bv-bool.rs:123-131. -/
def boolConst (nodes : List (FNode BvBoolOp)) : Option Bool :=
  nodes.findSome? fun n => match n.op, n.children with
    | .lit b, [] => some b
    | _, _ => none

/-- The constant of two Booleans, tests/bv-bool.rs:137-142. -/
def pairConst : Bool → Bool → BV 2
  | true, true => .new 3
  | true, false => .new 2
  | false, true => .new 1
  | false, false => .new 0

/-- `custom_modify`, tests/bv-bool.rs:117-151. -/
def custom (nodes : Nat → List (FNode BvBoolOp)) (i : Nat) : List (Tm BvBoolOp) :=
  if (nodes i).any (fun n => match n.op with | .num _ => true | _ => false) then []
  else ((nodes i).findSome? fun n => match n.op, n.children with
    | .make, [a, b] => (boolConst (nodes a)).bind fun x => (boolConst (nodes b)).map fun y =>
        (Tm.node (.num (pairConst x y)) [] : Tm BvBoolOp)
    | _, _ => none).toList

end BvBoolOp

/-- Node-level functions of the language, tests/bv-bool.rs:8-30, 66-77 and 99-115. Texts of numbers whose parsing panics
are not accepted. -/
instance : Lang BvBoolOp where
  decEq := inferInstance
  display
    | .not => "~" | .and => "&" | .or => "|" | .xor => "^" | .implies => "->"
    | .lit true => "true" | .lit false => "false"
    | .band => "and" | .bor => "or" | .bxor => "xor" | .bnot => "not"
    | .num n => String.ofList n.display
    | .var x => x
    | .make => "bv" | .first => "first" | .second => "second"
  fromOp t k :=
    if t = "~" ∧ k = 1 then some .not else if t = "&" ∧ k = 2 then some .and
    else if t = "|" ∧ k = 2 then some .or else if t = "^" ∧ k = 2 then some .xor
    else if t = "->" ∧ k = 2 then some .implies
    else if t = "true" ∧ k = 0 then some (.lit true) else if t = "false" ∧ k = 0 then some (.lit false)
    else if t = "and" ∧ k = 2 then some .band else if t = "or" ∧ k = 2 then some .bor
    else if t = "xor" ∧ k = 2 then some .bxor else if t = "not" ∧ k = 1 then some .bnot
    else if t = "bv" ∧ k = 2 then some .make else if t = "first" ∧ k = 1 then some .first
    else if t = "second" ∧ k = 1 then some .second
    else if k = 0 then
      match BV.parse (N := 2) t.toList with
      | some (some n) => some (.num n)
      | some none => some (.var t)
      | none => none
    else none
  toVar
    | .var x => some x
    | _ => none
  mkVar x := .var x
  isConst
    | .lit _ => true
    | _ => false
  allowed
    | .band | .bxor | .bnot | .bor | .num _ | .var _ | .make => true
    | _ => false

/-- tests/bv-bool.rs: no evaluation (79-86), the default interval analysis, `custom_modify` (117-151) and
`initialize_vars` (88-97), which unites every variable with the pair of its bits (all vectors are empty, so storing
another empty vector for the variable changes nothing). -/
def bvBoolDomain : Domain BvBoolOp (BV 2) where
  eval _ _ _ := some []
  mkInterval _ _ := some ⟨none, none⟩
  mkConst c := some (.node (.num c) [])
  custom := BvBoolOp.custom
  initVars vars := some (0, vars.map fun x => (x, []))
  varTerms x := [.node .make [.node .first [.node (.var x) []], .node .second [.node (.var x) []]]]

/-- `get_exploratory_rules`, tests/bv-bool.rs:45-64. `none` is a panic. -/
def bvBoolExploratory : Option (Ruleset BvBoolOp) :=
  (Ruleset.new (BvBoolOp.exploratoryTexts.map String.toList)).map fun rs => Ruleset.add rs BvBoolOp.defBv

end Ruler
