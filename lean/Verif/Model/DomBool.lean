import Verif.Model.Domain
import Mathlib.Data.Bool.Basic
/-!
# Model of the Boolean domain, tests/bool.rs
-/
namespace Ruler

/-- `enum Bool`, tests/bool.rs:6-16. -/
inductive BoolOp where
  | not | and | or | xor | implies
  | lit (b : Bool)
  | var (x : String)
deriving DecidableEq

namespace BoolOp

/-- Number of children, tests/bool.rs:6-16. -/
def arity : BoolOp → Nat
  | not => 1
  | and | or | xor | implies => 2
  | lit _ | var _ => 0

/-- `eval`, tests/bool.rs:21-35. -/
def eval (len : Nat) : BoolOp → List (CVec Bool) → CVec Bool
  | not, [x] => cmap1 (fun x => some (!x)) x
  | and, [x, y] => cmap2 (fun x y => some (x && y)) x y
  | or, [x, y] => cmap2 (fun x y => some (x || y)) x y
  | xor, [x, y] => cmap2 (fun x y => some (Bool.xor x y)) x y
  | implies, [x, y] => cmap2 (fun x y => some (!x || y)) x y
  | lit c, [] => List.replicate len (some c)
  | _, _ => []

/-- `unwrap_interval`, tests/bool.rs:41-50; `none` is the panic. -/
def unwrap (I : Interval Bool) : Option (Bool × Bool) := I.low.bind fun l => I.high.map fun h => (l, h)

/-- `mk_interval`, tests/bool.rs:37-82; `none` is a panic. -/
def mkInterval : BoolOp → List (Interval Bool) → Option (Interval Bool)
  | lit c, [] => Interval.new (some c) (some c)
  | var _, [] => Interval.new (some false) (some true)
  | not, [x] => (unwrap x).bind fun x => Interval.new (some (!x.2)) (some (!x.1))
  | and, [x, y] => (unwrap x).bind fun x => (unwrap y).bind fun y =>
    Interval.new (some (x.1 && y.1)) (some (x.2 && y.2))
  | or, [x, y] => (unwrap x).bind fun x => (unwrap y).bind fun y =>
    Interval.new (some (x.1 || y.1)) (some (x.2 || y.2))
  | xor, [x, y] => (unwrap x).bind fun x => (unwrap y).bind fun y =>
    if x.1 = x.2 ∧ y.1 = y.2 then Interval.new (some (x.1 != y.1)) (some (x.1 != y.1))
    else Interval.new (some false) (some true)
  | implies, [x, y] => (unwrap x).bind fun x => (unwrap y).bind fun y =>
    Interval.new (some (!x.2 || y.1)) (some (!x.1 || y.2))
  | _, _ => none

end BoolOp

/-- Node-level functions of the Boolean language, tests/bool.rs:6-16 and 97-116. -/
instance : Lang BoolOp where
  decEq := inferInstance
  display
    | .not => "~" | .and => "&" | .or => "|" | .xor => "^" | .implies => "->"
    | .lit b => if b then "true" else "false"
    | .var x => x
  fromOp s k :=
    if s = "~" ∧ k = 1 then some .not else if s = "&" ∧ k = 2 then some .and
    else if s = "|" ∧ k = 2 then some .or else if s = "^" ∧ k = 2 then some .xor
    else if s = "->" ∧ k = 2 then some .implies
    else if k = 0 then some (if s = "true" then .lit true else if s = "false" then .lit false else .var s)
    else none
  toVar
    | .var x => some x
    | _ => none
  mkVar x := .var x
  isConst
    | .lit _ => true
    | _ => false
  allowed _ := true

/-- The samples of the Boolean domain, tests/bool.rs:85. -/
def boolSamples : List (Option Bool) := [some true, some false]

/-- `validate`, tests/bool.rs:108-110: everything is accepted. -/
def boolValidate (_ _ : PatternAst BoolOp) : ValidationResult := .valid

end Ruler
