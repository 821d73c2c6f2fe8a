import Verif.Model.DomNat
import Mathlib.Data.Rat.Defs
import Mathlib.Algebra.Order.Ring.Unbundled.Rat
/-!
# Model of the rational domain, tests/rational.rs

A `Ratio<i64>` is a rational number. The operations that can overflow are parameters, `Checked`.
-/
namespace Ruler

/-- `enum Math`, tests/rational.rs:28-40. -/
inductive MathOp where
  | add | sub | mul | div | neg | abs | ite
  | lit (c : Rat)
  | var (x : String)
deriving DecidableEq

/-- The arithmetic of `Ratio<i64>` (crate num): `checked_*` return `None` on overflow, negation and absolute value panic
(`none`) on overflow. -/
structure Checked where
  add : Rat → Rat → Option Rat
  sub : Rat → Rat → Option Rat
  mul : Rat → Rat → Option Rat
  div : Rat → Rat → Option Rat
  neg : Rat → Option Rat
  abs : Rat → Option Rat

namespace MathOp

/-- Number of children, tests/rational.rs:28-40. -/
def arity : MathOp → Nat
  | add | sub | mul | div => 2
  | neg | abs => 1
  | ite => 3
  | lit _ | var _ => 0

/-- `eval`, tests/rational.rs:45-78; `none` is a panic. -/
def eval (ck : Checked) (len : Nat) : MathOp → List (CVec Rat) → Option (CVec Rat)
  | add, [x, y] => some (cmap2 ck.add x y)
  | sub, [x, y] => some (cmap2 ck.sub x y)
  | mul, [x, y] => some (cmap2 ck.mul x y)
  | div, [x, y] => some (cmap2 ck.div x y)
  | neg, [x] => cmapP1 (fun x => (ck.neg x).map some) x
  | abs, [x] => cmapP1 (fun x => (ck.abs x).map some) x
  | lit c, [] => some (List.replicate len (some c))
  | ite, [x, y, z] => some (((x.zip y).zip z).map fun p =>
      match p.1.1 with
      | some c => if c ≠ 0 then p.1.2 else p.2
      | none => none)
  | _, _ => some []

/-- `get_const`, tests/rational.rs:84-91. -/
def getConst (I : Interval Rat) : Option Rat := if I.low = I.high then I.low else none

/-- The folded constant of `mk_interval`, tests/rational.rs:92-124. The outer `none` is a panic. -/
def foldConst (ck : Checked) : MathOp → List (Interval Rat) → Option (Option Rat)
  | lit n, [] => some (some n)
  | var _, [] => some none
  | neg, [x] => match getConst x with
    | some c => (ck.neg c).map some
    | none => some none
  | abs, [x] => match getConst x with
    | some c => (ck.abs c).map some
    | none => some none
  | add, [x, y] => some ((getConst x).bind fun x => (getConst y).bind fun y => ck.add x y)
  | sub, [x, y] => some ((getConst x).bind fun x => (getConst y).bind fun y => ck.sub x y)
  | mul, [x, y] => some ((getConst x).bind fun x => (getConst y).bind fun y => ck.mul x y)
  | div, [x, y] => some ((getConst x).bind fun x => (getConst y).bind fun y => ck.div x y)
  | ite, [x, y, z] => some ((getConst x).bind fun c => if c ≠ 0 then getConst y else getConst z)
  | _, _ => none

/-- `mk_interval`, tests/rational.rs:80-127. -/
def mkInterval (ck : Checked) (o : MathOp) (Is : List (Interval Rat)) : Option (Interval Rat) :=
  (foldConst ck o Is).bind fun r => match r with
    | some c => Interval.new (some c) (some c)
    | none => some ⟨none, none⟩

/-- `to_i32().unwrap()`. -/
def inI32 (i : Int) : Bool := decide (-2147483648 ≤ i ∧ i ≤ 2147483647)

/-- One step of `egg_to_z3`, tests/rational.rs:440-488. `none`: a literal whose numerator or denominator is not an
`i32`. -/
def toSmt : MathOp → List (Option (SmtTm Rat)) → Option (SmtTm Rat)
  | add, [some x, some y] => some (.add x y)
  | sub, [some x, some y] => some (.sub x y)
  | mul, [some x, some y] => some (.mul x y)
  | div, [some x, some y] => some (.div x y)
  | neg, [some x] => some (.neg x)
  | abs, [some x] => some (.ite (.le x (.num 0)) (.neg x) x)
  | lit c, [] => if inI32 c.num && inI32 c.den then some (.num c) else none
  | var v, [] => some (.const v)
  | ite, [some x, some y, some z] => some (.ite (.not (.eq x (.num 0))) y z)
  | _, _ => none

end MathOp

/-- Reading a leaf: a number (`FromStr for Ratio<i64>`) or else a variable. `none` is the panic when reducing the fraction
overflows (crate num, `Ratio::new`). -/
def MathOp.leaf (t : String) : Option MathOp :=
  match ratOfTextIn inI64 t.toList with
  | some c => if inI64 c.num && inI64 c.den then some (.lit c) else none
  | none => some (.var t)

/-- Node-level functions of the language, tests/rational.rs:28-40 and 148-157, 207-213. -/
instance : Lang MathOp where
  decEq := inferInstance
  display
    | .add => "+" | .sub => "-" | .mul => "*" | .div => "/" | .neg => "~" | .abs => "fabs" | .ite => "if"
    | .lit c => String.ofList (ratText c)
    | .var x => x
  fromOp t k :=
    match t, k with
    | "+", 2 => some .add | "-", 2 => some .sub | "*", 2 => some .mul | "/", 2 => some .div
    | "~", 1 => some .neg | "fabs", 1 => some .abs | "if", 3 => some .ite
    | t, 0 => MathOp.leaf t
    | _, _ => none
  toVar
    | .var x => some x
    | _ => none
  mkVar x := .var x
  isConst
    | .lit _ => true
    | _ => false
  allowed _ := true

/-- The samples, tests/rational.rs:130-136. -/
def rationalSamples : List (Option Rat) := [some (-1), some 0, some 1, some 2, some (-3)]

/-- Translation of a pattern, `egg_to_z3(Self::instantiate(..))`. -/
def ratPatSmt (p : Pat MathOp) : Option (SmtTm Rat) := Tm.fold MathOp.toSmt p.instantiate

mutual
/-- `error_conditions`, tests/rational.rs:326-371. Simplified: the code prints the pattern and walks the s-expression,
parsing sub-expressions again; here the pattern tree is walked. `none` is a panic of the translation. -/
def errorConditions : Pat MathOp → SmtFm Rat → Option (List (SmtFm Rat))
  | .var _, _ => some []
  | .node o args, path =>
    match o, args with
    | .div, [a, b] => (ratPatSmt b).bind fun d =>
        (errorConditions a path).bind fun ra => (errorConditions b path).map fun rb =>
          .and (.eq d (.num 0)) path :: (ra ++ rb)
    | .ite, [c, y, z] => (ratPatSmt c).bind fun c =>
        (errorConditions y (.and path (.not (.eq c (.num 0))))).bind fun ry =>
        (errorConditions z (.and path (.eq c (.num 0)))).map fun rz => ry ++ rz
    | _, args => errorConditionsL args path
/-- The loop over the list elements, lines 360-364. -/
def errorConditionsL : List (Pat MathOp) → SmtFm Rat → Option (List (SmtFm Rat))
  | [], _ => some []
  | p :: l, path => (errorConditions p path).bind fun a => (errorConditionsL l path).map fun b => a ++ b
end

/-- `z3::ast::Bool::or` of a list; the empty disjunction is false. -/
def SmtFm.anyOf (l : List (SmtFm Rat)) : SmtFm Rat := l.foldr .or (.lit false)

/-- The assertion built by `validate`, tests/rational.rs:185-199. -/
def ratAssertion (l r : SmtTm Rat) (ls rs : List (SmtFm Rat)) : SmtFm Rat :=
  .and ((ls ++ rs).foldl (fun acc c => .implies (.not c) acc) (.eq l r))
    (.iff (SmtFm.anyOf rs) (SmtFm.anyOf ls))

/-- `validate`, tests/rational.rs:159-205. `check` is the solver's answer on a formula. The trees of the two patterns are
passed besides the flat patterns, for `errorConditions`. -/
def ratValidate (check : SmtFm Rat → SatResult) (lhs rhs : PatternAst MathOp) : Option ValidationResult :=
  lhs.pat.bind fun lp => rhs.pat.bind fun rp =>
  lhs.instantiate.bind fun li => rhs.instantiate.bind fun ri =>
  ((RecExpr.run MathOp.toSmt li).join).bind fun l => ((RecExpr.run MathOp.toSmt ri).join).bind fun r =>
  (errorConditions lp (.lit true)).bind fun ls => (errorConditions rp (.lit true)).map fun rs =>
    (check (.not (ratAssertion l r ls rs))).toValidation

/-! ## Interval helpers, over unbounded rationals (overflow of `i64` is not modelled) -/

/-- `enum Sign`, tests/rational.rs:492-496. -/
inductive Sign where
  | positive | containsZero | negative
deriving DecidableEq

namespace RatInterval

/-- `sign`, tests/rational.rs:498-525. -/
def sign (I : Interval Rat) : Sign :=
  match I.low, I.high with
  | none, none => .containsZero
  | some x, none => if 0 < x then .positive else .containsZero
  | none, some y => if y < 0 then .negative else .containsZero
  | some x, some y =>
    if 0 < x ∧ 0 < y then .positive else if x < 0 ∧ y < 0 then .negative else .containsZero

/-- `neg`, tests/rational.rs:527-531. -/
def neg (I : Interval Rat) : Option (Interval Rat) := Interval.new (I.high.map (- ·)) (I.low.map (- ·))

/-- `_abs`, tests/rational.rs:533-569. -/
def abs (I : Interval Rat) : Option (Interval Rat) :=
  match I.low, I.high with
  | none, none => Interval.new none none
  | some x, none => if x < 0 then Interval.new (some (-x)) none else Interval.new (some x) none
  | none, some y => if y < 0 then Interval.new none (some (-y)) else Interval.new none (some y)
  | some x, some y =>
    if x < 0 then
      if y < 0 then Interval.new (some (-x)) (some (-y)) else Interval.new (some (-x)) (some y)
    else
      if y < 0 then Interval.new (some x) (some (-y)) else Interval.new (some x) (some y)

/-- `x.zip(y).map(..)`. -/
def zipOp (f : Rat → Rat → Rat) (x y : Option Rat) : Option Rat := x.bind fun x => y.map fun y => f x y

/-- `add`, tests/rational.rs:571-576. -/
def add (a b : Interval Rat) : Option (Interval Rat) :=
  Interval.new (zipOp (· + ·) a.low b.low) (zipOp (· + ·) a.high b.high)

/-- `mul`, tests/rational.rs:578-622. -/
def mul (a b : Interval Rat) : Option (Interval Rat) :=
  let m := zipOp (· * ·)
  match sign a, sign b with
  | .negative, .negative => Interval.new (m a.high b.high) (m a.low b.low)
  | .positive, .positive => Interval.new (m a.low b.low) (m a.high b.high)
  | .positive, .negative => Interval.new (m a.high b.low) (m a.low b.high)
  | .negative, .positive => Interval.new (m a.low b.high) (m a.high b.low)
  | .positive, .containsZero => Interval.new (m a.high b.low) (m a.high b.high)
  | .containsZero, .positive => Interval.new (m a.low b.high) (m a.high b.high)
  | .negative, .containsZero => Interval.new (m a.low b.high) (m a.low b.low)
  | .containsZero, .negative => Interval.new (m a.high b.low) (m a.low b.low)
  | .containsZero, .containsZero =>
    Interval.new (zipOp min (m a.low b.high) (m a.high b.low)) (zipOp max (m a.high b.high) (m a.low b.low))

/-- `recip`, tests/rational.rs:624-634. -/
def recip (I : Interval Rat) : Option (Interval Rat) :=
  match I.low, I.high with
  | some x, some y => match sign I with
    | .containsZero => some ⟨none, none⟩
    | _ => Interval.new (some y⁻¹) (some x⁻¹)
  | _, _ => some ⟨none, none⟩

end RatInterval
end Ruler
