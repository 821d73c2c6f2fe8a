import Verif.Model.Domains
import Verif.Model.Rule
import Mathlib.Algebra.Order.Group.Int
/-!
# Model of the domain of solids, tests/szalinski.rs
-/
namespace Ruler

/-- `enum CF`, tests/szalinski.rs:13-48. -/
inductive CadOp where
  | max | min | add | sub | mul | div | dimX | dimY | dimZ | subst | op | scalar | lit
  | num (n : Int)
  | cube | cylinder | sphere | trans | scale | union | inter | vec3 | true | false | empty
  | var (x : String)
deriving DecidableEq

namespace CadOp

/-- `get_subst_rules`, tests/szalinski.rs:50-67. -/
def substTexts : List String := [
  "(Lit ?x) ==> (Scalar (Lit ?x))",
  "(subst ?x ?y ?z (Scalar ?a)) ==> (Scalar ?a)",
  "(subst ?x ?y ?z x) ==> ?x",
  "(subst ?x ?y ?z y) ==> ?y",
  "(subst ?x ?y ?z z) ==> ?z",
  "(subst ?x ?y ?z (op ?op ?a ?b)) ==> (op ?op (subst ?x ?y ?z ?a) (subst ?x ?y ?z ?b))",
  "(subst ?x ?y ?z (subst ?x2 ?y2 ?z2 ?a)) ==>\n            (subst (subst ?x ?y ?z ?x2)\n                   (subst ?x ?y ?z ?y2)\n                   (subst ?x ?y ?z ?z2)\n                   ?a)",
  "(subst x y z ?a) ==> ?a",
  "(Scalar (op ?op ?a ?b)) ==> (op ?op (Scalar ?a) (Scalar ?b))"]

/-- `get_frep_rules`, tests/szalinski.rs:69-83. -/
def frepTexts : List String := [
  "(op / ?a (Lit 1)) ==> ?a",
  "(op - ?a (Lit 0)) ==> ?a",
  "(op - (op / ?a ?c) (op / ?b ?c)) ==> (op / (op - ?a ?b) ?c)",
  "(op - (op / ?a ?c) ?b) ==> (op / (op - ?a (op * ?b ?c)) ?c)",
  "(op / (op / ?a ?b) ?c) ==> (op / ?a (op * ?b ?c))",
  "(op - ?a (op + ?b ?c)) ==> (op - (op - ?a ?b) ?c)"]

/-- `get_subst_and_frep_rules`, tests/szalinski.rs:85-89. -/
def priorTexts : List String := frepTexts ++ substTexts

/-- `get_lifting_rules`, tests/szalinski.rs:91-111, which are the exploratory rules (151-153). -/
def liftingTexts : List String := [
  "(Scale (Vec3 ?w ?h ?l) ?e) ==> (subst (op / x (Scalar ?w)) (op / y (Scalar ?h)) (op / z (Scalar ?l)) ?e)",
  "(Cube (Vec3 ?a ?b ?c) false) ==>\n         (op min (op min (op min (op / x (Scalar ?a))\n                        (op / y (Scalar ?b)))\n                   (op / z (Scalar ?c)))\n              (op min (op min (op - (Lit 1) (op / x (Scalar ?a)))\n                        (op - (Lit 1) (op / y (Scalar ?b))))\n                   (op - (Lit 1) (op / z (Scalar ?c)))))",
  "(Cylinder (Vec3 ?h ?r ?r) ?params true) ==>\n         (op min (op - (op - (Lit 1) (op * (op / x (Scalar ?r)) (op / x (Scalar ?r))))\n                 (op * (op / y (Scalar ?r)) (op / y (Scalar ?r))))\n              (op min (op - (op / (Lit 1) (Lit 2)) (op / z (Scalar ?h)))\n                   (op + (op / (Lit 1) (Lit 2)) (op / z (Scalar ?h)))))",
  "(Sphere ?r ?params) ==> (op - (op - (op - (Lit 1) (op * (op / x (Scalar ?r)) (op / x (Scalar ?r))))\n                               (op * (op / y (Scalar ?r)) (op / y (Scalar ?r))))\n                            (op * (op / z (Scalar ?r)) (op / z (Scalar ?r))))",
  "(Trans (Vec3 ?a ?b ?c) ?e) ==> (subst (op - x (Scalar ?a)) (op - y (Scalar ?b)) (op - z (Scalar ?c)) ?e)"]

/-- The rules that the test expects to be derivable from the result, tests/szalinski.rs:287-297. -/
def expectedTexts : List String := [
  "?a <=> (Trans (Vec3 (Lit 0) (Lit 0) (Lit 0)) ?a)",
  "?a <=> (Scale (Vec3 (Lit 1) (Lit 1) (Lit 1)) ?a)",
  "(Scale (Vec3 ?b ?b ?b) (Cylinder (Vec3 (Lit 1) (Lit 1) (Lit 1)) ?a true)) <=> (Cylinder (Vec3 ?b ?b ?b) ?a true)",
  "(Scale (Vec3 (op * ?f ?e) (op * ?d ?c) (op * ?b ?a)) (Cube (Vec3 (Lit 1) (Lit 1) (Lit 1)) false)) <=> (Scale (Vec3 ?f ?d ?b) (Cube (Vec3 ?e ?c ?a) false))",
  "(Scale (Vec3 ?g ?e ?c) (Scale (Vec3 ?f ?d ?b) ?a)) <=> (Scale (Vec3 (op * ?g ?f) (op * ?e ?d) (op * ?c ?b)) ?a)",
  "(Trans (Vec3 (op + ?g ?d) (op + ?f ?c) (op + ?e ?b)) ?a) <=> (Trans (Vec3 ?g ?f ?e) (Trans (Vec3 ?d ?c ?b) ?a))",
  "(Scale (Vec3 ?d ?c ?b) (Trans (Vec3 ?g ?f ?e) ?a)) <=> (Trans (Vec3 (op * ?g ?d) (op * ?f ?c) (op * ?e ?b)) (Scale (Vec3 ?d ?c ?b) ?a))",
  "(Trans (Vec3 ?g ?e ?c) (Scale (Vec3 ?f ?d ?b) ?a)) <=> (Scale (Vec3 ?f ?d ?b) (Trans (Vec3 (op / ?g ?f) (op / ?e ?d) (op / ?c ?b)) ?a))",
  "(Scale (Vec3 ?f ?d ?b) (Cube (Vec3 ?e ?c ?a) false)) <=> (Cube (Vec3 (op * ?f ?e) (op * ?d ?c) (op * ?b ?a)) false)"]

end CadOp

/-- Node-level functions of the language, tests/szalinski.rs:13-48, 113-142, 155-168 and 181-203. -/
instance : Lang CadOp where
  decEq := inferInstance
  display
    | .max => "max" | .min => "min" | .add => "+" | .sub => "-" | .mul => "*" | .div => "/" | .dimX => "x"
    | .dimY => "y" | .dimZ => "z" | .subst => "subst" | .op => "op" | .scalar => "Scalar" | .lit => "Lit"
    | .cube => "Cube" | .cylinder => "Cylinder" | .sphere => "Sphere" | .trans => "Trans" | .scale => "Scale"
    | .union => "Union" | .inter => "Inter" | .vec3 => "Vec3" | .true => "true" | .false => "false"
    | .empty => "Empty"
    | .num n => String.ofList (showInt n)
    | .var x => x
  fromOp t k := match k with
    | 0 =>
      if t = "max" then some .max else if t = "min" then some .min else if t = "+" then some .add
      else if t = "-" then some .sub else if t = "*" then some .mul else if t = "/" then some .div
      else if t = "x" then some .dimX else if t = "y" then some .dimY else if t = "z" then some .dimZ
      else if t = "true" then some .true else if t = "false" then some .false else if t = "Empty" then some .empty
      else match parseInt inI64 t.toList with
        | some n => some (.num n)
        | none => some (.var t)
    | 1 =>
      if t = "Scalar" then some .scalar else if t = "Lit" then some .lit else none
    | 2 =>
      if t = "Cube" then some .cube else if t = "Sphere" then some .sphere else if t = "Trans" then some .trans
      else if t = "Scale" then some .scale else if t = "Union" then some .union else if t = "Inter" then some .inter else none
    | 3 =>
      if t = "op" then some .op else if t = "Cylinder" then some .cylinder else if t = "Vec3" then some .vec3 else none
    | 4 =>
      if t = "subst" then some .subst else none
    | _ => none
  toVar
    | .var x => some x
    | _ => none
  mkVar x := .var x
  isConst
    | .num _ => Bool.true
    | _ => Bool.false
  allowed
    | .max | .min | .dimX | .dimY | .dimZ | .subst | .scalar => Bool.false
    | _ => Bool.true

/-- tests/szalinski.rs: no evaluation (171-176), no initialisation of variables (179), the default interval analysis. -/
def cadDomain : Domain CadOp Int where
  eval _ _ _ := some []
  mkInterval _ _ := some ⟨none, none⟩
  mkConst c := some (.node (.num c) [])

end Ruler
