import Verif.Model.DomMaxMin
import Mathlib.Order.Defs.LinearOrder
/-!
# Specification vocabulary for maximum and minimum
-/
namespace Ruler
namespace Spec

/-- The lines of `get_nat_rules` that are right if `(case c t e)` is `t` or `e` according to whether `c` is true, and that do not
mention the name of an operator as a leaf. -/
def maxMinSound : List String := [
  "(& false ?a) ==> false",
  "(& true ?a) ==> ?a",
  "(& ?a (! ?a)) ==> false",
  "(| true ?a) ==> true",
  "(| false ?a) ==> ?a",
  "(| ?a (! ?a)) ==> true",
  "(! true) ==> false",
  "(! false) ==> true",
  "(& ?b ?a) ==> (& ?a ?b)",
  "(& ?a ?a) ==> ?a",
  "(& ?c (& ?b ?a)) ==> (& ?a (& ?b ?c))",
  "(| ?b ?a) ==> (| ?a ?b)",
  "(| ?a ?a) ==> ?a",
  "(| ?c (| ?b ?a)) ==> (| ?a (| ?b ?c))",
  "(! (! ?a)) ==> ?a",
  "?a ==> (! (! ?a))",
  "(binop ?op ?a (case ?c ?t ?rest)) ==> (case ?c (binop ?op ?a ?t) (binop ?op ?a ?rest))",
  "(binop ?op (case ?c ?t ?rest) ?a) ==> (case ?c (binop ?op ?t ?a) (binop ?op ?rest ?a))",
  "(binop ?op ?a endcase) ==> endcase",
  "(binop ?op endcase ?a) ==> endcase",
  "(case false ?t ?rest) ==> ?rest",
  "(case true ?t ?rest) ==> ?t",
  "(case ?x (case ?c ?t ?rest) ?outer) ==> (case (& ?x ?c) ?t (case (& ?x (! ?c)) ?rest ?outer))",
  "(case ?c1 ?t (case ?c2 ?t ?rest)) ==> (case (| ?c1 ?c2) ?t ?rest)",
  "(case ?c ?t ?rest) ==> (case ?c (know ?c ?t) ?rest)",
  "(know ?k ?e) ==> ?e",
  "(know ?k (case ?c ?t ?rest)) ==> (know ?k (case (know ?k ?c) (know ?k ?t) ?rest))",
  "(know ?k (binop ?op ?a ?b)) ==> (know ?k (binop ?op (know ?k ?a) (know ?k ?b)))",
  "(know ?k (unop ?op ?a)) ==> (know ?k (unop ?op (know ?k ?a)))",
  "(know (& ?k1 ?k2) ?e) ==> (know ?k1 (know ?k2 ?e))",
  "(know ?k1 (know ?k2 ?e)) ==> (know (& ?k1 ?k2) ?e)",
  "(know ?k (bool ?a)) ==> (know ?k (| (! ?k) (bool ?a)))"]

/-- Maximum and minimum in an ordered set. The other operators do not matter. -/
def orderVal {α : Type} [LinearOrder α] (d : α) : MaxMinOp → List α → α
  | .max, [x, y] => max x y
  | .min, [x, y] => min x y
  | _, x :: _ => x
  | _, [] => d

end Spec
end Ruler
