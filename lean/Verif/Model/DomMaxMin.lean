import Verif.Model.Domains
import Verif.Model.Rule
import Verif.Model.Inference
/-!
# Model of the domain of maximum and minimum, tests/maxmin.rs
-/
namespace Ruler

/-- `enum CaddyAndFRep`, tests/maxmin.rs:130-162. -/
inductive MaxMinOp where
  | less | case | endcase | not | and | or | true | false | know | binop | unop | bool | dummy2 | dummy3 | ite | max | min | cheat
  | lit (c : Rat)
  | var (x : String)
deriving DecidableEq

namespace MaxMinOp

/-- `get_nat_rules`, tests/maxmin.rs:32-128. -/
def natTexts : List String := [
  "(& ?a ?b) ==> (binop & ?a ?b)",
  "(binop & ?a ?b) ==> (& ?a ?b)",
  "(| ?a ?b) ==> (binop | ?a ?b)",
  "(binop | ?a ?b) ==> (| ?a ?b)",
  "(< ?a ?b) ==> (binop < ?a ?b)",
  "(binop < ?a ?b) ==> (< ?a ?b)",
  "(! ?a) ==> (unop ! ?a)",
  "(unop ! ?a) ==> (! ?a)",
  "(& false ?a) ==> false",
  "(& true ?a) ==> ?a",
  "(& ?a (! ?a)) ==> false",
  "(| true ?a) ==> true",
  "(| false ?a) ==> ?a",
  "(| ?a (! ?a)) ==> true",
  "(! true) ==> false",
  "(! false) ==> true",
  "(& ?b ?a) ==> (& ?a ?b)",
  "(& ?a ?a) ==> ?a",
  "(& ?c (& ?b ?a)) ==> (& ?a (& ?b ?c))",
  "(| ?b ?a) ==> (| ?a ?b)",
  "(| ?a ?a) ==> ?a",
  "(| ?c (| ?b ?a)) ==> (| ?a (| ?b ?c))",
  "(! (! ?a)) ==> ?a",
  "?a ==> (! (! ?a))",
  "(! ?a) ==> (bool (dummy2 ! ?a))",
  "(bool (dummy2 ! ?a)) ==> (! ?a)",
  "(< ?a ?b) ==> (bool (dummy3 < ?a ?b))",
  "(bool (dummy3 < ?a ?b)) ==> (< ?a ?b)",
  "(& ?a ?b) ==> (bool (dummy3 & ?a ?b))",
  "(bool (dummy3 & ?a ?b)) ==> (& ?a ?b)",
  "(| ?a ?b) ==> (bool (dummy3 | ?a ?b))",
  "(bool (dummy3 | ?a ?b)) ==> (| ?a ?b)",
  "(binop ?op ?a (case ?c ?t ?rest)) ==> (case ?c (binop ?op ?a ?t) (binop ?op ?a ?rest))",
  "(binop ?op (case ?c ?t ?rest) ?a) ==> (case ?c (binop ?op ?t ?a) (binop ?op ?rest ?a))",
  "(binop ?op ?a endcase) ==> endcase",
  "(binop ?op endcase ?a) ==> endcase",
  "(case false ?t ?rest) ==> ?rest",
  "(case true ?t ?rest) ==> ?t",
  "(case ?c1 ?t1 (case ?c2 ?t2 ?rest)) ==> (case ?c2 ?t2 (case ?c1 ?t1 ?rest))",
  "(case ?x (case ?c ?t ?rest) ?outer) ==> (case (& ?x ?c) ?t (case (& ?x (! ?c)) ?rest ?outer))",
  "(case ?x endcase ?outer) ==> ?outer",
  "(case ?c1 ?t (case ?c2 ?t ?rest)) ==> (case (| ?c1 ?c2) ?t ?rest)",
  "(case ?c ?t ?rest) ==> (case ?c (know ?c ?t) ?rest)",
  "(know ?k ?e) ==> ?e",
  "(know ?k (case ?c ?t ?rest)) ==> (know ?k (case (know ?k ?c) (know ?k ?t) ?rest))",
  "(know ?k (binop ?op ?a ?b)) ==> (know ?k (binop ?op (know ?k ?a) (know ?k ?b)))",
  "(know ?k (unop ?op ?a)) ==> (know ?k (unop ?op (know ?k ?a)))",
  "(know (& ?k1 ?k2) ?e) ==> (know ?k1 (know ?k2 ?e))",
  "(know ?k1 (know ?k2 ?e)) ==> (know (& ?k1 ?k2) ?e)",
  "(know ?k (bool ?a)) ==> (know ?k (| (! ?k) (bool ?a)))"]

/-- `get_exploratory_rules`, tests/maxmin.rs:396-403. -/
def exploratoryTexts : List String := [
  "(ite ?c ?t ?e) ==> (case ?c ?t (case (! ?c) ?e endcase))",
  "(max ?a ?b) ==> (ite (< ?a ?b) ?b ?a)",
  "(min ?a ?b) ==> (ite (< ?a ?b) ?a ?b)"]

end MaxMinOp

/-- Node-level functions of the language, tests/maxmin.rs:130-162, 405-413 and 426-444. An operator's name without arguments is read as a
variable. (Underscores in numbers are not read.) -/
instance : Lang MaxMinOp where
  decEq := inferInstance
  display
    | .less => "<" | .case => "case" | .endcase => "endcase" | .not => "!" | .and => "&" | .or => "|" | .true => "true"
    | .false => "false" | .know => "know" | .binop => "binop" | .unop => "unop" | .bool => "bool" | .dummy2 => "dummy2"
    | .dummy3 => "dummy3" | .ite => "ite" | .max => "max" | .min => "min" | .cheat => "cheat"
    | .lit c => String.ofList (ratText c)
    | .var x => x
  fromOp t k := match k with
    | 0 =>
      if t = "endcase" then some .endcase else if t = "true" then some .true else if t = "false" then some .false
      else match ratOfTextIn (fun _ => Bool.true) t.toList with
        | some c => some (.lit c)
        | none => some (.var t)
    | 1 =>
      if t = "!" then some .not else if t = "bool" then some .bool else none
    | 2 =>
      if t = "<" then some .less else if t = "&" then some .and else if t = "|" then some .or else if t = "know" then some .know
      else if t = "unop" then some .unop else if t = "dummy2" then some .dummy2 else if t = "max" then some .max
      else if t = "min" then some .min else if t = "cheat" then some .cheat else none
    | 3 =>
      if t = "case" then some .case else if t = "binop" then some .binop else if t = "dummy3" then some .dummy3
      else if t = "ite" then some .ite else none
    | _ => none
  toVar
    | .var x => some x
    | _ => none
  mkVar x := .var x
  isConst
    | .lit _ => Bool.true
    | _ => Bool.false
  allowed
    | .max | .min | .var _ | .cheat => Bool.true
    | _ => Bool.false

/-- tests/maxmin.rs: no evaluation (416-421), no initialisation of variables (424), the default interval analysis. -/
def maxMinDomain : Domain MaxMinOp Rat where
  eval _ _ _ := some []
  mkInterval _ _ := some ⟨none, none⟩
  mkConst c := some (.node (.lit c) [])

end Ruler
