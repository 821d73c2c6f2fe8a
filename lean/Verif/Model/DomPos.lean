import Verif.Model.Analysis
import Verif.Model.Inference
import Mathlib.Order.Nat
/-!
# Model of the positive-number domain, tests/pos.rs, and of recipes of fast-forwarding runs
-/
namespace Ruler

/-- `enum Pos`, tests/pos.rs:11-27. -/
inductive PosOp where
  | z | s | xh | xo | xi | add | mul
  | var (x : String)
deriving DecidableEq

namespace PosOp

/-- `Pos::mk_constant_id` and `mk_constant`, tests/pos.rs:29-43 and 96-103 (which build the same nodes): the term of a
number. The first argument bounds the recursion; the number itself is enough. -/
def const : Nat → Nat → Tm PosOp
  | _, 0 => .node z []
  | _, 1 => .node xh []
  | 0, _ => .node z []
  | fuel + 1, c => if c % 2 = 0 then .node xo [const fuel (c / 2)] else .node xi [const fuel ((c - 1) / 2)]

/-- `get_exploratory_rules`, tests/pos.rs:52-61. -/
def exploratoryTexts : List String := [
  "XH ==> (S Z)",
  "(S Z) ==> XH",
  "(XO ?a) ==> (+ ?a ?a)",
  "(+ ?a ?a) ==> (XO ?a)",
  "(XI ?a) ==> (+ ?a (+ ?a (S Z)))",
  "(+ ?a (+ ?a (S Z))) ==> (XI ?a)"]

/-- `nat_rules`, tests/pos.rs:132-146 and 187-200. -/
def natTexts : List String := [
  "(+ ?b ?a) ==> (+ ?a ?b)",
  "(* ?b ?a) ==> (* ?a ?b)",
  "(+ Z ?a) ==> ?a",
  "(* ?a Z) ==> Z",
  "(S (+ ?b ?a)) ==> (+ ?b (S ?a))",
  "(* ?a (S Z)) ==> ?a",
  "(+ ?a (S Z)) ==> (S ?a)",
  "(+ ?c (+ ?b ?a)) ==> (+ ?a (+ ?b ?c))",
  "(* (* ?c ?b) ?a) ==> (* ?b (* ?c ?a))",
  "(+ ?b (* ?b ?a)) ==> (* ?b (S ?a))",
  "(* (+ ?b ?b) ?a) ==> (* ?b (+ ?a ?a))",
  "(+ ?a ?a) ==> (* ?a (S (S Z)))"]

end PosOp

/-- Node-level functions of the language, tests/pos.rs:11-27, 63-68 and 81-95. -/
instance : Lang PosOp where
  decEq := inferInstance
  display
    | .z => "Z" | .s => "S" | .xh => "XH" | .xo => "XO" | .xi => "XI" | .add => "+" | .mul => "*"
    | .var x => x
  fromOp t k :=
    if t = "Z" ∧ k = 0 then some .z else if t = "S" ∧ k = 1 then some .s
    else if t = "XH" ∧ k = 0 then some .xh else if t = "XO" ∧ k = 1 then some .xo
    else if t = "XI" ∧ k = 1 then some .xi
    else if t = "+" ∧ k = 2 then some .add else if t = "*" ∧ k = 2 then some .mul
    else if k = 0 then some (.var t) else none
  toVar
    | .var x => some x
    | _ => none
  mkVar x := .var x
  isConst
    | .z | .xh => true
    | _ => false
  allowed
    | .xh | .xo | .xi | .add | .mul | .var _ => true
    | _ => false

/-- tests/pos.rs: `eval` (70-76) gives the empty vector, `initialize_vars` (78-79) does nothing, the interval analysis is
the default one. -/
def posDomain : Domain PosOp Nat where
  eval _ _ _ := some []
  mkInterval _ _ := some ⟨none, none⟩
  mkConst c := some (PosOp.const c c)

variable {O C : Type} [Lang O] [LinearOrder C]

/-- What one step of a recipe of fast-forwarding runs is given. -/
structure FastStep (O C : Type) where
  env : FastEnv O C
  workload : Workload
  priorLimits : Limits
  minLimits : Limits

/-- A recipe of fast-forwarding runs, each with all rules known so far as prior and adding what it finds to them,
tests/pos.rs:202-221, tests/recipes/trig.rs:54-158, tests/recipes/exponential.rs:148-187. `exploratory` is
`L::get_exploratory_rules()`. -/
def fastRecipe (D : Domain O C) (exploratory : Ruleset O) : List (FastStep O C) → Ruleset O → Option (Ruleset O)
  | [], all => some all
  | st :: steps, all =>
    (runFastForwarding D st.env st.workload all exploratory st.priorLimits st.minLimits).bind fun r =>
      fastRecipe D exploratory steps (Ruleset.extend all r.1)

end Ruler
