import Verif.Model.DomRational
import Verif.Model.Inference
/-!
# Model of conditional rules, tests/rational.rs

Simplified: the code prints patterns, compares and parses the texts of denominators; here the patterns themselves are compared.
Timing and printing (lines 379, 381, 394-398, 415-418, 426-434) are left out.
-/
namespace Ruler
open EGraph

mutual
/-- `all_denominators`, tests/rational.rs:243-259. A hash set is a list whose order and repetitions do not matter. -/
def denominators : Pat MathOp → List (Pat MathOp)
  | .var _ => []
  | .node o args =>
    match o, args with
    | .div, [a, b] => b :: (denominators a ++ denominators b)
    | _, args => denominatorsL args
/-- The loop over the list elements, lines 251-253. -/
def denominatorsL : List (Pat MathOp) → List (Pat MathOp)
  | [] => []
  | p :: l => denominators p ++ denominatorsL l
end

/-- `all_denoms` in `add_condition`, tests/rational.rs:265-275: what is a denominator on one side only. -/
def ownDenominators (r : Rule MathOp) : List (Pat MathOp) :=
  let l := denominators r.lhs
  let r := denominators r.rhs
  dedup ((l ++ r).filter fun d => !(decide (d ∈ l) && decide (d ∈ r)))

/-- `add_condition`, tests/rational.rs:261-312. The outer `none` is a panic of `Rewrite::new(..).unwrap()`; the inner one is
`None`, returned if there is no such denominator or more than one (lines 277-278, 283-286). -/
def addCondition (r : Rule MathOp) : Option (Option (Rule MathOp)) :=
  match ownDenominators r with
  | [d] => (Rule.new r.lhs (.node .ite [d, r.rhs, r.lhs])).map some
  | _ => some none

/-- `invalid.0.iter().filter_map(..).collect()`, tests/rational.rs:400-413. -/
def addConditions : List (Rule MathOp) → Ruleset MathOp → Option (Ruleset MathOp)
  | [], acc => some acc
  | r :: l, acc => match addCondition r with
    | none => none
    | some none => addConditions l acc
    | some (some q) => addConditions l (Ruleset.add acc q)

/-- What a run returns besides the rules, for the statements about it: the candidates that were found invalid, and the rules
about which the validator was asked in the two selections. -/
structure CondLog where
  invalid : Ruleset MathOp
  asked : List (Rule MathOp)
  askedConditional : List (Rule MathOp)

/-- `run_workload_conditional`, tests/rational.rs:373-437. `M` are the choices of the second `minimize`. -/
def runWorkloadConditional {C : Type} [LinearOrder C] (D : Domain MathOp C) (R : RunEnv MathOp C) (M : MinEnv MathOp)
    (w : Workload) (prior : Ruleset MathOp) (limits : Limits) (fast : Bool) : Option (Ruleset MathOp × CondLog) :=
  (w.toEGraph D R.build).bind fun g =>
  ((Scheduler.compress limits).run D R.eg R.isSat prior R.tr g).bind fun compressed =>
  (if fast then fastCvecMatch compressed (R.order compressed) (R.best compressed)
    else cvecMatch compressed (R.order compressed) (R.best compressed)).bind fun cands =>
  match Ruleset.minimize D { R.min with sched := .compress limits } cands.length cands prior with
  | .done chosen invalid asked =>
    (addConditions (Ruleset.iter invalid) []).bind fun conditional =>
    match Ruleset.minimize D { M with sched := .compress limits } conditional.length conditional (Ruleset.union prior chosen) with
    | .done chosenConditional _ asked' => some (Ruleset.union chosen chosenConditional, ⟨invalid, asked, asked'⟩)
    | _ => none
  | _ => none

end Ruler
