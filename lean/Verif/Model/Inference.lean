import Verif.Model.Candidates
import Verif.Model.Minimize
import Verif.Model.Recipe
/-!
# Model of the rule inference functions of `src/recipe_utils.rs`

`none` is a panic. The functions return, besides the ruleset, the rules about which the validator was asked (latest first);
the code does not store them. Timing and printing (lines 37, 48, 54-64, 106, 129, 131-139) are left out.
-/
namespace Ruler
open EGraph
variable {O C : Type} [Lang O] [LinearOrder C] (D : Domain O C)

/-- What is left open in a run of `run_workload_internal`: egg's choices while the e-graph is built and while it is
compressed, the order of `egraph.classes()`, the terms returned by egg's `Extractor`, and the parameters of `minimize`
(whose scheduler is fixed by the code). -/
structure RunEnv (O C : Type) where
  build : Egg
  eg : Egg
  isSat : Rule O → Bool
  tr : SchedTrace
  order : EGraph O C → List Nat
  best : EGraph O C → Nat → Tm O
  min : MinEnv O

/-- `run_workload_internal`, src/recipe_utils.rs:29-67. `minimize` needs at most one round per candidate (C21). -/
def runWorkloadInternal (R : RunEnv O C) (w : Workload) (prior : Ruleset O) (priorLimits minLimits : Limits)
    (fast allowEmpty : Bool) : Option (Ruleset O × List (Rule O)) :=
  (w.toEGraph D R.build).bind fun g =>
  ((Scheduler.compress priorLimits).run D R.eg R.isSat prior R.tr g).bind fun compressed =>
  (if fast then fastCvecMatch compressed (R.order compressed) (R.best compressed)
    else cvecMatch compressed (R.order compressed) (R.best compressed)).bind fun cands =>
  match Ruleset.minimize D { R.min with sched := .compress minLimits } cands.length cands prior with
  | .done chosen _ asked => if chosen.isEmpty && !allowEmpty then none else some (chosen, asked)
  | _ => none

/-- `run_workload`, src/recipe_utils.rs:74-89. -/
def runWorkload (R : RunEnv O C) (w : Workload) (prior : Ruleset O) (priorLimits minLimits : Limits) (fast : Bool) :
    Option (Ruleset O × List (Rule O)) :=
  runWorkloadInternal D R w prior priorLimits minLimits fast false

/-- What is left open in a run of `run_fast_forwarding`. -/
structure FastEnv (O C : Type) where
  build : Egg
  /-- The work-splitting of the parallel `partition`. -/
  split : Ruleset.Split
  isSat : Rule O → Bool
  egAllowed : Egg
  trAllowed : SchedTrace
  egDenote : Egg
  trDenote : SchedTrace
  egFinal : Egg
  trFinal : SchedTrace
  /-- The order of the classes of the first e-graph in `extract_candidates`. -/
  ids : EGraph O C → List Nat
  /-- The order of `unions.values()` in `extract_candidates`. -/
  keys : EGraph O C → EGraph O C → List Nat
  best : EGraph O C → Nat → Nat × Tm O
  min : MinEnv O

/-- `run_fast_forwarding`, src/recipe_utils.rs:100-142. `exploratory` is `L::get_exploratory_rules()`. -/
def runFastForwarding (F : FastEnv O C) (w : Workload) (prior exploratory : Ruleset O) (priorLimits minLimits : Limits) :
    Option (Ruleset O × List (Rule O)) :=
  (w.toEGraph D F.build).bind fun egInit =>
  let allowed := (Ruleset.partition F.split (fun r => isAllowedRewrite r.lhs r.rhs) prior).1
  ((Scheduler.compress priorLimits).run D F.egAllowed F.isSat allowed F.trAllowed egInit).bind fun egAllowed =>
  ((Scheduler.simple priorLimits).run D F.egDenote F.isSat exploratory F.trDenote egAllowed).bind fun egDenote =>
  (extractCandidates egDenote (F.ids egAllowed) (F.keys egAllowed egDenote) (F.best egAllowed)).bind fun cands1 =>
  let all := Ruleset.extend prior exploratory
  ((Scheduler.compress priorLimits).run D F.egFinal F.isSat all F.trFinal egDenote).bind fun egFinal =>
  (extractCandidates egFinal (F.ids egDenote) (F.keys egDenote egFinal) (F.best egDenote)).bind fun cands2 =>
  let cands := Ruleset.extend cands1 cands2
  match Ruleset.minimize D { F.min with sched := .compress minLimits } cands.length cands prior with
  | .done chosen _ asked => some (chosen, asked)
  | _ => none

/-- `Limits::synthesis()` and `Limits::minimize()`, src/lib.rs:91-106. -/
def Limits.synthesis : Limits := ⟨2, 300000, 200000⟩
/-- `Limits::minimize()`, src/lib.rs:100-106. -/
def Limits.minimize : Limits := ⟨2, 300000, 200000⟩

/-- `struct Lang`, src/recipe_utils.rs:144-149. -/
structure RecipeLang where
  vals : List (List Char)
  vars : List (List Char)
  ops : List (List (List Char))

/-- The loop that plugs in the operators, src/recipe_utils.rs:184-186; `i` is the loop index. -/
def plugOps : Nat → List (List (List Char)) → Workload → Option Workload
  | _, [], w => some w
  | i, ops :: rest, w => (Workload.ofTexts ops).bind fun p => plugOps (i + 1) rest (w.doPlug ("OP" ++ toString (i + 1)) p)

/-- The workload of one level of `recursive_rules`, src/recipe_utils.rs:174-186. -/
def recursiveWorkload (metric : Metric) (n : Nat) (lang : RecipeLang) : Option Workload :=
  let base := if lang.ops.length = 2 then baseLang 2 else baseLang 3
  let w := (iterMetric base "EXPR" metric n).addFilter (.contains (.lit "VAR"))
  (Workload.ofTexts lang.vars).bind fun vars =>
  (Workload.ofTexts lang.vals).bind fun vals =>
  plugOps 0 lang.ops ((w.doPlug "VAR" vars).doPlug "VAL" vals)

/-- `recursive_rules`, src/recipe_utils.rs:166-203; `envs k` are the choices in the run of level `k`. Also returned: for each
level the rules the validator was asked about. -/
def recursiveRules (envs : Nat → RunEnv O C) (metric : Metric) (lang : RecipeLang) (prior : Ruleset O) :
    Nat → Option (Ruleset O × List (Nat × List (Rule O)))
  | 0 => some ([], [])
  | n + 1 =>
    (recursiveRules envs metric lang prior n).bind fun rec =>
    (recursiveWorkload metric (n + 1) lang).bind fun w =>
    let known := Ruleset.extend rec.1 prior
    (runWorkloadInternal D (envs (n + 1)) w known Limits.synthesis Limits.minimize true (decide (n + 1 < 3))).map
      fun new => (Ruleset.extend new.1 known, (n + 1, new.2) :: rec.2)

end Ruler
