import Verif.Model.EGraph
/-!
# Model of `src/enumo/scheduler.rs` and of `egg::Runner`

Everything that depends on time, sizes or hash order is an explicit trace: which of the found matches are applied and in
which order, after how many iterations the run stops, in which order `rebuild` works. Functions are defined for every
trace, so statements for all traces cover every limit, time-out, match limit and iteration order.
-/
namespace Ruler
open EGraph
variable {O C : Type} [Lang O] [LinearOrder C]

/-- `struct Limits`, src/lib.rs:70-75. -/
structure Limits where
  iter : Nat
  node : Nat
  match_ : Nat
deriving DecidableEq

/-- One iteration of the runner: per rule (in order) the positions, among the matches found, of those that are applied
(missing positions and missing rules: match limit, node limit or time-out), and the work order of the rebuild. -/
structure IterTrace where
  picks : List (List Nat)
  repairs : List Repair

/-- A run: the rebuild before the first iteration and the iterations until the runner stopped (saturated, limit
reached, time-out, or stopped by the hook of src/enumo/scheduler.rs:55-68). -/
structure RunTrace where
  first : List Repair
  iters : List IterTrace

/-- Apply the picked matches of one rule, one after another. -/
def applyPicked (D : Domain O C) (E : Egg) (g : EGraph O C) (job : (Rule O × List (Nat × Subst)) × List Nat) :
    Option (EGraph O C) :=
  (job.2.filterMap fun k => job.1.2[k]?).foldlM (applyOne D E job.1.1.rhs) g

/-- `Runner::run_one`: search all rules on the same e-graph, then apply rule by rule, then rebuild. -/
def runOne (D : Domain O C) (E : Egg) (rules : List (Rule O)) (g : EGraph O C) (t : IterTrace) :
    Option (EGraph O C) :=
  let found := rules.map fun r => g.search r.lhs
  (((rules.zip found).zip t.picks).foldlM (applyPicked D E) g).bind (rebuild D E t.repairs)

/-- `Runner::run` with an iteration limit. -/
def runRules (D : Domain O C) (E : Egg) (limit : Nat) (rules : List (Rule O)) (t : RunTrace) (g : EGraph O C) :
    Option (EGraph O C) :=
  (rebuild D E t.first g).bind fun g => (t.iters.take limit).foldlM (runOne D E rules) g

/-- What is left open in a call of the scheduler. -/
structure SchedTrace where
  /-- The run of `Simple`. -/
  simple : RunTrace
  /-- The runs of `Saturating`: saturating rules and other rules, per round. -/
  rounds : Nat → RunTrace × RunTrace
  /-- The final run of the saturating rules. -/
  lastRun : RunTrace
  /-- How the partition is split up. -/
  split : Ruleset.Split
  /-- The last `rebuild`. -/
  last : List Repair
  /-- Choices made in the clone of `Compress`. -/
  clone : Egg
  /-- Iteration order of the hash map of `Compress` (keys, that is roots in the saturated e-graph). -/
  order : List Nat → List Nat
  /-- The `rebuild` of the clone. -/
  cloneRepairs : List Repair

/-- `enum Scheduler`, src/enumo/scheduler.rs:10-20. -/
inductive Scheduler where
  | simple (l : Limits)
  | saturating (l : Limits)
  | compress (l : Limits)
deriving DecidableEq

/-- `Scheduler::Simple`, src/enumo/scheduler.rs:75-83. -/
def runSimple (D : Domain O C) (E : Egg) (limits : Limits) (rules : Ruleset O) (t : SchedTrace) (g : EGraph O C) :
    Option (EGraph O C) :=
  (runRules D E limits.iter (Ruleset.iter rules) t.simple g).bind (rebuild D E t.last)

/-- The loop of `Scheduler::Saturating`, src/enumo/scheduler.rs:104-117; `k` rounds are left. The saturating rules run
without iteration limit (the trace is as long as the run took). -/
def satLoop (D : Domain O C) (E : Egg) (sat other : List (Rule O)) (rounds : Nat → RunTrace × RunTrace) :
    Nat → EGraph O C → Option (EGraph O C)
  | 0, g => some g
  | k + 1, g =>
    (runRules D E (rounds k).1.iters.length sat (rounds k).1 g).bind fun g =>
      (runRules D E 1 other (rounds k).2 g).bind fun g => satLoop D E sat other rounds k g

/-- `Scheduler::Saturating`, src/enumo/scheduler.rs:84-121. `isSat` is `Rule::is_saturating`. -/
def runSaturating (D : Domain O C) (E : Egg) (isSat : Rule O → Bool) (limits : Limits) (rules : Ruleset O)
    (t : SchedTrace) (g : EGraph O C) : Option (EGraph O C) :=
  let p := Ruleset.partition t.split isSat rules
  (satLoop D E (Ruleset.iter p.1) (Ruleset.iter p.2) t.rounds limits.iter g).bind fun g =>
    (runRules D E t.lastRun.iters.length (Ruleset.iter p.1) t.lastRun g).bind (rebuild D E t.last)

/-- Classes of the input grouped by their root in `out`: the map `unions`, src/enumo/scheduler.rs:128-133. `keys` is the
iteration order. -/
def groupsBy (find : Nat → Nat) (ids keys : List Nat) : List (List Nat) :=
  keys.map fun k => ids.filter fun i => decide (find i = k)

/-- Unite the members of a group with its first member, src/enumo/scheduler.rs:136-141. -/
def uniteGroup (D : Domain O C) (E : Egg) (g : EGraph O C) : List Nat → Option (EGraph O C)
  | [] => some g
  | first :: rest => rest.foldlM (fun g i => EGraph.union D E g first i) g

/-- `Scheduler::Compress`, src/enumo/scheduler.rs:122-145. -/
def runCompress (D : Domain O C) (E : Egg) (limits : Limits) (rules : Ruleset O) (t : SchedTrace) (g : EGraph O C) :
    Option (EGraph O C) :=
  (runSimple D E limits rules t g).bind fun out =>
    let keys := t.order ((g.classes.map out.find).eraseDups)
    ((groupsBy out.find g.classes keys).foldlM (uniteGroup D t.clone) g).bind (rebuild D t.clone t.cloneRepairs)

/-- `Scheduler::run_internal`, src/enumo/scheduler.rs:37-147. The optional rule only installs a hook that stops the
runner early, which every trace may do. -/
def Scheduler.run (D : Domain O C) (E : Egg) (isSat : Rule O → Bool) (s : Scheduler) (rules : Ruleset O)
    (t : SchedTrace) (g : EGraph O C) : Option (EGraph O C) :=
  match s with
  | .simple l => runSimple D E l rules t g
  | .saturating l => runSaturating D E isSat l rules t g
  | .compress l => runCompress D E l rules t g

end Ruler
