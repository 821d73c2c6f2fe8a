import Verif.Model.Workload
/-!
# Model of the workload helpers of `src/recipe_utils.rs`
-/
namespace Ruler

/-- The loop of `iter_metric`, src/recipe_utils.rs:10-17: `iterMetric w atom met n` is the value of `pegs` after
`n` iterations (the loop variable runs over `1..n+1`). -/
def iterMetric (w : Workload) (atom : String) (met : Metric) : Nat → Workload
  | 0 => w
  | i + 1 => (w.doPlug atom (iterMetric w atom met i)).addFilter (.metricLt met (i + 1 + 1))

/-- The loop of `substitute`, src/recipe_utils.rs:23-25. -/
def substituteLoop (w : Workload) (atom : String) : Workload → List Sexp → Workload
  | pegs, [] => pegs
  | pegs, s :: subs => substituteLoop w atom (pegs.doAppend (w.doPlug atom (.set [s]))) subs

/-- `substitute`, src/recipe_utils.rs:20-27. `none` is a panic while forcing `sub` (line 22). -/
def substitute (w sub : Workload) (atom : String) : Option Workload :=
  sub.force.map fun subs => substituteLoop w atom (.set []) subs

/-- The production `(OPi EXPR … EXPR)` with `i` arguments, src/recipe_utils.rs:209
(`format!("(OP{}{})", i, " EXPR".repeat(i))`, then parsed by `Workload::new`). -/
def opProduction (i : Nat) : Sexp :=
  .list (.atom ("OP" ++ toString i) :: List.replicate i (.atom "EXPR"))

/-- `base_lang`, src/recipe_utils.rs:206-213. -/
def baseLang (n : Nat) : Workload :=
  .set ([.atom "VAR", .atom "VAL"] ++ (List.range n).map fun i => opProduction (i + 1))

end Ruler
