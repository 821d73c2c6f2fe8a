import Verif.Model.Inference
import Verif.Spec.Vectors
import Verif.Spec.Generalize
/-!
# Specification vocabulary for progress

A trace records what egg did: which matches were applied and in which order `rebuild` worked. One trace extends another if
the rebuilds go on where the other stopped; nothing else differs.
-/
namespace Ruler
namespace Spec
variable {O C V : Type}

/-- The same matches are applied; the rebuild goes on. -/
def IterTrace.Goes (a b : IterTrace) : Prop := b.picks = a.picks ∧ a.repairs <+: b.repairs

/-- As `IterTrace.Goes`, for every iteration of a run and the rebuild before it. -/
def RunTrace.Goes (a b : RunTrace) : Prop := a.first <+: b.first ∧ List.Forall₂ IterTrace.Goes a.iters b.iters

/-- As `RunTrace.Goes`, for all runs of a scheduler. -/
structure SchedTrace.Goes (a b : SchedTrace) : Prop where
  simple : RunTrace.Goes a.simple b.simple
  rounds : ∀ k, RunTrace.Goes (a.rounds k).1 (b.rounds k).1 ∧ RunTrace.Goes (a.rounds k).2 (b.rounds k).2
  lastRun : RunTrace.Goes a.lastRun b.lastRun
  split : b.split = a.split
  last : a.last <+: b.last
  clone : b.clone = a.clone
  order : b.order = a.order
  cloneRepairs : a.cloneRepairs <+: b.cloneRepairs

/-- Every variable of the right-hand side occurs on the left. -/
def BoundRhs (r : Rule O) : Prop := ∀ v ∈ r.rhs.vars, v ∈ r.lhs.vars

/-- The analysis does not fail. `mem` says which values an interval admits and `fits` which samples a value has. -/
structure NoFail [Lang O] [LinearOrder C] (D : Domain O C) (ar : O → Nat → Prop) (I : O → List V → V)
    (mem : Interval C → V → Prop) (fits : Option C → V → Prop) : Prop where
  /-- Vectors of the same length can be evaluated, and give a vector of that length unless the operator is a variable. -/
  eval : ∀ n (o : O) (args : List (CVec C)), ar o args.length → (∀ a ∈ args, a.length = n) →
    ∃ cv, D.eval n o args = some cv ∧ (Lang.toVar o = none → cv.length = n)
  /-- Intervals can be evaluated. -/
  interval : ∀ (o : O) Js (vs : List V), ar o vs.length → List.Forall₂ mem Js vs → ∃ J, D.mkInterval o Js = some J
  /-- Intervals of the same value can be merged. -/
  join : ∀ a b v, mem a v → mem b v → ∃ c, mergeInterval a b = some c
  /-- Constants can be written as terms. -/
  const : ∀ c v, mem ⟨some c, some c⟩ v → ∃ t, D.mkConst c = some t
  /-- The parts of such a term are such terms. -/
  args : ∀ c o args, D.mkConst c = some (.node o args) → TmOk ar (.node o args) → ∀ a ∈ args, ∃ c', D.mkConst c' = some a
  /-- Such a term is determined by its value. -/
  same : ∀ c c' t t', D.mkConst c = some t → D.mkConst c' = some t' → TmOk ar t → TmOk ar t' →
    (∀ env : String → V, tmVal env I t = tmVal env I t') → t = t'
  /-- A value has at most one sample. -/
  sample : ∀ a b v, fits (some a) v → fits (some b) v → a = b

/-- A domain whose analysis is correct and never fails: constant folding and evaluation agree with the algebra, there are no
hooks besides constant folding, and literals and variables have no children. -/
structure SafeDomain [Lang O] [LinearOrder C] (D : Domain O C) (ar : O → Nat → Prop) (I : O → List V → V)
    (mem : Interval C → V → Prop) (fits : Option C → V → Prop) : Prop where
  folds : ∀ env, FoldsIn D ar (withVars env I) mem
  plain : PlainFolding D ar
  vars : VarOps (O := O) ar
  leaf : LeafAr ar
  total : NoFail D ar I mem fits
  computes : Computes D ar I fits

/-- The same run in which the rebuilds go on: all other choices are the same. -/
def RunEnv.Goes (a b : RunEnv O C) : Prop :=
  ∃ (tr : SchedTrace) (mtr : Nat → SchedTrace), SchedTrace.Goes a.tr tr ∧ (∀ k, SchedTrace.Goes (a.min.tr k) (mtr k)) ∧
    b = { a with tr := tr, min := { a.min with tr := mtr } }

/-- There is enough stack for adding a constant from `modify`. -/
def RunEnv.Deep (a : RunEnv O C) : Prop :=
  2 ≤ a.build.depth ∧ 2 ≤ a.eg.depth ∧ 2 ≤ a.tr.clone.depth ∧
    ∀ k, 2 ≤ (a.min.eg k).depth ∧ 2 ≤ (a.min.tr k).clone.depth

/-- A rule that can be applied safely: it is well-sorted, consists of operators and pattern variables, holds, and has no free
variable on the right. -/
def SafeRule [Lang O] (ar : O → Nat → Prop) (I : O → List V → V) (r : Rule O) : Prop :=
  GoodRule ar r ∧ Holds I r ∧ BoundRhs r

/-- The expressions of the workload, read as terms. -/
def TermsOf [Lang O] (w : Workload) (ts : List (Tm O)) : Prop := ∃ ss, w.force = some ss ∧ ss.mapM Tm.ofSexp = some ts

/-- There are variables, but not more than the letters of the alphabet. -/
def FewVars [Lang O] (ts : List (Tm O)) : Prop :=
  (∃ t ∈ ts, ∃ x, HasVar x t) ∧ AtMost 26 (fun x => ∃ t ∈ ts, HasVar x t)

/-- The run does not panic: when the rebuilds go on long enough, it returns a ruleset — or, if it found none and none is not
allowed, fails the assertion. -/
def Completes [Lang O] [LinearOrder C] (D : Domain O C) (R : RunEnv O C) (w : Workload) (prior : Ruleset O)
    (priorLimits minLimits : Limits) (fast : Bool) : Prop :=
  ∃ R', RunEnv.Goes R R' ∧ ∃ out asked,
    runWorkloadInternal D R' w prior priorLimits minLimits fast true = some (out, asked) ∧
    (out ≠ [] → runWorkloadInternal D R' w prior priorLimits minLimits fast false = some (out, asked))

/-- The only way `recursive_rules` can fail: a level of three or more found no rule. -/
def EmptyLevel [Lang O] [LinearOrder C] (D : Domain O C) (envs : Nat → RunEnv O C) (metric : Metric) (lang : RecipeLang)
    (prior : Ruleset O) (n : Nat) : Prop :=
  ∃ k, 3 ≤ k ∧ k ≤ n ∧ ∃ known log w asked, recursiveRules D envs metric lang prior (k - 1) = some (known, log) ∧
    recursiveWorkload metric k lang = some w ∧
    runWorkloadInternal D (envs k) w (Ruleset.extend known prior) Limits.synthesis Limits.minimize true true =
      some ([], asked)

/-- A run with the usual limits finds no rule. -/
def EmptyRun [Lang O] [LinearOrder C] (D : Domain O C) (R : RunEnv O C) (w : Workload) (prior : Ruleset O) : Prop :=
  ∃ asked, runWorkloadInternal D R w prior Limits.synthesis Limits.minimize true true = some ([], asked)

end Spec
end Ruler
