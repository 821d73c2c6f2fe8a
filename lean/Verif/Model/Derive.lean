import Verif.Model.Scheduler
import Verif.Model.Workload
/-!
# Model of the parts of ruler that build e-graphs and run rules

`Workload::to_egraph` (src/enumo/workload.rs:57-91), `Rule::is_saturating` (src/enumo/rule.rs:116-130),
`Ruleset::shrink`, `can_derive` and `derive` (src/enumo/ruleset.rs:393-420 and 441-479). `none` is a panic.
-/
namespace Ruler
open EGraph
variable {O C : Type} [Lang O]

mutual
/-- `RecExpr::from_str` on the parsed s-expression (egg); `none` is an error. -/
def Tm.ofSexp : Sexp → Option (Tm O)
  | .atom s => (Lang.fromOp s 0).map fun o => .node o []
  | .list (.atom s :: args) =>
    (Tm.ofSexpL args).bind fun as => (Lang.fromOp s as.length).map fun o => .node o as
  | .list _ => none
/-- Element-wise. -/
def Tm.ofSexpL : List Sexp → Option (List (Tm O))
  | [] => some []
  | s :: l => (Tm.ofSexp s).bind fun t => (Tm.ofSexpL l).map (t :: ·)
end

mutual
/-- Names of the variables of a term, in the order of its nodes (children before parents, left to right). -/
def Tm.varNames : Tm O → List String
  | .node o args => Tm.varNamesL args ++ (match Lang.toVar o with | some x => [x] | none => [])
/-- Element-wise. -/
def Tm.varNamesL : List (Tm O) → List String
  | [] => []
  | t :: l => Tm.varNames t ++ Tm.varNamesL l
end

/-- Variables in order of first occurrence, src/enumo/workload.rs:71-84. -/
def collectVars (ts : List (Tm O)) : List String :=
  (ts.flatMap Tm.varNames).foldl (fun vs v => if v ∈ vs then vs else vs ++ [v]) []

variable [LinearOrder C] (D : Domain O C) (E : Egg)

/-- Overwriting the vector of a class, as `initialize_vars` does (`egraph[id].data.cvec = ..`). -/
def EGraph.setCvec (g : EGraph O C) (i : Nat) (cv : CVec C) : EGraph O C :=
  { g with data := fun k => if k = g.find i then { g.data k with cvec := cv } else g.data k }

/-- One variable of `initialize_vars` (for instance tests/bool.rs:90-94): add the node, then overwrite its vector; in
some domains (tests/bv-bool.rs:89-97, tests/exponential.rs:50-65) further terms are added and united with the variable.
(tests/exponential.rs adds all terms of a variable before it unites them and rebuilds afterwards; here they are added and united one
after another, and the rebuild is left to the runner.) -/
def initVar (g : EGraph O C) (p : String × CVec C) : Option (EGraph O C) :=
  (add D E g ⟨Lang.mkVar p.1, []⟩).bind fun r =>
    (D.varTerms p.1).foldlM (addUnionWith D E (modify D E) r.2) (r.1.setCvec r.2 p.2)

/-- `initialize_vars`: set the length of the vectors, then add the variables. -/
def initializeVars (vars : List String) (g : EGraph O C) : Option (EGraph O C) :=
  (D.initVars vars).bind fun r => r.2.foldlM (initVar D E) { g with cvecLen := r.1 }

/-- Add terms one after another; their ids. -/
def addTms : List (Tm O) → EGraph O C → Option (EGraph O C × List Nat)
  | [], g => some (g, [])
  | t :: l, g => (addTm D E t g).bind fun r => (addTms l r.1).map fun q => (q.1, r.2 :: q.2)

/-- `Workload::to_egraph`, src/enumo/workload.rs:57-91, on the forced and parsed terms. -/
def termsToEGraph (ts : List (Tm O)) : Option (EGraph O C) :=
  (initializeVars D E (collectVars ts) EGraph.empty).bind fun g => (addTms D E ts g).map Prod.fst

/-- `Workload::to_egraph`, src/enumo/workload.rs:57-91. (The text of a term is parsed twice; parsing is a function of
the s-expression.) -/
def Workload.toEGraph (w : Workload) : Option (EGraph O C) :=
  w.force.bind fun ss => (ss.mapM Tm.ofSexp).bind (termsToEGraph D E)

/-- `Rule::is_saturating`, src/enumo/rule.rs:118-130; `steps` is the work order of the rebuild. -/
def isSaturating (steps : List Repair) (r : Rule O) : Option Bool :=
  (addTm D E r.lhs.instantiate EGraph.empty).bind fun a =>
    (addTm D E r.rhs.instantiate a.1).bind fun b =>
      (EGraph.union D E b.1 a.2 b.2).bind fun g =>
        (rebuild D E steps g).map fun g => decide (g.numClasses ≤ a.1.numClasses)

/-- The loop of `shrink` that inserts both sides of every candidate, src/enumo/ruleset.rs:400-404. -/
def insertSides : List (Rule O) → EGraph O C → Option (EGraph O C × List (Nat × Nat × Rule O))
  | [], g => some (g, [])
  | r :: rs, g =>
    (addTm D E r.lhs.instantiate g).bind fun a => (addTm D E r.rhs.instantiate a.1).bind fun b =>
      (insertSides rs b.1).map fun q => (q.1, (a.2, b.2, r) :: q.2)

/-- `Ruleset::shrink`, src/enumo/ruleset.rs:393-420: the candidates that remain. -/
def Ruleset.shrink (isSat : Rule O → Bool) (s : Scheduler) (t : SchedTrace) (cands chosen : Ruleset O) :
    Option (Ruleset O) :=
  (insertSides D E (Ruleset.iter cands) (EGraph.empty : EGraph O C)).bind fun q =>
    (Scheduler.run D E isSat s chosen t q.1).map fun g =>
      q.2.foldl (fun rs x => if g.find x.1 = g.find x.2.1 then rs else Ruleset.add rs x.2.2) []

/-- `enum DeriveType`, src/lib.rs:79-87. -/
inductive DeriveType where
  | lhs
  | lhsAndRhs
deriving DecidableEq

/-- The e-graph `can_derive` starts from, src/enumo/ruleset.rs:449-462. -/
def deriveStart (ty : DeriveType) (l r : Tm O) : Option (EGraph O C) :=
  match ty with
  | .lhs => (addTm D E l EGraph.empty).map Prod.fst
  | .lhsAndRhs => (addTm D E l EGraph.empty).bind fun a => (addTm D E r a.1).map Prod.fst

/-- `Ruleset::can_derive`, src/enumo/ruleset.rs:447-474. -/
def Ruleset.canDerive (isSat : Rule O → Bool) (ty : DeriveType) (limits : Limits) (t : SchedTrace) (rs : Ruleset O)
    (r : Rule O) : Option Bool :=
  (deriveStart D E ty r.lhs.instantiate r.rhs.instantiate).bind fun g =>
    (Scheduler.run D E isSat (.saturating limits) rs t g).bind fun out =>
      (out.lookupTm r.lhs.instantiate).map fun l =>
        match out.lookupTm r.rhs.instantiate with
        | some r => decide (l = r)
        | none => false

/-- `Ruleset::derive`, src/enumo/ruleset.rs:477-479. The runs for different rules are independent of each other; `tr` and
`eg` give the choices made in the run for each rule. -/
def Ruleset.derive (isSat : Rule O → Bool) (ty : DeriveType) (limits : Limits) (split : Ruleset.Split)
    (eg : Rule O → Egg) (tr : Rule O → SchedTrace) (rs against : Ruleset O) : Option (Ruleset O × Ruleset O) :=
  if (Ruleset.iter against).all fun r => (Ruleset.canDerive D (eg r) isSat ty limits (tr r) rs r).isSome then
    some (Ruleset.partition split
      (fun r => (Ruleset.canDerive D (eg r) isSat ty limits (tr r) rs r).getD false) against)
  else none

end Ruler
