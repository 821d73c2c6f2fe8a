import Verif.Model.BV
/-!
# Sample vectors of terms

What the e-graph analysis (src/language.rs:42-75) stores for the class of a term when classes are not merged: variables
get the vectors chosen by `initialize_vars`, other nodes are evaluated from their children.
-/
namespace Ruler
variable {O C : Type}

/-- The sample vector of a term. `ev` is the domain's `eval`, `vars` what `initialize_vars` stored. -/
def termCvec [Lang O] (ev : O → List (CVec C) → CVec C) (vars : String → CVec C) (t : Tm O) : CVec C :=
  Tm.fold (fun o args => match Lang.toVar o with | some x => vars x | none => ev o args) t

/-- `map!` (src/util.rs:31-64) with a body that may panic, one argument. -/
def cmapP1 (f : C → Option (Option C)) (a : CVec C) : Option (CVec C) :=
  a.mapM fun x => match x with | some x => f x | none => some none

/-- As `cmapP1`, two arguments. -/
def cmapP2 (f : C → C → Option (Option C)) (a b : CVec C) : Option (CVec C) :=
  (a.zip b).mapM fun p => match p with | (some x, some y) => f x y | _ => some none

/-- As `cmapP1`, three arguments. -/
def cmapP3 (f : C → C → C → Option (Option C)) (a b c : CVec C) : Option (CVec C) :=
  ((a.zip b).zip c).mapM fun p => match p with | ((some x, some y), some z) => f x y z | _ => some none

/-- The sample vector of a term when `eval` may panic (`none`). -/
def termCvecP [Lang O] (ev : O → List (CVec C) → Option (CVec C)) (vars : String → CVec C) (t : Tm O) :
    Option (CVec C) :=
  Tm.fold (fun o (args : List (Option (CVec C))) =>
    match Lang.toVar o with | some x => some (vars x) | none => (args.mapM id).bind (ev o)) t

/-- `initialize_vars` of the domains that use `self_product`, tests/bool.rs:84-95, tests/halide.rs:105-125,
tests/rational.rs:129-147, src/bv.rs:218-240: length of the sample vectors and the vector of each variable. `none` is
the panic of `cvecs[0]` when there are no variables. -/
def initProduct (consts : List (Option C)) (vars : List String) : Option (Nat × List (String × CVec C)) :=
  let cvecs := selfProduct consts vars.length
  (cvecs[0]?).map fun v => (v.length, vars.zip cvecs)

/-- The vector stored for a variable. -/
def varCvec (table : List (String × CVec C)) (x : String) : CVec C := (table.lookup x).getD []

/-- The interval of a term: `make` calls `mk_interval` on the children's intervals, src/language.rs:70. `none` is a
panic. -/
def termInterval (mk : O → List (Interval C) → Option (Interval C)) (t : Tm O) : Option (Interval C) :=
  Tm.fold (fun o (args : List (Option (Interval C))) => (args.mapM id).bind (mk o)) t

end Ruler
