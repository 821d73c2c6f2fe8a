import Verif.Model.Domain
import Verif.Model.Rule
/-!
# Model of the e-class analysis, src/language.rs:14-148

What is stored per e-class (`Signature`), how it is computed for a new e-node (`make`) and how the values of two
classes are joined (`merge`). `none` is a panic throughout.
-/
namespace Ruler

/-- `usize::MAX` on a 64-bit machine. -/
def usizeMax : Nat := 2 ^ 64 - 1

/-- `usize::saturating_add`. -/
def satAdd (a b : Nat) : Nat := min (a + b) usizeMax

/-- `ExtractableAstSize::cost`, src/lib.rs:54-67: operator and costs of the children. -/
def extractableCost {O : Type} [Lang O] (o : O) (costs : List Nat) : Nat :=
  if Lang.allowed o then costs.foldl satAdd 1 else usizeMax

/-- The parts of `SynthLanguage` the analysis calls, src/language.rs:159-226. `none` is a panic. -/
structure Domain (O C : Type) where
  /-- `eval`, src/language.rs:169-171: length of the vectors, node, vectors of the children. -/
  eval : Nat → O → List (CVec C) → Option (CVec C)
  /-- `mk_interval`, src/language.rs:175-180. -/
  mkInterval : O → List (Interval C) → Option (Interval C)
  /-- `mk_constant`, src/language.rs:208, as the term that ends up in the e-graph (for `Nat` several nodes). -/
  mkConst : C → Option (Tm O)
  /-- `custom_modify`, src/language.rs:164: given the e-nodes of every class and a class, the terms the hook adds and
  unites with that class, one after another (tests/trig.rs:229-300, tests/bv-bool.rs:117-151; the default hook adds
  nothing). -/
  custom : (Nat → List (FNode O)) → Nat → List (Tm O) := fun _ _ => []
  /-- `initialize_vars`, src/language.rs:188: length of the vectors and the vector stored for each variable. -/
  initVars : List String → Option (Nat × List (String × CVec C)) := fun _ => some (0, [])
  /-- The terms that `initialize_vars` adds and unites with a variable (tests/bv-bool.rs:89-97,
  tests/exponential.rs:50-65; in the other domains there are none). -/
  varTerms : String → List (Tm O) := fun _ => []

/-- `struct Signature`, src/language.rs:27-31. -/
structure Signature (O C : Type) where
  cvec : CVec C
  simplest : RecExpr O
  interval : Interval C
deriving DecidableEq

variable {O C : Type}

/-- `Signature::is_defined`, src/language.rs:34-36. -/
def Signature.isDefined (s : Signature O C) : Bool := s.cvec.isEmpty || s.cvec.any Option.isSome

/-- One step of the closure of src/language.rs:55-65: the stored expression of a child is appended, its positions
shifted, unless the child has been seen; the map sends a child to the position of its root. -/
def gather (get : Nat → RecExpr O) (st : RecExpr O × List (Nat × Nat)) (id : Nat) : RecExpr O × List (Nat × Nat) :=
  match st.2.lookup id with
  | some _ => st
  | none =>
    let nodes := st.1 ++ (get id).map fun n => ⟨n.op, n.children.map (· + st.1.length)⟩
    (nodes, (id, nodes.length - 1) :: st.2)

/-- The `simplest` component of `make`, src/language.rs:47-69. -/
def mkSimplest [Lang O] (n : FNode O) (get : Nat → RecExpr O) : RecExpr O :=
  if (Lang.toVar n.op).isSome || Lang.isConst n.op then [n]
  else
    let st := n.children.foldl (gather get) ([], [])
    st.1 ++ [⟨n.op, n.children.map fun id => (st.2.lookup id).getD 0⟩]

/-- `make`, src/language.rs:42-75: length of the vectors, the node, and the value stored for each class. -/
def makeSig [Lang O] (D : Domain O C) (len : Nat) (n : FNode O) (get : Nat → Signature O C) :
    Option (Signature O C) :=
  (D.eval len n.op (n.children.map fun i => (get i).cvec)).bind fun cv =>
    (D.mkInterval n.op (n.children.map fun i => (get i).interval)).map fun iv =>
      { cvec := cv, simplest := mkSimplest n (fun i => (get i).simplest), interval := iv }

/-- The vector part of `merge`, src/language.rs:82-96: the new value of `to` and the two flags. The loop runs over the
positions of `to`; a missing position of `from` is an index out of bounds (`none`), as is the failing `assert_eq`. -/
def mergeCvecLoop [DecidableEq C] : CVec C → CVec C → Option (CVec C × Bool × Bool)
  | [], _ => some ([], false, false)
  | _ :: _, [] => none
  | x :: a, y :: b =>
    match x, y with
    | none, some c => (mergeCvecLoop a b).map fun r => (some c :: r.1, true, r.2.2)
    | some c, none => (mergeCvecLoop a b).map fun r => (some c :: r.1, r.2.1, true)
    | some c, some d => if c = d then (mergeCvecLoop a b).map fun r => (some c :: r.1, r.2.1, r.2.2) else none
    | none, none => (mergeCvecLoop a b).map fun r => (none :: r.1, r.2.1, r.2.2)

/-- src/language.rs:82: nothing happens when one of the vectors is empty. -/
def mergeCvec [DecidableEq C] (a b : CVec C) : Option (CVec C × Bool × Bool) :=
  if !a.isEmpty && !b.isEmpty then mergeCvecLoop a b else some (a, false, false)

/-- New lower bound, src/language.rs:99-104. -/
def maxLow [LinearOrder C] : Option C → Option C → Option C
  | none, none => none
  | none, some y => some y
  | some x, none => some x
  | some x, some y => some (max x y)

/-- New upper bound, src/language.rs:105-110. -/
def minHigh [LinearOrder C] : Option C → Option C → Option C
  | none, none => none
  | none, some y => some y
  | some x, none => some x
  | some x, some y => some (min x y)

/-- The interval part of `merge`, src/language.rs:98-111. -/
def mergeInterval [LinearOrder C] (a b : Interval C) : Option (Interval C) :=
  Interval.new (maxLow a.low b.low) (minHigh a.high b.high)

/-- `ExtractableAstSize.cost_rec`. -/
def simplestCost [Lang O] (e : RecExpr O) : Option Nat := RecExpr.run extractableCost e

/-- `merge`, src/language.rs:77-130: the new value of `to` and `DidMerge`. -/
def mergeSig [Lang O] [LinearOrder C] (to frm : Signature O C) : Option (Signature O C × Bool × Bool) :=
  (mergeCvec to.cvec frm.cvec).bind fun cv =>
    (mergeInterval to.interval frm.interval).bind fun iv =>
      (simplestCost frm.simplest).bind fun cf =>
        (simplestCost to.simplest).map fun ct =>
          let take := decide (cf < ct)
          let s := if take then frm.simplest else to.simplest
          let a := cv.2.1 || take || !decide (to.interval = iv)
          let b := cv.2.2 || (!take && !decide (to.simplest = frm.simplest)) || !decide (iv = frm.interval)
          ({ cvec := cv.1, simplest := s, interval := iv }, a, b)

end Ruler
