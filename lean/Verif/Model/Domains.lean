import Verif.Model.Analysis
import Verif.Model.BV
import Verif.Model.DomBool
import Verif.Model.DomNat
import Verif.Model.DomHalide
import Verif.Model.DomRational
import Mathlib.Order.Basic
import Mathlib.Data.Bool.Basic
import Mathlib.Algebra.Order.Ring.Rat
/-!
# The domains of the repository as the analysis sees them
-/
namespace Ruler

/-- tests/bool.rs. `mk_constant`, tests/bool.rs:116-118; `initialize_vars`, tests/bool.rs:84-95. -/
def boolDomain : Domain BoolOp Bool where
  eval len o args := some (o.eval len args)
  mkInterval := BoolOp.mkInterval
  mkConst c := some (.node (.lit c) [])
  initVars := initProduct boolSamples

/-- tests/nat.rs. `initialize_vars`, tests/nat.rs:99-110: ten pseudo-random numbers per variable, `rnd i j` being the
`j`-th number drawn for the `i`-th variable. -/
def natDomain (rnd : Nat → Nat → Nat) : Domain NatOp Int where
  eval len o args := some (o.eval len args)
  mkInterval := NatOp.mkInterval
  mkConst := NatOp.mkConstant
  initVars vars := some (10, (vars.zip (List.range vars.length)).map fun p =>
    (p.1, (List.range 10).map fun j => some (rnd p.2 j : Int)))

/-- tests/rational.rs. `mk_constant`, tests/rational.rs:211-213; `initialize_vars`, tests/rational.rs:129-147. -/
def rationalDomain (ck : Checked) : Domain MathOp Rat where
  eval := MathOp.eval ck
  mkInterval := MathOp.mkInterval ck
  mkConst c := some (.node (.lit c) [])
  initVars := initProduct rationalSamples

/-- tests/halide.rs, which has the default (trivial) interval analysis of src/language.rs:175-180. -/
def halideDomain : Domain PredOp Int where
  eval := PredOp.eval
  mkInterval _ _ := some ⟨none, none⟩
  mkConst c := some (.node (.lit c) [])
  initVars := initProduct halideSamples

/-- Derived `Ord` of `struct BV`, src/bv.rs:10-12: the order of the stored number. -/
instance {N : Nat} : LinearOrder (BV N) :=
  LinearOrder.lift' (fun x : BV N => x.val.toNat) fun a b h => by
    cases a; cases b; simpa [BitVec.toNat_inj] using h

/-- `mk_interval`, src/bv.rs:187-196: literals only. -/
def BvOp.mkInterval {N : Nat} (o : BvOp N) (_ : List (Interval (BV N))) : Option (Interval (BV N)) :=
  match o with
  | .lit c => Interval.new (some c) (some c)
  | _ => some ⟨none, none⟩

/-- Sample values, src/bv.rs:220-230. -/
def bvSamples (N : Nat) : List (BV N) :=
  let raw := [0, 1].flatMap fun i : Nat =>
    let i : BV N := .new (BitVec.ofNat 128 i)
    [BV.min.wrappingAdd i, BV.max.wrappingSub i, i, i.wrappingNeg]
  (raw.mergeSort fun a b => decide (a.val.toNat ≤ b.val.toNat)).eraseDups

/-- src/bv.rs. `mk_constant`, src/bv.rs:214-216; `initialize_vars`, src/bv.rs:218-240. -/
def bvDomain (N : Nat) : Domain (BvOp N) (BV N) where
  eval len o args := some (o.eval len args)
  mkInterval := BvOp.mkInterval
  mkConst c := some (.node (.lit c) [])
  initVars := initProduct ((bvSamples N).map some)

end Ruler
