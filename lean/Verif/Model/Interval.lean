import Mathlib.Order.Defs.LinearOrder
/-!
# Model of `Interval`, src/lib.rs:115-146, and of the helpers of src/util.rs
-/
namespace Ruler

/-- `struct Interval`, src/lib.rs:117-122; `none` is an infinite bound. -/
structure Interval (T : Type) where
  low : Option T
  high : Option T
deriving DecidableEq

namespace Interval
variable {T : Type} [LinearOrder T]

/-- `Interval::new`, src/lib.rs:125-137; `none` is the failing assertion. -/
def new (low high : Option T) : Option (Interval T) :=
  match low, high with
  | some a, some b => if a ≤ b then some ⟨low, high⟩ else none
  | _, _ => some ⟨low, high⟩

/-- `Interval::default`, src/lib.rs:139-146. -/
def default : Interval T := ⟨none, none⟩

end Interval

/-- One inner pass of `self_product`, src/util.rs:21-25: every sample repeated `k` times. -/
def repeatEach {T : Type} (ts : List T) (k : Nat) : List T := ts.flatMap fun c => List.replicate k c

/-- The `while` loop of `self_product`, src/util.rs:20-26. The Rust loop has no bound: with an empty pass (no samples)
it would not terminate, but then the target length is zero whenever it is entered with `n > 0`. Here the loop is cut
off (returning what it has) when a pass adds nothing. -/
def fillLoop {T : Type} (pass : List T) (target : Nat) (entry : List T) : List T :=
  if entry.length < target ∧ pass ≠ [] then fillLoop pass target (entry ++ pass) else entry
termination_by target - entry.length
decreasing_by
  rename_i h
  have : 0 < pass.length := List.length_pos_iff.2 h.2
  simp only [List.length_append]
  omega

/-- `self_product`, src/util.rs:13-29. -/
def selfProduct {T : Type} (ts : List T) (n : Nat) : List (List T) :=
  (List.range n).map fun i => fillLoop (repeatEach ts (ts.length ^ i)) (ts.length ^ n) []

end Ruler
