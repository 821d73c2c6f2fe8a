import Mathlib.Tactic.LinearCombination
import Mathlib.Tactic.Ring
/-!
# Short laws of Boolean algebra

The laws below have at most five operators, constants and variables on each side. They imply that exclusive or and conjunction form
a ring.
-/
namespace Ruler

/-- Short laws of Boolean algebra. -/
structure SmallLaws {Q : Type} (and or xor : Q → Q → Q) (not : Q → Q) (T F : Q) : Prop where
  and_comm : ∀ a b, and a b = and b a
  and_assoc : ∀ a b c, and (and a b) c = and a (and b c)
  and_self : ∀ a, and a a = a
  and_true : ∀ a, and a T = a
  and_false : ∀ a, and a F = F
  xor_comm : ∀ a b, xor a b = xor b a
  xor_assoc : ∀ a b c, xor (xor a b) c = xor a (xor b c)
  xor_self : ∀ a, xor a a = F
  xor_false : ∀ a, xor a F = a
  xor_true : ∀ a, not a = xor a T
  and_not : ∀ a b, and a (not b) = xor a (and a b)
  not_or : ∀ a b, not (or a b) = and (not a) (not b)
  not_not : ∀ a, not (not a) = a
  and_not_self : ∀ a, and a (not a) = F
  absorb : ∀ a b, and a (or a b) = a
  xor_and : ∀ a b, and (xor a b) a = and a (not b)
  xor_not : ∀ a b, xor (not a) (not b) = xor a b

namespace SmallLaws
variable {Q : Type} {and or xor : Q → Q → Q} {not : Q → Q} {T F : Q} (L : SmallLaws and or xor not T F)
include L

theorem xor_cancel {a b : Q} (h : xor a b = F) : a = b := by
  rw [← L.xor_false a, ← L.xor_self b, ← L.xor_assoc, h, L.xor_comm, L.xor_false]

/-- `a` implies `b` iff `a` and not `b` is false. -/
theorem le_iff (a b : Q) : and a (not b) = F ↔ and a b = a := by
  rw [L.and_not]
  exact ⟨fun h => (L.xor_cancel h).symm, fun h => by rw [h, L.xor_self]⟩

theorem le_antisymm {a b : Q} (h : and a b = a) (h' : and b a = b) : a = b := by rw [← h, L.and_comm, h']

theorem not_le {a b : Q} (h : and a b = a) : and (not b) (not a) = not b := by
  rw [← L.le_iff, L.not_not, L.and_comm, L.le_iff, h]

theorem or_le {a b c : Q} (h : and a c = a) (h' : and b c = b) : and (or a b) c = or a b := by
  have h1 := L.not_le h
  have h2 := L.not_le h'
  have : and (not c) (not (or a b)) = not c := by rw [L.not_or, ← L.and_assoc, h1, h2]
  have := L.not_le this
  rwa [L.not_not, L.not_not] at this

theorem or_comm (a b : Q) : or a b = or b a := by
  rw [← L.not_not (or a b), L.not_or, L.and_comm, ← L.not_or, L.not_not]

theorem and_not_and (a b : Q) : and a (not (and a b)) = and a (not b) := by
  rw [L.and_not, ← L.and_assoc, L.and_self, ← L.and_not]

/-- Conjunction distributes over disjunction. -/
theorem and_or (a b c : Q) : and a (or b c) = or (and a b) (and a c) := by
  refine L.le_antisymm ((L.le_iff _ _).1 ?_) (L.or_le ?_ ?_)
  · have e : and a (and (not (and a b)) (not (and a c))) = and a (and (not b) (not c)) := by
      rw [← L.and_assoc, L.and_not_and, L.and_assoc, L.and_comm (not b), ← L.and_assoc, L.and_not_and, L.and_assoc,
        L.and_comm (not c)]
    rw [L.not_or, L.and_comm a, L.and_assoc, e, L.and_comm, L.and_assoc, ← L.not_or, L.and_comm (not _), L.and_not_self,
      L.and_false]
  · rw [L.and_comm a b, L.and_assoc, ← L.and_assoc a a, L.and_self, L.and_comm a, ← L.and_assoc, L.absorb]
  · rw [L.and_comm a c, L.and_assoc, ← L.and_assoc a a, L.and_self, L.and_comm a, ← L.and_assoc, L.or_comm, L.absorb]

/-- Exclusive or in terms of the other connectives. -/
theorem xor_eq (a b : Q) : xor a b = or (and a (not b)) (and (not a) b) := by
  have h1 : xor a b = or (and (xor a b) a) (and (xor a b) (not a)) := by
    rw [← L.and_or]
    have : or a (not a) = T := by
      rw [← L.not_not (or a (not a)), L.not_or, L.and_not_self, L.xor_true, L.xor_comm, L.xor_false]
    rw [this, L.and_true]
  have h2 : and (xor a b) (not a) = and (not a) b := by
    rw [← L.xor_not, L.xor_and, L.not_not]
  rw [h1, L.xor_and, h2]

/-- Conjunction distributes over exclusive or. -/
theorem and_xor (a b c : Q) : and a (xor b c) = xor (and a b) (and a c) := by
  rw [L.xor_eq, L.and_or, L.xor_eq (and a b)]
  have e : ∀ b c, and (and a b) (not (and a c)) = and a (and b (not c)) := fun b c => by
    rw [L.and_assoc, L.and_comm b, ← L.and_assoc, L.and_not_and, L.and_assoc, L.and_comm b]
  rw [e b c, L.and_comm (not (and a b)), e c b, L.and_comm c]

/-- The Boolean ring. -/
@[reducible] def ring : CommRing Q where
  add := xor
  add_assoc := L.xor_assoc
  zero := F
  zero_add a := (L.xor_comm F a).trans (L.xor_false a)
  add_zero := L.xor_false
  nsmul := @nsmulRec Q ⟨F⟩ ⟨xor⟩
  add_comm := L.xor_comm
  mul := and
  left_distrib := L.and_xor
  right_distrib a b c := by
    show and (xor a b) c = xor (and a c) (and b c)
    rw [L.and_comm, L.and_xor, L.and_comm c, L.and_comm c]
  zero_mul a := (L.and_comm F a).trans (L.and_false a)
  mul_zero := L.and_false
  mul_assoc := L.and_assoc
  one := T
  one_mul a := (L.and_comm T a).trans (L.and_true a)
  mul_one := L.and_true
  neg a := a
  zsmul := @zsmulRec Q ⟨F⟩ ⟨xor⟩ ⟨fun a => a⟩ (@nsmulRec Q ⟨F⟩ ⟨xor⟩)
  neg_add_cancel := L.xor_self
  mul_comm := L.and_comm

/-- The value of a formula in terms of its values when `x` is true and when it is false. -/
def _root_.Ruler.expand (and xor : Q → Q → Q) (not : Q → Q) (x a b : Q) : Q := xor (and x a) (and (not x) b)

theorem expand_and (x a b c d : Q) : and (expand and xor not x a b) (expand and xor not x c d) =
    expand and xor not x (and a c) (and b d) := by
  letI := L.ring
  have hx : x * x = x := L.and_self x
  have h2 : x + x = 0 := L.xor_self x
  simp only [expand, L.xor_true]
  change (x * a + (x + 1) * b) * (x * c + (x + 1) * d) = x * (a * c) + (x + 1) * (b * d)
  linear_combination (a * c + b * d + a * d + b * c) * hx + (b * d + a * d + b * c) * h2

theorem expand_xor (x a b c d : Q) : xor (expand and xor not x a b) (expand and xor not x c d) =
    expand and xor not x (xor a c) (xor b d) := by
  letI := L.ring
  simp only [expand, L.xor_true]
  change (x * a + (x + 1) * b) + (x * c + (x + 1) * d) = x * (a + c) + (x + 1) * (b + d)
  ring

theorem expand_const (x a : Q) : expand and xor not x a a = a := by
  letI := L.ring
  have h2 : x + x = 0 := L.xor_self x
  simp only [expand, L.xor_true]
  change x * a + (x + 1) * a = a
  linear_combination a * h2

theorem expand_not (x a b : Q) : not (expand and xor not x a b) = expand and xor not x (not a) (not b) := by
  rw [L.xor_true, L.xor_true a, L.xor_true b, ← L.expand_xor, L.expand_const]

theorem expand_or (x a b c d : Q) : or (expand and xor not x a b) (expand and xor not x c d) =
    expand and xor not x (or a c) (or b d) := by
  rw [← L.not_not (or _ _), L.not_or, L.expand_not, L.expand_not, L.expand_and, L.expand_not, ← L.not_or, ← L.not_or, L.not_not,
    L.not_not]

theorem expand_self (x : Q) : expand and xor not x T F = x := by
  simp only [expand, L.and_true, L.and_false, L.xor_false]

end SmallLaws
end Ruler
