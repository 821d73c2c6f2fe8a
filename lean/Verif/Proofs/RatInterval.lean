import Verif.Spec.DomRational
import Mathlib.Tactic.Linarith
/-! Helper lemmas about interval arithmetic. -/
namespace Ruler
open Spec RatInterval

/-- An interval with a member is constructed without panic. -/
theorem interval_new_of_mem {l h : Option Rat} {v : Rat} (h1 : ∀ a, l = some a → a ≤ v) (h2 : ∀ b, h = some b → v ≤ b) :
    Interval.new l h = some ⟨l, h⟩ := by
  cases l with
  | none => cases h <;> rfl
  | some a =>
    cases h with
    | none => rfl
    | some b =>
      have : a ≤ b := le_trans (h1 a rfl) (h2 b rfl)
      simp [Interval.new, this]

/-- If the results lie between the bounds, the result interval exists and contains them. -/
theorem interval_build {α : Type} {P : α → Prop} {f : α → Rat} {l h : Option Rat} (he : ∃ a, P a)
    (hb : ∀ a, P a → InInterval ⟨l, h⟩ (f a)) :
    ∃ J, Interval.new l h = some J ∧ ∀ a, P a → InInterval J (f a) := by
  obtain ⟨a, ha⟩ := he
  exact ⟨⟨l, h⟩, interval_new_of_mem (hb a ha).1 (hb a ha).2, hb⟩

theorem zipOp_some {f : Rat → Rat → Rat} {x y : Option Rat} {r : Rat} (h : zipOp f x y = some r) :
    ∃ a b, x = some a ∧ y = some b ∧ r = f a b := by
  cases x with
  | none => cases h
  | some a =>
    cases y with
    | none => cases h
    | some b => cases h; exact ⟨a, b, rfl, rfl, rfl⟩

/-- What the sign of an interval says about its bounds. -/
theorem sign_positive {I : Interval Rat} (h : sign I = .positive) {x : Rat} (hx : InInterval I x) : 0 < x ∧
    ∃ l, I.low = some l ∧ 0 < l := by
  obtain ⟨l, u⟩ := I
  cases l <;> cases u <;> simp only [sign] at h
  · cases h
  · split at h <;> cases h
  · split at h
    · rename_i a h1; exact ⟨lt_of_lt_of_le h1 (hx.1 _ rfl), _, rfl, h1⟩
    · cases h
  · split at h
    · rename_i h1; exact ⟨lt_of_lt_of_le h1.1 (hx.1 _ rfl), _, rfl, h1.1⟩
    · split at h <;> cases h

theorem sign_negative {I : Interval Rat} (h : sign I = .negative) {x : Rat} (hx : InInterval I x) : x < 0 ∧
    ∃ u, I.high = some u ∧ u < 0 := by
  obtain ⟨l, u⟩ := I
  cases l <;> cases u <;> simp only [sign] at h
  · cases h
  · split at h
    · rename_i a h1; exact ⟨lt_of_le_of_lt (hx.2 _ rfl) h1, _, rfl, h1⟩
    · cases h
  · split at h <;> cases h
  · split at h
    · cases h
    · split at h
      · rename_i h1; exact ⟨lt_of_le_of_lt (hx.2 _ rfl) h1.2, _, rfl, h1.2⟩
      · cases h

theorem sign_containsZero {I : Interval Rat} (h : sign I = .containsZero) {x : Rat} (hx : InInterval I x) :
    (∀ l, I.low = some l → l ≤ 0) ∧ ∀ u, I.high = some u → 0 ≤ u := by
  obtain ⟨l, u⟩ := I
  cases l with
  | none =>
    refine ⟨by intro _ h; (cases h), ?_⟩
    rintro u' rfl
    simp only [sign] at h
    split at h
    · cases h
    · exact not_lt.1 ‹_›
  | some a =>
    cases u with
    | none =>
      refine ⟨?_, by intro _ h; (cases h)⟩
      rintro l' hl
      cases hl
      simp only [sign] at h
      split at h
      · cases h
      · exact not_lt.1 ‹_›
    | some b =>
      simp only [sign] at h
      have hab : a ≤ b := le_trans (hx.1 _ rfl) (hx.2 _ rfl)
      split at h
      · cases h
      · split at h
        · cases h
        · rename_i h1 h2
          refine ⟨?_, ?_⟩
          · intro l hl
            cases hl
            by_contra hc
            exact h1 ⟨not_le.1 hc, lt_of_lt_of_le (not_le.1 hc) hab⟩
          · intro u hu
            cases hu
            by_contra hc
            exact h2 ⟨lt_of_le_of_lt hab (not_le.1 hc), not_le.1 hc⟩

end Ruler
