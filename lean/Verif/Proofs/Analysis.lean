import Verif.Model.Analysis
import Verif.Spec.Domain
import Verif.Proofs.RecExpr
import Mathlib.Order.Lattice
/-! Helper lemmas about joining analysis data. -/
namespace Ruler
open Spec
variable {O C : Type}

theorem mergeCvecLoop_cons [DecidableEq C] (x y : Option C) (a b : CVec C) :
    mergeCvecLoop (x :: a) (y :: b) =
      match x, y with
      | none, some c => (mergeCvecLoop a b).map fun r => (some c :: r.1, true, r.2.2)
      | some c, none => (mergeCvecLoop a b).map fun r => (some c :: r.1, r.2.1, true)
      | some c, some d => if c = d then (mergeCvecLoop a b).map fun r => (some c :: r.1, r.2.1, r.2.2) else none
      | none, none => (mergeCvecLoop a b).map fun r => (none :: r.1, r.2.1, r.2.2) := by
  cases x <;> cases y <;> rfl

theorem mergeCvecLoop_some [DecidableEq C] (a b r : CVec C) (fa fb : Bool)
    (h : mergeCvecLoop a b = some (r, fa, fb)) :
    r.length = a.length ∧
      (∀ (i : Nat) c, r[i]? = some (some c) ↔ i < a.length ∧ (a[i]? = some (some c) ∨ b[i]? = some (some c))) ∧
      (fa = true ↔ r ≠ a) ∧ (a.length = b.length → (fb = true ↔ r ≠ b)) := by
  induction a generalizing b r fa fb with
  | nil =>
    simp only [mergeCvecLoop, Option.some.injEq, Prod.mk.injEq] at h
    obtain ⟨rfl, rfl, rfl⟩ := h
    refine ⟨rfl, by simp, by simp, ?_⟩
    intro hl
    have : b = [] := by
      cases b with
      | nil => rfl
      | cons _ _ => simp at hl
    simp [this]
  | cons x a ih =>
    cases b with
    | nil => simp [mergeCvecLoop] at h
    | cons y b =>
      cases hm : mergeCvecLoop a b with
      | none =>
        rw [mergeCvecLoop_cons] at h
        rw [hm] at h
        cases x <;> cases y <;> simp at h
      | some q =>
        obtain ⟨r', fa', fb'⟩ := q
        obtain ⟨hlen, hel, ha, hb⟩ := ih b r' fa' fb' hm
        rw [mergeCvecLoop_cons, hm] at h
        cases x with
        | none =>
          cases y with
          | none =>
            simp only [Option.map_some, Option.some.injEq, Prod.mk.injEq] at h
            obtain ⟨rfl, rfl, rfl⟩ := h
            refine ⟨by simp [hlen], ?_, by simp [ha], fun hl => ?_⟩
            · intro i c
              cases i with
              | zero => simp
              | succ i => simpa using hel i c
            · have := hb (by simpa using hl)
              simp [this]
          | some d =>
            simp only [Option.map_some, Option.some.injEq, Prod.mk.injEq] at h
            obtain ⟨rfl, rfl, rfl⟩ := h
            refine ⟨by simp [hlen], ?_, by simp, fun hl => ?_⟩
            · intro i c
              cases i with
              | zero => simp
              | succ i => simpa using hel i c
            · have := hb (by simpa using hl)
              simp [this]
        | some e =>
          cases y with
          | none =>
            simp only [Option.map_some, Option.some.injEq, Prod.mk.injEq] at h
            obtain ⟨rfl, rfl, rfl⟩ := h
            refine ⟨by simp [hlen], ?_, by simp [ha], fun hl => by simp⟩
            intro i c
            cases i with
            | zero => simp
            | succ i => simpa using hel i c
          | some d =>
            by_cases hed : e = d
            · subst hed
              simp only [if_true, Option.map_some, Option.some.injEq, Prod.mk.injEq] at h
              obtain ⟨rfl, rfl, rfl⟩ := h
              refine ⟨by simp [hlen], ?_, by simp [ha], fun hl => ?_⟩
              · intro i c
                cases i with
                | zero => simp
                | succ i => simpa using hel i c
              · have := hb (by simpa using hl)
                simp [this]
            · simp [hed] at h

theorem mergeCvecLoop_none [DecidableEq C] (a b : CVec C) :
    mergeCvecLoop a b = none ↔
      b.length < a.length ∨ ∃ (i : Nat) (c d : C), a[i]? = some (some c) ∧ b[i]? = some (some d) ∧ c ≠ d := by
  induction a generalizing b with
  | nil => simp [mergeCvecLoop]
  | cons x a ih =>
    cases b with
    | nil => simp [mergeCvecLoop]
    | cons y b =>
      have shift : (∃ (i : Nat) (c d : C), (x :: a)[i]? = some (some c) ∧ (y :: b)[i]? = some (some d) ∧ c ≠ d) ↔
          (∃ c d : C, x = some c ∧ y = some d ∧ c ≠ d) ∨
            ∃ (i : Nat) (c d : C), a[i]? = some (some c) ∧ b[i]? = some (some d) ∧ c ≠ d := by
        constructor
        · rintro ⟨i, c, d, h1, h2, h3⟩
          cases i with
          | zero => exact Or.inl ⟨c, d, by simpa using h1, by simpa using h2, h3⟩
          | succ i => exact Or.inr ⟨i, c, d, by simpa using h1, by simpa using h2, h3⟩
        · rintro (⟨c, d, h1, h2, h3⟩ | ⟨i, c, d, h1, h2, h3⟩)
          · exact ⟨0, c, d, by simp [h1], by simp [h2], h3⟩
          · exact ⟨i + 1, c, d, by simpa using h1, by simpa using h2, h3⟩
      rw [shift]
      have hl : (y :: b).length < (x :: a).length ↔ b.length < a.length := by simp
      rw [hl, mergeCvecLoop_cons]
      cases x with
      | none => cases y <;> simp [ih]
      | some e =>
        cases y with
        | none => simp [ih]
        | some d =>
          by_cases hed : e = d
          · simp [hed, ih]
          · simp [hed]

theorem mergeInterval_some [LinearOrder C] (a b r : Interval C) (h : mergeInterval a b = some r) (x : C) :
    InInterval r x ↔ InInterval a x ∧ InInterval b x := by
  have hr : r = ⟨maxLow a.low b.low, minHigh a.high b.high⟩ := by
    unfold mergeInterval Interval.new at h
    split at h
    · split at h
      · simp only [Option.some.injEq] at h
        exact h.symm
      · cases h
    · simp only [Option.some.injEq] at h
      exact h.symm
  subst hr
  obtain ⟨al, ah⟩ := a
  obtain ⟨bl, bh⟩ := b
  have h1 : (∀ c, maxLow al bl = some c → c ≤ x) ↔ (∀ c, al = some c → c ≤ x) ∧ (∀ c, bl = some c → c ≤ x) := by
    cases al <;> cases bl <;> simp [maxLow]
  have h2 : (∀ c, minHigh ah bh = some c → x ≤ c) ↔ (∀ c, ah = some c → x ≤ c) ∧ (∀ c, bh = some c → x ≤ c) := by
    cases ah <;> cases bh <;> simp [minHigh]
  unfold InInterval
  simp only [h1, h2]
  constructor
  · rintro ⟨⟨p, q⟩, r, s⟩
    exact ⟨⟨p, r⟩, q, s⟩
  · rintro ⟨⟨p, r⟩, q, s⟩
    exact ⟨⟨p, q⟩, r, s⟩

theorem mergeInterval_none [LinearOrder C] (a b : Interval C) :
    mergeInterval a b = none ↔
      ∃ l h, (a.low = some l ∨ b.low = some l) ∧ (a.high = some h ∨ b.high = some h) ∧ h < l := by
  obtain ⟨al, ah⟩ := a
  obtain ⟨bl, bh⟩ := b
  unfold mergeInterval Interval.new
  cases al <;> cases bl <;> cases ah <;> cases bh <;> simp [maxLow, minHigh]
  all_goals grind

theorem simplestCost_isSome [Lang O] (e : RecExpr O) (h : e.tree.isSome) : (simplestCost e).isSome := by
  rw [simplestCost, RecExpr.run_eq_tree]
  simpa using h

end Ruler
