import Verif.Proofs.Analysis
import Verif.Spec.Sample
import Mathlib.Order.Nat
/-!
# C37: joining the data of two classes
-/
namespace Ruler
open Spec
variable {O C : Type} [Lang O] [LinearOrder C]

/-- **C37.** The result of `merge` on vectors of the same length, not empty: a sample is defined iff it was defined on one
side, with that value; the interval is the intersection; the stored expression is one of the two, of least cost. -/
theorem C37_join (tgt frm r : Signature O C) (fa fb : Bool) (hne : tgt.cvec ≠ [])
    (hlen : tgt.cvec.length = frm.cvec.length) (h : mergeSig tgt frm = some (r, fa, fb)) :
    r.cvec.length = tgt.cvec.length ∧
      (∀ (i : Nat) c, r.cvec[i]? = some (some c) ↔ tgt.cvec[i]? = some (some c) ∨ frm.cvec[i]? = some (some c)) ∧
      (∀ x, InInterval r.interval x ↔ InInterval tgt.interval x ∧ InInterval frm.interval x) ∧
      (r.simplest = tgt.simplest ∨ r.simplest = frm.simplest) ∧
      (∀ k m, simplestCost r.simplest = some k → (simplestCost tgt.simplest = some m ∨ simplestCost frm.simplest = some m) →
        k ≤ m) := by
  have hne' : frm.cvec ≠ [] := by
    intro he
    rw [he] at hlen
    exact hne (List.eq_nil_of_length_eq_zero (by simpa using hlen))
  unfold mergeSig at h
  rw [Option.bind_eq_some_iff] at h
  obtain ⟨⟨cv, ca, cb⟩, hcv, h⟩ := h
  rw [Option.bind_eq_some_iff] at h
  obtain ⟨iv, hiv, h⟩ := h
  rw [Option.bind_eq_some_iff] at h
  obtain ⟨cf, hcf, h⟩ := h
  rw [Option.map_eq_some_iff] at h
  obtain ⟨ct, hct, h⟩ := h
  simp only [Prod.mk.injEq] at h
  obtain ⟨rfl, _, _⟩ := h
  have hcv' : mergeCvecLoop tgt.cvec frm.cvec = some (cv, ca, cb) := by
    simpa [mergeCvec, hne, hne'] using hcv
  obtain ⟨h1, h2, _, _⟩ := mergeCvecLoop_some _ _ _ _ _ hcv'
  refine ⟨h1, ?_, mergeInterval_some _ _ _ hiv, ?_, ?_⟩
  · intro i c
    rw [h2]
    constructor
    · exact fun h => h.2
    · rintro (h | h)
      · exact ⟨(List.getElem?_eq_some_iff.1 h).1, Or.inl h⟩
      · exact ⟨by rw [hlen]; exact (List.getElem?_eq_some_iff.1 h).1, Or.inr h⟩
  · by_cases hlt : cf < ct
    · simp [hlt]
    · simp [hlt]
  · intro k m hk hm
    by_cases hlt : cf < ct
    · simp only [hlt, decide_true, if_true] at hk
      rw [hcf] at hk
      cases hk
      rcases hm with hm | hm
      · rw [hct] at hm; cases hm; omega
      · rw [hcf] at hm; cases hm; omega
    · simp only [hlt, decide_false] at hk
      have hk : simplestCost tgt.simplest = some k := hk
      rw [hct] at hk
      cases hk
      rcases hm with hm | hm
      · rw [hct] at hm; cases hm; omega
      · rw [hcf] at hm; cases hm; omega

/-- **C37.** The two flags returned by `merge` say exactly whether the result differs from the one and from the other
argument. -/
theorem C37_flags (tgt frm r : Signature O C) (fa fb : Bool) (hne : tgt.cvec ≠ [])
    (hlen : tgt.cvec.length = frm.cvec.length) (h : mergeSig tgt frm = some (r, fa, fb)) :
    (fa = true ↔ r ≠ tgt) ∧ (fb = true ↔ r ≠ frm) := by
  have hne' : frm.cvec ≠ [] := by
    intro he
    rw [he] at hlen
    exact hne (List.eq_nil_of_length_eq_zero (by simpa using hlen))
  unfold mergeSig at h
  rw [Option.bind_eq_some_iff] at h
  obtain ⟨⟨cv, ca, cb⟩, hcv, h⟩ := h
  rw [Option.bind_eq_some_iff] at h
  obtain ⟨iv, hiv, h⟩ := h
  rw [Option.bind_eq_some_iff] at h
  obtain ⟨cf, hcf, h⟩ := h
  rw [Option.map_eq_some_iff] at h
  obtain ⟨ct, hct, h⟩ := h
  simp only [Prod.mk.injEq] at h
  obtain ⟨rfl, rfl, rfl⟩ := h
  have hcv' : mergeCvecLoop tgt.cvec frm.cvec = some (cv, ca, cb) := by
    simpa [mergeCvec, hne, hne'] using hcv
  obtain ⟨_, _, h3, h4'⟩ := mergeCvecLoop_some _ _ _ _ _ hcv'
  have h4 := h4' hlen
  clear h4'
  have hsame : cf < ct → tgt.simplest ≠ frm.simplest := by
    intro hlt he
    rw [he, hcf] at hct
    cases hct
    omega
  obtain ⟨tc, ts, ti⟩ := tgt
  obtain ⟨fc, fs, fi⟩ := frm
  simp only at *
  simp only [Bool.or_eq_true, h3, h4, decide_eq_true_eq, Bool.not_eq_true', decide_eq_false_iff_not,
    Bool.and_eq_true, ne_eq, Signature.mk.injEq, not_and_or, not_lt]
  by_cases hlt : cf < ct
  · have := hsame hlt
    have h' : ¬ fs = ts := fun e => this e.symm
    simp only [hlt, if_true, h', not_le.2 hlt]
    constructor
    · simp [or_comm]
    · simp
  · have : ct ≤ cf := not_lt.1 hlt
    simp only [hlt, this, if_false]
    constructor
    · constructor
      · rintro ((h | h) | h)
        · exact Or.inl h
        · exact absurd h (by simp)
        · exact Or.inr (Or.inr fun e => h e.symm)
      · rintro (h | h | h)
        · exact Or.inl (Or.inl h)
        · exact absurd trivial h
        · exact Or.inr fun e => h e.symm
    · constructor
      · rintro ((h | ⟨_, h⟩) | h)
        · exact Or.inl h
        · exact Or.inr (Or.inl h)
        · exact Or.inr (Or.inr h)
      · rintro (h | h | h)
        · exact Or.inl (Or.inl h)
        · exact Or.inl (Or.inr ⟨trivial, h⟩)
        · exact Or.inr h

/-- **C37.** `merge` fails (panics) only on contradictory data: two different values for the same sample, or a lower bound
above an upper bound. The stored expressions are assumed well-formed (C38). -/
theorem C37_fails (tgt frm : Signature O C) (hne : tgt.cvec ≠ []) (hlen : tgt.cvec.length = frm.cvec.length)
    (ht : tgt.simplest.tree.isSome) (hf : frm.simplest.tree.isSome) :
    mergeSig tgt frm = none ↔
      (∃ (i : Nat) (c d : C), tgt.cvec[i]? = some (some c) ∧ frm.cvec[i]? = some (some d) ∧ c ≠ d) ∨
      (∃ l h, (tgt.interval.low = some l ∨ frm.interval.low = some l) ∧
        (tgt.interval.high = some h ∨ frm.interval.high = some h) ∧ h < l) := by
  have hne' : frm.cvec ≠ [] := by
    intro he
    rw [he] at hlen
    exact hne (List.eq_nil_of_length_eq_zero (by simpa using hlen))
  obtain ⟨ct, hct⟩ := Option.isSome_iff_exists.1 (simplestCost_isSome _ ht)
  obtain ⟨cf, hcf⟩ := Option.isSome_iff_exists.1 (simplestCost_isSome _ hf)
  rw [← mergeInterval_none]
  have hc : mergeCvec tgt.cvec frm.cvec = mergeCvecLoop tgt.cvec frm.cvec := by
    simp [mergeCvec, hne, hne']
  have hn := mergeCvecLoop_none tgt.cvec frm.cvec
  rw [show (frm.cvec.length < tgt.cvec.length) = False by simp [hlen], false_or] at hn
  rw [← hn, ← hc]
  unfold mergeSig
  cases h1 : mergeCvec tgt.cvec frm.cvec with
  | none => simp
  | some cv =>
    cases h2 : mergeInterval tgt.interval frm.interval with
    | none => simp
    | some iv => simp [hcf, hct]

/-- **C37**, empty vectors: the vector of the first argument is kept whatever the second says, so samples known only for
the second are lost. -/
theorem C37_empty (tgt frm r : Signature O C) (fa fb : Bool) (he : tgt.cvec = [] ∨ frm.cvec = [])
    (h : mergeSig tgt frm = some (r, fa, fb)) : r.cvec = tgt.cvec := by
  unfold mergeSig at h
  rw [Option.bind_eq_some_iff] at h
  obtain ⟨⟨cv, ca, cb⟩, hcv, h⟩ := h
  rw [Option.bind_eq_some_iff] at h
  obtain ⟨iv, hiv, h⟩ := h
  rw [Option.bind_eq_some_iff] at h
  obtain ⟨cf, hcf, h⟩ := h
  rw [Option.map_eq_some_iff] at h
  obtain ⟨ct, hct, h⟩ := h
  simp only [Prod.mk.injEq] at h
  obtain ⟨rfl, _, _⟩ := h
  have : mergeCvec tgt.cvec frm.cvec = some (tgt.cvec, false, false) := by
    rcases he with he | he <;> simp [mergeCvec, he]
  rw [this] at hcv
  cases hcv
  rfl

namespace Sample

/-- Data of a class: vector, the variable `x` as stored expression, bounds. -/
def sig (cv : CVec Nat) (name : String) (lo hi : Option Nat) : Signature Sym Nat :=
  ⟨cv, [⟨⟨name⟩, []⟩], ⟨lo, hi⟩⟩

-- Both sides know something the other does not: the result differs from both.
example : mergeSig (sig [some 1, none, none] "x" (some 0) none) (sig [none, some 2, none] "x" none (some 5)) =
    some (sig [some 1, some 2, none] "x" (some 0) (some 5), true, true) := by decide
-- Contradictory samples, contradictory bounds.
example : mergeSig (sig [some 1] "x" none none) (sig [some 2] "x" none none) = none := by decide
example : mergeSig (sig [some 1] "x" (some 3) none) (sig [some 1] "x" none (some 2)) = none := by decide

end Sample
open Sample

/-- With an empty vector on the left the samples of the right are lost, and the second flag does not say so: the result
differs from the second argument although both flags are false. -/
theorem C37_flags_inexact_on_empty :
    ∃ (tgt frm r : Signature Sym Nat), tgt.cvec = [] ∧ mergeSig tgt frm = some (r, false, false) ∧ r ≠ frm :=
  ⟨sig [] "x" none none, sig [some 1] "x" none none, sig [] "x" none none, rfl, by decide, by decide⟩

/-- With different lengths `merge` panics or ignores the rest of the longer vector. -/
theorem C37_lengths :
    (∃ (tgt frm : Signature Sym Nat), tgt.cvec = [some 1, some 2] ∧ frm.cvec = [some 1] ∧
      tgt.interval = frm.interval ∧ mergeSig tgt frm = none) ∧
    ∃ (tgt frm r : Signature Sym Nat), tgt.cvec = [some 1] ∧ frm.cvec = [some 1, some 2] ∧
      r.cvec = [some 1] ∧ mergeSig tgt frm = some (r, false, false) :=
  ⟨⟨sig [some 1, some 2] "x" none none, sig [some 1] "x" none none, rfl, rfl, rfl, by decide⟩,
    sig [some 1] "x" none none, sig [some 1, some 2] "x" none none, sig [some 1] "x" none none, rfl, rfl, rfl, by decide⟩

end Ruler
