import Verif.Spec.Domain
import Verif.Proofs.SelfProduct
import Mathlib.Order.Nat
/-!
# C39, C44: intervals and sample vectors
-/
namespace Ruler
open Spec
variable {T : Type}

/-- C39: construction fails exactly when both bounds are present and inverted. -/
theorem C39_rejects [LinearOrder T] (low high : Option T) :
    Interval.new low high = none ↔ ∃ a b, low = some a ∧ high = some b ∧ b < a := by
  cases low with
  | none => simp [Interval.new]
  | some a =>
    cases high with
    | none => simp [Interval.new]
    | some b =>
      simp only [Interval.new]
      by_cases h : a ≤ b
      · simp [h]
      · simp [not_le.1 h]

/-- C39: otherwise the bounds are stored unchanged and the interval has a member. -/
theorem C39_stores [LinearOrder T] [Nonempty T] (low high : Option T) (I : Interval T)
    (h : Interval.new low high = some I) : I.low = low ∧ I.high = high ∧ ∃ x, InInterval I x := by
  have hI : I = ⟨low, high⟩ := by
    cases low <;> cases high <;> simp only [Interval.new] at h
    · exact (Option.some.inj h).symm
    · exact (Option.some.inj h).symm
    · exact (Option.some.inj h).symm
    · split at h
      · exact (Option.some.inj h).symm
      · cases h
  subst hI
  refine ⟨rfl, rfl, ?_⟩
  cases low with
  | none =>
    cases high with
    | none =>
      obtain ⟨x⟩ := ‹Nonempty T›
      exact ⟨x, ⟨by intro a ha; (cases ha), by intro b hb; (cases hb)⟩⟩
    | some b =>
      exact ⟨b, by intro a ha; (cases ha), by intro c hc; (cases hc; exact le_refl _)⟩
  | some a =>
    cases high with
    | none => exact ⟨a, by intro c hc; (cases hc; exact le_refl _), by intro b hb; cases hb⟩
    | some b =>
      refine ⟨a, by intro c hc; (cases hc; exact le_refl _), ?_⟩
      intro c hc
      cases hc
      by_contra hlt
      have := (C39_rejects (some a) (some b)).2 ⟨a, b, rfl, rfl, not_le.1 hlt⟩
      rw [this] at h
      cases h

example : Interval.new (some (1 : Nat)) (some 3) = some ⟨some 1, some 3⟩ := by decide
example : Interval.new (some (3 : Nat)) (some 1) = none := by decide

/-- C44: there are `k` vectors, each of length `|samples| ^ k`. -/
theorem C44_shape (ts : List T) (k : Nat) :
    (selfProduct ts k).length = k ∧ ∀ v ∈ selfProduct ts k, v.length = ts.length ^ k := by
  refine ⟨selfProduct_length ts k, ?_⟩
  intro v hv
  obtain ⟨i, hi, rfl⟩ := List.mem_map.1 hv
  exact (selfProduct_vec ts k i (by simpa using hi)).1

/-- C44: every choice of one sample (by position) for each variable occurs at some position of the vectors
(even if a sample is repeated). -/
theorem C44_positions (ts : List T) (k : Nat) (d : Nat → Nat) (hd : ∀ i, i < k → d i < ts.length) :
    ∃ j, j < ts.length ^ k ∧ (∀ i, i < k → ∀ v, (selfProduct ts k)[i]? = some v → v[j]? = ts[d i]?) := by
  obtain ⟨j, hj, h1, _⟩ := digits_unique ts.length k d hd
  refine ⟨j, hj, ?_⟩
  intro i hi v hv
  rw [selfProduct_get ts k i hi] at hv
  cases hv
  rw [(selfProduct_vec ts k i hi).2 j hj, h1 i hi]

/-- C44: with distinct samples, every tuple of samples occurs at exactly one position. -/
theorem C44_exactly_once (ts : List T) (hts : ts.Nodup) (k : Nat) (w : Nat → T) (hw : ∀ i, i < k → w i ∈ ts) :
    ∃ j, (j < ts.length ^ k ∧ ∀ i, i < k → ∀ v, (selfProduct ts k)[i]? = some v → v[j]? = some (w i)) ∧
      ∀ j', (j' < ts.length ^ k ∧ ∀ i, i < k → ∀ v, (selfProduct ts k)[i]? = some v → v[j']? = some (w i)) →
        j' = j := by
  classical
  have hex : ∀ i, ∃ m, i < k → m < ts.length ∧ ts[m]? = some (w i) := by
    intro i
    by_cases hi : i < k
    · obtain ⟨m, hm, hget⟩ := List.mem_iff_getElem.1 (hw i hi)
      exact ⟨m, fun _ => ⟨hm, by rw [List.getElem?_eq_getElem hm, hget]⟩⟩
    · exact ⟨0, fun h => absurd h hi⟩
  choose d hd using hex
  obtain ⟨j, hj, h1, h2⟩ := digits_unique ts.length k d fun i hi => (hd i hi).1
  refine ⟨j, ⟨hj, ?_⟩, ?_⟩
  · intro i hi v hv
    rw [selfProduct_get ts k i hi] at hv
    cases hv
    rw [(selfProduct_vec ts k i hi).2 j hj, h1 i hi, (hd i hi).2]
  · rintro j' ⟨hj', hv⟩
    apply h2 j' hj'
    intro i hi
    have h := hv i hi _ (selfProduct_get ts k i hi)
    rw [(selfProduct_vec ts k i hi).2 j' hj', ← (hd i hi).2] at h
    have hpos : 0 < ts.length := by have := (hd i hi).1; omega
    exact (List.getElem?_inj (Nat.mod_lt _ hpos) hts).1 h

example : selfProduct [10, 20] 2 = [[10, 20, 10, 20], [10, 10, 20, 20]] := by
  simp only [selfProduct, repeatEach, List.range, List.range.loop, List.map]
  repeat (rw [fillLoop]; simp)

end Ruler
