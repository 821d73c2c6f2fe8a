import Verif.Spec.BV
import Verif.Proofs.BV
/-! Helper lemmas about reading and printing numbers. -/
namespace Ruler
open Spec
namespace BV
variable {N : Nat}

theorem digitVal_iff (r : Nat) (c : Char) (d : Nat) : digitVal r c = some d ↔ c.toNat = 48 + d ∧ d < r := by
  rw [digitVal]
  split
  · rename_i h
    simp only [Option.some.injEq]
    omega
  · rename_i h
    simp only [reduceCtorEq, false_iff]
    omega

/-- Digits are read most significant first; the result is an error exactly on overflow. -/
theorem digitsVal_digits (r : Nat) (hr : 0 < r) (cs : List Char) (ds : List Nat) (acc : Nat)
    (h : cs.map (digitVal r) = ds.map some) (hacc : acc < 2 ^ 128) :
    digitsVal r cs acc =
      if ds.foldl (fun a d => a * r + d) acc < 2 ^ 128 then some (ds.foldl (fun a d => a * r + d) acc) else none := by
  induction cs generalizing ds acc with
  | nil =>
    cases ds with
    | nil => simp [digitsVal, hacc]
    | cons => cases h
  | cons c cs ih =>
    cases ds with
    | nil => cases h
    | cons d ds =>
      simp only [List.map_cons, List.cons.injEq] at h
      rw [digitsVal, h.1, Option.bind_some, List.foldl_cons]
      simp only
      split
      · rename_i hlt
        exact ih ds _ h.2 hlt
      · rename_i hge
        have mono : ∀ (ds : List Nat) (a : Nat), a ≤ ds.foldl (fun a d => a * r + d) a := by
          intro ds
          induction ds with
          | nil => intro a; exact Nat.le_refl _
          | cons d ds ih =>
            intro a
            refine Nat.le_trans ?_ (ih _)
            calc a ≤ a * r := Nat.le_mul_of_pos_right a hr
              _ ≤ a * r + d := Nat.le_add_right _ _
        have := mono ds (acc * r + d)
        rw [if_neg (by omega)]

theorem digitsVal_bad (r : Nat) (cs : List Char) (acc : Nat) (h : ∃ c ∈ cs, digitVal r c = none) :
    digitsVal r cs acc = none := by
  induction cs generalizing acc with
  | nil => obtain ⟨c, hc, _⟩ := h; cases hc
  | cons c cs ih =>
    rw [digitsVal]
    cases hd : digitVal r c with
    | none => rfl
    | some d =>
      simp only [Option.bind_some]
      split
      · apply ih
        obtain ⟨c', hc', hb⟩ := h
        rcases List.mem_cons.1 hc' with rfl | hc'
        · rw [hd] at hb; cases hb
        · exact ⟨c', hc', hb⟩
      · rfl

theorem digitChar_val (n : Nat) (h : n < 10) : digitVal 10 (digitChar n) = some n := by
  rw [digitVal_iff]
  refine ⟨?_, h⟩
  have : (48 + n).isValidChar := Or.inl (by omega)
  rw [digitChar, Char.ofNat, dif_pos this]
  rfl

/-- The digits of a printed number. -/
theorem decimal_digits (n : Nat) : ∃ ds : List Nat, (decimal n).map (digitVal 10) = ds.map some ∧ ds ≠ [] ∧
    ds.foldl (fun a d => a * 10 + d) 0 = n := by
  induction n using Nat.strongRecOn with
  | ind n ih =>
    rw [decimal]
    split
    · rename_i h
      exact ⟨[n], by simp [digitChar_val n h], by simp, by simp⟩
    · rename_i h
      obtain ⟨ds, h1, h2, h3⟩ := ih (n / 10) (by omega)
      refine ⟨ds ++ [n % 10], ?_, by simp, ?_⟩
      · simp [h1, digitChar_val (n % 10) (by omega)]
      · rw [List.foldl_append, h3]
        simp only [List.foldl_cons, List.foldl_nil]
        omega

theorem digit_not_plus {r : Nat} {c : Char} {d : Nat} (h : digitVal r c = some d) : c ≠ '+' ∧ c ≠ '#' := by
  have := (digitVal_iff r c d).1 h
  constructor
  · rintro rfl
    have e : ('+').toNat = 43 := rfl
    omega
  · rintro rfl
    have e : ('#').toNat = 35 := rfl
    omega

theorem parseNat_cons (r : Nat) {c : Char} (hc : c ≠ '+') (cs : List Char) :
    parseNat r (c :: cs) = digitsVal r (c :: cs) 0 := by
  rw [parseNat]
  · intro h; cases h
  · intro h; exact hc (List.cons.inj h).1
  · intro cs' h; exact hc (List.cons.inj h).1

theorem parseNat_digits (r : Nat) (hr : 0 < r) (cs : List Char) (ds : List Nat)
    (h : cs.map (digitVal r) = ds.map some) (hne : ds ≠ []) :
    parseNat r cs = if ds.foldl (fun a d => a * r + d) 0 < 2 ^ 128 then some (ds.foldl (fun a d => a * r + d) 0)
      else none := by
  have key := digitsVal_digits r hr cs ds 0 h (by omega)
  cases cs with
  | nil => cases ds with
    | nil => exact absurd rfl hne
    | cons => cases h
  | cons c cs =>
    cases ds with
    | nil => exact absurd rfl hne
    | cons d ds =>
      have hc := (digit_not_plus (List.cons.inj h).1).1
      rw [← key, parseNat_cons r hc]

end BV
end Ruler
