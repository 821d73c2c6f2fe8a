import Verif.Model.Interval
import Mathlib.Algebra.BigOperators.Group.List.Basic
import Mathlib.Data.List.Basic
/-! Helper lemmas about `self_product`. -/
namespace Ruler
variable {T : Type}

theorem repeatEach_length (ts : List T) (k : Nat) : (repeatEach ts k).length = ts.length * k := by
  induction ts with
  | nil => simp [repeatEach]
  | cons t ts ih =>
    have : repeatEach (t :: ts) k = List.replicate k t ++ repeatEach ts k := rfl
    rw [this, List.length_append, ih, List.length_replicate, List.length_cons, Nat.succ_mul]
    omega

theorem repeatEach_get (ts : List T) (k : Nat) (hk : 0 < k) (m : Nat) : (repeatEach ts k)[m]? = ts[m / k]? := by
  induction ts generalizing m with
  | nil => simp [repeatEach]
  | cons t ts ih =>
    have : repeatEach (t :: ts) k = List.replicate k t ++ repeatEach ts k := rfl
    rw [this]
    by_cases h : m < k
    · rw [List.getElem?_append_left (by simpa using h), List.getElem?_replicate, if_pos h, Nat.div_eq_of_lt h]
      rfl
    · have h' : k ≤ m := by omega
      rw [List.getElem?_append_right (by simpa using h'), List.length_replicate, ih,
        show m / k = (m - k) / k + 1 by
          conv_lhs => rw [show m = (m - k) + k by omega]
          rw [Nat.add_div_right _ hk], List.getElem?_cons_succ]

/-- The loop appends whole passes until the target is reached. -/
theorem fillLoop_spec (pass : List T) (q r : Nat) (entry : List T) (hp : pass ≠ [])
    (he : entry = (List.replicate r pass).flatten) (hr : r ≤ q) :
    fillLoop pass (q * pass.length) entry = (List.replicate q pass).flatten := by
  have hpos : 0 < pass.length := List.length_pos_iff.2 hp
  have hlen : entry.length = r * pass.length := by subst he; simp
  induction hd : q - r generalizing r entry with
  | zero =>
    have hq : r = q := by omega
    subst hq
    rw [fillLoop, if_neg (by rw [hlen]; omega), he]
  | succ d ih =>
    have hlt : r < q := by omega
    rw [fillLoop, if_pos ⟨by rw [hlen]; exact Nat.mul_lt_mul_of_pos_right hlt hpos, hp⟩]
    apply ih (r + 1) _ ?_ (by omega)
    · rw [List.length_append, hlen, Nat.succ_mul]
    · omega
    · rw [he, List.replicate_succ', List.flatten_append]; simp

theorem flatten_replicate_get (pass : List T) (q j : Nat) (hj : j < q * pass.length) :
    (List.replicate q pass).flatten[j]? = pass[j % pass.length]? := by
  induction q generalizing j with
  | zero => omega
  | succ q ih =>
    rw [List.replicate_succ, List.flatten_cons]
    by_cases h : j < pass.length
    · rw [List.getElem?_append_left h, Nat.mod_eq_of_lt h]
    · rw [Nat.succ_mul] at hj
      rw [List.getElem?_append_right (by omega), ih _ (by omega), Nat.mod_eq_sub_mod (a := j) (by omega)]

/-- Length and entries of the vector of variable `i`. -/
theorem selfProduct_vec (ts : List T) (n i : Nat) (hi : i < n) :
    (fillLoop (repeatEach ts (ts.length ^ i)) (ts.length ^ n) []).length = ts.length ^ n ∧
    ∀ j, j < ts.length ^ n →
      (fillLoop (repeatEach ts (ts.length ^ i)) (ts.length ^ n) [])[j]? = ts[j / ts.length ^ i % ts.length]? := by
  by_cases hts : ts = []
  · subst hts
    have : (0 : Nat) ^ n = 0 := Nat.zero_pow (by omega)
    rw [fillLoop]
    simp [this]
  · have hpos : 0 < ts.length := List.length_pos_iff.2 hts
    have hki : 0 < ts.length ^ i := Nat.pow_pos hpos
    have hpl : (repeatEach ts (ts.length ^ i)).length = ts.length ^ (i + 1) := by
      rw [repeatEach_length, Nat.pow_succ, Nat.mul_comm]
    have hne : repeatEach ts (ts.length ^ i) ≠ [] := by
      rw [← List.length_pos_iff, hpl]; exact Nat.pow_pos hpos
    have hq : ts.length ^ n = ts.length ^ (n - (i + 1)) * (repeatEach ts (ts.length ^ i)).length := by
      rw [hpl, ← Nat.pow_add]; congr 1; omega
    have := fillLoop_spec (repeatEach ts (ts.length ^ i)) (ts.length ^ (n - (i + 1))) 0 [] hne rfl (Nat.zero_le _)
    rw [← hq] at this
    rw [this]
    constructor
    · rw [hq]; simp
    · intro j hj
      rw [flatten_replicate_get _ _ _ (by rw [← hq]; exact hj), repeatEach_get _ _ hki, hpl, Nat.pow_succ,
        Nat.mod_mul_right_div_self]

theorem selfProduct_length (ts : List T) (n : Nat) : (selfProduct ts n).length = n := by simp [selfProduct]

theorem selfProduct_get (ts : List T) (n i : Nat) (hi : i < n) :
    (selfProduct ts n)[i]? = some (fillLoop (repeatEach ts (ts.length ^ i)) (ts.length ^ n) []) := by
  simp [selfProduct, hi]

/-- Base-`b` digits: every sequence of `k` digits is the digit sequence of exactly one number below `b ^ k`. -/
theorem digits_unique (b k : Nat) (d : Nat → Nat) (hd : ∀ i, i < k → d i < b) :
    ∃ j, j < b ^ k ∧ (∀ i, i < k → j / b ^ i % b = d i) ∧
      ∀ j', j' < b ^ k → (∀ i, i < k → j' / b ^ i % b = d i) → j' = j := by
  induction k with
  | zero =>
    refine ⟨0, by simp, by intro i hi; omega, ?_⟩
    intro j' hj' _
    simpa using hj'
  | succ k ih =>
    obtain ⟨j, hj, h1, h2⟩ := ih fun i hi => hd i (by omega)
    have hb : d k < b := hd k (by omega)
    have hbp : 0 < b := by omega
    have hpk : 0 < b ^ k := Nat.pow_pos hbp
    have lowdig : ∀ i, i < k → ∀ m, m / b ^ i % b = m % b ^ k / b ^ i % b := by
      intro i hi m
      have : b ^ k = b ^ i * (b * b ^ (k - i - 1)) := by
        rw [← Nat.mul_assoc, ← Nat.pow_succ, ← Nat.pow_add]; congr 1; omega
      rw [this, Nat.mod_mul_right_div_self, Nat.mod_mul_right_mod]
    refine ⟨j + b ^ k * d k, ?_, ?_, ?_⟩
    · rw [Nat.pow_succ]
      calc j + b ^ k * d k < b ^ k + b ^ k * d k := by omega
        _ = b ^ k * (d k + 1) := by rw [Nat.mul_succ]; omega
        _ ≤ b ^ k * b := Nat.mul_le_mul_left _ hb
    · intro i hi
      by_cases hik : i < k
      · rw [lowdig i hik, Nat.add_mul_mod_self_left, Nat.mod_eq_of_lt hj, h1 i hik]
      · have : i = k := by omega
        subst this
        rw [Nat.add_mul_div_left _ _ hpk, Nat.div_eq_of_lt hj, Nat.zero_add, Nat.mod_eq_of_lt hb]
    · intro j' hj' hdig
      have e1 : j' % b ^ k = j := by
        apply h2 _ (Nat.mod_lt _ hpk)
        intro i hi
        rw [← lowdig i hi]
        exact hdig i (by omega)
      have e2 : j' / b ^ k = d k := by
        have := hdig k (by omega)
        rwa [Nat.mod_eq_of_lt] at this
        rw [Nat.div_lt_iff_lt_mul hpk]
        rw [Nat.pow_succ, Nat.mul_comm] at hj'
        exact hj'
      rw [← Nat.mod_add_div j' (b ^ k), e1, e2]

end Ruler
