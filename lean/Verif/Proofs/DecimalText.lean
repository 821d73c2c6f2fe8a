import Verif.Proofs.RatText
/-!
# The decimal texts are those of Lean's library
-/
namespace Ruler

theorem digitChar_lean {n : Nat} (h : n < 10) : BV.digitChar n = Nat.digitChar n := by
  match n, h with
  | 0, _ | 1, _ | 2, _ | 3, _ | 4, _ | 5, _ | 6, _ | 7, _ | 8, _ | 9, _ => rfl

theorem decimal_lean (n : Nat) : BV.decimal n = Nat.toDigits 10 n := by
  induction n using Nat.strongRecOn with
  | ind n ih =>
    rw [BV.decimal]
    split
    · rename_i h
      rw [Nat.toDigits_of_lt_base h, digitChar_lean h]
    · rename_i h
      rw [ih (n / 10) (by omega), Nat.toDigits_of_base_le (n := n) (by omega) (by omega),
        digitChar_lean (Nat.mod_lt _ (by omega))]

end Ruler
