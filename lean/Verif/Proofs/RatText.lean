import Verif.Model.DomTrig
import Verif.Proofs.BVText
/-!
# Writing and reading integers and fractions
-/
namespace Ruler
open BV

theorem foldlM_digits (l : List Char) (ds : List Nat) (h : l.map (digitVal 10) = ds.map some) (a : Nat) :
    l.foldlM (fun acc c => (digitVal 10 c).map fun d => acc * 10 + d) a = some (ds.foldl (fun a d => a * 10 + d) a) := by
  induction l generalizing ds a with
  | nil =>
    cases ds with
    | nil => rfl
    | cons d ds => simp at h
  | cons c l ih =>
    cases ds with
    | nil => simp at h
    | cons d ds =>
      simp only [List.map_cons, List.cons.injEq] at h
      rw [List.foldlM_cons, h.1]
      exact ih ds h.2 _

/-- Every character of a decimal text is a digit. -/
theorem decimal_chars (n : Nat) : ∀ c ∈ decimal n, 48 ≤ c.toNat ∧ c.toNat ≤ 57 := by
  obtain ⟨ds, h, -, -⟩ := decimal_digits n
  intro c hc
  have := List.mem_map_of_mem (f := digitVal 10) hc
  rw [h] at this
  obtain ⟨d, -, hd⟩ := List.mem_map.1 this
  have := (digitVal_iff 10 c d).1 hd.symm
  omega

theorem decimal_ne_nil (n : Nat) : decimal n ≠ [] := by
  obtain ⟨ds, h, h', -⟩ := decimal_digits n
  intro e
  rw [e] at h
  cases ds with
  | nil => exact h' rfl
  | cons d ds => simp at h

theorem decimal_foldlM (n : Nat) :
    (decimal n).foldlM (fun acc c => (digitVal 10 c).map fun d => acc * 10 + d) 0 = some n := by
  obtain ⟨ds, h, -, h'⟩ := decimal_digits n
  rw [foldlM_digits _ ds h, h']

theorem parseInt_neg (cs : List Char) (k : Nat) (hn : cs ≠ [])
    (h : cs.foldlM (fun acc c => (digitVal 10 c).map fun d => acc * 10 + d) 0 = some k) :
    parseInt (fun _ => true) ('-' :: cs) = some (-(k : Int)) := by
  simp only [parseInt, List.isEmpty_iff, hn, ↓reduceIte, h]
  rfl

theorem parseInt_pos (cs : List Char) (k : Nat) (hn : cs ≠ []) (h1 : '-' ∉ cs) (h2 : '+' ∉ cs)
    (h : cs.foldlM (fun acc c => (digitVal 10 c).map fun d => acc * 10 + d) 0 = some k) :
    parseInt (fun _ => true) cs = some (k : Int) := by
  have e : ∀ r : Option Int, (r.bind fun i => if (fun _ : Int => true) i = true then some i else none) = r := by
    intro r; cases r <;> rfl
  unfold parseInt
  rw [e]
  split
  · simp at h1
  · simp at h2
  · simp only [List.isEmpty_iff, hn, ↓reduceIte, h]
    rfl

theorem parseInt_showInt (n : Int) : parseInt (fun _ => true) (showInt n) = some n := by
  rw [showInt]
  split
  · rw [parseInt_neg _ n.natAbs (decimal_ne_nil _) (decimal_foldlM _)]
    congr 1
    omega
  · rw [parseInt_pos _ n.natAbs (decimal_ne_nil _) _ _ (decimal_foldlM _)]
    · congr 1
      omega
    · intro h
      exact absurd (decimal_chars _ _ h) (by decide)
    · intro h
      exact absurd (decimal_chars _ _ h) (by decide)

theorem showInt_no_slash (n : Int) : ∀ c ∈ showInt n, decide (c ≠ '/') = true := by
  intro c hc
  have hd : ∀ c ∈ decimal n.natAbs, decide (c ≠ '/') = true := by
    intro c hc
    have := decimal_chars _ c hc
    rw [decide_eq_true_eq]
    rintro rfl
    exact absurd this (by decide)
  rw [showInt] at hc
  split at hc
  · rcases List.mem_cons.1 hc with rfl | h
    · decide
    · exact hd c h
  · exact hd c hc

/-- A fraction is read back from its text. -/
theorem ratOfText_ratText (x : Rat) : ratOfText (ratText x) = some x := by
  have ns := showInt_no_slash x.num
  rw [ratText]
  split
  · rename_i h
    have e1 : (showInt x.num).takeWhile (fun c => decide (c ≠ '/')) = showInt x.num := by
      have := List.takeWhile_append_of_pos (l₂ := []) ns
      simpa using this
    have e2 : (showInt x.num).dropWhile (fun c => decide (c ≠ '/')) = [] := by
      have := List.dropWhile_append_of_pos (l₂ := []) ns
      simpa using this
    have e3 : parseInt (fun _ => true) ['1'] = some 1 := by decide +kernel
    rw [ratOfText, ratOfTextIn, e1, e2]
    simp only [parseInt_showInt, e3, Option.bind_some, one_ne_zero, ↓reduceIte, Option.some.injEq]
    rw [Int.cast_one, div_one]
    exact Rat.den_eq_one_iff _ |>.1 h
  · have e1 : (showInt x.num ++ '/' :: showInt x.den).takeWhile (fun c => decide (c ≠ '/')) = showInt x.num := by
      rw [List.takeWhile_append_of_pos ns]
      simp
    have e2 : (showInt x.num ++ '/' :: showInt x.den).dropWhile (fun c => decide (c ≠ '/')) = '/' :: showInt x.den := by
      rw [List.dropWhile_append_of_pos ns]
      simp
    rw [ratOfText, ratOfTextIn, e1, e2]
    simp only [parseInt_showInt, Option.bind_some]
    rw [if_neg (by exact_mod_cast x.den_nz)]
    exact congrArg some (Rat.num_div_den x)

end Ruler
