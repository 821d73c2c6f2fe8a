import Verif.Proofs.Domain
import Verif.Proofs.SelfProduct
/-! Helper lemmas: the initial sample vectors enumerate all assignments of samples. -/
namespace Ruler
variable {C : Type}

theorem lookup_zip {B : Type} (vars : List String) (l : List B) (hn : vars.Nodup) (hl : vars.length = l.length)
    (i : Nat) (hi : i < vars.length) : (vars.zip l).lookup vars[i] = some (l[i]'(hl ▸ hi)) := by
  induction vars generalizing l i with
  | nil => simp at hi
  | cons v vs ih =>
    cases l with
    | nil => simp at hl
    | cons b l =>
      rw [List.zip_cons_cons]
      cases i with
      | zero => simp
      | succ i =>
        have hn' := List.nodup_cons.1 hn
        have hne : (vs[i]'(by simpa using hi) == v) = false := by
          rw [beq_eq_false_iff_ne]
          intro e
          exact hn'.1 (e ▸ List.getElem_mem _)
        simp only [List.getElem_cons_succ]
        rw [List.lookup_cons, hne]
        exact ih l hn'.2 (by simpa using hl) i (by simpa using hi)

/-- Facts about a successful `initProduct`. -/
theorem initProduct_spec (consts : List (Option C)) (vars : List String) (hn : vars.Nodup) {len : Nat}
    {tbl : List (String × CVec C)} (h : initProduct consts vars = some (len, tbl)) :
    len = consts.length ^ vars.length ∧ 0 < vars.length ∧
    (∀ x ∈ vars, (varCvec tbl x).length = len) ∧
    ∀ i (hi : i < vars.length), varCvec tbl vars[i] =
      fillLoop (repeatEach consts (consts.length ^ i)) (consts.length ^ vars.length) [] := by
  rw [initProduct] at h
  have hpos : 0 < vars.length := by
    rcases Nat.eq_zero_or_pos vars.length with h0 | h0
    · rw [h0] at h; simp [selfProduct] at h
    · exact h0
  rw [selfProduct_get consts _ 0 hpos] at h
  simp only [Option.map_some, Option.some.injEq, Prod.mk.injEq] at h
  obtain ⟨h1, h2⟩ := h
  rw [(selfProduct_vec consts vars.length 0 hpos).1] at h1
  have key : ∀ i (hi : i < vars.length), varCvec tbl vars[i] =
      fillLoop (repeatEach consts (consts.length ^ i)) (consts.length ^ vars.length) [] := by
    intro i hi
    rw [varCvec, ← h2, lookup_zip vars _ hn (selfProduct_length _ _).symm i hi]
    have := selfProduct_get consts vars.length i hi
    rw [List.getElem?_eq_getElem (by rw [selfProduct_length]; exact hi), Option.some.injEq] at this
    rw [Option.getD_some, this]
  refine ⟨h1.symm, hpos, ?_, key⟩
  intro x hx
  obtain ⟨i, hi, rfl⟩ := List.mem_iff_getElem.1 hx
  rw [key i hi, (selfProduct_vec consts vars.length i hi).1, h1]

/-- Every assignment of samples to the variables is a position. -/
theorem initProduct_position (consts : List (Option C)) (vars : List String) (hn : vars.Nodup) {len : Nat}
    {tbl : List (String × CVec C)} (h : initProduct consts vars = some (len, tbl)) (w : String → Option C)
    (hw : ∀ x ∈ vars, w x ∈ consts) : ∃ j, j < len ∧ ∀ x ∈ vars, (varCvec tbl x)[j]? = some (w x) := by
  obtain ⟨hlen, hpos, _, key⟩ := initProduct_spec consts vars hn h
  have hex : ∀ i, ∃ m, ∀ hi : i < vars.length, m < consts.length ∧ consts[m]? = some (w vars[i]) := by
    intro i
    by_cases hi : i < vars.length
    · obtain ⟨m, hm, hget⟩ := List.mem_iff_getElem.1 (hw _ (List.getElem_mem hi))
      exact ⟨m, fun _ => ⟨hm, by rw [List.getElem?_eq_getElem hm, hget]⟩⟩
    · exact ⟨0, fun h => absurd h hi⟩
  choose d hd using hex
  obtain ⟨j, hj, h1, _⟩ := digits_unique consts.length vars.length d fun i hi => (hd i hi).1
  refine ⟨j, hlen ▸ hj, ?_⟩
  intro x hx
  obtain ⟨i, hi, rfl⟩ := List.mem_iff_getElem.1 hx
  rw [key i hi, (selfProduct_vec consts vars.length i hi).2 j hj, h1 i hi, (hd i hi).2]

/-- Every position is an assignment of samples. -/
theorem initProduct_sample (consts : List (Option C)) (vars : List String) (hn : vars.Nodup) {len : Nat}
    {tbl : List (String × CVec C)} (h : initProduct consts vars = some (len, tbl)) (j : Nat) (hj : j < len)
    (x : String) (hx : x ∈ vars) : ∃ c ∈ consts, (varCvec tbl x)[j]? = some c := by
  obtain ⟨hlen, hpos, _, key⟩ := initProduct_spec consts vars hn h
  obtain ⟨i, hi, rfl⟩ := List.mem_iff_getElem.1 hx
  have hc : 0 < consts.length := by
    rcases Nat.eq_zero_or_pos consts.length with h0 | h0
    · rw [hlen, h0, Nat.zero_pow hpos] at hj; omega
    · exact h0
  have hm := Nat.mod_lt (j / consts.length ^ i) hc
  refine ⟨consts[j / consts.length ^ i % consts.length], List.getElem_mem hm, ?_⟩
  rw [key i hi, (selfProduct_vec consts vars.length i hi).2 j (hlen ▸ hj), List.getElem?_eq_getElem hm]

end Ruler
