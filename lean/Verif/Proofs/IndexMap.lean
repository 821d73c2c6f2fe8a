import Verif.Spec.Ruleset
import Mathlib.Data.List.Nodup
import Mathlib.Data.List.Perm.Basic
/-! Helper lemmas about insertion-ordered maps. -/
namespace Ruler
open Spec
namespace IndexMap
variable {K V : Type} [DecidableEq K]

/-- Append a key unless it is present. -/
def pushNew (ks : List K) (k : K) : List K := if k ∈ ks then ks else ks ++ [k]

theorem containsKey_iff {m : IndexMap K V} {k : K} : containsKey m k = true ↔ k ∈ m.map Prod.fst := by
  simp [containsKey]

theorem keys_insert (m : IndexMap K V) (k : K) (v : V) :
    (insert m k v).map Prod.fst = pushNew (m.map Prod.fst) k := by
  unfold insert pushNew
  by_cases h : k ∈ m.map Prod.fst
  · rw [if_pos (containsKey_iff.2 h), if_pos h, List.map_map]
    apply List.map_congr_left
    intro e _
    simp only [Function.comp]
    split
    · rename_i h; exact h.symm
    · rfl
  · rw [if_neg (fun h' => h (containsKey_iff.1 h')), if_neg h]; simp

theorem nodup_insert {m : IndexMap K V} (h : (m.map Prod.fst).Nodup) (k : K) (v : V) :
    ((insert m k v).map Prod.fst).Nodup := by
  rw [keys_insert, pushNew]
  split
  · exact h
  · rename_i hk
    rw [List.nodup_append]
    exact ⟨h, by simp, by rintro a ha b hb rfl; simp at hb; subst hb; exact hk ha⟩

theorem get?_eq_some_iff {m : IndexMap K V} (h : (m.map Prod.fst).Nodup) {k : K} {v : V} :
    get? m k = some v ↔ (k, v) ∈ m := by
  induction m with
  | nil => simp [get?]
  | cons e m ih =>
    obtain ⟨k', v'⟩ := e
    rw [List.map_cons, List.nodup_cons] at h
    by_cases hk : k' = k
    · subst hk
      simp only [get?, List.find?_cons, decide_true, Option.map_some, Option.some.injEq, List.mem_cons,
        Prod.mk.injEq, true_and]
      constructor
      · intro e; exact .inl e.symm
      · rintro (e | hm)
        · exact e.symm
        · exact absurd (List.mem_map_of_mem (f := Prod.fst) hm) h.1
    · have : get? ((k', v') :: m) k = get? m k := by simp [get?, hk]
      rw [this, ih h.2]
      simp [Ne.symm hk]

theorem get?_eq_none_iff {m : IndexMap K V} {k : K} : get? m k = none ↔ k ∉ m.map Prod.fst := by
  simp only [get?, Option.map_eq_none_iff, List.find?_eq_none, decide_eq_true_eq, List.mem_map, not_exists, not_and]

theorem get?_insert (m : IndexMap K V) (k k' : K) (v : V) :
    get? (insert m k v) k' = if k' = k then some v else get? m k' := by
  unfold insert
  by_cases h : k ∈ m.map Prod.fst
  · rw [if_pos (containsKey_iff.2 h)]
    induction m with
    | nil => simp at h
    | cons e m ih =>
      obtain ⟨a, b⟩ := e
      by_cases ha : a = k
      · subst ha
        by_cases hk : k' = a
        · subst hk; simp [get?]
        · by_cases hm : a ∈ m.map Prod.fst
          · have := ih hm
            simp only [hk, if_false] at this
            simp only [get?, List.map_cons, if_true, List.find?_cons, Ne.symm hk, decide_false, hk, if_false] at this ⊢
            exact this
          · have : m.map (fun e => if e.1 = a then (a, v) else e) = m := by
              conv_rhs => rw [← List.map_id m]
              apply List.map_congr_left
              intro e he
              rw [if_neg]; rfl
              intro e'
              exact hm (List.mem_map.2 ⟨e, he, e'⟩)
            simp only [List.map_cons, if_true, this, hk, if_false]
            simp [get?, Ne.symm hk]
      · have hm : k ∈ m.map Prod.fst := by
          simp only [List.map_cons, List.mem_cons] at h
          rcases h with h | h
          · exact absurd h.symm ha
          · exact h
        have := ih hm
        by_cases hk : k' = a
        · subst hk; simp [get?, ha]
        · simp only [List.map_cons, ha, if_false]
          simp only [get?, List.find?_cons, Ne.symm hk, decide_false] at this ⊢
          exact this
  · rw [if_neg (fun h' => h (containsKey_iff.1 h'))]
    simp only [get?, List.find?_append]
    by_cases hk : k' = k
    · subst hk
      have : List.find? (fun e => decide (e.1 = k')) m = none := by
        rw [List.find?_eq_none]
        intro e he
        simp only [decide_eq_true_eq]
        intro e'
        exact h (List.mem_map.2 ⟨e, he, e'⟩)
      simp [this]
    · simp [hk, Ne.symm hk]

theorem mem_insert {m : IndexMap K V} {k : K} {v : V} {e : K × V} (he : e ∈ insert m k v) : e = (k, v) ∨ e ∈ m := by
  unfold insert at he
  split at he
  · rw [List.mem_map] at he
    obtain ⟨e', h1, h2⟩ := he
    split at h2
    · exact .inl h2.symm
    · exact .inr (h2 ▸ h1)
  · simp only [List.mem_append, List.mem_singleton] at he
    exact he.symm

theorem remove_perm {m : IndexMap K V} (h : (m.map Prod.fst).Nodup) (k : K) :
    (remove m k).Perm (m.filter fun e => decide (e.1 ≠ k)) := by
  unfold remove
  by_cases hk : k ∈ m.map Prod.fst
  · obtain ⟨e, he, hek⟩ := List.mem_map.1 hk
    obtain ⟨a, b, rfl⟩ := List.append_of_mem he
    rw [List.map_append, List.map_cons, List.nodup_append, List.nodup_cons] at h
    obtain ⟨_, ⟨hb, _⟩, hab⟩ := h
    have ha' : ∀ x ∈ a, x.1 ≠ k := by
      intro x hx e'
      exact hab x.1 (List.mem_map_of_mem hx) e.1 (by simp) (e'.trans hek.symm)
    have hb' : ∀ x ∈ b, x.1 ≠ k := by
      intro x hx e'
      exact hb (List.mem_map.2 ⟨x, hx, e'.trans hek.symm⟩)
    have hidx : (a ++ e :: b).findIdx? (fun e => decide (e.1 = k)) = some a.length := by
      rw [List.findIdx?_append, List.findIdx?_eq_none_iff.2 (by simpa using ha')]
      simp [List.findIdx?_cons, hek]
    have hfil : (a ++ e :: b).filter (fun e => decide (e.1 ≠ k)) = a ++ b := by
      rw [List.filter_append, List.filter_cons]
      have h1 : a.filter (fun e => decide (e.1 ≠ k)) = a := List.filter_eq_self.2 (by simpa using ha')
      have h2 : b.filter (fun e => decide (e.1 ≠ k)) = b := List.filter_eq_self.2 (by simpa using hb')
      rw [h1, h2]
      simp [hek]
    rw [hidx, hfil]
    rcases List.eq_nil_or_concat b with rfl | ⟨b', x, rfl⟩
    · have : (a ++ [e]).getLast? = some e := by simp
      simp only [this]
      rw [List.set_append_right _ _ (Nat.le_refl _)]
      simp
    · have : (a ++ e :: (b'.concat x)).getLast? = some x := by
        rw [List.concat_eq_append, show a ++ e :: (b' ++ [x]) = (a ++ e :: b') ++ [x] by simp, List.getLast?_concat]
      simp only [this]
      rw [List.set_append_right _ _ (Nat.le_refl _), Nat.sub_self, List.set_cons_zero, List.concat_eq_append]
      rw [show a ++ x :: (b' ++ [x]) = (a ++ x :: b') ++ [x] by simp, List.dropLast_concat]
      refine List.Perm.append_left a ?_
      exact (List.perm_append_comm (l₁ := [x]) (l₂ := b'))
  · have : m.findIdx? (fun e => decide (e.1 = k)) = none := by
      rw [List.findIdx?_eq_none_iff]
      intro x hx
      simp only [decide_eq_false_iff_not]
      intro e
      exact hk (List.mem_map.2 ⟨x, hx, e⟩)
    rw [this]
    have h2 : m.filter (fun e => decide (e.1 ≠ k)) = m := by
      rw [List.filter_eq_self]
      intro x hx
      simp only [ne_eq, decide_not, Bool.not_eq_true', decide_eq_false_iff_not]
      intro e
      exact hk (List.mem_map.2 ⟨x, hx, e⟩)
    rw [h2]

theorem nodup_remove {m : IndexMap K V} (h : (m.map Prod.fst).Nodup) (k : K) :
    ((remove m k).map Prod.fst).Nodup := by
  rw [((remove_perm h k).map Prod.fst).nodup_iff]
  exact List.Nodup.sublist (List.filter_sublist.map _) h

theorem get?_remove {m : IndexMap K V} (h : (m.map Prod.fst).Nodup) (k k' : K) :
    get? (remove m k) k' = if k' = k then none else get? m k' := by
  have key : ∀ v, get? (remove m k) k' = some v ↔ k' ≠ k ∧ get? m k' = some v := by
    intro v
    rw [get?_eq_some_iff (nodup_remove h k), (remove_perm h k).mem_iff, List.mem_filter, get?_eq_some_iff h]
    simp [and_comm]
  split
  · rename_i e
    cases hr : get? (remove m k) k' with
    | none => rfl
    | some v => exact absurd e ((key v).1 hr).1
  · rename_i e
    cases hr : get? m k' with
    | some v => exact (key v).2 ⟨e, hr⟩
    | none =>
      cases hr' : get? (remove m k) k' with
      | none => rfl
      | some v => rw [((key v).1 hr').2] at hr; cases hr

theorem nodup_extend {m : IndexMap K V} (h : (m.map Prod.fst).Nodup) (es : List (K × V)) :
    ((extend m es).map Prod.fst).Nodup := by
  unfold extend
  induction es generalizing m with
  | nil => exact h
  | cons e es ih => exact ih (nodup_insert h _ _)

theorem get?_extend (m : IndexMap K V) {es : List (K × V)} (h : (es.map Prod.fst).Nodup) (k : K) :
    get? (extend m es) k = (get? es k).or (get? m k) := by
  unfold extend
  induction es generalizing m with
  | nil => simp [get?]
  | cons e es ih =>
    rw [List.map_cons, List.nodup_cons] at h
    rw [List.foldl_cons, ih _ h.2, get?_insert]
    obtain ⟨a, b⟩ := e
    by_cases hk : k = a
    · subst hk
      have : get? es k = none := get?_eq_none_iff.2 h.1
      rw [this]
      simp [get?]
    · have : get? ((a, b) :: es) k = get? es k := by simp [get?, Ne.symm hk]
      rw [this, if_neg hk]

theorem mem_extend {m : IndexMap K V} {es : List (K × V)} {e : K × V} (he : e ∈ extend m es) : e ∈ es ∨ e ∈ m := by
  unfold extend at he
  induction es generalizing m with
  | nil => exact .inr he
  | cons x es ih =>
    rcases ih he with h | h
    · exact .inl (by simp [h])
    · rcases mem_insert h with h | h
      · exact .inl (by simp [h])
      · exact .inr h

theorem keys_extend (m : IndexMap K V) (es : List (K × V)) :
    (extend m es).map Prod.fst = (es.map Prod.fst).foldl IndexMap.pushNew (m.map Prod.fst) := by
  unfold extend
  induction es generalizing m with
  | nil => rfl
  | cons e es ih => rw [List.foldl_cons, ih, keys_insert, List.map_cons, List.foldl_cons]

end IndexMap

/-! ### first occurrences -/

section
variable {α : Type} [DecidableEq α]

theorem mem_firstOcc {l : List α} {x : α} : x ∈ firstOcc l ↔ x ∈ l := by
  induction l with
  | nil => rfl
  | cons a l ih =>
    simp only [firstOcc, List.mem_cons, List.mem_filter, ih, decide_eq_true_eq]
    by_cases h : x = a
    · simp [h]
    · simp [h]

theorem firstOcc_append (a b : List α) :
    firstOcc (a ++ b) = firstOcc a ++ (firstOcc b).filter fun y => decide (y ∉ a) := by
  induction a with
  | nil => simp [firstOcc]
  | cons x a ih =>
    simp only [List.cons_append, firstOcc, ih, List.filter_append, List.filter_filter]
    congr 2
    apply List.filter_congr
    intro y _
    simp [List.mem_cons, not_or]

theorem foldl_firstOcc (ks es : List α) :
    es.foldl IndexMap.pushNew ks = ks ++ (firstOcc es).filter fun y => decide (y ∉ ks) := by
  induction es generalizing ks with
  | nil => simp [firstOcc]
  | cons e es ih =>
    rw [List.foldl_cons, ih, firstOcc, IndexMap.pushNew]
    by_cases h : e ∈ ks
    · simp only [h, if_true, List.filter_cons, not_true, decide_false, List.filter_filter]
      congr 1
      apply List.filter_congr
      intro y _
      by_cases hy : y ∈ ks <;> simp [hy]
      intro e'; exact hy (e' ▸ h)
    · simp only [h, if_false, List.filter_cons, not_false_eq_true, decide_true, if_true, List.filter_filter,
        List.append_assoc, List.singleton_append]
      congr 2
      apply List.filter_congr
      intro y _
      simp [not_or]

theorem firstOcc_filter (l : List α) (p : α → Bool) : firstOcc (l.filter p) = (firstOcc l).filter p := by
  induction l with
  | nil => rfl
  | cons x l ih =>
    rw [List.filter_cons]
    split
    · rename_i h
      simp only [firstOcc, ih, List.filter_cons, h, if_true, List.filter_filter]
      congr 1
      apply List.filter_congr
      intro y _
      rw [Bool.and_comm]
    · rename_i h
      simp only [firstOcc, List.filter_cons, ih, List.filter_filter]
      rw [if_neg h]
      apply List.filter_congr
      intro y _
      by_cases hy : y = x
      · subst hy; simp [h]
      · simp [hy]

theorem nodup_firstOcc (l : List α) : (firstOcc l).Nodup := by
  induction l with
  | nil => simp [firstOcc]
  | cons x l ih =>
    rw [firstOcc, List.nodup_cons]
    exact ⟨by simp, ih.filter _⟩

theorem firstOcc_of_nodup {l : List α} (h : l.Nodup) : firstOcc l = l := by
  induction l with
  | nil => rfl
  | cons x l ih =>
    rw [List.nodup_cons] at h
    rw [firstOcc, ih h.2, List.filter_eq_self.2]
    intro y hy
    simp only [decide_eq_true_eq]
    rintro rfl; exact h.1 hy

theorem firstOcc_firstOcc_append (a b : List α) : firstOcc (firstOcc a ++ firstOcc b) = firstOcc (a ++ b) := by
  rw [firstOcc_append, firstOcc_append, firstOcc_of_nodup (nodup_firstOcc a), firstOcc_of_nodup (nodup_firstOcc b)]
  congr 1
  apply List.filter_congr
  intro y _
  simp [mem_firstOcc]
end

end Ruler
