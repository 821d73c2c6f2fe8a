import Verif.Proofs.Rule
import Verif.Proofs.Total
/-! Helper lemmas about rulesets: histories, partition, bidirectional counting. -/
namespace Ruler
open Spec
variable {O : Type}

namespace Ruleset

theorem WellFormed.nil : WellFormed ([] : Ruleset O) := ⟨by simp, by simp⟩

theorem WellFormed.add {rs : Ruleset O} (h : WellFormed rs) (r : Rule O) : WellFormed (add rs r) := by
  refine ⟨?_, IndexMap.nodup_insert h.2 _ _⟩
  intro e he
  rcases IndexMap.mem_insert he with rfl | he
  · rfl
  · exact h.1 e he

theorem WellFormed.addAll {rs : Ruleset O} (h : WellFormed rs) (l : List (Rule O)) : WellFormed (addAll rs l) := by
  unfold Ruleset.addAll
  induction l generalizing rs with
  | nil => exact h
  | cons r l ih => exact ih (WellFormed.add h r)

theorem WellFormed.extend {a b : Ruleset O} (ha : WellFormed a) (hb : WellFormed b) : WellFormed (extend a b) := by
  refine ⟨?_, IndexMap.nodup_extend ha.2 _⟩
  intro e he
  rcases IndexMap.mem_extend he with he | he
  · exact hb.1 e he
  · exact ha.1 e he

theorem remove_mem {rs : Ruleset O} (h : (rs.map Prod.fst).Nodup) {k : List Char} {e : List Char × Rule O}
    (he : e ∈ IndexMap.remove rs k) : e ∈ rs := by
  rw [(IndexMap.remove_perm h k).mem_iff] at he
  exact List.mem_of_mem_filter he

theorem WellFormed.remove {rs : Ruleset O} (h : WellFormed rs) (k : List Char) : WellFormed (IndexMap.remove rs k) :=
  ⟨fun e he => h.1 e (remove_mem h.2 he), IndexMap.nodup_remove h.2 k⟩

theorem WellFormed.removeAll {a : Ruleset O} (ha : WellFormed a) (b : Ruleset O) : WellFormed (removeAll a b) := by
  unfold Ruleset.removeAll
  induction b generalizing a with
  | nil => exact ha
  | cons e b ih => exact ih (WellFormed.remove ha _)

theorem get?_add (rs : Ruleset O) (r : Rule O) (n : List Char) :
    IndexMap.get? (add rs r) n = update (IndexMap.get? rs) r n := by
  unfold add update
  rw [IndexMap.get?_insert]

theorem get?_addAll (rs : Ruleset O) (l : List (Rule O)) (n : List Char) :
    IndexMap.get? (addAll rs l) n = l.foldl update (IndexMap.get? rs) n := by
  unfold addAll
  induction l generalizing rs with
  | nil => rfl
  | cons r l ih =>
    rw [List.foldl_cons, List.foldl_cons, ih]
    rw [show IndexMap.get? (add rs r) = update (IndexMap.get? rs) r from funext (get?_add rs r)]

theorem get?_removeAll {a : Ruleset O} (ha : WellFormed a) (b : Ruleset O) (n : List Char) :
    IndexMap.get? (removeAll a b) n = if (IndexMap.get? b n).isSome then none else IndexMap.get? a n := by
  unfold removeAll
  induction b generalizing a with
  | nil => simp [IndexMap.get?]
  | cons e b ih =>
    rw [List.foldl_cons, ih (WellFormed.remove ha _), IndexMap.get?_remove ha.2]
    obtain ⟨k, r⟩ := e
    by_cases hk : n = k
    · subst hk; rw [if_pos rfl]; simp only [IndexMap.get?, List.find?_cons, decide_true, Option.map_some, Option.isSome_some, if_true]; exact ite_self _
    · have : IndexMap.get? ((k, r) :: b) n = IndexMap.get? b n := by simp [IndexMap.get?, Ne.symm hk]
      rw [this, if_neg hk]

theorem keys_addAll (rs : Ruleset O) (l : List (Rule O)) :
    (addAll rs l).map Prod.fst =
      (l.map Rule.name).foldl IndexMap.pushNew (rs.map Prod.fst) := by
  unfold addAll
  induction l generalizing rs with
  | nil => rfl
  | cons r l ih => rw [List.foldl_cons, ih, add, IndexMap.keys_insert, List.map_cons, List.foldl_cons]

theorem addAll_nodup {l : List (Rule O)} (rs : Ruleset O) (h : (l.map Rule.name).Nodup)
    (hd : ∀ r ∈ l, r.name ∉ rs.map Prod.fst) : addAll rs l = rs ++ l.map fun r => (r.name, r) := by
  unfold addAll
  induction l generalizing rs with
  | nil => simp
  | cons r l ih =>
    rw [List.map_cons, List.nodup_cons] at h
    have h1 : add rs r = rs ++ [(r.name, r)] := by
      unfold add IndexMap.insert
      rw [if_neg]
      intro hc
      exact hd r (by simp) (IndexMap.containsKey_iff.1 hc)
    rw [List.foldl_cons, h1, ih _ h.2]
    · simp
    · intro r' hr' hm
      rw [List.map_append, List.mem_append] at hm
      rcases hm with hm | hm
      · exact hd r' (by simp [hr']) hm
      · simp at hm
        exact h.1 (hm ▸ List.mem_map_of_mem hr')

end Ruleset

open Ruleset

theorem History.wf (h : History O) : WellFormed h.run := by
  induction h with
  | empty => exact WellFormed.nil
  | add h r ih => exact WellFormed.add ih r
  | addAll h rs ih => exact WellFormed.addAll ih rs
  | extend h g ih1 ih2 => exact WellFormed.extend ih1 ih2
  | union h g ih1 ih2 => exact WellFormed.extend ih1 ih2
  | removeAll h g ih1 ih2 => exact WellFormed.removeAll ih1 _

theorem History.get (h : History O) (n : List Char) : IndexMap.get? h.run n = h.meaning n := by
  induction h generalizing n with
  | empty => rfl
  | add h r ih =>
    rw [History.run, get?_add, History.meaning, show IndexMap.get? h.run = h.meaning from funext ih]
  | addAll h rs ih =>
    rw [History.run, get?_addAll, History.meaning, show IndexMap.get? h.run = h.meaning from funext ih]
  | extend h g ih1 ih2 =>
    rw [History.run, Ruleset.extend, IndexMap.get?_extend _ (History.wf g).2, ih1, ih2]; rfl
  | union h g ih1 ih2 =>
    rw [History.run, Ruleset.union, IndexMap.get?_extend _ (History.wf g).2, ih1, ih2]; rfl
  | removeAll h g ih1 ih2 =>
    rw [History.run, get?_removeAll (History.wf h), ih1, ih2]; rfl

theorem History.order (h : History O) (hr : h.NoRemoval) : h.run.map Prod.fst = firstOcc h.insertions := by
  induction h with
  | empty => rfl
  | add h r ih =>
    have := keys_addAll h.run [r]
    simp only [addAll, List.foldl_cons, List.foldl_nil, List.map_cons, List.map_nil] at this
    rw [History.run, this, ih hr, History.insertions, firstOcc_append]
    have h2 := foldl_firstOcc (firstOcc h.insertions) [r.name]
    simp only [List.foldl_cons, List.foldl_nil] at h2
    rw [h2]
    congr 1
    apply List.filter_congr
    intro y _
    simp [mem_firstOcc]
  | addAll h rs ih =>
    rw [History.run, keys_addAll, ih hr, foldl_firstOcc, History.insertions, firstOcc_append]
    congr 1
    apply List.filter_congr
    intro y _
    simp [mem_firstOcc]
  | extend h g ih1 ih2 =>
    rw [History.run, Ruleset.extend, IndexMap.keys_extend, ih1 hr.1, ih2 hr.2, foldl_firstOcc,
      History.insertions, firstOcc_append, firstOcc_of_nodup (nodup_firstOcc _)]
    congr 1
    apply List.filter_congr
    intro y _
    simp [mem_firstOcc]
  | union h g ih1 ih2 =>
    rw [History.run, Ruleset.union, IndexMap.keys_extend, ih1 hr.1, ih2 hr.2, foldl_firstOcc,
      History.insertions, firstOcc_append, firstOcc_of_nodup (nodup_firstOcc _)]
    congr 1
    apply List.filter_congr
    intro y _
    simp [mem_firstOcc]
  | removeAll h g ih1 ih2 => exact hr.elim

/-! ### partition -/

theorem parPartition_eq {α : Type} (f : α → Bool) (t : Split) (l : List α) :
    parPartition f t l = (l.filter f, l.filter fun x => !f x) := by
  induction t generalizing l with
  | leaf => rfl
  | fork n a b iha ihb =>
    simp only [parPartition, iha, ihb]
    rw [← List.filter_append, ← List.filter_append, List.take_append_drop]

theorem wf_entries {rs : Ruleset O} (h : WellFormed rs) : rs = (Ruleset.iter rs).map fun r => (r.name, r) := by
  unfold Ruleset.iter
  rw [List.map_map]
  conv_lhs => rw [← List.map_id rs]
  apply List.map_congr_left
  intro e he
  obtain ⟨k, r⟩ := e
  have := h.1 _ he
  simp only at this
  simp [this]

theorem wf_names {rs : Ruleset O} (h : WellFormed rs) : ((Ruleset.iter rs).map Rule.name).Nodup := by
  have h2 := h.2
  rw [wf_entries h, List.map_map] at h2
  exact h2

theorem addAll_filter {rs : Ruleset O} (h : WellFormed rs) (f : Rule O → Bool) :
    addAll [] ((Ruleset.iter rs).filter f) = rs.filter fun e => f e.2 := by
  rw [addAll_nodup]
  · conv_rhs => rw [wf_entries h]
    rw [List.filter_map, List.nil_append]
    rfl
  · exact List.Nodup.sublist (List.filter_sublist.map _) (wf_names h)
  · simp

/-! ### equality -/

theorem Ruleset.eq_iff (a b : Ruleset O) : Ruleset.eq a b = true ↔ toStrVec a = toStrVec b := by
  unfold Ruleset.eq toStrVec
  constructor
  · intro h
    split at h
    · cases h
    · rename_i hl
      simp only [ne_eq, Classical.not_not] at hl
      induction a generalizing b with
      | nil => cases b with
        | nil => rfl
        | cons => simp at hl
      | cons x a ih => cases b with
        | nil => simp at hl
        | cons y b =>
          simp only [List.zip_cons_cons, List.all_cons, Bool.and_eq_true, decide_eq_true_eq] at h
          simp only [List.map_cons]
          rw [h.1, ih b h.2 (by simpa using hl)]
  · intro h
    have hl : a.length = b.length := by simpa using congrArg List.length h
    rw [if_neg (by simp [hl])]
    induction a generalizing b with
    | nil => simp
    | cons x a ih => cases b with
      | nil => simp at hl
      | cons y b =>
        simp only [List.map_cons, List.cons.injEq] at h
        simp only [List.zip_cons_cons, List.all_cons, Bool.and_eq_true, decide_eq_true_eq]
        exact ⟨h.1, ih b h.2 (by simpa using hl)⟩

/-! ### loading -/

theorem ofLines_names [Lang O] (l : List (Rule O)) (h : ∀ r ∈ l, Rule.Textual r) (m : Ruleset O) :
    ofLines (l.map Rule.name) m = some (addAll m l) := by
  induction l generalizing m with
  | nil => rfl
  | cons r l ih =>
    rw [List.map_cons, ofLines, Textual.fromString (h r (by simp))]
    simp only [Option.bind_some]
    rw [ih fun r hr => h r (by simp [hr])]
    rfl

/-! ### bidirectional rules -/

theorem Rule.Textual.ext [Lang O] {r s : Rule O} (hr : Rule.Textual r) (hs : Rule.Textual s) (h : r.name = s.name) :
    r = s := by
  have := Textual.fromString hr
  rw [h, Textual.fromString hs] at this
  simp at this
  exact this.symm

/-- The reverse rule. -/
def Rule.rev [Lang O] (r : Rule O) : Rule O := ⟨ruleName r.rhs r.lhs, r.rhs, r.lhs⟩

theorem Rule.rev_rev [Lang O] {r : Rule O} (h : Rule.Proper r) : Rule.rev (Rule.rev r) = r := by
  unfold Rule.rev
  cases r
  simp only [Rule.mk.injEq, and_true]
  exact h.1.symm

theorem hasReverse_iff [Lang O] {rs : Ruleset O} (hw : WellFormed rs) (ht : ∀ r ∈ Ruleset.iter rs, Rule.Textual r)
    {r : Rule O} (hr : r ∈ Ruleset.iter rs) :
    hasReverse rs r = true ↔ Rule.rev r ∈ Ruleset.iter rs := by
  unfold hasReverse Rule.new
  have hkeys : rs.map Prod.fst = (Ruleset.iter rs).map Rule.name := by
    conv_lhs => rw [wf_entries hw, List.map_map]
    rfl
  constructor
  · intro h
    split at h
    · rename_i rev e
      split at e
      · rename_i hb
        cases e
        rw [contains, IndexMap.containsKey_iff, hkeys] at h
        obtain ⟨r', h1, h2⟩ := List.mem_map.1 h
        have hpr : Rule.Textual (Rule.rev r) := by
          obtain ⟨⟨_, _⟩, h3, h4, h5, h6⟩ := ht r hr
          exact ⟨⟨rfl, bindsAll_iff.1 hb⟩, h4, h3, h6, h5⟩
        rw [← Rule.Textual.ext (ht r' h1) hpr h2]
        exact h1
      · cases e
    · cases h
  · intro h
    have hp := (ht _ h).1
    have hb : bindsAll r.rhs r.lhs = true := bindsAll_iff.2 hp.2
    rw [if_pos hb]
    simp only
    rw [contains, IndexMap.containsKey_iff, hkeys]
    exact List.mem_map.2 ⟨_, h, rfl⟩

theorem biName_split [Lang O] (l r : Pat O) (h : ¬ HasArrow l.print) :
    splitArrow (biName l r) [] = some (l.print ++ [' ', '<'], ' ' :: r.print) := by
  have h2 : biName l r = (l.print ++ [' ', '<']) ++ '=' :: '>' :: (' ' :: r.print) := by
    simp [biName, show " <=> ".toList = [' ', '<', '=', '>', ' '] by decide]
  rw [h2, splitArrow_append _ (noArrow_append h (noArrow_short (by simp) (by simp)) (by simp))]
  rfl

theorem biArrow_biName [Lang O] (l r : Pat O) : hasBiArrow (biName l r) = true := by
  rw [hasBiArrow_iff]
  exact ⟨l.print ++ [' '], ' ' :: r.print, by simp [biName, show " <=> ".toList = [' ', '<', '=', '>', ' '] by decide]⟩

theorem biName_inj' [Lang O] {l r l' r' : Pat O} (hl : Readable l) (hr : Readable r) (hl' : Readable l')
    (hr' : Readable r') (ha : ¬ HasArrow l.print) (ha' : ¬ HasArrow l'.print)
    (h : biName l r = biName l' r') : l = l' ∧ r = r' := by
  have h1 := biName_split l r ha
  rw [h, biName_split l' r' ha'] at h1
  simp only [Option.some.injEq, Prod.mk.injEq, List.append_cancel_right_eq, List.cons.injEq, true_and] at h1
  exact ⟨(Readable.print_inj hl' hl h1.1).symm, (Readable.print_inj hr' hr h1.2).symm⟩

theorem biName_inj [Lang O] {r s : Rule O} (hr : Rule.Textual r) (hs : Rule.Textual s)
    (h : biName r.lhs r.rhs = biName s.lhs s.rhs) : r = s := by
  obtain ⟨e1, e2⟩ := biName_inj' hr.2.1 hr.2.2.1 hs.2.1 hs.2.2.1 hr.2.2.2.1 hs.2.2.2.1 h
  have e3 := hr.1.1
  have e4 := hs.1.1
  cases r; cases s
  simp only at e1 e2 e3 e4
  subst e1; subst e2; subst e3; subst e4
  rfl

theorem biName_ne_name [Lang O] {s : Rule O} (hs : Rule.Textual s) (l r : Pat O) : biName l r ≠ s.name := by
  intro e
  have h1 := biArrow_biName l r
  rw [e, hs.1.1, not_biArrow_ruleName _ _ hs.2.2.2.1 hs.2.2.2.2] at h1
  cases h1

/-- The line printed for a rule, given the rules before it. -/
noncomputable def lineOf [Lang O] (L pre : List (Rule O)) (r : Rule O) : List (List Char) :=
  open Classical in
  if Rule.rev r ∈ L then (if Rule.rev r ∈ pre then [] else [biName r.lhs r.rhs]) else [r.name]

/-- All lines printed for `rest`, given the rules before it. -/
noncomputable def linesOf [Lang O] (L : List (Rule O)) : List (Rule O) → List (Rule O) → List (List Char)
  | _, [] => []
  | pre, r :: rest => lineOf L pre r ++ linesOf L (pre ++ [r]) rest

theorem linesOf_append [Lang O] (L pre a b : List (Rule O)) :
    linesOf L pre (a ++ b) = linesOf L pre a ++ linesOf L (pre ++ a) b := by
  induction a generalizing pre with
  | nil => simp [linesOf]
  | cons r a ih => simp [linesOf, ih]

theorem mem_linesOf [Lang O] {L pre l : List (Rule O)} {s : List Char} (h : s ∈ linesOf L pre l) :
    ∃ r ∈ l, (Rule.rev r ∈ L ∧ s = biName r.lhs r.rhs) ∨ (Rule.rev r ∉ L ∧ s = r.name) := by
  induction l generalizing pre with
  | nil => simp [linesOf] at h
  | cons r l ih =>
    rw [linesOf, List.mem_append] at h
    rcases h with h | h
    · refine ⟨r, by simp, ?_⟩
      unfold lineOf at h
      split at h
      · rename_i h1
        split at h
        · simp at h
        · exact .inl ⟨h1, by simpa using h⟩
      · rename_i h1
        exact .inr ⟨h1, by simpa using h⟩
    · obtain ⟨r', h1, h2⟩ := ih h
      exact ⟨r', by simp [h1], h2⟩

/-- A bidirectional line of a rule has been printed iff the rule has been seen (and was not itself skipped). -/
theorem bi_mem_linesOf [Lang O] {L : List (Rule O)} (ht : ∀ r ∈ L, Rule.Textual r) {pre rest : List (Rule O)}
    (hL : L = pre ++ rest) (hn : L.Nodup) {r : Rule O} (hr : r ∈ rest) (hrev : Rule.rev r ∈ L) :
    biName r.rhs r.lhs ∈ linesOf L [] pre ↔ Rule.rev r ∈ pre := by
  have hrL : r ∈ L := by rw [hL]; simp [hr]
  constructor
  · intro h
    obtain ⟨s, hs, h1 | h1⟩ := mem_linesOf h
    · have hsL : s ∈ L := by rw [hL]; simp [hs]
      have : Rule.rev r = s := biName_inj (ht _ hrev) (ht s hsL) h1.2
      rw [this]; exact hs
    · have hsL : s ∈ L := by rw [hL]; simp [hs]
      exact absurd h1.2 (biName_ne_name (ht s hsL) _ _)
  · intro h
    obtain ⟨a, b, rfl⟩ := List.append_of_mem h
    rw [linesOf_append, List.mem_append]
    right
    rw [linesOf, List.mem_append]
    left
    have hrr : Rule.rev (Rule.rev r) = r := Rule.rev_rev (ht r hrL).1
    unfold lineOf
    rw [hrr, if_pos hrL, if_neg]
    · simp [Rule.rev]
    · intro hra
      have hra : r ∈ a := by simpa using hra
      rw [hL, List.nodup_append] at hn
      exact hn.2.2 r (by simp [hra]) r hr rfl

theorem prettyLoop_eq [Lang O] {rs : Ruleset O} (hw : WellFormed rs) (ht : ∀ r ∈ Ruleset.iter rs, Rule.Textual r)
    (pre rest : List (Rule O)) (hL : Ruleset.iter rs = pre ++ rest) :
    prettyLoop rs (rest.map fun r => (r.name, r)) (linesOf (Ruleset.iter rs) [] pre) =
      linesOf (Ruleset.iter rs) [] (Ruleset.iter rs) := by
  have hn : (Ruleset.iter rs).Nodup := List.Nodup.of_map _ (wf_names hw)
  induction rest generalizing pre with
  | nil => rw [List.append_nil] at hL; rw [hL]; rfl
  | cons r rest ih =>
    have hr : r ∈ Ruleset.iter rs := by rw [hL]; simp
    have hnext := ih (pre ++ [r]) (by rw [hL]; simp)
    rw [List.map_cons, prettyLoop]
    rw [linesOf_append, List.nil_append, linesOf, linesOf, List.append_nil] at hnext
    by_cases hrev : Rule.rev r ∈ Ruleset.iter rs
    · rw [if_pos ((hasReverse_iff hw ht hr).2 hrev)]
      by_cases hp : Rule.rev r ∈ pre
      · rw [if_pos ((bi_mem_linesOf ht hL hn (by simp) hrev).2 hp)]
        rw [lineOf, if_pos hrev, if_pos hp, List.append_nil] at hnext
        exact hnext
      · rw [if_neg (fun h => hp ((bi_mem_linesOf ht hL hn (by simp) hrev).1 h))]
        rw [lineOf, if_pos hrev, if_neg hp] at hnext
        exact hnext
    · rw [if_neg (fun h => hrev ((hasReverse_iff hw ht hr).1 h))]
      rw [lineOf, if_neg hrev] at hnext
      exact hnext

theorem prettyLines_eq [Lang O] {rs : Ruleset O} (hw : WellFormed rs) (ht : ∀ r ∈ Ruleset.iter rs, Rule.Textual r) :
    prettyLines rs = linesOf (Ruleset.iter rs) [] (Ruleset.iter rs) := by
  have := prettyLoop_eq hw ht [] (Ruleset.iter rs) rfl
  rw [← wf_entries hw] at this
  exact this

theorem linesOf_length [Lang O] (L pre rest : List (Rule O)) (hL : L = pre ++ rest) (hn : L.Nodup) :
    open Classical in
    (linesOf L pre rest).length = rest.countP (fun r => decide (Rule.rev r ∉ L)) +
      rest.countP (fun r => decide (Rule.rev r ∈ L ∧ ¬ L.idxOf (Rule.rev r) < L.idxOf r)) := by
  classical
  induction rest generalizing pre with
  | nil => simp [linesOf]
  | cons r rest ih =>
    rw [linesOf, List.length_append, ih (pre ++ [r]) (by rw [hL]; simp), List.countP_cons, List.countP_cons]
    have hrp : r ∉ pre := by
      rw [hL, List.nodup_append] at hn
      intro h; exact hn.2.2 r h r (by simp) rfl
    have hidx : L.idxOf r = pre.length := by
      rw [hL, List.idxOf_append_of_notMem hrp]; simp
    have hlt : Rule.rev r ∈ pre ↔ L.idxOf (Rule.rev r) < L.idxOf r := by
      rw [hidx, hL]
      constructor
      · intro h; rw [List.idxOf_append_of_mem h]; exact List.idxOf_lt_length_iff.2 h
      · intro h
        by_contra hc
        rw [List.idxOf_append_of_notMem hc] at h
        omega
    unfold lineOf
    by_cases hrev : Rule.rev r ∈ L
    · by_cases hp : Rule.rev r ∈ pre
      · have := hlt.1 hp
        simp [hrev, hp, this]
      · have := Nat.le_of_not_lt fun h => hp (hlt.2 h)
        simp [hrev, hp, this]
        omega
    · simp [hrev]; omega


theorem countP_split {α : Type} (l : List α) (p q : α → Bool) :
    l.countP p = l.countP (fun x => p x && q x) + l.countP (fun x => p x && !q x) := by
  induction l with
  | nil => rfl
  | cons x l ih =>
    rw [List.countP_cons, List.countP_cons, List.countP_cons, ih]
    cases p x <;> cases q x <;> simp <;> omega

theorem countP_le_of_inj {α : Type} {l : List α} (hn : l.Nodup) (p q : α → Bool) (f : α → α)
    (h1 : ∀ x ∈ l, p x = true → f x ∈ l ∧ q (f x) = true) (h2 : ∀ x ∈ l, p x = true → f (f x) = x) :
    l.countP p ≤ l.countP q := by
  classical
  rw [List.countP_eq_length_filter, List.countP_eq_length_filter]
  have h3 := Sexp.nodup_subset_length (k := (l.filter p).map f) (l := l.filter q) ?_ ?_
  · simpa using h3
  · apply List.Nodup.map_on _ (hn.filter _)
    intro x hx y hy e
    rw [List.mem_filter] at hx hy
    rw [← h2 x hx.1 hx.2, ← h2 y hy.1 hy.2, e]
  · intro y hy
    obtain ⟨x, hx, rfl⟩ := List.mem_map.1 hy
    rw [List.mem_filter] at hx ⊢
    exact h1 x hx.1 hx.2

/-- Counting rules by direction: twice the pairs plus the identities. -/
theorem bidir_counts [Lang O] {L : List (Rule O)} (ht : ∀ r ∈ L, Rule.Proper r) (hn : L.Nodup) :
    open Classical in
    L.countP (fun r => decide (Rule.rev r ∈ L)) =
      2 * L.countP (fun r => decide (Rule.rev r ∈ L) && decide (L.idxOf (Rule.rev r) < L.idxOf r)) +
        L.countP (fun r => decide (r.lhs = r.rhs)) ∧
    L.countP (fun r => decide (Rule.rev r ∈ L)) =
      L.countP (fun r => decide (Rule.rev r ∈ L) && decide (L.idxOf (Rule.rev r) < L.idxOf r)) +
        L.countP (fun r => decide (Rule.rev r ∈ L ∧ ¬ L.idxOf (Rule.rev r) < L.idxOf r)) := by
  classical
  have hrr : ∀ r ∈ L, Rule.rev (Rule.rev r) = r := fun r h => Rule.rev_rev (ht r h)
  have hid : ∀ r ∈ L, (Rule.rev r = r ↔ r.lhs = r.rhs) := by
    intro r hr
    constructor
    · intro e; exact (congrArg Rule.rhs e)
    · intro e
      have h1 := (ht r hr).1
      cases r
      simp only at e h1
      subst e; subst h1
      rfl
  have s1 := countP_split L (fun r => decide (Rule.rev r ∈ L)) fun r => decide (L.idxOf (Rule.rev r) < L.idxOf r)
  have s2 := countP_split L (fun r => decide (Rule.rev r ∈ L) && !decide (L.idxOf (Rule.rev r) < L.idxOf r))
    fun r => decide (r.lhs = r.rhs)
  have e1 : L.countP (fun r => decide (Rule.rev r ∈ L ∧ ¬ L.idxOf (Rule.rev r) < L.idxOf r)) =
      L.countP (fun r => decide (Rule.rev r ∈ L) && !decide (L.idxOf (Rule.rev r) < L.idxOf r)) := by
    apply List.countP_congr
    intro r _
    simp
  have e2 : L.countP (fun r => (decide (Rule.rev r ∈ L) && !decide (L.idxOf (Rule.rev r) < L.idxOf r)) &&
      decide (r.lhs = r.rhs)) = L.countP (fun r => decide (r.lhs = r.rhs)) := by
    apply List.countP_congr
    intro r hr
    simp only [Bool.and_eq_true, decide_eq_true_eq, Bool.not_eq_true', decide_eq_false_iff_not]
    constructor
    · exact fun h => h.2
    · intro h
      have := (hid r hr).2 h
      rw [this]
      exact ⟨⟨hr, Nat.lt_irrefl _⟩, h⟩
  have hlt : ∀ r ∈ L, r.lhs ≠ r.rhs → Rule.rev r ∈ L → L.idxOf (Rule.rev r) ≠ L.idxOf r := by
    intro r hr h1 h2 e
    exact h1 ((hid r hr).1 ((List.idxOf_inj h2).1 e))
  have e3 : L.countP (fun r => decide (Rule.rev r ∈ L) && decide (L.idxOf (Rule.rev r) < L.idxOf r)) =
      L.countP (fun r => (decide (Rule.rev r ∈ L) && !decide (L.idxOf (Rule.rev r) < L.idxOf r)) &&
      !decide (r.lhs = r.rhs)) := by
    apply Nat.le_antisymm
    · apply countP_le_of_inj hn _ _ Rule.rev
      · intro r hr h
        simp only [Bool.and_eq_true, decide_eq_true_eq, Bool.not_eq_true', decide_eq_false_iff_not] at h ⊢
        rw [hrr r hr]
        refine ⟨h.1, ⟨hr, by omega⟩, ?_⟩
        intro e
        have : r.lhs = r.rhs := e.symm
        rw [(hid r hr).2 this] at h
        omega
      · exact fun r hr _ => hrr r hr
    · apply countP_le_of_inj hn _ _ Rule.rev
      · intro r hr h
        simp only [Bool.and_eq_true, decide_eq_true_eq, Bool.not_eq_true', decide_eq_false_iff_not] at h ⊢
        rw [hrr r hr]
        have := hlt r hr h.2 h.1.1
        exact ⟨h.1.1, hr, by omega⟩
      · exact fun r hr _ => hrr r hr
  omega


/-! ### every rule on exactly one line -/

theorem mem_linesOf_pos [Lang O] {L pre l : List (Rule O)} {s : List Char} (h : s ∈ linesOf L pre l) :
    ∃ a r b, l = a ++ r :: b ∧
      ((Rule.rev r ∈ L ∧ Rule.rev r ∉ pre ++ a ∧ s = biName r.lhs r.rhs) ∨ (Rule.rev r ∉ L ∧ s = r.name)) := by
  induction l generalizing pre with
  | nil => simp [linesOf] at h
  | cons r l ih =>
    rw [linesOf, List.mem_append] at h
    rcases h with h | h
    · refine ⟨[], r, l, rfl, ?_⟩
      unfold lineOf at h
      split at h
      · rename_i h1
        split at h
        · simp at h
        · rename_i h2
          exact .inl ⟨h1, by simpa using h2, by simpa using h⟩
      · rename_i h1
        exact .inr ⟨h1, by simpa using h⟩
    · obtain ⟨a, r', b, h1, h2⟩ := ih h
      exact ⟨r :: a, r', b, by simp [h1], by simpa using h2⟩

theorem line_inj [Lang O] {L : List (Rule O)} (ht : ∀ r ∈ L, Rule.Textual r) {r r' : Rule O} {s : List Char}
    (hr : r ∈ L) (hr' : r' ∈ L)
    (h : (Rule.rev r ∈ L ∧ s = biName r.lhs r.rhs) ∨ (Rule.rev r ∉ L ∧ s = r.name))
    (h' : (Rule.rev r' ∈ L ∧ s = biName r'.lhs r'.rhs) ∨ (Rule.rev r' ∉ L ∧ s = r'.name)) : r = r' := by
  rcases h with ⟨_, rfl⟩ | ⟨_, rfl⟩ <;> rcases h' with ⟨_, e⟩ | ⟨_, e⟩
  · exact biName_inj (ht _ hr) (ht _ hr') e
  · exact absurd e (biName_ne_name (ht _ hr') _ _)
  · exact absurd e.symm (biName_ne_name (ht _ hr) _ _)
  · exact Rule.Textual.ext (ht _ hr) (ht _ hr') e

theorem lineOf_mem [Lang O] {L pre : List (Rule O)} {r : Rule O} {s : List Char} (h : s ∈ lineOf L pre r) :
    (Rule.rev r ∈ L ∧ s = biName r.lhs r.rhs) ∨ (Rule.rev r ∉ L ∧ s = r.name) := by
  unfold lineOf at h
  split at h
  · rename_i h1
    split at h
    · simp at h
    · exact .inl ⟨h1, by simpa using h⟩
  · rename_i h1
    exact .inr ⟨h1, by simpa using h⟩

theorem linesOf_nodup [Lang O] {L : List (Rule O)} (ht : ∀ r ∈ L, Rule.Textual r) (pre l : List (Rule O))
    (hl : ∀ r ∈ l, r ∈ L) (hn : l.Nodup) : (linesOf L pre l).Nodup := by
  induction l generalizing pre with
  | nil => simp [linesOf]
  | cons r l ih =>
    rw [List.nodup_cons] at hn
    rw [linesOf, List.nodup_append]
    refine ⟨?_, ih _ (fun r hr => hl r (by simp [hr])) hn.2, ?_⟩
    · unfold lineOf
      split
      · split <;> simp
      · simp
    · intro s hs s' hs' e
      subst e
      obtain ⟨r', hr', h'⟩ := mem_linesOf hs'
      exact hn.1 (line_inj ht (hl r (by simp)) (hl r' (by simp [hr'])) (lineOf_mem hs) h' ▸ hr')

theorem lines_cover [Lang O] {L : List (Rule O)} (ht : ∀ r ∈ L, Rule.Textual r) (hn : L.Nodup) {r : Rule O}
    (hr : r ∈ L) : ∃ s ∈ linesOf L [] L, Represents s r := by
  obtain ⟨a, b, hL⟩ := List.append_of_mem hr
  have hown : ∀ s ∈ lineOf L a r, s ∈ linesOf L [] L := by
    intro s hs
    have : linesOf L [] L = linesOf L [] a ++ (lineOf L a r ++ linesOf L (a ++ [r]) b) := by
      conv_lhs => rw [show linesOf L [] L = linesOf L [] (a ++ r :: b) by rw [← hL]]
      rw [linesOf_append, List.nil_append, linesOf]
    rw [this]
    simp [hs]
  by_cases h1 : Rule.rev r ∈ L
  · by_cases h2 : Rule.rev r ∈ a
    · refine ⟨biName r.rhs r.lhs, ?_, .inr (.inr rfl)⟩
      have := (bi_mem_linesOf ht hL hn (r := r) (by simp) h1).2 h2
      rw [show linesOf L [] L = linesOf L [] (a ++ r :: b) by rw [← hL], linesOf_append]
      exact List.mem_append_left _ this
    · exact ⟨biName r.lhs r.rhs, hown _ (by simp [lineOf, h1, h2]), .inr (.inl rfl)⟩
  · exact ⟨r.name, hown _ (by simp [lineOf, h1]), .inl rfl⟩

theorem lines_unique [Lang O] {L : List (Rule O)} (ht : ∀ r ∈ L, Rule.Textual r) (hn : L.Nodup) {r : Rule O}
    (hr : r ∈ L) {s s' : List Char} (hs : s ∈ linesOf L [] L) (hs' : s' ∈ linesOf L [] L)
    (h : Represents s r) (h' : Represents s' r) : s = s' := by
  classical
  -- every line representing `r` belongs to `r` or to its reverse
  have key : ∀ s, s ∈ linesOf L [] L → Represents s r →
      (Rule.rev r ∉ L ∧ s = r.name) ∨
      (Rule.rev r ∈ L ∧ s = biName r.lhs r.rhs ∧ L.idxOf r ≤ L.idxOf (Rule.rev r)) ∨
      (Rule.rev r ∈ L ∧ s = biName r.rhs r.lhs ∧ L.idxOf (Rule.rev r) ≤ L.idxOf r) := by
    intro s hs h
    obtain ⟨a, q, b, e, hq⟩ := mem_linesOf_pos hs
    have hqL : q ∈ L := by rw [e]; simp
    have hqa : q ∉ a := by
      rw [e, List.nodup_append] at hn
      intro hc; exact hn.2.2 q hc q (by simp) rfl
    have hidx : ∀ x, x ∈ L → x ∉ a → L.idxOf q ≤ L.idxOf x := by
      intro x _ hx
      rw [e, List.idxOf_append_of_notMem hqa, List.idxOf_append_of_notMem hx]
      simp
    rcases hq with ⟨h1, h2, rfl⟩ | ⟨h1, rfl⟩
    · have h2 : Rule.rev q ∉ a := by simpa using h2
      rcases h with h | h | h
      · exact absurd h (biName_ne_name (ht r hr) _ _)
      · have : q = r := biName_inj (ht q hqL) (ht r hr) h
        subst this
        exact .inr (.inl ⟨h1, rfl, hidx _ h1 h2⟩)
      · have hp : Rule.rev q = r := by
          obtain ⟨e1, e2⟩ := biName_inj' (ht q hqL).2.1 (ht q hqL).2.2.1 (ht r hr).2.2.1 (ht r hr).2.1
            (ht q hqL).2.2.2.1 (ht r hr).2.2.2.2 h
          have e3 := (ht r hr).1.1
          unfold Rule.rev
          rw [e1, e2]
          cases r
          simp only at e3
          rw [e3]
        have hq : q = Rule.rev r := by rw [← hp, Rule.rev_rev (ht q hqL).1]
        subst hq
        rw [hp] at h2
        exact .inr (.inr ⟨hqL, rfl, hidx _ hr h2⟩)
    · rcases h with h | h | h
      · have : q = r := Rule.Textual.ext (ht q hqL) (ht r hr) h
        subst this
        exact .inl ⟨h1, rfl⟩
      · exact absurd h.symm (biName_ne_name (ht q hqL) _ _)
      · exact absurd h.symm (biName_ne_name (ht q hqL) _ _)
  have same : Rule.rev r ∈ L → L.idxOf r ≤ L.idxOf (Rule.rev r) → L.idxOf (Rule.rev r) ≤ L.idxOf r →
      biName r.lhs r.rhs = biName r.rhs r.lhs := by
    intro h1 h2 h3
    have e := (List.idxOf_inj hr).1 (Nat.le_antisymm h2 h3)
    have : r.lhs = r.rhs := congrArg Rule.lhs e
    rw [this]
  rcases key s hs h with ⟨a1, rfl⟩ | ⟨a1, rfl, a3⟩ | ⟨a1, rfl, a3⟩ <;>
    rcases key s' hs' h' with ⟨b1, rfl⟩ | ⟨b1, rfl, b3⟩ | ⟨b1, rfl, b3⟩
  · rfl
  · exact absurd b1 a1
  · exact absurd b1 a1
  · exact absurd a1 b1
  · rfl
  · exact same a1 a3 b3
  · exact absurd a1 b1
  · exact (same a1 b3 a3).symm
  · rfl

/-! ### one-directional arrows -/

theorem splitArrow_isSome {s : List Char} (h : HasArrow s) (acc : List Char) : ∃ a b, splitArrow s acc = some (a, b) := by
  induction s generalizing acc with
  | nil => obtain ⟨a, b, e⟩ := h; simp at e
  | cons c s ih =>
    rw [HasArrow, List.infix_cons_iff] at h
    rcases h with h | h
    · obtain ⟨t, e⟩ := h
      simp only [List.cons_append, List.nil_append, List.cons.injEq] at e
      obtain ⟨rfl, rfl⟩ := e
      exact ⟨_, _, rfl⟩
    · unfold splitArrow
      split
      · exact ⟨_, _, rfl⟩
      · rename_i h1 h2
        injection h2 with h3 h4
        subst h3; subst h4
        exact ih h _
      · rename_i h1; cases h1

theorem splitArrow_some_of_arrow {s : List Char} (h : HasArrow s) : ∃ a b, splitArrow s [] = some (a, b) :=
  splitArrow_isSome h []


theorem forwardLine_split [Lang O] (l r : Pat O) (h : ¬ HasArrow l.print) :
    splitArrow (l.print ++ " => ".toList ++ r.print) [] = some (l.print ++ [' '], ' ' :: r.print) := by
  have h2 : l.print ++ " => ".toList ++ r.print = (l.print ++ [' ']) ++ '=' :: '>' :: (' ' :: r.print) := by
    simp [show " => ".toList = [' ', '=', '>', ' '] by decide]
  rw [h2, splitArrow_append _ (noArrow_append h (noArrow_short (by simp) (by simp)) (by simp))]
  rfl

theorem not_biArrow_forwardLine [Lang O] (l r : Pat O) (h : ¬ HasArrow l.print) (h' : ¬ HasArrow r.print) :
    hasBiArrow (l.print ++ " => ".toList ++ r.print) = false := by
  rw [← Bool.not_eq_true, hasBiArrow_iff]
  intro hb
  have e : l.print ++ " => ".toList ++ r.print = l.print ++ ' ' :: '=' :: '>' :: ' ' :: r.print := by
    simp [show " => ".toList = [' ', '=', '>', ' '] by decide]
  rw [e] at hb
  clear e
  generalize l.print = a at *
  generalize r.print = b at *
  induction a with
  | nil =>
    simp only [List.nil_append, List.infix_cons_iff, List.cons_prefix_cons] at hb
    rcases hb with ⟨h1, _⟩ | ⟨h1, _⟩ | ⟨h1, _⟩ | ⟨h1, _⟩ | hb
    · exact absurd h1 (by decide)
    · exact absurd h1 (by decide)
    · exact absurd h1 (by decide)
    · exact absurd h1 (by decide)
    · exact h' (hasArrow_of_biArrow hb)
  | cons c a ih =>
    rw [List.cons_append, List.infix_cons_iff] at hb
    rcases hb with hb | hb
    · cases a with
      | nil =>
        simp only [List.nil_append, List.cons_prefix_cons] at hb
        exact absurd hb.2.1 (by decide)
      | cons d a =>
        cases a with
        | nil =>
          simp only [List.nil_append, List.cons_append, List.cons_prefix_cons] at hb
          exact absurd hb.2.2.1 (by decide)
        | cons f a =>
          simp only [List.cons_append, List.cons_prefix_cons] at hb
          obtain ⟨rfl, rfl, rfl, _⟩ := hb
          exact h ⟨['<'], a, rfl⟩
    · exact ih (hasArrow_cons h) hb

end Ruler
