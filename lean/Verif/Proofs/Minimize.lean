import Verif.Spec.Minimize
import Verif.Proofs.Candidates
import Verif.Proofs.Rule
/-! Helper lemmas: selection of rules. -/
namespace Ruler
open Spec EGraph
open scoped List
variable {O C : Type} [Lang O]

/-! ## Scores -/

theorem lexLe_refl (a : List Int) : lexLe a a = true := by
  induction a with
  | nil => rfl
  | cons x a ih => simp [lexLe, ih]

theorem lexLe_total (a b : List Int) : (lexLe a b || lexLe b a) = true := by
  induction a generalizing b with
  | nil => simp [lexLe]
  | cons x a ih =>
    cases b with
    | nil => simp [lexLe]
    | cons y b =>
      simp only [lexLe]
      by_cases h1 : x < y
      · simp [h1]
      · by_cases h2 : y < x
        · simp [h1, h2]
        · simpa [h1, h2] using ih b

theorem lexLe_trans (a b c : List Int) (h1 : lexLe a b = true) (h2 : lexLe b c = true) : lexLe a c = true := by
  induction a generalizing b c with
  | nil => rfl
  | cons x a ih =>
    cases b with
    | nil => simp [lexLe] at h1
    | cons y b =>
      cases c with
      | nil => simp [lexLe] at h2
      | cons z c =>
        simp only [lexLe] at h1 h2 ⊢
        by_cases xy : x < y
        · by_cases yz : y < z
          · rw [if_pos (by omega)]
          · rw [if_neg yz] at h2
            by_cases zy : z < y
            · rw [if_pos zy] at h2; cases h2
            · rw [if_pos (by omega)]
        · rw [if_neg xy] at h1
          by_cases yx : y < x
          · rw [if_pos yx] at h1; cases h1
          · rw [if_neg yx] at h1
            have : x = y := by omega
            subst this
            by_cases xz : x < z
            · rw [if_pos xz]
            · rw [if_neg xz] at h2 ⊢
              by_cases zx : z < x
              · rw [if_pos zx] at h2; cases h2
              · rw [if_neg zx] at h2 ⊢
                exact ih b c h1 h2

theorem lexLe_antisymm (a b : List Int) (h1 : lexLe a b = true) (h2 : lexLe b a = true) : a = b := by
  induction a generalizing b with
  | nil =>
    cases b with
    | nil => rfl
    | cons y b => simp [lexLe] at h2
  | cons x a ih =>
    cases b with
    | nil => simp [lexLe] at h1
    | cons y b =>
      simp only [lexLe] at h1 h2
      by_cases xy : x < y
      · rw [if_neg (by omega), if_pos xy] at h2; cases h2
      · by_cases yx : y < x
        · rw [if_neg xy, if_pos yx] at h1; cases h1
        · rw [if_neg xy, if_neg yx] at h1
          rw [if_neg yx, if_neg xy] at h2
          rw [ih b h1 h2, show x = y by omega]

theorem mem_dedup {α : Type} [DecidableEq α] {l : List α} {x : α} : x ∈ dedup l ↔ x ∈ l := by
  have : ∀ (l s : List α), x ∈ l.foldl (fun s a => if a ∈ s then s else s ++ [a]) s ↔ x ∈ s ∨ x ∈ l := by
    intro l
    induction l with
    | nil => simp
    | cons a l ih =>
      intro s
      rw [List.foldl_cons, ih]
      by_cases h : a ∈ s
      · rw [if_pos h]
        constructor
        · rintro (h' | h')
          · exact Or.inl h'
          · exact Or.inr (by simp [h'])
        · rintro (h' | h')
          · exact Or.inl h'
          · rcases List.mem_cons.1 h' with rfl | h'
            · exact Or.inl h
            · exact Or.inr h'
      · rw [if_neg h]
        simp [or_assoc]
  exact (this l []).trans (by simp)

theorem nodup_dedup {α : Type} [DecidableEq α] (l : List α) : (dedup l).Nodup := by
  have : ∀ (l s : List α), s.Nodup → (l.foldl (fun s a => if a ∈ s then s else s ++ [a]) s).Nodup := by
    intro l
    induction l with
    | nil => exact fun s h => h
    | cons a l ih =>
      intro s h
      rw [List.foldl_cons]
      apply ih
      by_cases ha : a ∈ s
      · rw [if_pos ha]; exact h
      · rw [if_neg ha, List.nodup_append]
        exact ⟨h, by simp, by rintro b hb c hc rfl; simp at hc; subst hc; exact ha hb⟩
  exact this l [] (by simp)

theorem dedup_length {α : Type} [DecidableEq α] {l m : List α} (h : ∀ x, x ∈ l ↔ x ∈ m) :
    (dedup l).length = (dedup m).length := by
  apply Nat.le_antisymm
  · exact (List.Nodup.subperm (nodup_dedup l) fun x hx => mem_dedup.2 ((h x).1 (mem_dedup.1 hx))).length_le
  · exact (List.Nodup.subperm (nodup_dedup m) fun x hx => mem_dedup.2 ((h x).2 (mem_dedup.1 hx))).length_le

theorem score_comm (l r : PatternAst O) : score l r = score r l := by
  unfold score
  cases hl : astSize l with
  | none => cases hr : astSize r <;> rfl
  | some ls =>
    cases hr : astSize r with
    | none => rfl
    | some rs =>
      have e1 : (dedup (dedup (l.filterMap fun n => n.op.var?) ++ dedup (r.filterMap fun n => n.op.var?))).length =
          (dedup (dedup (r.filterMap fun n => n.op.var?) ++ dedup (l.filterMap fun n => n.op.var?))).length := by
        apply dedup_length
        intro x
        rw [List.mem_append, List.mem_append]
        exact or_comm
      have e2 : (dedup (((l ++ r).filter fun n => !n.children.isEmpty).map fun n => n.op.display)).length =
          (dedup (((r ++ l).filter fun n => !n.children.isEmpty).map fun n => n.op.display)).length := by
        apply dedup_length
        intro x
        simp only [List.filter_append, List.map_append, List.mem_append]
        exact or_comm
      have e3 : (l ++ r).countP (fun n => n.op.isConst) = (r ++ l).countP (fun n => n.op.isConst) := by
        rw [List.countP_append, List.countP_append, Nat.add_comm]
      simp only [Option.bind_some, Option.map_some]
      rw [e1, e2, e3, Int.max_comm (ls : Int) rs, Int.add_comm (ls : Int) rs]

/-! ## Small facts about rulesets -/

omit [Lang O] in
theorem named_iff {rs : Ruleset O} (h : WellFormed rs) {n : List Char} : Named rs n ↔ n ∈ rs.map Prod.fst := by
  rw [← names_eq_keys h]
  simp [Named]

omit [Lang O] in
theorem mem_iff_get? {rs : Ruleset O} (h : WellFormed rs) {r : Rule O} :
    r ∈ Ruleset.iter rs ↔ IndexMap.get? rs r.name = some r := by
  rw [IndexMap.get?_eq_some_iff h.2, Ruleset.iter, List.mem_map]
  constructor
  · rintro ⟨e, he, rfl⟩
    have := h.1 e he
    obtain ⟨k, v⟩ := e
    change k = v.name at this
    subst this
    exact he
  · intro he
    exact ⟨_, he, rfl⟩

omit [Lang O] in
theorem named_iff_get? {rs : Ruleset O} (h : WellFormed rs) {n : List Char} :
    Named rs n ↔ (IndexMap.get? rs n).isSome := by
  rw [named_iff h, ← not_iff_not, ← IndexMap.get?_eq_none_iff]
  cases IndexMap.get? rs n <;> simp

omit [Lang O] in
theorem named_add {rs : Ruleset O} (h : WellFormed rs) {r : Rule O} {n : List Char} :
    Named (Ruleset.add rs r) n ↔ Named rs n ∨ n = r.name := by
  rw [named_iff (Ruleset.WellFormed.add h r), named_iff h]
  have := mem_keys_addAll (rs := rs) (l := [r]) (n := n)
  simpa [Ruleset.addAll] using this

omit [Lang O] in
theorem mem_add {rs : Ruleset O} {r q : Rule O} (h : q ∈ Ruleset.iter (Ruleset.add rs r)) :
    q ∈ Ruleset.iter rs ∨ q = r := by
  have := mem_iter_addAll' (rs := rs) (l := [r]) (q := q) h
  simpa using this

omit [Lang O] in
theorem named_extend {a b : Ruleset O} (ha : WellFormed a) (hb : WellFormed b) {n : List Char} :
    Named (Ruleset.extend a b) n ↔ Named a n ∨ Named b n := by
  rw [named_iff_get? (Ruleset.WellFormed.extend ha hb), named_iff_get? ha, named_iff_get? hb, Ruleset.extend,
    IndexMap.get?_extend _ hb.2]
  cases IndexMap.get? b n <;> simp

omit [Lang O] in
theorem mem_extend_rules {a b : Ruleset O} {q : Rule O} (h : q ∈ Ruleset.iter (Ruleset.extend a b)) :
    q ∈ Ruleset.iter a ∨ q ∈ Ruleset.iter b := by
  obtain ⟨e, he, rfl⟩ := List.mem_map.1 h
  rcases IndexMap.mem_extend he with he | he
  · exact Or.inr (List.mem_map_of_mem he)
  · exact Or.inl (List.mem_map_of_mem he)

omit [Lang O] in
theorem mem_removeAll {a b : Ruleset O} (ha : WellFormed a) (hb : WellFormed b) {q : Rule O} :
    q ∈ Ruleset.iter (Ruleset.removeAll a b) ↔ q ∈ Ruleset.iter a ∧ ¬ Named b q.name := by
  rw [mem_iff_get? (Ruleset.WellFormed.removeAll ha b), mem_iff_get? ha, Ruleset.get?_removeAll ha, named_iff_get? hb]
  by_cases h : (IndexMap.get? b q.name).isSome <;> simp [h]

omit [Lang O] in
theorem named_removeAll {a b : Ruleset O} (ha : WellFormed a) (hb : WellFormed b) {n : List Char} :
    Named (Ruleset.removeAll a b) n ↔ Named a n ∧ ¬ Named b n := by
  constructor
  · rintro ⟨q, hq, rfl⟩
    rw [mem_removeAll ha hb] at hq
    exact ⟨⟨q, hq.1, rfl⟩, hq.2⟩
  · rintro ⟨⟨q, hq, rfl⟩, hn⟩
    exact ⟨q, (mem_removeAll ha hb).2 ⟨hq, hn⟩, rfl⟩

omit [Lang O] in
theorem wf_of_perm {a b : Ruleset O} (h : a ~ b) (hb : WellFormed b) : WellFormed a :=
  ⟨fun e he => hb.1 e (h.mem_iff.1 he), (h.map _).nodup_iff.2 hb.2⟩

omit [Lang O] in
theorem wf_of_sublist {a b : Ruleset O} (h : a <+ b) (hb : WellFormed b) : WellFormed a :=
  ⟨fun e he => hb.1 e (h.subset he), hb.2.sublist (h.map _)⟩

omit [Lang O] in
theorem contains_iff {rs : Ruleset O} (h : WellFormed rs) {r : Rule O} : Ruleset.contains rs r = true ↔ Named rs r.name := by
  rw [Ruleset.contains, IndexMap.containsKey_iff, named_iff h]

/-! ## The selection loop -/

/-- Induction over the popped rules. -/
theorem selectLoop_ind {valid : List (Rule O) → Rule O → Bool} {step : Nat} {P : Ruleset O → Sel O → Prop}
    (hstep : ∀ e rest st, P (e :: rest) st → P rest (st.take valid rest.reverse e.2)) (l : Ruleset O) (st : Sel O)
    (h : P l st) : P (selectLoop valid step l st).1 (selectLoop valid step l st).2 := by
  induction l generalizing st with
  | nil => exact h
  | cons e rest ih =>
    rw [selectLoop]
    by_cases hs : st.selected.length < step
    · rw [if_pos hs]; exact ih _ (hstep _ _ _ h)
    · rw [if_neg hs]; exact h

omit [Lang O] in
theorem Answered.mono {valid : List (Rule O) → Rule O → Bool} {a a' : List (Rule O)} (h : a <:+ a') {b : Bool} {q : Rule O}
    (hq : Answered valid a b q) : Answered valid a' b q := by
  obtain ⟨l, h1, h2⟩ := hq
  exact ⟨l, h1.trans h, h2⟩

omit [Lang O] in
theorem judge_asked (valid : List (Rule O) → Rule O → Bool) (st : Sel O) (r : Rule O) :
    (st.judge valid r).asked = r :: st.asked := by
  unfold Sel.judge
  split <;> rfl

theorem take_asked (valid : List (Rule O) → Rule O → Bool) (st : Sel O) (rest : Ruleset O) (r : Rule O) :
    r :: st.asked <:+ (st.take valid rest r).asked := by
  unfold Sel.take
  cases Rule.new r.rhs r.lhs with
  | none => rw [judge_asked]; exact List.suffix_refl _
  | some rev =>
    simp only
    split
    · rw [judge_asked, judge_asked]; exact List.suffix_cons _ _
    · rw [judge_asked]; exact List.suffix_refl _

theorem selectLoop_asked (valid : List (Rule O) → Rule O → Bool) (step : Nat) (l : Ruleset O) (st : Sel O) :
    st.asked <:+ (selectLoop valid step l st).2.asked :=
  selectLoop_ind (P := fun _ s => st.asked <:+ s.asked)
    (fun e _ s h => (h.trans (List.suffix_cons e.2 _)).trans (take_asked valid s _ e.2)) l st (List.suffix_refl _)

/-- What holds during the selection from `cands`. -/
structure SelInv (valid : List (Rule O) → Rule O → Bool) (cands : Ruleset O) (asked0 : List (Rule O)) (inv0 rest : Ruleset O)
    (st : Sel O) : Prop where
  asked : asked0 <:+ st.asked
  sub : rest <:+ cands
  wsel : WellFormed st.selected
  winv : WellFormed st.invalid
  sel : ∀ q ∈ Ruleset.iter st.selected, Answered valid st.asked true q ∧ IsCandidate cands q
  inv0 : ∀ n, Named inv0 n → Named st.invalid n
  cover : ∀ c ∈ Ruleset.iter cands, c ∈ Ruleset.iter rest ∨ Named st.selected c.name ∨
    (Answered valid st.asked false c ∧ Named st.invalid c.name)

theorem SelInv.judge {valid : List (Rule O) → Rule O → Bool} {cands inv0 rest : Ruleset O} {asked0 : List (Rule O)}
    {st : Sel O} (h : SelInv valid cands asked0 inv0 rest st) {r : Rule O} (hr : IsCandidate cands r) :
    SelInv valid cands asked0 inv0 rest (st.judge valid r) := by
  have hs : st.asked <:+ r :: st.asked := List.suffix_cons _ _
  unfold Sel.judge
  by_cases hv : valid st.asked r = true
  · rw [if_pos hv]
    refine ⟨h.asked.trans hs, h.sub, Ruleset.WellFormed.add h.wsel r, h.winv, fun q hq => ?_, h.inv0, fun c hc => ?_⟩
    · rcases mem_add hq with hq | rfl
      · exact ⟨Answered.mono hs (h.sel q hq).1, (h.sel q hq).2⟩
      · exact ⟨⟨_, List.suffix_refl _, hv⟩, hr⟩
    · rcases h.cover c hc with h1 | h1 | ⟨h1, h2⟩
      · exact Or.inl h1
      · exact Or.inr (Or.inl ((named_add h.wsel).2 (Or.inl h1)))
      · exact Or.inr (Or.inr ⟨Answered.mono hs h1, h2⟩)
  · rw [if_neg hv]
    refine ⟨h.asked.trans hs, h.sub, h.wsel, Ruleset.WellFormed.add h.winv r,
      fun q hq => ⟨Answered.mono hs (h.sel q hq).1, (h.sel q hq).2⟩,
      fun n hn => (named_add h.winv).2 (Or.inl (h.inv0 n hn)), fun c hc => ?_⟩
    rcases h.cover c hc with h1 | h1 | ⟨h1, h2⟩
    · exact Or.inl h1
    · exact Or.inr (Or.inl h1)
    · exact Or.inr (Or.inr ⟨Answered.mono hs h1, (named_add h.winv).2 (Or.inl h2)⟩)

omit [Lang O] in
theorem judge_covers {valid : List (Rule O) → Rule O → Bool} {st : Sel O} (hs : WellFormed st.selected) (hi : WellFormed st.invalid)
    (r : Rule O) : Named (st.judge valid r).selected r.name ∨
      (Answered valid (st.judge valid r).asked false r ∧ Named (st.judge valid r).invalid r.name) := by
  unfold Sel.judge
  by_cases hv : valid st.asked r = true
  · rw [if_pos hv]
    exact Or.inl ((named_add hs).2 (Or.inr rfl))
  · rw [if_neg hv]
    exact Or.inr ⟨⟨_, List.suffix_refl _, by simpa using hv⟩, (named_add hi).2 (Or.inr rfl)⟩

theorem new_sides {l r : Pat O} {q : Rule O} (h : Rule.new l r = some q) : q.lhs = l ∧ q.rhs = r ∧ Rule.Proper q := by
  unfold Rule.new at h
  split at h
  · rename_i hb
    cases h
    exact ⟨rfl, rfl, rfl, bindsAll_iff.1 hb⟩
  · cases h

theorem SelInv.take {valid : List (Rule O) → Rule O → Bool} {cands inv0 rest : Ruleset O} {asked0 : List (Rule O)}
    (hw : WellFormed cands)
    {e : List Char × Rule O} {st : Sel O} (h : SelInv valid cands asked0 inv0 (e :: rest) st) :
    SelInv valid cands asked0 inv0 rest (st.take valid rest.reverse e.2) := by
  have hsub : rest <:+ cands := (List.suffix_cons e rest).trans h.sub
  have he : e.2 ∈ Ruleset.iter cands := List.mem_map_of_mem (h.sub.subset (by simp))
  have h1 : SelInv valid cands asked0 inv0 (e :: rest) (st.judge valid e.2) := h.judge (Or.inl he)
  have h2 : SelInv valid cands asked0 inv0 rest (st.judge valid e.2) := by
    refine ⟨h1.asked, hsub, h1.wsel, h1.winv, h1.sel, h1.inv0, fun c hc => ?_⟩
    rcases h1.cover c hc with h3 | h3
    · rw [Ruleset.iter, List.map_cons] at h3
      rcases List.mem_cons.1 h3 with rfl | h3
      · exact Or.inr (judge_covers h.wsel h.winv _)
      · exact Or.inl h3
    · exact Or.inr h3
  unfold Sel.take
  cases hrev : Rule.new e.2.rhs e.2.lhs with
  | none => exact h2
  | some rev =>
    simp only
    by_cases hc : Ruleset.contains rest.reverse rev = true
    · rw [if_pos hc]
      refine h2.judge (Or.inr ⟨?_, e.2, he, ?_⟩)
      · have hwr : WellFormed rest := wf_of_sublist hsub.sublist hw
        have hwr' : WellFormed rest.reverse := wf_of_perm (List.reverse_perm rest) hwr
        obtain ⟨r, hr, e'⟩ := (contains_iff hwr').1 hc
        refine ⟨r, ?_, e'⟩
        obtain ⟨x, hx, rfl⟩ := List.mem_map.1 hr
        exact List.mem_map_of_mem (hsub.subset (List.mem_reverse.1 hx))
      · exact new_sides hrev
    · rw [if_neg hc]
      refine ⟨h2.asked, h2.sub, h2.wsel, Ruleset.WellFormed.add h2.winv rev, h2.sel,
        fun n hn => (named_add h2.winv).2 (Or.inl (h2.inv0 n hn)), fun c hc => ?_⟩
      rcases h2.cover c hc with h3 | h3 | ⟨h3, h4⟩
      · exact Or.inl h3
      · exact Or.inr (Or.inl h3)
      · exact Or.inr (Or.inr ⟨h3, (named_add h2.winv).2 (Or.inl h4)⟩)

omit [Lang O] in
theorem sort_perm (score : Rule O → List Int) (rs : Ruleset O) : Ruleset.sortByScore score rs ~ rs :=
  List.perm_insertionSort _ _

omit [Lang O] in
theorem iter_perm {a b : Ruleset O} (h : a ~ b) : Ruleset.iter a ~ Ruleset.iter b := h.map _

omit [Lang O] in
theorem named_perm {a b : Ruleset O} (h : a ~ b) {n : List Char} : Named a n ↔ Named b n := by
  unfold Named
  simp only [(iter_perm h).mem_iff]

theorem isCandidate_perm {a b : Ruleset O} (h : a ~ b) {q : Rule O} : IsCandidate a q ↔ IsCandidate b q := by
  unfold IsCandidate
  simp only [(iter_perm h).mem_iff, named_perm h]

omit [Lang O] in
theorem extend_nil {es : Ruleset O} (h : WellFormed es) : Ruleset.extend [] es = es := by
  have key : ∀ (es m : Ruleset O), (∀ e ∈ es, e.1 ∉ m.map Prod.fst) → (es.map Prod.fst).Nodup →
      IndexMap.extend m es = m ++ es := by
    intro es
    induction es with
    | nil => intro m _ _; simp [IndexMap.extend]
    | cons e es ih =>
      intro m hm hn
      rw [List.map_cons, List.nodup_cons] at hn
      have h1 : IndexMap.insert m e.1 e.2 = m ++ [e] := by
        unfold IndexMap.insert
        rw [if_neg]
        rw [IndexMap.containsKey_iff]
        exact hm e (by simp)
      have h2 : IndexMap.extend m (e :: es) = IndexMap.extend (m ++ [e]) es := by
        rw [← h1]; rfl
      rw [h2, ih (m ++ [e]) _ hn.2]
      · simp
      · intro x hx
        rw [List.map_append, List.mem_append]
        rintro (h | h)
        · exact hm x (by simp [hx]) h
        · simp at h
          exact hn.1 (h ▸ List.mem_map_of_mem hx)
  exact (key es [] (by simp) h.2).trans (by simp)

/-- What one call of `select` does. -/
structure SelectOk (valid : List (Rule O) → Rule O → Bool) (cands : Ruleset O) (asked0 : List (Rule O)) (inv0 rest : Ruleset O)
    (st : Sel O) : Prop where
  asked : asked0 <:+ st.asked
  wrest : WellFormed rest
  sub : ∀ r ∈ Ruleset.iter rest, r ∈ Ruleset.iter cands
  wsel : WellFormed st.selected
  winv : WellFormed st.invalid
  sel : ∀ q ∈ Ruleset.iter st.selected, Answered valid st.asked true q ∧ IsCandidate cands q
  inv0 : ∀ n, Named inv0 n → Named st.invalid n
  cover : ∀ c ∈ Ruleset.iter cands, c ∈ Ruleset.iter rest ∨ Named st.selected c.name ∨
    (Answered valid st.asked false c ∧ Named st.invalid c.name)

theorem select_ok {score : Rule O → List Int} {valid : List (Rule O) → Rule O → Bool} {step : Nat} {cands inv0 : Ruleset O}
    (hw : WellFormed cands) (hi : WellFormed inv0) (asked : List (Rule O)) :
    SelectOk valid cands asked inv0 (Ruleset.select score valid step cands asked inv0).1
      (Ruleset.select score valid step cands asked inv0).2 := by
  have hp : (Ruleset.sortByScore score cands).reverse ~ cands := (List.reverse_perm _).trans (sort_perm score cands)
  have hw' := wf_of_perm hp hw
  have h := selectLoop_ind (valid := valid) (step := step)
    (P := SelInv valid (Ruleset.sortByScore score cands).reverse asked inv0) (fun e rest st h => h.take hw')
    (Ruleset.sortByScore score cands).reverse ⟨asked, [], inv0⟩
    ⟨List.suffix_refl _, List.suffix_refl _, Ruleset.WellFormed.nil, hi, by simp [Ruleset.iter], fun n h => h, fun c hc => Or.inl hc⟩
  have hwr := wf_of_sublist h.sub.sublist hw'
  unfold Ruleset.select
  generalize selectLoop valid step (Ruleset.sortByScore score cands).reverse ⟨asked, [], inv0⟩ = r at h hwr ⊢
  simp only [extend_nil h.wsel]
  have hrev : r.1.reverse ~ r.1 := List.reverse_perm _
  refine ⟨h.asked, wf_of_perm hrev hwr, fun q hq => ?_, h.wsel, h.winv, fun q hq => ?_, h.inv0, fun c hc => ?_⟩
  · obtain ⟨x, hx, rfl⟩ := List.mem_map.1 hq
    exact List.mem_map_of_mem (hp.mem_iff.1 (h.sub.subset (hrev.mem_iff.1 hx)))
  · exact ⟨(h.sel q hq).1, (isCandidate_perm hp).1 (h.sel q hq).2⟩
  · rcases h.cover c ((iter_perm hp).mem_iff.2 hc) with h1 | h1
    · exact Or.inl ((iter_perm hrev).mem_iff.2 h1)
    · exact Or.inr h1

theorem selectLoop_length {valid : List (Rule O) → Rule O → Bool} {step : Nat} (l : Ruleset O) (st : Sel O) :
    (selectLoop valid step l st).1.length ≤ l.length := by
  induction l generalizing st with
  | nil => exact Nat.le_refl _
  | cons e rest ih =>
    rw [selectLoop]
    by_cases hs : st.selected.length < step
    · rw [if_pos hs]
      exact Nat.le_trans (ih _) (Nat.le_succ _)
    · rw [if_neg hs]

theorem select_length {score : Rule O → List Int} {valid : List (Rule O) → Rule O → Bool} {cands inv0 : Ruleset O}
    (hne : cands ≠ []) (asked : List (Rule O)) :
    (Ruleset.select score valid 1 cands asked inv0).1.length < cands.length := by
  unfold Ruleset.select
  simp only [List.length_reverse]
  have hl : (Ruleset.sortByScore score cands).reverse.length = cands.length := by
    rw [List.length_reverse, (sort_perm score cands).length_eq]
  rw [← hl]
  cases hc : (Ruleset.sortByScore score cands).reverse with
  | nil =>
    rw [hc] at hl
    exact absurd (List.length_eq_zero_iff.1 hl.symm) hne
  | cons e rest =>
    rw [selectLoop, if_pos (by simp)]
    exact Nat.lt_succ_of_le (selectLoop_length _ _)

/-! ## Shrinking -/

variable [LinearOrder C] {D : Domain O C}

theorem insertSides_rules {E : Egg} (rs : List (Rule O)) {g g' : EGraph O C} {l : List (Nat × Nat × Rule O)}
    (h : insertSides D E rs g = some (g', l)) : l.map (fun x => x.2.2) = rs := by
  induction rs generalizing g l with
  | nil => cases h; rfl
  | cons r rs ih =>
    rw [insertSides, Option.bind_eq_some_iff] at h
    obtain ⟨⟨g1, i⟩, h1, h⟩ := h
    rw [Option.bind_eq_some_iff] at h
    obtain ⟨⟨g2, j⟩, h2, h⟩ := h
    rw [Option.map_eq_some_iff] at h
    obtain ⟨⟨g3, l'⟩, h3, h⟩ := h
    cases h
    simp [ih h3]

omit [Lang O] [LinearOrder C] in
theorem foldl_add_filter' (f : Nat × Nat × Rule O → Prop) [DecidablePred f] (l : List (Nat × Nat × Rule O))
    (rs : Ruleset O) :
    l.foldl (fun rs x => if f x then rs else Ruleset.add rs x.2.2) rs =
      Ruleset.addAll rs ((l.filter fun x => !decide (f x)).map fun x => x.2.2) := by
  induction l generalizing rs with
  | nil => rfl
  | cons x l ih =>
    rw [List.foldl_cons, ih]
    by_cases h : f x <;> simp [h, Ruleset.addAll]

theorem shrink_spec {isSat : Rule O → Bool} {E : Egg} {s : Scheduler} {t : SchedTrace} {cands chosen rest : Ruleset O}
    (hw : WellFormed cands) (h : Ruleset.shrink D E isSat s t cands chosen = some rest) :
    Ruleset.iter rest <+ Ruleset.iter cands ∧ WellFormed rest ∧ rest.length ≤ cands.length := by
  unfold Ruleset.shrink at h
  rw [Option.bind_eq_some_iff] at h
  obtain ⟨⟨g, l⟩, hg, h⟩ := h
  rw [Option.map_eq_some_iff] at h
  obtain ⟨g', hg', h⟩ := h
  simp only at h
  rw [foldl_add_filter' (fun x => g'.find x.1 = g'.find x.2.1)] at h
  have hl := insertSides_rules _ hg
  have hsub : ((l.filter fun x => !decide (g'.find x.1 = g'.find x.2.1)).map fun x => x.2.2) <+ Ruleset.iter cands := by
    rw [← hl]; exact List.filter_sublist.map _
  have hn : (((l.filter fun x => !decide (g'.find x.1 = g'.find x.2.1)).map fun x => x.2.2).map Rule.name).Nodup :=
    (wf_names hw).sublist (hsub.map _)
  have h2 := Ruleset.addAll_nodup [] hn (by simp)
  rw [h] at h2
  have hit : Ruleset.iter rest = (l.filter fun x => !decide (g'.find x.1 = g'.find x.2.1)).map fun x => x.2.2 := by
    rw [h2]
    simp only [Ruleset.iter, List.nil_append, List.map_map]
    apply List.map_congr_left
    intro x _
    rfl
  refine ⟨hit ▸ hsub, ?_, ?_⟩
  · rw [← h]; exact Ruleset.WellFormed.addAll Ruleset.WellFormed.nil _
  · have h3 : (Ruleset.iter rest).length = rest.length := by simp [Ruleset.iter]
    have h4 : (Ruleset.iter cands).length = cands.length := by simp [Ruleset.iter]
    rw [← h3, ← h4, hit]
    exact hsub.length_le

/-! ## The loop of `minimize` -/

/-- The candidate was removed in some round, and all rules used in that round have a name satisfying `P`. -/
def RemovedBy (D : Domain O C) (M : MinEnv O) (cands0 : Ruleset O) (R : Rule O → Prop) (P : List Char → Prop)
    (c : Rule O) : Prop :=
  ∃ (round : Nat) (cs ch rest : Ruleset O),
    Ruleset.shrink D (M.eg round) M.isSat M.sched (M.tr round) cs ch = some rest ∧ WellFormed cs ∧
    (∀ r ∈ Ruleset.iter cs, r ∈ Ruleset.iter cands0) ∧ c ∈ Ruleset.iter cs ∧ c ∉ Ruleset.iter rest ∧
    ∀ q ∈ Ruleset.iter ch, R q ∧ P q.name

theorem RemovedBy.mono {M : MinEnv O} {cands0 : Ruleset O} {R S : Rule O → Prop} {P Q : List Char → Prop} {c : Rule O}
    (h' : ∀ q, R q → S q) (h : ∀ n, P n → Q n) (hc : RemovedBy D M cands0 R P c) : RemovedBy D M cands0 S Q c := by
  obtain ⟨k, cs, ch, rest, h1, h2, h3, h4, h5, h6⟩ := hc
  exact ⟨k, cs, ch, rest, h1, h2, h3, h4, h5, fun q hq => ⟨h' _ (h6 q hq).1, h _ (h6 q hq).2⟩⟩

/-- Where a chosen rule comes from. -/
def Origin (M : MinEnv O) (cands0 prior : Ruleset O) (asked : List (Rule O)) (q : Rule O) : Prop :=
  q ∈ Ruleset.iter prior ∨ Answered M.valid asked true q ∧ IsCandidate cands0 q

theorem Origin.mono {M : MinEnv O} {cands0 prior : Ruleset O} {a a' : List (Rule O)} (h : a <:+ a') {q : Rule O}
    (hq : Origin M cands0 prior a q) : Origin M cands0 prior a' q := by
  rcases hq with hq | ⟨h1, h2⟩
  · exact Or.inl hq
  · exact Or.inr ⟨Answered.mono h h1, h2⟩

/-- What holds at the start of every round. -/
structure LoopInv (D : Domain O C) (M : MinEnv O) (cands0 prior cands chosen : Ruleset O) (asked : List (Rule O))
    (invalid : Ruleset O) : Prop where
  wc : WellFormed cands
  wch : WellFormed chosen
  winv : WellFormed invalid
  sub : ∀ r ∈ Ruleset.iter cands, r ∈ Ruleset.iter cands0
  orig : ∀ q ∈ Ruleset.iter chosen, Origin M cands0 prior asked q
  cover : ∀ c ∈ Ruleset.iter cands0, c ∈ Ruleset.iter cands ∨ Named chosen c.name ∨
    (Answered M.valid asked false c ∧ Named invalid c.name) ∨
    RemovedBy D M cands0 (Origin M cands0 prior asked) (Named chosen) c

theorem IsCandidate.mono {a b : Ruleset O} (h : ∀ r ∈ Ruleset.iter a, r ∈ Ruleset.iter b) {q : Rule O}
    (hq : IsCandidate a q) : IsCandidate b q := by
  rcases hq with hq | ⟨⟨r, hr, e⟩, c, hc, h'⟩
  · exact Or.inl (h q hq)
  · exact Or.inr ⟨⟨r, h r hr, e⟩, c, h c hc, h'⟩

theorem LoopInv.step {M : MinEnv O} {cands0 prior cands chosen invalid : Ruleset O}
    {asked : List (Rule O)}
    (h : LoopInv D M cands0 prior cands chosen asked invalid) (round : Nat) {rest : Ruleset O}
    (hs : Ruleset.shrink D (M.eg round) M.isSat M.sched (M.tr round)
      (Ruleset.select M.score M.valid 1 cands asked invalid).1
      (Ruleset.extend chosen (Ruleset.select M.score M.valid 1 cands asked invalid).2.selected) = some rest) :
    LoopInv D M cands0 prior rest
      (Ruleset.extend chosen (Ruleset.select M.score M.valid 1 cands asked invalid).2.selected)
      (Ruleset.select M.score M.valid 1 cands asked invalid).2.asked
      (Ruleset.select M.score M.valid 1 cands asked invalid).2.invalid := by
  have ok := select_ok (score := M.score) (valid := M.valid) (step := 1) h.wc h.winv asked
  generalize Ruleset.select M.score M.valid 1 cands asked invalid = s at hs ok ⊢
  have hwch := Ruleset.WellFormed.extend h.wch ok.wsel
  obtain ⟨h1, h2, -⟩ := shrink_spec ok.wrest hs
  have hsub : ∀ r ∈ Ruleset.iter s.1, r ∈ Ruleset.iter cands0 := fun r hr => h.sub r (ok.sub r hr)
  have hmono : ∀ n, Named chosen n → Named (Ruleset.extend chosen s.2.selected) n :=
    fun n hn => (named_extend h.wch ok.wsel).2 (Or.inl hn)
  have horig : ∀ q ∈ Ruleset.iter (Ruleset.extend chosen s.2.selected), Origin M cands0 prior s.2.asked q := by
    intro q hq
    rcases mem_extend_rules hq with hq | hq
    · exact (h.orig q hq).mono ok.asked
    · exact Or.inr ⟨(ok.sel q hq).1, IsCandidate.mono h.sub (ok.sel q hq).2⟩
  refine ⟨h2, hwch, ok.winv, fun r hr => hsub r (h1.subset hr), horig, fun c hc => ?_⟩
  rcases h.cover c hc with h3 | h3 | ⟨h3, h4⟩ | h3
  · rcases ok.cover c h3 with h4 | h4 | h4
    · by_cases h5 : c ∈ Ruleset.iter rest
      · exact Or.inl h5
      · exact Or.inr (Or.inr (Or.inr ⟨round, _, _, _, hs, ok.wrest, hsub, h4, h5,
          fun q hq => ⟨horig q hq, q, hq, rfl⟩⟩))
    · exact Or.inr (Or.inl ((named_extend h.wch ok.wsel).2 (Or.inr h4)))
    · exact Or.inr (Or.inr (Or.inl h4))
  · exact Or.inr (Or.inl (hmono _ h3))
  · exact Or.inr (Or.inr (Or.inl ⟨Answered.mono ok.asked h3, ok.inv0 _ h4⟩))
  · exact Or.inr (Or.inr (Or.inr (h3.mono (fun _ => Origin.mono ok.asked) hmono)))

theorem minimizeLoop_inv {M : MinEnv O} {cands0 prior : Ruleset O} (fuel : Nat) {round : Nat} {asked : List (Rule O)}
    {cands chosen invalid out inv : Ruleset O} {asked' : List (Rule O)}
    (h : LoopInv D M cands0 prior cands chosen asked invalid)
    (hd : minimizeLoop D M fuel round cands chosen asked invalid = .done out inv asked') :
    LoopInv D M cands0 prior [] out asked' inv := by
  induction fuel generalizing round asked cands chosen invalid with
  | zero =>
    rw [minimizeLoop] at hd
    cases cands with
    | nil => simp at hd; obtain ⟨rfl, rfl, rfl⟩ := hd; exact h
    | cons e l => simp at hd
  | succ fuel ih =>
    rw [minimizeLoop] at hd
    cases cands with
    | nil => simp at hd; obtain ⟨rfl, rfl, rfl⟩ := hd; exact h
    | cons e l =>
      simp only [List.isEmpty_cons, Bool.false_eq_true, if_false] at hd
      split at hd
      · cases hd
      · rename_i rest hs
        exact ih (h.step round hs) hd

theorem minimizeLoop_stops {M : MinEnv O} (fuel : Nat) {round : Nat} {asked : List (Rule O)} {cands chosen invalid : Ruleset O}
    (hw : WellFormed cands) (hi : WellFormed invalid) (hf : cands.length ≤ fuel) :
    minimizeLoop D M fuel round cands chosen asked invalid ≠ .running := by
  induction fuel generalizing round asked cands chosen invalid with
  | zero =>
    have : cands = [] := List.length_eq_zero_iff.1 (Nat.le_zero.1 hf)
    subst this
    simp [minimizeLoop]
  | succ fuel ih =>
    rw [minimizeLoop]
    cases cands with
    | nil => simp
    | cons e l =>
      simp only [List.isEmpty_cons, Bool.false_eq_true, if_false]
      have ok := select_ok (score := M.score) (valid := M.valid) (step := 1) hw hi asked
      have hl := select_length (score := M.score) (valid := M.valid) (inv0 := invalid) (cands := e :: l) (by simp) asked
      split
      · simp
      · rename_i rest hs
        obtain ⟨-, h2, h3⟩ := shrink_spec ok.wrest hs
        exact ih h2 ok.winv (by omega)

theorem minimizeLoop_mono {M : MinEnv O} (fuel more : Nat) {round : Nat} {asked : List (Rule O)} {cands chosen invalid : Ruleset O}
    (h : minimizeLoop D M fuel round cands chosen asked invalid ≠ .running) :
    minimizeLoop D M (fuel + more) round cands chosen asked invalid =
      minimizeLoop D M fuel round cands chosen asked invalid := by
  induction fuel generalizing round asked cands chosen invalid with
  | zero =>
    cases cands with
    | nil => cases more <;> simp [minimizeLoop]
    | cons e l => simp [minimizeLoop] at h
  | succ fuel ih =>
    rw [Nat.succ_add]
    rw [minimizeLoop] at h ⊢
    rw [minimizeLoop]
    cases cands with
    | nil => simp
    | cons e l =>
      simp only [List.isEmpty_cons, Bool.false_eq_true, if_false] at h ⊢
      split
      · rfl
      · rename_i rest hs
        rw [hs] at h
        exact ih h

/-- A panic of the loop is a panic of one of its saturations. -/
theorem minimizeLoop_panic {M : MinEnv O} (fuel : Nat) {round : Nat} {asked : List (Rule O)}
    {cands chosen invalid : Ruleset O} (hw : WellFormed cands) (hi : WellFormed invalid)
    (h : minimizeLoop D M fuel round cands chosen asked invalid = .panic) :
    ∃ k cs ch, (∀ r ∈ Ruleset.iter cs, r ∈ Ruleset.iter cands) ∧ round ≤ k ∧ k < round + cands.length ∧
      Ruleset.shrink D (M.eg k) M.isSat M.sched (M.tr k) cs ch = none := by
  induction fuel generalizing round asked cands chosen invalid with
  | zero =>
    cases cands with
    | nil => simp [minimizeLoop] at h
    | cons e l => simp [minimizeLoop] at h
  | succ fuel ih =>
    rw [minimizeLoop] at h
    cases cands with
    | nil => simp at h
    | cons e l =>
      simp only [List.isEmpty_cons, Bool.false_eq_true, if_false] at h
      have ok := select_ok (score := M.score) (valid := M.valid) (step := 1) hw hi asked
      have hl := select_length (score := M.score) (valid := M.valid) (inv0 := invalid) (cands := e :: l) (by simp) asked
      split at h
      · rename_i hs
        exact ⟨_, _, _, ok.sub, Nat.le_refl _, by simp, hs⟩
      · rename_i rest hs
        obtain ⟨h1, h2, h3⟩ := shrink_spec ok.wrest hs
        obtain ⟨k, cs, ch, h4, h5, h6, h7⟩ := ih h2 ok.winv h
        exact ⟨k, cs, ch, fun r hr => ok.sub r (h1.subset (h4 r hr)), by omega, by omega, h7⟩

/-! ## One selection -/

omit [Lang O] in
theorem judge_selected {valid : List (Rule O) → Rule O → Bool} {st : Sel O} {r q : Rule O}
    (hq : q ∈ Ruleset.iter (st.judge valid r).selected) : q ∈ Ruleset.iter st.selected ∨ q = r := by
  unfold Sel.judge at hq
  split at hq
  · exact mem_add hq
  · exact Or.inl hq

theorem take_selected {valid : List (Rule O) → Rule O → Bool} {st : Sel O} {rest : Ruleset O} {r q : Rule O}
    (hq : q ∈ Ruleset.iter (st.take valid rest r).selected) :
    q ∈ Ruleset.iter st.selected ∨ q = r ∨ Rule.new r.rhs r.lhs = some q := by
  unfold Sel.take at hq
  cases hrev : Rule.new r.rhs r.lhs with
  | none =>
    rw [hrev] at hq
    rcases judge_selected hq with h | h
    · exact Or.inl h
    · exact Or.inr (Or.inl h)
  | some rev =>
    rw [hrev] at hq
    simp only at hq
    split at hq
    · rcases judge_selected hq with h | rfl
      · rcases judge_selected h with h | h
        · exact Or.inl h
        · exact Or.inr (Or.inl h)
      · exact Or.inr (Or.inr rfl)
    · rcases judge_selected hq with h | h
      · exact Or.inl h
      · exact Or.inr (Or.inl h)

omit [Lang O] in
theorem add_ne_nil {rs : Ruleset O} {r : Rule O} : Ruleset.add rs r ≠ [] := by
  intro h
  have : r.name ∈ (Ruleset.addAll rs [r]).map Prod.fst := mem_keys_addAll.2 (Or.inr (by simp))
  rw [show Ruleset.addAll rs [r] = Ruleset.add rs r from rfl, h] at this
  cases this

omit [Lang O] in
theorem judge_ne_nil {valid : List (Rule O) → Rule O → Bool} {st : Sel O} (r : Rule O) (h : st.selected ≠ []) :
    (st.judge valid r).selected ≠ [] := by
  unfold Sel.judge
  split
  · exact add_ne_nil
  · exact h

theorem take_rejects {valid : List (Rule O) → Rule O → Bool} {st : Sel O} {rest : Ruleset O} {r : Rule O}
    (hn : (st.take valid rest r).selected = []) : valid st.asked r = false := by
  by_contra hv
  have hv : valid st.asked r = true := by simpa using hv
  have h1 : (st.judge valid r).selected ≠ [] := by
    unfold Sel.judge
    rw [if_pos hv]
    exact add_ne_nil
  unfold Sel.take at hn
  cases hrev : Rule.new r.rhs r.lhs with
  | none => rw [hrev] at hn; exact h1 hn
  | some rev =>
    rw [hrev] at hn
    simp only at hn
    split at hn
    · exact judge_ne_nil _ h1 hn
    · exact h1 hn

/-- The loop with step size one stops at the first rule that is accepted, or whose reverse is. -/
theorem selectLoop_one {valid : List (Rule O) → Rule O → Bool} (l : Ruleset O) (st : Sel O) (h0 : st.selected = []) :
    ((selectLoop valid 1 l st).1 = [] ∧ (selectLoop valid 1 l st).2.selected = [] ∧ ∀ e ∈ l, Answered valid (selectLoop valid 1 l st).2.asked false e.2) ∨
    ∃ pre e rest, l = pre ++ e :: rest ∧ (selectLoop valid 1 l st).1 = rest ∧ (∀ x ∈ pre, Answered valid (selectLoop valid 1 l st).2.asked false x.2) ∧
      (selectLoop valid 1 l st).2.selected ≠ [] ∧
      ∀ q ∈ Ruleset.iter (selectLoop valid 1 l st).2.selected, q = e.2 ∨ Rule.new e.2.rhs e.2.lhs = some q := by
  induction l generalizing st with
  | nil => exact Or.inl ⟨rfl, h0, by simp⟩
  | cons e rest ih =>
    have hstep : selectLoop valid 1 (e :: rest) st = selectLoop valid 1 rest (st.take valid rest.reverse e.2) := by
      rw [selectLoop, if_pos (by simp [h0])]
    rw [hstep]
    by_cases hn : (st.take valid rest.reverse e.2).selected = []
    · have hrej : Answered valid (selectLoop valid 1 rest (st.take valid rest.reverse e.2)).2.asked false e.2 :=
        ⟨_, (take_asked valid st rest.reverse e.2).trans (selectLoop_asked valid 1 rest _), take_rejects hn⟩
      rcases ih _ hn with ⟨h1, h2, h3⟩ | ⟨pre, x, r, rfl, h2, h3, h4, h5⟩
      · refine Or.inl ⟨h1, h2, fun y hy => ?_⟩
        rcases List.mem_cons.1 hy with rfl | hy
        · exact hrej
        · exact h3 y hy
      · refine Or.inr ⟨e :: pre, x, r, rfl, h2, fun y hy => ?_, h4, h5⟩
        rcases List.mem_cons.1 hy with rfl | hy
        · exact hrej
        · exact h3 y hy
    · refine Or.inr ⟨[], e, rest, rfl, ?_⟩
      have hend : selectLoop valid 1 rest (st.take valid rest.reverse e.2) = (rest, st.take valid rest.reverse e.2) := by
        cases rest with
        | nil => rfl
        | cons y rest =>
          rw [selectLoop, if_neg]
          have := List.length_pos_iff.2 hn
          omega
      rw [hend]
      refine ⟨rfl, by simp, hn, fun q hq => ?_⟩
      rcases take_selected hq with h | h
      · rw [h0] at h; simp [Ruleset.iter] at h
      · exact h

/-! ## The rules reported as invalid -/

omit [Lang O] in
theorem judge_invalid {valid : List (Rule O) → Rule O → Bool} {st : Sel O} {r q : Rule O}
    (hq : q ∈ Ruleset.iter (st.judge valid r).invalid) : q ∈ Ruleset.iter st.invalid ∨ q = r := by
  unfold Sel.judge at hq
  split at hq
  · exact Or.inl hq
  · exact mem_add hq

theorem take_invalid {valid : List (Rule O) → Rule O → Bool} {st : Sel O} {rest : Ruleset O} {r q : Rule O}
    (hq : q ∈ Ruleset.iter (st.take valid rest r).invalid) :
    q ∈ Ruleset.iter st.invalid ∨ q = r ∨ Rule.new r.rhs r.lhs = some q := by
  unfold Sel.take at hq
  cases hrev : Rule.new r.rhs r.lhs with
  | none =>
    rw [hrev] at hq
    rcases judge_invalid hq with h | h
    · exact Or.inl h
    · exact Or.inr (Or.inl h)
  | some rev =>
    rw [hrev] at hq
    simp only at hq
    have key : q ∈ Ruleset.iter (st.judge valid r).invalid ∨ q = rev := by
      split at hq
      · exact judge_invalid hq
      · exact mem_add hq
    rcases key with h | rfl
    · rcases judge_invalid h with h | h
      · exact Or.inl h
      · exact Or.inr (Or.inl h)
    · exact Or.inr (Or.inr rfl)

/-- The rules reported as invalid are rules reported before, candidates or the other direction of candidates. -/
theorem select_invalid {score : Rule O → List Int} {valid : List (Rule O) → Rule O → Bool} {step : Nat}
    {cands inv0 : Ruleset O} {asked : List (Rule O)} {q : Rule O}
    (hq : q ∈ Ruleset.iter (Ruleset.select score valid step cands asked inv0).2.invalid) :
    q ∈ Ruleset.iter inv0 ∨ ∃ c ∈ Ruleset.iter cands, q = c ∨ Rule.new c.rhs c.lhs = some q := by
  have hp : (Ruleset.sortByScore score cands).reverse ~ cands := (List.reverse_perm _).trans (sort_perm score cands)
  have h := selectLoop_ind (valid := valid) (step := step)
    (P := fun rest st => (∀ e ∈ rest, e ∈ cands) ∧ ∀ q ∈ Ruleset.iter st.invalid,
      q ∈ Ruleset.iter inv0 ∨ ∃ c ∈ Ruleset.iter cands, q = c ∨ Rule.new c.rhs c.lhs = some q)
    (fun e rest st h => ⟨fun x hx => h.1 x (List.mem_cons_of_mem _ hx), fun q hq => by
      rcases take_invalid hq with h' | h'
      · exact h.2 q h'
      · exact Or.inr ⟨e.2, List.mem_map_of_mem (h.1 e (by simp)), h'⟩⟩)
    (Ruleset.sortByScore score cands).reverse ⟨asked, [], inv0⟩ ⟨fun e he => hp.mem_iff.1 he, fun q hq => Or.inl hq⟩
  exact h.2 q hq

theorem minimizeLoop_invalid {M : MinEnv O} {cands0 : Ruleset O} (fuel : Nat) {round : Nat} {asked asked' : List (Rule O)}
    {cands chosen invalid out inv : Ruleset O} (hw : WellFormed cands) (hi : WellFormed invalid)
    (hs : ∀ r ∈ Ruleset.iter cands, r ∈ Ruleset.iter cands0)
    (h : ∀ q ∈ Ruleset.iter invalid, ∃ c ∈ Ruleset.iter cands0, q = c ∨ Rule.new c.rhs c.lhs = some q)
    (hd : minimizeLoop D M fuel round cands chosen asked invalid = .done out inv asked') :
    ∀ q ∈ Ruleset.iter inv, ∃ c ∈ Ruleset.iter cands0, q = c ∨ Rule.new c.rhs c.lhs = some q := by
  induction fuel generalizing round asked cands chosen invalid with
  | zero =>
    rw [minimizeLoop] at hd
    cases cands with
    | nil => simp at hd; obtain ⟨rfl, rfl, rfl⟩ := hd; exact h
    | cons e l => simp at hd
  | succ fuel ih =>
    rw [minimizeLoop] at hd
    cases cands with
    | nil => simp at hd; obtain ⟨rfl, rfl, rfl⟩ := hd; exact h
    | cons e l =>
      simp only [List.isEmpty_cons, Bool.false_eq_true, if_false] at hd
      have ok := select_ok (score := M.score) (valid := M.valid) (step := 1) hw hi asked
      split at hd
      · cases hd
      · rename_i rest hsh
        obtain ⟨h1, h2, -⟩ := shrink_spec ok.wrest hsh
        refine ih h2 ok.winv (fun r hr => hs r (ok.sub r (h1.subset hr))) (fun q hq => ?_) hd
        rcases select_invalid hq with h3 | ⟨c, hc, h3⟩
        · exact h q h3
        · exact ⟨c, hs c hc, h3⟩

end Ruler
