import Verif.Spec.Candidates
import Verif.Proofs.Generalize
import Verif.Proofs.Ruleset
import Mathlib.Data.List.Basic
/-! Helper lemmas: candidate generation. -/
namespace Ruler
open Spec
open scoped List
variable {O C : Type} [Lang O]

/-! ## Rules from pairs of terms -/

/-- The rules of one pair of patterns, forward direction first. -/
def dirs (p : Pat O × Pat O) : List (Rule O) := (Rule.new p.1 p.2).toList ++ (Rule.new p.2 p.1).toList

/-- The rules of one pair of terms. -/
def dirsOf (p : Tm O × Tm O) : List (Rule O) := (generalizePair p.1 p.2).toList.flatMap dirs

omit [Lang O] in
theorem addOpt_eq (rs : Ruleset O) (o : Option (Rule O)) : rs.addOpt o = Ruleset.addAll rs o.toList := by
  cases o <;> rfl

omit [Lang O] in
theorem addAll_append (rs : Ruleset O) (a b : List (Rule O)) :
    Ruleset.addAll (Ruleset.addAll rs a) b = Ruleset.addAll rs (a ++ b) := by
  simp [Ruleset.addAll, List.foldl_append]

theorem addFromTerms_eq {rs rs' : Ruleset O} {e1 e2 : Tm O} (h : rs.addFromTerms e1 e2 = some rs') :
    (generalizePair e1 e2).isSome ∧ rs' = Ruleset.addAll rs (dirsOf (e1, e2)) := by
  unfold Ruleset.addFromTerms at h
  obtain ⟨p, hp, rfl⟩ := Option.map_eq_some_iff.1 h
  refine ⟨by simp [hp], ?_⟩
  rw [addOpt_eq, addOpt_eq, addAll_append]
  simp [dirsOf, hp, dirs]

theorem addPairs_eq {ps : List (Tm O × Tm O)} {rs rs' : Ruleset O} (h : rs.addPairs ps = some rs') :
    (∀ p ∈ ps, (generalizePair p.1 p.2).isSome) ∧ rs' = Ruleset.addAll rs (ps.flatMap dirsOf) := by
  induction ps generalizing rs with
  | nil => cases h; exact ⟨by simp, rfl⟩
  | cons p ps ih =>
    unfold Ruleset.addPairs at h
    rw [List.foldlM_cons] at h
    obtain ⟨r1, h1, h2⟩ := Option.bind_eq_some_iff.1 h
    obtain ⟨a1, a2⟩ := addFromTerms_eq h1
    obtain ⟨b1, b2⟩ := ih h2
    refine ⟨fun q hq => ?_, ?_⟩
    · rcases List.mem_cons.1 hq with rfl | hq
      · exact a1
      · exact b1 q hq
    · rw [b2, a2, addAll_append]
      simp

theorem addPairs_isSome {ps : List (Tm O × Tm O)} (h : ∀ p ∈ ps, (generalizePair p.1 p.2).isSome) (rs : Ruleset O) :
    (rs.addPairs ps).isSome := by
  induction ps generalizing rs with
  | nil => rfl
  | cons p ps ih =>
    unfold Ruleset.addPairs
    rw [List.foldlM_cons]
    have h1 := h p (by simp)
    rw [Option.isSome_iff_exists] at h1
    obtain ⟨q, hq⟩ := h1
    have : rs.addFromTerms p.1 p.2 = some ((rs.addOpt (Rule.new q.1 q.2)).addOpt (Rule.new q.2 q.1)) := by
      simp [Ruleset.addFromTerms, hq]
    rw [this]
    exact ih (fun p hp => h p (by simp [hp])) _

omit [Lang O] in
theorem mem_iter_addAll' {rs : Ruleset O} {l : List (Rule O)} {q : Rule O} (h : q ∈ Ruleset.iter (Ruleset.addAll rs l)) :
    q ∈ Ruleset.iter rs ∨ q ∈ l := by
  induction l generalizing rs with
  | nil => exact Or.inl h
  | cons a l ih =>
    rcases ih h with h | h
    · obtain ⟨e, he, rfl⟩ := List.mem_map.1 h
      rcases IndexMap.mem_insert he with rfl | he
      · exact Or.inr (by simp)
      · exact Or.inl (List.mem_map_of_mem he)
    · exact Or.inr (by simp [h])

omit [Lang O] in
theorem names_eq_keys {rs : Ruleset O} (h : WellFormed rs) : (Ruleset.iter rs).map Rule.name = rs.map Prod.fst := by
  rw [Ruleset.iter, List.map_map]
  apply List.map_congr_left
  intro e he
  exact (h.1 e he).symm

omit [Lang O] in
theorem mem_keys_addAll {rs : Ruleset O} {l : List (Rule O)} {n : List Char} :
    n ∈ (Ruleset.addAll rs l).map Prod.fst ↔ n ∈ rs.map Prod.fst ∨ n ∈ l.map Rule.name := by
  induction l generalizing rs with
  | nil => simp [Ruleset.addAll]
  | cons a l ih =>
    have : Ruleset.addAll rs (a :: l) = Ruleset.addAll (Ruleset.add rs a) l := rfl
    rw [this, ih]
    have : n ∈ (Ruleset.add rs a).map Prod.fst ↔ n ∈ rs.map Prod.fst ∨ n = a.name := by
      have h := IndexMap.get?_insert rs a.name n a
      have h1 := IndexMap.get?_eq_none_iff (m := IndexMap.insert rs a.name a) (k := n)
      have h2 := IndexMap.get?_eq_none_iff (m := rs) (k := n)
      rw [Ruleset.add]
      by_cases hn : n = a.name
      · simp only [hn, or_true, iff_true]
        by_contra hc
        rw [hn] at h h1
        rw [h1.2 hc] at h
        simp at h
      · simp only [hn, or_false]
        rw [← not_iff_not, ← h1, ← h2, h]
        simp [hn]
    rw [this]
    simp [or_assoc]

theorem bindsAll_schema {ρ : String → String} {e1 e2 : Tm O} (hρ : InjOn ρ (PairVar e1 e2)) :
    bindsAll (schema ρ e1) (schema ρ e2) = true ↔ Covers e1 e2 := by
  simp only [bindsAll, List.all_eq_true, decide_eq_true_eq]
  constructor
  · intro h x hx
    obtain ⟨y, hy, e⟩ := mem_vars_schema.1 (h (ρ x) (mem_vars_schema.2 ⟨x, hx, rfl⟩))
    exact hρ y x (Or.inl hy) (Or.inr hx) e ▸ hy
  · intro h v hv
    obtain ⟨x, hx, rfl⟩ := mem_vars_schema.1 hv
    exact mem_vars_schema.2 ⟨x, h x hx, rfl⟩

theorem pairVar_comm {e1 e2 : Tm O} {x : String} : PairVar e1 e2 x ↔ PairVar e2 e1 x := or_comm

theorem mem_dirsOf {e1 e2 : Tm O} (h : (generalizePair e1 e2).isSome) :
    ∃ ρ, InjOn ρ (PairVar e1 e2) ∧ (∀ x, PairVar e1 e2 x → LetterVar (ρ x)) ∧ ∀ q, q ∈ dirsOf (e1, e2) ↔
      (Covers e1 e2 ∧ q = ⟨ruleName (schema ρ e1) (schema ρ e2), schema ρ e1, schema ρ e2⟩) ∨
      (Covers e2 e1 ∧ q = ⟨ruleName (schema ρ e2) (schema ρ e1), schema ρ e2, schema ρ e1⟩) := by
  obtain ⟨⟨l, r⟩, hp⟩ := Option.isSome_iff_exists.1 h
  obtain ⟨m, hm, hl, hr, hk⟩ := generalizePair_spec hp
  have hi : InjOn m.fn (PairVar e1 e2) := fun a b ha hb => hm.fn_inj a b ((hk a).2 ha) ((hk b).2 hb)
  refine ⟨m.fn, hi, fun x hx => hm.fn_letter ((hk x).2 hx), fun q => ?_⟩
  have h1 := bindsAll_schema hi
  have h2 := bindsAll_schema (e1 := e2) (e2 := e1) (ρ := m.fn) (fun a b ha hb => hi a b (pairVar_comm.1 ha) (pairVar_comm.1 hb))
  subst hl hr
  simp only [dirsOf, hp, Option.toList_some, List.flatMap_cons, List.flatMap_nil, List.append_nil, dirs,
    List.mem_append, Option.mem_toList, Rule.new]
  by_cases c1 : Covers e1 e2 <;> by_cases c2 : Covers e2 e1 <;>
    simp [c1, c2, h1, h2, eq_comm (a := q)]

theorem relates_of_dirsOf {e1 e2 : Tm O} {q : Rule O} (h : q ∈ dirsOf (e1, e2)) :
    (Relates q e1 e2 ∧ Covers e1 e2) ∨ (Relates q e2 e1 ∧ Covers e2 e1) := by
  have hs : (generalizePair e1 e2).isSome := by
    cases hg : generalizePair e1 e2 with
    | none => simp [dirsOf, hg] at h
    | some p => rfl
  obtain ⟨ρ, hi, _, hq⟩ := mem_dirsOf hs
  rcases (hq q).1 h with ⟨hc, rfl⟩ | ⟨hc, rfl⟩
  · exact Or.inl ⟨⟨ρ, hi, rfl, rfl, rfl⟩, hc⟩
  · exact Or.inr ⟨⟨ρ, fun a b ha hb => hi a b (pairVar_comm.1 ha) (pairVar_comm.1 hb), rfl, rfl, rfl⟩, hc⟩

theorem proposes_of_mem {ps : List (Tm O × Tm O)} {rs : Ruleset O} (h : Ruleset.addPairs [] ps = some rs)
    {e1 e2 : Tm O} (hp : (e1, e2) ∈ ps) : ProposesBoth rs e1 e2 := by
  obtain ⟨h1, h2⟩ := addPairs_eq h
  obtain ⟨ρ, hi, hl, hq⟩ := mem_dirsOf (h1 _ hp)
  have hw : WellFormed rs := by rw [h2]; exact Ruleset.WellFormed.addAll Ruleset.WellFormed.nil _
  have key : ∀ q ∈ dirsOf (e1, e2), q.name ∈ (Ruleset.iter rs).map Rule.name := by
    intro q hq
    rw [names_eq_keys hw, h2, mem_keys_addAll]
    exact Or.inr (List.mem_map_of_mem (List.mem_flatMap.2 ⟨_, hp, hq⟩))
  exact ⟨ρ, hi, hl, fun hc => key _ ((hq _).2 (Or.inl ⟨hc, rfl⟩)), fun hc => key _ ((hq _).2 (Or.inr ⟨hc, rfl⟩))⟩

theorem proposes_comm {rs : Ruleset O} {e1 e2 : Tm O} (h : ProposesBoth rs e1 e2) : ProposesBoth rs e2 e1 := by
  obtain ⟨ρ, a, l, b, c⟩ := h
  exact ⟨ρ, fun x y hx hy => a x y hx.symm hy.symm, fun x hx => l x hx.symm, c, b⟩

theorem relates_of_mem {ps : List (Tm O × Tm O)} {rs : Ruleset O} (h : Ruleset.addPairs [] ps = some rs)
    {q : Rule O} (hq : q ∈ Ruleset.iter rs) : ∃ p ∈ ps,
      (Relates q p.1 p.2 ∧ Covers p.1 p.2) ∨ (Relates q p.2 p.1 ∧ Covers p.2 p.1) := by
  obtain ⟨_, h2⟩ := addPairs_eq h
  rw [h2] at hq
  rcases mem_iter_addAll' hq with hq | hq
  · simp [Ruleset.iter] at hq
  · obtain ⟨p, hp, hq⟩ := List.mem_flatMap.1 hq
    exact ⟨p, hp, relates_of_dirsOf hq⟩

/-! ## Pairs and groups -/

theorem mem_pairsUp {α : Type} {l : List α} {a b : α} : (a, b) ∈ pairsUp l ↔ [a, b] <+ l := by
  induction l with
  | nil => simp [pairsUp]
  | cons c l ih =>
    simp only [pairsUp, List.mem_append, List.mem_map, Prod.mk.injEq, ih]
    constructor
    · rintro (⟨d, hd, rfl, rfl⟩ | h)
      · exact List.Sublist.cons_cons _ (List.singleton_sublist.2 hd)
      · exact List.Sublist.cons _ h
    · intro h
      cases h with
      | cons _ h => exact Or.inr h
      | cons_cons _ h => exact Or.inl ⟨b, List.singleton_sublist.1 h, rfl, rfl⟩

theorem sublist_pair_or {α : Type} {l : List α} {a b : α} (ha : a ∈ l) (hb : b ∈ l) (hab : a ≠ b) :
    [a, b] <+ l ∨ [b, a] <+ l := by
  induction l with
  | nil => simp at ha
  | cons c l ih =>
    rcases List.mem_cons.1 ha with rfl | ha'
    · rcases List.mem_cons.1 hb with rfl | hb'
      · exact absurd rfl hab
      · exact Or.inl (List.Sublist.cons_cons _ (List.singleton_sublist.2 hb'))
    · rcases List.mem_cons.1 hb with rfl | hb'
      · exact Or.inr (List.Sublist.cons_cons _ (List.singleton_sublist.2 ha'))
      · exact (ih ha' hb').imp (.cons _) (.cons _)

theorem sublist_pair_ne {α : Type} {l : List α} {a b : α} (hn : l.Nodup) (h : [a, b] <+ l) : a ≠ b := by
  have := hn.sublist h
  simpa using this

theorem sublist_pair_mem {α : Type} {l : List α} {a b : α} (h : [a, b] <+ l) : a ∈ l ∧ b ∈ l :=
  ⟨h.subset (by simp), h.subset (by simp)⟩

variable {K α : Type} [DecidableEq K]

/-- The members of the group with key `k`. -/
def groupOf (l : List (K × α)) (k : K) : List α := (l.filter fun e => decide (e.1 = k)).map Prod.snd

omit [DecidableEq K] in
theorem foldl_snoc_ind {β : Type} {P : List β → Prop} (h0 : P []) (h1 : ∀ l a, P l → P (l ++ [a])) (l : List β) : P l := by
  rw [← List.reverse_reverse l]
  induction l.reverse with
  | nil => exact h0
  | cons a l ih => rw [List.reverse_cons]; exact h1 _ _ ih

theorem groups_snoc (l : List (K × α)) (e : K × α) : groups (l ++ [e]) = pushGroup (groups l) e.1 e.2 := by
  simp [groups, List.foldl_append]

theorem groups_nodup (l : List (K × α)) : ((groups l).map Prod.fst).Nodup := by
  induction l using foldl_snoc_ind with
  | h0 => simp [groups]
  | h1 l a ih => rw [groups_snoc]; exact IndexMap.nodup_insert ih _ _

theorem get?_groups (l : List (K × α)) (k : K) :
    IndexMap.get? (groups l) k = if groupOf l k = [] then none else some (groupOf l k) := by
  induction l using foldl_snoc_ind with
  | h0 => simp [groups, IndexMap.get?, groupOf]
  | h1 l a ih =>
    rw [groups_snoc, pushGroup, IndexMap.get?_insert]
    have : groupOf (l ++ [a]) k = groupOf l k ++ if a.1 = k then [a.2] else [] := by
      by_cases h : a.1 = k <;> simp [groupOf, h]
    rw [this]
    by_cases hk : k = a.1
    · subst hk
      simp only [if_true, ih]
      by_cases hg : groupOf l a.1 = [] <;> simp [hg]
    · have : ¬ a.1 = k := fun e => hk e.symm
      simp only [hk, if_false, this, List.append_nil, ih]

theorem mem_groups {l : List (K × α)} {k : K} {m : List α} :
    (k, m) ∈ groups l ↔ m = groupOf l k ∧ m ≠ [] := by
  have h := IndexMap.get?_eq_some_iff (groups_nodup l) (k := k) (v := m)
  rw [← h, get?_groups]
  by_cases hg : groupOf l k = []
  · simp only [hg, if_true]
    constructor
    · intro h; cases h
    · rintro ⟨rfl, h⟩; exact absurd rfl h
  · simp only [hg, if_false, Option.some.injEq]
    constructor
    · rintro rfl; exact ⟨rfl, hg⟩
    · rintro ⟨rfl, _⟩; rfl


theorem groupOf_map {β : Type} (f : β → K) (l : List β) (k : K) :
    groupOf (l.map fun a => (f a, a)) k = l.filter fun a => decide (f a = k) := by
  induction l with
  | nil => rfl
  | cons a l ih =>
    rw [groupOf] at ih ⊢
    by_cases h : f a = k <;> simp [h, ih]

/-! ## Vectors -/

section
variable [DecidableEq C]

theorem compare_iff {a b : CVec C} : compareCvec a b = true ↔ Agree a b := by
  unfold compareCvec Agree
  rw [List.all_eq_true]
  constructor
  · intro h i x y hx hy
    have : (some x, some y) ∈ a.zip b := by
      rw [List.mem_iff_getElem?]
      exact ⟨i, by simp [List.getElem?_zip_eq_some, hx, hy]⟩
    simpa using h _ this
  · rintro h ⟨u, v⟩ hp
    obtain ⟨i, hi⟩ := List.mem_iff_getElem?.1 hp
    rw [List.getElem?_zip_eq_some] at hi
    cases u with
    | none => rfl
    | some x =>
      cases v with
      | none => rfl
      | some y => simpa using h i x y hi.1 hi.2

omit [DecidableEq C] in
theorem any_isSome_iff {v : CVec C} : v.any Option.isSome = true ↔ HasSample v := by
  rw [List.any_eq_true]
  constructor
  · rintro ⟨s, hs, h⟩
    obtain ⟨x, rfl⟩ := Option.isSome_iff_exists.1 h
    obtain ⟨i, hi⟩ := List.mem_iff_getElem?.1 hs
    exact ⟨i, x, hi⟩
  · rintro ⟨i, x, h⟩
    exact ⟨some x, List.mem_of_getElem? h, rfl⟩

/-- The first sample. -/
def firstSample (v : CVec C) : Option C := (v[0]?).join

omit [DecidableEq C] in
theorem hasSample_first {v : CVec C} (h : HasSample v) : v[0]? = some (firstSample v) := by
  obtain ⟨i, x, h⟩ := h
  cases v with
  | nil => simp at h
  | cons s v => simp [firstSample]

omit [DecidableEq C] in
theorem keyed_eq (cv : Nat → CVec C) (l : List Nat) (h : ∀ i ∈ l, HasSample (cv i)) :
    l.mapM (fun i => ((cv i)[0]?).map fun v => (v, i)) = some (l.map fun i => (firstSample (cv i), i)) := by
  induction l with
  | nil => rfl
  | cons i l ih =>
    rw [List.mapM_cons, ih fun j hj => h j (by simp [hj]), hasSample_first (h i (by simp))]
    rfl

/-- The classes considered together with first sample `k`. -/
def bucket (cv : Nat → CVec C) (order : List Nat) (k : Option C) : List Nat :=
  let L := order.filter fun i => (cv i).any Option.isSome
  let G := fun k => L.filter fun i => decide (firstSample (cv i) = k)
  if k.isSome then G k ++ G none else G k

theorem mem_cvecPairs (cv : Nat → CVec C) (order : List Nat) : ∃ ps, cvecPairs cv order = some ps ∧
    ∀ i j, (i, j) ∈ ps ↔ ∃ k, (∃ m ∈ order, HasSample (cv m) ∧ firstSample (cv m) = k) ∧
      [i, j] <+ bucket cv order k ∧ Agree (cv i) (cv j) := by
  unfold cvecPairs
  rw [keyed_eq]
  swap
  · intro i hi
    exact any_isSome_iff.1 (List.mem_filter.1 hi).2
  refine ⟨_, rfl, fun i j => ?_⟩
  have hnone : ∀ l : List (Option C × Nat), (IndexMap.get? (groups l) none).getD [] = groupOf l none := by
    intro l
    rw [get?_groups]
    by_cases h : groupOf l none = [] <;> simp [h]
  simp only [List.mem_flatMap, List.mem_filter, mem_pairsUp, compare_iff, hnone, groupOf_map]
  constructor
  · rintro ⟨⟨k, m⟩, hm, h, ha⟩
    obtain ⟨rfl, hne⟩ := mem_groups.1 hm
    rw [groupOf_map] at hne h
    refine ⟨k, ?_, ?_, ha⟩
    · obtain ⟨n, hn⟩ := List.exists_mem_of_ne_nil _ hne
      rw [List.mem_filter, List.mem_filter] at hn
      exact ⟨n, hn.1.1, any_isSome_iff.1 hn.1.2, by simpa using hn.2⟩
    · exact h
  · rintro ⟨k, ⟨m, hm, hs, rfl⟩, h, ha⟩
    refine ⟨(firstSample (cv m), groupOf _ (firstSample (cv m))), mem_groups.2 ⟨rfl, ?_⟩, ?_, ha⟩
    · rw [groupOf_map]
      exact List.ne_nil_of_mem (a := m)
        (List.mem_filter.2 ⟨List.mem_filter.2 ⟨hm, any_isSome_iff.2 hs⟩, by simp⟩)
    · rw [groupOf_map]
      exact h

theorem mem_bucket {cv : Nat → CVec C} {order : List Nat} {k : Option C} {i : Nat} :
    i ∈ bucket cv order k ↔ i ∈ order ∧ HasSample (cv i) ∧
      (firstSample (cv i) = k ∨ firstSample (cv i) = none) := by
  unfold bucket
  cases k with
  | none =>
    simp only [Option.isSome_none, Bool.false_eq_true, if_false, List.mem_filter, any_isSome_iff, decide_eq_true_eq,
      or_self, and_assoc]
  | some x =>
    simp only [Option.isSome_some, if_true, List.mem_append, List.mem_filter, any_isSome_iff, decide_eq_true_eq]
    constructor
    · rintro (⟨⟨a, b⟩, c⟩ | ⟨⟨a, b⟩, c⟩)
      · exact ⟨a, b, Or.inl c⟩
      · exact ⟨a, b, Or.inr c⟩
    · rintro ⟨a, b, c | c⟩
      · exact Or.inl ⟨⟨a, b⟩, c⟩
      · exact Or.inr ⟨⟨a, b⟩, c⟩

theorem bucket_nodup {cv : Nat → CVec C} {order : List Nat} (h : order.Nodup) (k : Option C) :
    (bucket cv order k).Nodup := by
  unfold bucket
  have hL := h.filter fun i => (cv i).any Option.isSome
  cases k with
  | none => exact hL.filter _
  | some x =>
    simp only [Option.isSome_some, if_true]
    rw [List.nodup_append]
    refine ⟨hL.filter _, hL.filter _, ?_⟩
    intro a ha b hb e
    subst e
    simp only [List.mem_filter, decide_eq_true_eq] at ha hb
    rw [ha.2] at hb
    cases hb.2

theorem cvecPairs_sound {cv : Nat → CVec C} {order : List Nat} (hn : order.Nodup) {ps : List (Nat × Nat)}
    (h : cvecPairs cv order = some ps) {i j : Nat} (hp : (i, j) ∈ ps) :
    i ∈ order ∧ j ∈ order ∧ i ≠ j ∧ HasSample (cv i) ∧ HasSample (cv j) ∧ Agree (cv i) (cv j) := by
  obtain ⟨ps', h', hm⟩ := mem_cvecPairs cv order
  cases h'.symm.trans h
  obtain ⟨k, _, hs, ha⟩ := (hm i j).1 hp
  obtain ⟨h1, h2⟩ := sublist_pair_mem hs
  exact ⟨(mem_bucket.1 h1).1, (mem_bucket.1 h2).1, sublist_pair_ne (bucket_nodup hn k) hs, (mem_bucket.1 h1).2.1,
    (mem_bucket.1 h2).2.1, ha⟩

omit [DecidableEq C] in
theorem Agree.symm {a b : CVec C} (h : Agree a b) : Agree b a := fun i x y hx hy => (h i y x hy hx).symm

theorem cvecPairs_complete {cv : Nat → CVec C} {order : List Nat} {ps : List (Nat × Nat)}
    (h : cvecPairs cv order = some ps) {i j : Nat} (hi : i ∈ order) (hj : j ∈ order) (hij : i ≠ j)
    (si : HasSample (cv i)) (sj : HasSample (cv j)) (ha : Agree (cv i) (cv j)) : (i, j) ∈ ps ∨ (j, i) ∈ ps := by
  obtain ⟨ps', h', hm⟩ := mem_cvecPairs cv order
  cases h'.symm.trans h
  have key : ∀ k, (∃ m ∈ order, HasSample (cv m) ∧ firstSample (cv m) = k) → i ∈ bucket cv order k →
      j ∈ bucket cv order k → (i, j) ∈ ps ∨ (j, i) ∈ ps := by
    intro k hk h1 h2
    rcases sublist_pair_or h1 h2 hij with hs | hs
    · exact Or.inl ((hm i j).2 ⟨k, hk, hs, ha⟩)
    · exact Or.inr ((hm j i).2 ⟨k, hk, hs, Agree.symm ha⟩)
  cases hfi : firstSample (cv i) with
  | none =>
    exact key (firstSample (cv j)) ⟨j, hj, sj, rfl⟩ (mem_bucket.2 ⟨hi, si, Or.inr hfi⟩)
      (mem_bucket.2 ⟨hj, sj, Or.inl rfl⟩)
  | some x =>
    refine key (some x) ⟨i, hi, si, hfi⟩ (mem_bucket.2 ⟨hi, si, Or.inl hfi⟩) (mem_bucket.2 ⟨hj, sj, ?_⟩)
    cases hfj : firstSample (cv j) with
    | none => exact Or.inr rfl
    | some y =>
      have e1 := hasSample_first si
      have e2 := hasSample_first sj
      rw [hfi] at e1
      rw [hfj] at e2
      exact Or.inl (by rw [ha 0 x y e1 e2])

omit [DecidableEq C] in
theorem sublist_filter {α : Type} {l : List α} {a b : α} (h : [a, b] <+ l) (p : α → Bool) (ha : p a = true)
    (hb : p b = true) : [a, b] <+ l.filter p := by
  have := h.filter p
  simpa [ha, hb] using this

/-- Classes with the same first sample are compared in the order of the classes. -/
theorem cvecPairs_same {cv : Nat → CVec C} {order : List Nat} {ps : List (Nat × Nat)}
    (h : cvecPairs cv order = some ps) {i j : Nat} (hs : [i, j] <+ order) (si : HasSample (cv i))
    (sj : HasSample (cv j)) (hf : firstSample (cv i) = firstSample (cv j)) (ha : Agree (cv i) (cv j)) : (i, j) ∈ ps := by
  obtain ⟨ps', h', hm⟩ := mem_cvecPairs cv order
  cases h'.symm.trans h
  refine (hm i j).2 ⟨firstSample (cv i), ⟨i, (sublist_pair_mem hs).1, si, rfl⟩, ?_, ha⟩
  have h1 := sublist_filter (sublist_filter hs (fun i => (cv i).any Option.isSome) (any_isSome_iff.2 si)
    (any_isSome_iff.2 sj)) (fun m => decide (firstSample (cv m) = firstSample (cv i))) (by simp) (by simp [hf])
  unfold bucket
  cases hk : firstSample (cv i) with
  | none => rw [hk] at h1; exact h1
  | some x =>
    rw [hk] at h1
    exact h1.trans (List.sublist_append_left _ _)

theorem mem_fastPairs {cv : Nat → CVec C} {order : List Nat} {i j : Nat} :
    (i, j) ∈ fastPairs cv order ↔ [i, j] <+ order ∧ cv i = cv j ∧ cvecDefined (cv i) = true := by
  unfold fastPairs
  simp only [List.mem_flatMap, mem_pairsUp]
  constructor
  · rintro ⟨⟨k, m⟩, hm, h⟩
    obtain ⟨rfl, _⟩ := mem_groups.1 hm
    rw [groupOf_map] at h
    obtain ⟨h1, h2⟩ := sublist_pair_mem h
    rw [List.mem_filter, List.mem_filter] at h1 h2
    exact ⟨(h.trans List.filter_sublist).trans List.filter_sublist,
      (of_decide_eq_true h1.2).trans (of_decide_eq_true h2.2).symm, h1.1.2⟩
  · rintro ⟨h, he, hd⟩
    have h1 := sublist_filter (sublist_filter h (fun i => cvecDefined (cv i)) hd (by rw [← he]; exact hd))
      (fun m => decide (cv m = cv i)) (by simp) (by simp [he])
    refine ⟨(cv i, groupOf _ (cv i)), mem_groups.2 ⟨rfl, ?_⟩, ?_⟩
    · rw [groupOf_map]
      exact List.ne_nil_of_mem (sublist_pair_mem h1).1
    · rw [groupOf_map]
      exact h1

omit [DecidableEq C] in
theorem Agree.refl (a : CVec C) : Agree a a := fun i x y hx hy => by
  rw [hx] at hy
  simpa using hy

omit [DecidableEq C] in
theorem HasSample.of_defined {v : CVec C} (h : cvecDefined v = true) (hne : v ≠ []) : HasSample v := by
  unfold cvecDefined at h
  rw [Bool.or_eq_true] at h
  rcases h with h | h
  · exact absurd (by simpa using h) hne
  · exact any_isSome_iff.1 h

theorem fastPairs_sub {cv : Nat → CVec C} {order : List Nat} (hne : ∀ i ∈ order, cv i ≠ []) {ps : List (Nat × Nat)}
    (h : cvecPairs cv order = some ps) : ∀ p ∈ fastPairs cv order, p ∈ ps := by
  rintro ⟨i, j⟩ hp
  obtain ⟨hs, he, hd⟩ := mem_fastPairs.1 hp
  have hi := (sublist_pair_mem hs).1
  have si := HasSample.of_defined hd (hne i hi)
  exact cvecPairs_same h hs si (he ▸ si) (by rw [he]) (by rw [he]; exact Agree.refl _)

omit [DecidableEq C] in
theorem Agree.eq {a b : CVec C} (h : Agree a b) (hl : a.length = b.length) (ha : AllDefined a) (hb : AllDefined b) :
    a = b := by
  apply List.ext_getElem? fun i => ?_
  by_cases hi : i < a.length
  · have hi' : i < b.length := by omega
    rw [List.getElem?_eq_getElem hi, List.getElem?_eq_getElem hi']
    have h1 := ha _ (List.getElem_mem hi)
    have h2 := hb _ (List.getElem_mem hi')
    obtain ⟨x, hx⟩ := Option.ne_none_iff_exists'.1 h1
    obtain ⟨y, hy⟩ := Option.ne_none_iff_exists'.1 h2
    rw [hx, hy, h i x y (by rw [List.getElem?_eq_getElem hi, hx]) (by rw [List.getElem?_eq_getElem hi', hy])]
  · rw [List.getElem?_eq_none (by omega), List.getElem?_eq_none (by omega)]

theorem cvecPairs_sub_fast {cv : Nat → CVec C} {order : List Nat} (hn : order.Nodup) {len : Nat}
    (hlen : ∀ i ∈ order, (cv i).length = len) (hd : ∀ i ∈ order, AllDefined (cv i)) {ps : List (Nat × Nat)}
    (h : cvecPairs cv order = some ps) : ∀ p ∈ ps, p ∈ fastPairs cv order := by
  rintro ⟨i, j⟩ hp
  obtain ⟨hi, hj, hij, si, sj, ha⟩ := cvecPairs_sound hn h hp
  have he := Agree.eq ha ((hlen i hi).trans (hlen j hj).symm) (hd i hi) (hd j hj)
  refine mem_fastPairs.2 ⟨?_, he, by simp [cvecDefined, any_isSome_iff.2 si]⟩
  obtain ⟨ps', h', hm⟩ := mem_cvecPairs cv order
  cases h'.symm.trans h
  obtain ⟨k, ⟨m, hmo, hms, rfl⟩, hs, _⟩ := (hm i j).1 hp
  have hnone : ∀ n ∈ order, HasSample (cv n) → firstSample (cv n) ≠ none := by
    intro n hn hsn e
    have := hasSample_first hsn
    rw [e] at this
    exact hd n hn none (List.mem_of_getElem? this) rfl
  have : bucket cv order (firstSample (cv m)) <+ order := by
    unfold bucket
    have hG : ((order.filter fun i => (cv i).any Option.isSome).filter fun i => decide (firstSample (cv i) = none)) = [] := by
      rw [List.filter_eq_nil_iff]
      intro n hn
      rw [List.mem_filter] at hn
      simpa using hnone n hn.1 (any_isSome_iff.1 hn.2)
    simp only [hG, List.append_nil, ite_self]
    exact List.filter_sublist.trans List.filter_sublist
  exact hs.trans this
end

/-! ## Extraction -/

theorem satAdd_max (cs : List Nat) (a : Nat) : usizeMax ≤ a ∨ usizeMax ∈ cs → usizeMax ≤ cs.foldl satAdd a := by
  induction cs generalizing a with
  | nil => rintro (h | h); exact h; simp at h
  | cons c cs ih =>
    intro h
    rw [List.foldl_cons]
    apply ih
    rcases h with h | h
    · left; unfold satAdd; omega
    · rcases List.mem_cons.1 h with h | h
      · left; unfold satAdd; omega
      · exact Or.inr h

theorem satAdd_le (cs : List Nat) (a : Nat) (h : a ≤ usizeMax) : cs.foldl satAdd a ≤ usizeMax := by
  induction cs generalizing a with
  | nil => exact h
  | cons c cs ih =>
    rw [List.foldl_cons]
    exact ih _ (by unfold satAdd; omega)

theorem extractable_allowed (t : Tm O) (ρ : String → String) (h : Tm.fold extractableCost t ≠ usizeMax) :
    OnlyAllowed (schema ρ t) := by
  induction t using Tm.ind with
  | hn o l ih =>
    rw [Tm.fold_node, extractableCost] at h
    by_cases ho : Lang.allowed o = true
    · rw [if_pos ho] at h
      cases hv : Lang.toVar o with
      | some x => rw [schema_var _ hv]; exact .var
      | none =>
        rw [schema_node _ hv]
        refine .node ho fun a ha => ?_
        obtain ⟨b, hb, rfl⟩ := List.mem_map.1 ha
        refine ih b hb fun hc => h ?_
        have h1 := satAdd_max (l.map (Tm.fold extractableCost)) 1 (Or.inr (hc ▸ List.mem_map_of_mem hb))
        have h2 := satAdd_le (l.map (Tm.fold extractableCost)) 1 (by decide)
        exact Nat.le_antisymm h2 h1
    · rw [if_neg ho] at h
      exact absurd rfl h

omit [Lang O] in
theorem mem_extractPairs {g2 : EGraph O C} {ids keys : List Nat} {i j : Nat} :
    (i, j) ∈ extractPairs g2 ids keys ↔ i ∈ ids ∧ j ∈ ids ∧ g2.find i = g2.find j ∧ g2.find i ∈ keys := by
  unfold extractPairs
  simp only [List.mem_flatMap, List.mem_filter, List.mem_map, Prod.mk.injEq, decide_eq_true_eq]
  constructor
  · rintro ⟨k, hk, a, ⟨ha, rfl⟩, b, ⟨hb, e⟩, rfl, rfl⟩
    exact ⟨ha, hb, e.symm, hk⟩
  · rintro ⟨hi, hj, e, hk⟩
    exact ⟨_, hk, i, ⟨hi, rfl⟩, j, ⟨hj, e.symm⟩, rfl, rfl⟩

theorem pat_allowed_iff (p : Pat O) : p.allowed = true ↔ OnlyAllowed p := by
  have hL : ∀ l : List (Pat O), Pat.allowedL l = true ↔ ∀ a ∈ l, a.allowed = true := by
    intro l
    induction l with
    | nil => simp [Pat.allowedL]
    | cons a l ih => simp [Pat.allowedL, ih]
  induction p using Pat.ind with
  | hv v => exact ⟨fun _ => .var, fun _ => rfl⟩
  | hn o l ih =>
    rw [Pat.allowed, Bool.and_eq_true, hL]
    constructor
    · rintro ⟨h1, h2⟩
      exact .node h1 fun a ha => (ih a ha).1 (h2 a ha)
    · intro h
      cases h with
      | node h1 h2 => exact ⟨h1, fun a ha => (ih a ha).2 (h2 a ha)⟩

end Ruler
