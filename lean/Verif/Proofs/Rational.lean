import Verif.Proofs.RatInterval
import Verif.Proofs.Domain
/-! Helper lemmas about validation in the rational domain. -/
namespace Ruler
open Spec
variable {K : Type} [Field K] [LinearOrder K] [IsStrictOrderedRing K]

/-- Operators other than variables, as they occur in patterns. -/
abbrev MathSorted (p : Pat MathOp) : Prop := PatSorted MathOp.arity (fun o => ∀ x, o ≠ .var x) p

theorem ratPatSmt_node (o : MathOp) (l : List (Pat MathOp)) :
    ratPatSmt (.node o l) = o.toSmt (l.map ratPatSmt) := by
  unfold ratPatSmt
  rw [Pat.instantiate, Tm.fold_node, Pat.instantiateL_eq, List.map_map]
  rfl

theorem ratPatSmt_var (v : String) : ratPatSmt (.var v) = some (.const (dropQ v)) := by
  unfold ratPatSmt
  rw [Pat.instantiate, Tm.fold_node]
  simp [Lang.mkVar, MathOp.toSmt]

/-- The arguments of `toSmt` are all translated if the node is. -/
theorem toSmt_args1 {o : MathOp} {x : Option (SmtTm Rat)} {s : SmtTm Rat} (h : o.toSmt [x] = some s) :
    ∃ x', x = some x' := by
  cases x with
  | none => cases o <;> cases h
  | some x => exact ⟨x, rfl⟩
theorem toSmt_args2 {o : MathOp} {x y : Option (SmtTm Rat)} {s : SmtTm Rat} (h : o.toSmt [x, y] = some s) :
    ∃ x' y', x = some x' ∧ y = some y' := by
  cases x with
  | none => cases o <;> cases h
  | some x =>
    cases y with
    | none => cases o <;> cases h
    | some y => exact ⟨x, y, rfl, rfl⟩
theorem toSmt_args3 {o : MathOp} {x y z : Option (SmtTm Rat)} {s : SmtTm Rat} (h : o.toSmt [x, y, z] = some s) :
    ∃ x' y' z', x = some x' ∧ y = some y' ∧ z = some z' := by
  cases x with
  | none => cases o <;> cases h
  | some x =>
    cases y with
    | none => cases o <;> cases h
    | some y =>
      cases z with
      | none => cases o <;> cases h
      | some z => exact ⟨x, y, z, rfl, rfl, rfl⟩

/-- Where the pattern is defined, its translation has the same value. -/
theorem ratPatSmt_val {p : Pat MathOp} (hs : MathSorted p) (d0 : K → K) (ρ : String → K) {s : SmtTm Rat}
    (h : ratPatSmt p = some s) {v : K} (hv : patVal (fun x => some (ρ x)) mathOpVal p = some v) :
    realVal d0 (fun x => ρ ("?" ++ x)) s = v := by
  induction p using Pat.ind generalizing s v with
  | hv x =>
    cases hs with
    | var hx =>
    rw [ratPatSmt_var] at h
    cases h
    rw [patVal] at hv
    cases hv
    rw [realVal, dropQ_cons hx]
  | hn o l ih =>
    cases hs with
    | node ha hp hargs =>
    rw [ratPatSmt_node] at h
    rw [patVal_node] at hv
    cases o with
    | var x => exact absurd rfl (hp x)
    | lit c =>
      have := list_len0 ha; subst this
      simp [mathOpVal] at hv
      simp only [List.map_nil, MathOp.toSmt] at h
      split at h
      · cases h; rw [realVal, hv]
      · cases h
    | neg | abs =>
      obtain ⟨a, rfl⟩ := list_len1 ha
      obtain ⟨x', hx'⟩ := toSmt_args1 h
      simp only [List.map_cons, List.map_nil] at h hv
      rw [hx'] at h
      cases hva : patVal (fun x => some (ρ x)) mathOpVal a with
      | none => rw [hva] at hv; cases hv
      | some va =>
      rw [hva] at hv
      have := ih a (by simp) (hargs a (by simp)) hx' hva
      cases h; cases hv
      first
        | (simp only [realVal, realHolds, this]; done)
        | (simp only [realVal, realHolds, this, Rat.cast_zero, decide_eq_true_eq]
           split
           · exact (abs_of_nonpos ‹_›).symm
           · exact (abs_of_pos (not_le.1 ‹_›)).symm)
    | add | sub | mul | div =>
      obtain ⟨a, b, rfl⟩ := list_len2 ha
      obtain ⟨x', y', hx', hy'⟩ := toSmt_args2 h
      simp only [List.map_cons, List.map_nil] at h hv
      rw [hx', hy'] at h
      cases hva : patVal (fun x => some (ρ x)) mathOpVal a with
      | none => rw [hva] at hv; cases hv
      | some va =>
      cases hvb : patVal (fun x => some (ρ x)) mathOpVal b with
      | none => rw [hva, hvb] at hv; cases hv
      | some vb =>
      rw [hva, hvb] at hv
      have h1 := ih a (by simp) (hargs a (by simp)) hx' hva
      have h2 := ih b (by simp) (hargs b (by simp)) hy' hvb
      cases h
      simp only [mathOpVal] at hv
      first
        | (cases hv; simp only [realVal, h1, h2])
        | (split at hv
           · cases hv
           · cases hv; simp [realVal, h1, h2, ‹¬ vb = 0›])
    | ite =>
      obtain ⟨a, b, c, rfl⟩ := list_len3 ha
      obtain ⟨x', y', z', hx', hy', hz'⟩ := toSmt_args3 h
      simp only [List.map_cons, List.map_nil] at h hv
      rw [hx', hy', hz'] at h
      cases hva : patVal (fun x => some (ρ x)) mathOpVal a with
      | none => rw [hva] at hv; cases hv
      | some va =>
      rw [hva] at hv
      have h1 := ih a (by simp) (hargs a (by simp)) hx' hva
      cases h
      simp only [mathOpVal] at hv
      simp only [realVal, realHolds, h1, Rat.cast_zero]
      split at hv
      · rename_i h0
        simp [h0, ih c (by simp) (hargs c (by simp)) hz' hv]
      · rename_i h0
        simp [h0, ih b (by simp) (hargs b (by simp)) hy' hv]

theorem errorConditionsL_mem {l : List (Pat MathOp)} {path : SmtFm Rat} {cs : List (SmtFm Rat)}
    (h : errorConditionsL l path = some cs) :
    (∀ c ∈ cs, ∃ p ∈ l, ∃ ds, errorConditions p path = some ds ∧ c ∈ ds) ∧
    ∀ p ∈ l, ∃ ds, errorConditions p path = some ds ∧ ∀ c ∈ ds, c ∈ cs := by
  induction l generalizing cs with
  | nil => cases h; simp
  | cons p l ih =>
    rw [errorConditionsL] at h
    cases h1 : errorConditions p path with
    | none => rw [h1] at h; cases h
    | some a =>
    cases h2 : errorConditionsL l path with
    | none => rw [h1, h2] at h; cases h
    | some b =>
    rw [h1, h2] at h
    cases h
    obtain ⟨i1, i2⟩ := ih h2
    refine ⟨?_, ?_⟩
    · intro c hc
      rcases List.mem_append.1 hc with hc | hc
      · exact ⟨p, by simp, a, h1, hc⟩
      · obtain ⟨q, hq, ds, h3, h4⟩ := i1 c hc
        exact ⟨q, by simp [hq], ds, h3, h4⟩
    · intro q hq
      rcases List.mem_cons.1 hq with rfl | hq
      · exact ⟨a, h1, fun c hc => List.mem_append.2 (.inl hc)⟩
      · obtain ⟨ds, h3, h4⟩ := i2 q hq
        exact ⟨ds, h3, fun c hc => List.mem_append.2 (.inr (h4 c hc))⟩

/-- Unfolding of `errorConditions` on a division. -/
theorem errorConditions_div {a b : Pat MathOp} {path : SmtFm Rat} {cs : List (SmtFm Rat)}
    (h : errorConditions (.node .div [a, b]) path = some cs) :
    ∃ d ra rb, ratPatSmt b = some d ∧ errorConditions a path = some ra ∧ errorConditions b path = some rb ∧
      cs = .and (.eq d (.num 0)) path :: (ra ++ rb) := by
  simp only [errorConditions] at h
  cases h1 : ratPatSmt b with
  | none => rw [h1] at h; cases h
  | some d =>
  cases h2 : errorConditions a path with
  | none => rw [h1, h2] at h; cases h
  | some ra =>
  cases h3 : errorConditions b path with
  | none => rw [h1, h2, h3] at h; cases h
  | some rb =>
  rw [h1, h2, h3] at h
  cases h
  exact ⟨d, ra, rb, rfl, rfl, rfl, rfl⟩

/-- Unfolding of `errorConditions` on a conditional. -/
theorem errorConditions_ite {a b c : Pat MathOp} {path : SmtFm Rat} {cs : List (SmtFm Rat)}
    (h : errorConditions (.node .ite [a, b, c]) path = some cs) :
    ∃ d rb rc, ratPatSmt a = some d ∧
      errorConditions b (.and path (.not (.eq d (.num 0)))) = some rb ∧
      errorConditions c (.and path (.eq d (.num 0))) = some rc ∧ cs = rb ++ rc := by
  simp only [errorConditions] at h
  cases h1 : ratPatSmt a with
  | none => rw [h1] at h; cases h
  | some d =>
  rw [h1, Option.bind_some] at h
  cases h2 : errorConditions b (.and path (.not (.eq d (.num 0)))) with
  | none => rw [h2] at h; cases h
  | some rb =>
  cases h3 : errorConditions c (.and path (.eq d (.num 0))) with
  | none => rw [h2, h3] at h; cases h
  | some rc =>
  rw [h2, h3] at h
  cases h
  exact ⟨d, rb, rc, rfl, h2, h3, rfl⟩

/-- Unfolding of `errorConditions` elsewhere. -/
theorem errorConditions_other {o : MathOp} {l : List (Pat MathOp)} {path : SmtFm Rat} (ha : l.length = o.arity)
    (h1 : o ≠ .div) (h2 : o ≠ .ite) : errorConditions (.node o l) path = errorConditionsL l path := by
  cases o with
  | div => exact absurd rfl h1
  | ite => exact absurd rfl h2
  | lit | var => have := list_len0 ha; subst this; rfl
  | neg | abs => obtain ⟨a, rfl⟩ := list_len1 ha; simp only [errorConditions]
  | _ => obtain ⟨a, b, rfl⟩ := list_len2 ha; simp only [errorConditions]

omit [IsStrictOrderedRing K] in
/-- Every error condition includes the path condition. -/
theorem errorConditions_path {p : Pat MathOp} (hs : MathSorted p) (d0 : K → K) (env : String → K) {path : SmtFm Rat}
    {cs : List (SmtFm Rat)} (h : errorConditions p path = some cs) {c : SmtFm Rat} (hc : c ∈ cs)
    (ht : realHolds d0 env c = true) : realHolds d0 env path = true := by
  induction p using Pat.ind generalizing path cs with
  | hv v => simp only [errorConditions] at h; cases h; cases hc
  | hn o l ih =>
    cases hs with
    | node ha hp hargs =>
    by_cases h1 : o = .div
    · subst h1
      obtain ⟨a, b, rfl⟩ := list_len2 ha
      obtain ⟨d, ra, rb, e1, e2, e3, rfl⟩ := errorConditions_div h
      rcases List.mem_cons.1 hc with rfl | hc
      · simp only [realHolds, Bool.and_eq_true] at ht
        exact ht.2
      · rcases List.mem_append.1 hc with hc | hc
        · exact ih a (by simp) (hargs a (by simp)) e2 hc
        · exact ih b (by simp) (hargs b (by simp)) e3 hc
    · by_cases h2 : o = .ite
      · subst h2
        obtain ⟨a, b, c', rfl⟩ := list_len3 ha
        obtain ⟨d, rb, rc, e1, e2, e3, rfl⟩ := errorConditions_ite h
        rcases List.mem_append.1 hc with hc | hc
        · have := ih b (by simp) (hargs b (by simp)) e2 hc
          simp only [realHolds, Bool.and_eq_true] at this
          exact this.1
        · have := ih c' (by simp) (hargs c' (by simp)) e3 hc
          simp only [realHolds, Bool.and_eq_true] at this
          exact this.1
      · rw [errorConditions_other ha h1 h2] at h
        obtain ⟨q, hq, ds, h3, h4⟩ := (errorConditionsL_mem h).1 c hc
        exact ih q hq (hargs q hq) h3 h4

omit [IsStrictOrderedRing K] in
/-- A strict operator is defined only if all arguments are. -/
theorem mathOpVal_strict {o : MathOp} {args : List (Option K)} {v : K} (h : mathOpVal o args = some v)
    (ho : o ≠ .ite) : ∀ a ∈ args, ∃ w, a = some w := by
  intro a hal
  cases ha : a with
  | some w => exact ⟨w, rfl⟩
  | none =>
    subst ha
    unfold mathOpVal at h
    split at h <;> first
      | exact absurd rfl ho
      | (simp at hal)
      | cases h

/-- Where the pattern is defined, no error condition holds. -/
theorem errorConditions_defined {p : Pat MathOp} (hs : MathSorted p) (d0 : K → K) (ρ : String → K) {path : SmtFm Rat}
    {cs : List (SmtFm Rat)} (h : errorConditions p path = some cs) {v : K}
    (hv : patVal (fun x => some (ρ x)) mathOpVal p = some v) {c : SmtFm Rat} (hc : c ∈ cs) :
    realHolds d0 (fun x => ρ ("?" ++ x)) c = false := by
  induction p using Pat.ind generalizing path cs v with
  | hv v => simp only [errorConditions] at h; cases h; cases hc
  | hn o l ih =>
    cases hs with
    | node ha hp hargs =>
    rw [patVal_node] at hv
    by_cases h2 : o = .ite
    · subst h2
      obtain ⟨a, b, c', rfl⟩ := list_len3 ha
      obtain ⟨d, rb, rc, e1, e2, e3, rfl⟩ := errorConditions_ite h
      simp only [List.map_cons, List.map_nil] at hv
      cases hva : patVal (fun x => some (ρ x)) mathOpVal a with
      | none => rw [hva] at hv; cases hv
      | some va =>
      rw [hva] at hv
      have hd := ratPatSmt_val (hargs a (by simp)) d0 ρ e1 hva
      simp only [mathOpVal] at hv
      by_cases h0 : va = 0
      · rw [if_pos h0] at hv
        rcases List.mem_append.1 hc with hc | hc
        · by_contra hcon
          have := errorConditions_path (hargs b (by simp)) d0 _ e2 hc (by simpa using hcon)
          simp [realHolds, realVal, hd, h0] at this
        · exact ih c' (by simp) (hargs c' (by simp)) e3 hv hc
      · rw [if_neg h0] at hv
        rcases List.mem_append.1 hc with hc | hc
        · exact ih b (by simp) (hargs b (by simp)) e2 hv hc
        · by_contra hcon
          have := errorConditions_path (hargs c' (by simp)) d0 _ e3 hc (by simpa using hcon)
          simp [realHolds, realVal, hd, h0] at this
    · have hdef : ∀ a ∈ l, ∃ w, patVal (fun x => some (ρ x)) mathOpVal a = some w := fun a hal =>
        mathOpVal_strict hv h2 _ (List.mem_map_of_mem hal)
      by_cases h1 : o = .div
      · subst h1
        obtain ⟨a, b, rfl⟩ := list_len2 ha
        obtain ⟨d, ra, rb, e1, e2, e3, rfl⟩ := errorConditions_div h
        obtain ⟨va, hva⟩ := hdef a (by simp)
        obtain ⟨vb, hvb⟩ := hdef b (by simp)
        rcases List.mem_cons.1 hc with rfl | hc
        · have hd := ratPatSmt_val (hargs b (by simp)) d0 ρ e1 hvb
          simp only [List.map_cons, List.map_nil, hva, hvb, mathOpVal] at hv
          split at hv
          · cases hv
          · rename_i h0
            simp [realHolds, realVal, hd, h0]
        · rcases List.mem_append.1 hc with hc | hc
          · exact ih a (by simp) (hargs a (by simp)) e2 hva hc
          · exact ih b (by simp) (hargs b (by simp)) e3 hvb hc
      · rw [errorConditions_other ha h1 h2] at h
        obtain ⟨q, hq, ds, h3, h4⟩ := (errorConditionsL_mem h).1 c hc
        obtain ⟨w, hw⟩ := hdef q hq
        exact ih q hq (hargs q hq) h3 hw h4

omit [IsStrictOrderedRing K] in
/-- Patterns without division are defined everywhere. -/
theorem noDiv_defined {p : Pat MathOp} (hs : PatSorted MathOp.arity (fun o => o ≠ .div) p) (hm : MathSorted p)
    (ρ : String → K) : ∃ v, patVal (fun x => some (ρ x)) mathOpVal p = some v := by
  induction p using Pat.ind with
  | hv x => exact ⟨_, rfl⟩
  | hn o l ih =>
    cases hs with
    | node ha hd hargs =>
    cases hm with
    | node _ hp hargs2 =>
    have := fun a ha => ih a ha (hargs a ha) (hargs2 a ha)
    rw [patVal_node]
    cases o with
    | div => exact absurd rfl hd
    | var x => exact absurd rfl (hp x)
    | lit c => have := list_len0 ha; subst this; exact ⟨_, rfl⟩
    | neg | abs =>
      obtain ⟨a, rfl⟩ := list_len1 ha
      obtain ⟨v, hv⟩ := this a (by simp)
      simp [hv, mathOpVal]
    | ite =>
      obtain ⟨a, b, c, rfl⟩ := list_len3 ha
      obtain ⟨v, hv⟩ := this a (by simp)
      obtain ⟨w, hw⟩ := this b (by simp)
      obtain ⟨u, hu⟩ := this c (by simp)
      simp only [List.map_cons, List.map_nil, hv, hw, hu, mathOpVal]
      split <;> exact ⟨_, rfl⟩
    | _ =>
      obtain ⟨a, b, rfl⟩ := list_len2 ha
      obtain ⟨v, hv⟩ := this a (by simp)
      obtain ⟨w, hw⟩ := this b (by simp)
      simp [hv, hw, mathOpVal]

/-- Where a pattern whose conditions do not divide is undefined, an error condition holds. -/
theorem errorConditions_undefined {p : Pat MathOp} (hs : MathSorted p) (hpc : PlainConditions p) (d0 : K → K)
    (ρ : String → K) {path : SmtFm Rat} {cs : List (SmtFm Rat)} (h : errorConditions p path = some cs)
    (hpath : realHolds d0 (fun x => ρ ("?" ++ x)) path = true)
    (hv : patVal (fun x => some (ρ x)) mathOpVal p = none) :
    ∃ c ∈ cs, realHolds d0 (fun x => ρ ("?" ++ x)) c = true := by
  induction p using Pat.ind generalizing path cs with
  | hv v => cases hv
  | hn o l ih =>
    cases hs with
    | node ha hp hargs =>
    rw [patVal_node] at hv
    by_cases h2 : o = .ite
    · subst h2
      obtain ⟨a, b, c', rfl⟩ := list_len3 ha
      obtain ⟨d, rb, rc, e1, e2, e3, rfl⟩ := errorConditions_ite h
      cases hpc with
      | node hne _ => exact absurd rfl hne
      | ite ca _ cb cc =>
      obtain ⟨va, hva⟩ := noDiv_defined ca (hargs a (by simp)) ρ
      have hd := ratPatSmt_val (hargs a (by simp)) d0 ρ e1 hva
      simp only [List.map_cons, List.map_nil, hva, mathOpVal] at hv
      by_cases h0 : va = 0
      · rw [if_pos h0] at hv
        obtain ⟨c, hc, ht⟩ := ih c' (by simp) (hargs c' (by simp)) cc e3
          (by simp [realHolds, realVal, hd, h0, hpath]) hv
        exact ⟨c, List.mem_append.2 (.inr hc), ht⟩
      · rw [if_neg h0] at hv
        obtain ⟨c, hc, ht⟩ := ih b (by simp) (hargs b (by simp)) cb e2
          (by simp [realHolds, realVal, hd, h0, hpath]) hv
        exact ⟨c, List.mem_append.2 (.inl hc), ht⟩
    · have hpl : ∀ a ∈ l, PlainConditions a := by
        cases hpc with
        | ite => exact absurd rfl h2
        | node _ h => exact h
      by_cases hu : ∃ a ∈ l, patVal (fun x => some (ρ x)) mathOpVal a = none
      · obtain ⟨a, hal, hau⟩ := hu
        by_cases h1 : o = .div
        · subst h1
          obtain ⟨a1, b1, rfl⟩ := list_len2 ha
          obtain ⟨d, ra, rb, e1, e2, e3, rfl⟩ := errorConditions_div h
          rcases List.mem_cons.1 hal with rfl | hal
          · obtain ⟨c, hc, ht⟩ := ih a (by simp) (hargs a (by simp)) (hpl a (by simp)) e2 hpath hau
            exact ⟨c, by simp [hc], ht⟩
          · rw [List.mem_singleton.1 hal] at hau
            obtain ⟨c, hc, ht⟩ := ih b1 (by simp) (hargs b1 (by simp)) (hpl b1 (by simp)) e3 hpath hau
            exact ⟨c, by simp [hc], ht⟩
        · rw [errorConditions_other ha h1 h2] at h
          obtain ⟨ds, h3, h4⟩ := (errorConditionsL_mem h).2 a hal
          obtain ⟨c, hc, ht⟩ := ih a hal (hargs a hal) (hpl a hal) h3 hpath hau
          exact ⟨c, h4 c hc, ht⟩
      · have hdef : ∀ a ∈ l, ∃ w, patVal (fun x => some (ρ x)) mathOpVal a = some w := by
          intro a hal
          cases hav : patVal (fun x => some (ρ x)) mathOpVal a with
          | none => exact absurd ⟨a, hal, hav⟩ hu
          | some w => exact ⟨w, rfl⟩
        cases o with
        | ite => exact absurd rfl h2
        | var x => exact absurd rfl (hp x)
        | lit c => have := list_len0 ha; subst this; cases hv
        | neg | abs =>
          obtain ⟨a, rfl⟩ := list_len1 ha
          obtain ⟨v, hv'⟩ := hdef a (by simp)
          simp [hv', mathOpVal] at hv
        | div =>
          obtain ⟨a, b, rfl⟩ := list_len2 ha
          obtain ⟨d, ra, rb, e1, e2, e3, rfl⟩ := errorConditions_div h
          obtain ⟨v, hv'⟩ := hdef a (by simp)
          obtain ⟨w, hw⟩ := hdef b (by simp)
          have hd := ratPatSmt_val (hargs b (by simp)) d0 ρ e1 hw
          simp only [List.map_cons, List.map_nil, hv', hw, mathOpVal] at hv
          split at hv
          · rename_i h0
            exact ⟨_, List.mem_cons_self, by simp [realHolds, realVal, hd, h0, hpath]⟩
          · cases hv
        | _ =>
          obtain ⟨a, b, rfl⟩ := list_len2 ha
          obtain ⟨v, hv'⟩ := hdef a (by simp)
          obtain ⟨w, hw⟩ := hdef b (by simp)
          simp [hv', hw, mathOpVal] at hv

omit [IsStrictOrderedRing K] in
theorem anyOf_holds (d0 : K → K) (env : String → K) (l : List (SmtFm Rat)) :
    realHolds d0 env (SmtFm.anyOf l) = true ↔ ∃ c ∈ l, realHolds d0 env c = true := by
  unfold SmtFm.anyOf
  induction l with
  | nil => simp [realHolds]
  | cons c l ih => simp [realHolds, ih]

omit [IsStrictOrderedRing K] in
theorem implies_chain (d0 : K → K) (env : String → K) (l : List (SmtFm Rat)) (g : SmtFm Rat)
    (h : realHolds d0 env (l.foldl (fun acc c => .implies (.not c) acc) g) = true)
    (hl : ∀ c ∈ l, realHolds d0 env c = false) : realHolds d0 env g = true := by
  induction l generalizing g with
  | nil => exact h
  | cons c l ih =>
    rw [List.foldl_cons] at h
    have := ih _ h (fun c' hc' => hl c' (by simp [hc']))
    simpa [realHolds, hl c (by simp)] using this

omit [IsStrictOrderedRing K] in
/-- What an accepting answer means. -/
theorem ratValidate_valid {check : SmtFm Rat → SatResult} (hc : SolverSoundReal K check)
    {lhs rhs : PatternAst MathOp} {lp rp : Pat MathOp} (hl : FlatOf lhs lp) (hr : FlatOf rhs rp)
    (hv : ratValidate check lhs rhs = some .valid) :
    ∃ l r ls rs, ratPatSmt lp = some l ∧ ratPatSmt rp = some r ∧ errorConditions lp (.lit true) = some ls ∧
      errorConditions rp (.lit true) = some rs ∧
      ∀ (d0 : K → K) env, realHolds d0 env (ratAssertion l r ls rs) = true := by
  unfold ratValidate at hv
  rw [hl.1, hr.1] at hv
  simp only [Option.bind_some] at hv
  cases hli : lhs.instantiate with
  | none => rw [hli] at hv; cases hv
  | some li =>
  cases hri : rhs.instantiate with
  | none => rw [hli, hri] at hv; cases hv
  | some ri =>
  rw [hli, hri] at hv
  simp only [Option.bind_some, run_instantiate _ hl hli, run_instantiate _ hr hri, Option.join_some] at hv
  cases h1 : Tm.fold MathOp.toSmt lp.instantiate with
  | none => rw [h1] at hv; cases hv
  | some l =>
  cases h2 : Tm.fold MathOp.toSmt rp.instantiate with
  | none => rw [h1, h2] at hv; cases hv
  | some r =>
  rw [h1, h2] at hv
  cases h3 : errorConditions lp (.lit true) with
  | none => rw [h3] at hv; cases hv
  | some ls =>
  cases h4 : errorConditions rp (.lit true) with
  | none => rw [h3, h4] at hv; cases hv
  | some rs =>
  rw [h3, h4] at hv
  simp only [Option.bind_some, Option.map_some, Option.some.injEq] at hv
  refine ⟨l, r, ls, rs, h1, h2, rfl, rfl, fun d0 env => ?_⟩
  have hun : check (.not (ratAssertion l r ls rs)) = .unsat := by
    cases hch : check (.not (ratAssertion l r ls rs)) <;> rw [hch] at hv <;> first | rfl | cases hv
  have := hc _ hun d0 env
  simpa [realHolds] using this

end Ruler
