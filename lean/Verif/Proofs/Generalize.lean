import Verif.Spec.Generalize
import Verif.Spec.Saturation
import Verif.Proofs.Domain
import Verif.Proofs.Rule
import Mathlib.Data.List.Perm.Subperm
/-! Helper lemmas: generalization renames variables injectively. -/
namespace Ruler
open Spec
variable {O : Type} [Lang O]

theorem schemaL_eq (ρ : String → String) (l : List (Tm O)) : schemaL ρ l = l.map (schema ρ) := by
  induction l with
  | nil => rfl
  | cons t l ih => simp [schemaL, ih]

omit [Lang O] in
theorem renamedL_eq (σ : String → String) (l : List (Pat O)) : renamedL σ l = l.map (renamed σ) := by
  induction l with
  | nil => rfl
  | cons t l ih => simp [renamedL, ih]

theorem renamedTmL_eq (σ : String → String) (l : List (Tm O)) : renamedTmL σ l = l.map (renamedTm σ) := by
  induction l with
  | nil => rfl
  | cons t l ih => simp [renamedTmL, ih]

theorem schema_node (ρ : String → String) {o : O} (h : Lang.toVar o = none) (l : List (Tm O)) :
    schema ρ (.node o l) = .node o (l.map (schema ρ)) := by
  rw [schema, h]; simp only [schemaL_eq]

theorem schema_var (ρ : String → String) {o : O} {x : String} (h : Lang.toVar o = some x) (l : List (Tm O)) :
    schema ρ (.node o l) = .var (ρ x) := by
  rw [schema, h]

theorem schema_congr {ρ ρ' : String → String} {t : Tm O} (h : ∀ x, VarIn x t → ρ x = ρ' x) :
    schema ρ t = schema ρ' t := by
  induction t using Tm.ind with
  | hn o l ih =>
    cases hv : Lang.toVar o with
    | some x => rw [schema_var ρ hv, schema_var ρ' hv, h x (.here hv)]
    | none =>
      rw [schema_node ρ hv, schema_node ρ' hv]
      congr 1
      apply List.map_congr_left
      intro a ha
      exact ih a ha fun x hx => h x (.there hv ha hx)

/-! ## The map -/

/-- Different keys, and the `i`-th entry is named by the `i`-th letter. -/
def VarMap.Ok (m : VarMap) : Prop :=
  (m.map Prod.fst).Nodup ∧ ∀ (i : Nat) e, m[i]? = some e → ∃ a, letter i = some a ∧ e.2 = "?" ++ a

theorem VarMap.Ok.nil : VarMap.Ok [] := ⟨by simp, by simp⟩

theorem letter_lt {i : Nat} {a : String} (h : letter i = some a) : i < 26 := by
  unfold letter at h
  obtain ⟨c, hc, _⟩ := Option.map_eq_some_iff.1 h
  have := (List.getElem?_eq_some_iff.1 hc).1
  simpa using this

theorem letter_none {i : Nat} (h : letter i = none) : 26 ≤ i := by
  unfold letter at h
  have := List.getElem?_eq_none_iff.1 (Option.map_eq_none_iff.1 h)
  simpa using this

theorem letter_inj {i j : Nat} {a : String} (hi : letter i = some a) (hj : letter j = some a) : i = j := by
  have h1 := letter_lt hi
  have h2 := letter_lt hj
  unfold letter at hi hj
  obtain ⟨c, hc, rfl⟩ := Option.map_eq_some_iff.1 hi
  obtain ⟨d, hd, e⟩ := Option.map_eq_some_iff.1 hj
  have : d = c := by
    have := congrArg String.toList e
    simpa using this
  subst this
  have hn : ("abcdefghijklmnopqrstuvwxyz".toList).Nodup := by decide
  obtain ⟨p, hp⟩ := List.getElem?_eq_some_iff.1 hc
  obtain ⟨q, hq⟩ := List.getElem?_eq_some_iff.1 hd
  exact (List.Nodup.getElem_inj_iff hn).1 (hp.trans hq.symm)

theorem letter_range {i : Nat} {a : String} (h : letter i = some a) :
    ∃ c : Char, 'a' ≤ c ∧ c ≤ 'z' ∧ a = String.ofList [c] := by
  unfold letter at h
  obtain ⟨c, hc, rfl⟩ := Option.map_eq_some_iff.1 h
  have hm := List.mem_of_getElem? hc
  have : ∀ c ∈ "abcdefghijklmnopqrstuvwxyz".toList, 'a' ≤ c ∧ c ≤ 'z' := by decide
  exact ⟨c, (this c hm).1, (this c hm).2, rfl⟩

theorem VarMap.Ok.length_le {m : VarMap} (h : m.Ok) : m.length ≤ 26 := by
  cases hl : m.length with
  | zero => omega
  | succ k =>
    obtain ⟨a, ha, _⟩ := h.2 k (m[k]'(by omega)) (List.getElem?_eq_getElem (by omega))
    have := letter_lt ha
    omega

theorem lookup_mem {m : VarMap} {x v : String} (h : m.lookup x = some v) : (x, v) ∈ m := by
  induction m with
  | nil => simp at h
  | cons e m ih =>
    obtain ⟨y, w⟩ := e
    rw [List.lookup_cons] at h
    by_cases hxy : x = y
    · subst hxy; simp at h; subst h; simp
    · have : (x == y) = false := by simpa using hxy
      rw [this] at h
      exact List.mem_cons_of_mem _ (ih h)

theorem lookup_none_iff {m : VarMap} {x : String} : m.lookup x = none ↔ x ∉ m.map Prod.fst := by
  induction m with
  | nil => simp
  | cons e m ih =>
    obtain ⟨y, w⟩ := e
    rw [List.lookup_cons]
    by_cases hxy : x = y
    · subst hxy; simp
    · have : (x == y) = false := by simpa using hxy
      rw [this]
      simp only [List.map_cons, List.mem_cons, not_or]
      simp [ih, hxy]

theorem lookup_append_left {m s : VarMap} {x : String} (h : x ∈ m.map Prod.fst) :
    (m ++ s).lookup x = m.lookup x := by
  rw [List.lookup_append]
  cases hm : m.lookup x with
  | none => exact absurd h (lookup_none_iff.1 hm)
  | some v => rfl

/-- The names given by a map. -/
def VarMap.fn (m : VarMap) (x : String) : String := (m.lookup x).getD ""

theorem VarMap.fn_append {m s : VarMap} {x : String} (h : x ∈ m.map Prod.fst) : VarMap.fn (m ++ s) x = m.fn x := by
  unfold VarMap.fn; rw [lookup_append_left h]

theorem VarMap.Ok.fn_inj {m : VarMap} (h : m.Ok) : InjOn m.fn fun x => x ∈ m.map Prod.fst := by
  intro x y hx hy e
  unfold VarMap.fn at e
  cases h1 : m.lookup x with
  | none => exact absurd hx (lookup_none_iff.1 h1)
  | some v =>
    cases h2 : m.lookup y with
    | none => exact absurd hy (lookup_none_iff.1 h2)
    | some w =>
      rw [h1, h2] at e
      obtain ⟨i, hi⟩ := List.mem_iff_getElem?.1 (lookup_mem h1)
      obtain ⟨j, hj⟩ := List.mem_iff_getElem?.1 (lookup_mem h2)
      obtain ⟨a, ha, ea⟩ := h.2 i _ hi
      obtain ⟨b, hb, eb⟩ := h.2 j _ hj
      have : a = b := by
        have : "?" ++ a = "?" ++ b := ea.symm.trans (e.trans eb)
        have := congrArg String.toList this
        apply String.ext
        simpa [String.toList_append] using this
      subst this
      have hij := letter_inj ha hb
      subst hij
      exact (Prod.mk.inj (Option.some.inj (hi.symm.trans hj))).1

theorem VarMap.Ok.fn_letter {m : VarMap} (h : m.Ok) {x : String} (hx : x ∈ m.map Prod.fst) : LetterVar (m.fn x) := by
  unfold VarMap.fn
  cases h1 : m.lookup x with
  | none => exact absurd hx (lookup_none_iff.1 h1)
  | some v =>
    obtain ⟨i, hi⟩ := List.mem_iff_getElem?.1 (lookup_mem h1)
    obtain ⟨a, ha, ea⟩ := h.2 i _ hi
    obtain ⟨c, hc, hc', rfl⟩ := letter_range ha
    refine ⟨c, hc, hc', ?_⟩
    change v = _ at ea
    rw [Option.getD_some, ea]
    apply String.ext
    simp

theorem name_spec {m m' : VarMap} {x v : String} (h : m.name x = some (m', v)) (hm : m.Ok) :
    m'.Ok ∧ (∃ s, m' = m ++ s) ∧ v = m'.fn x ∧ ∀ y, y ∈ m'.map Prod.fst ↔ y ∈ m.map Prod.fst ∨ y = x := by
  unfold VarMap.name at h
  cases hl : m.lookup x with
  | some w =>
    rw [hl] at h
    cases h
    refine ⟨hm, ⟨[], by simp⟩, by simp [VarMap.fn, hl], fun y => ⟨Or.inl, ?_⟩⟩
    rintro (h | rfl)
    · exact h
    · by_contra hc
      rw [lookup_none_iff.2 hc] at hl
      cases hl
  | none =>
    rw [hl] at h
    obtain ⟨a, ha, e⟩ := Option.map_eq_some_iff.1 h
    cases e
    have hx := lookup_none_iff.1 hl
    refine ⟨⟨?_, ?_⟩, ⟨_, rfl⟩, ?_, ?_⟩
    · rw [List.map_append, List.nodup_append]
      refine ⟨hm.1, by simp, ?_⟩
      intro b hb c hc e
      simp at hc
      subst hc e
      exact hx hb
    · intro i e he
      rw [List.getElem?_append] at he
      by_cases hi : i < m.length
      · rw [if_pos hi] at he
        exact hm.2 i e he
      · rw [if_neg hi] at he
        have hi' : i = m.length := by
          have := (List.getElem?_eq_some_iff.1 he).1
          simp at this
          omega
        subst hi'
        simp at he
        exact ⟨a, ha, by rw [← he]⟩
    · unfold VarMap.fn
      rw [List.lookup_append, hl]
      simp
    · intro y
      simp

theorem name_none {m : VarMap} {x : String} (h : m.name x = none) :
    26 ≤ m.length ∧ x ∉ m.map Prod.fst := by
  unfold VarMap.name at h
  cases hl : m.lookup x with
  | some w => rw [hl] at h; cases h
  | none =>
    rw [hl] at h
    exact ⟨letter_none (Option.map_eq_none_iff.1 h), lookup_none_iff.1 hl⟩

/-! ## Generalization of one term -/

/-- What generalizing something with variables `S` to something described by `sch` does. -/
def GenOk {α : Type} (S : String → Prop) (sch : (String → String) → α) (m m' : VarMap) (p : α) : Prop :=
  m'.Ok ∧ (∃ s, m' = m ++ s) ∧ p = sch m'.fn ∧ ∀ y, y ∈ m'.map Prod.fst ↔ y ∈ m.map Prod.fst ∨ S y

mutual
theorem generalize_spec : ∀ (t : Tm O) (m m' : VarMap) (p : Pat O), generalize t m = some (m', p) → m.Ok →
    GenOk (fun x => VarIn x t) (fun ρ => schema ρ t) m m' p
  | .node o args, m, m', p, h, hm => by
    unfold generalize at h
    cases hv : Lang.toVar o with
    | some x =>
      simp only [hv] at h
      obtain ⟨r, hr, e⟩ := Option.map_eq_some_iff.1 h
      obtain ⟨m1, v⟩ := r
      cases e
      obtain ⟨h1, h2, h3, h4⟩ := name_spec hr hm
      refine ⟨h1, h2, ?_, fun y => (h4 y).trans (or_congr Iff.rfl ?_)⟩
      · simp only [schema_var _ hv]
        rw [← h3]
      · constructor
        · rintro rfl; exact .here hv
        · rintro (h | ⟨h, _, _⟩)
          · rw [hv] at h; exact (Option.some.inj h).symm
          · rw [hv] at h; cases h
    | none =>
      simp only [hv] at h
      obtain ⟨r, hr, e⟩ := Option.map_eq_some_iff.1 h
      obtain ⟨m1, ps⟩ := r
      cases e
      obtain ⟨h1, h2, h3, h4⟩ := generalizeL_spec args m m1 ps hr hm
      refine ⟨h1, h2, ?_, fun y => (h4 y).trans (or_congr Iff.rfl ?_)⟩
      · simp only [schema_node _ hv]
        rw [h3]
      · constructor
        · rintro ⟨a, ha, hy⟩; exact .there hv ha hy
        · rintro (h | ⟨h, ha, hy⟩)
          · rw [hv] at h; cases h
          · exact ⟨_, ha, hy⟩
theorem generalizeL_spec : ∀ (l : List (Tm O)) (m m' : VarMap) (ps : List (Pat O)),
    generalizeL l m = some (m', ps) → m.Ok →
    GenOk (fun x => ∃ a ∈ l, VarIn x a) (fun ρ => l.map (schema ρ)) m m' ps
  | [], m, m', ps, h, hm => by
    simp [generalizeL] at h
    obtain ⟨rfl, rfl⟩ := h
    exact ⟨hm, ⟨[], by simp⟩, rfl, by simp⟩
  | t :: l, m, m', ps, h, hm => by
    simp only [generalizeL] at h
    obtain ⟨⟨m1, qs⟩, h1, h⟩ := Option.bind_eq_some_iff.1 h
    obtain ⟨⟨m2, q⟩, h2, e⟩ := Option.map_eq_some_iff.1 h
    cases e
    obtain ⟨a1, ⟨s1, a2⟩, a3, a4⟩ := generalizeL_spec l m m1 qs h1 hm
    obtain ⟨b1, ⟨s2, b2⟩, b3, b4⟩ := generalize_spec t m1 m2 q h2 a1
    refine ⟨b1, ⟨s1 ++ s2, by rw [b2, a2, List.append_assoc]⟩, ?_, fun y => ?_⟩
    · simp only [List.map_cons]
      rw [b3, a3]
      congr 1
      apply List.map_congr_left
      intro a ha
      apply schema_congr
      intro x hx
      rw [b2, VarMap.fn_append ((a4 x).2 (Or.inr ⟨a, ha, hx⟩))]
    · rw [b4, a4]
      simp only [List.mem_cons, exists_eq_or_imp]
      constructor
      · rintro ((h | h) | h)
        · exact Or.inl h
        · exact Or.inr (Or.inr h)
        · exact Or.inr (Or.inl h)
      · rintro (h | h | h)
        · exact Or.inl (Or.inl h)
        · exact Or.inr h
        · exact Or.inl (Or.inr h)
end

/-- More than 26 different variables among the elements of `S`. -/
def Many (S : String → Prop) : Prop := ∃ L : List String, L.Nodup ∧ 26 < L.length ∧ ∀ y ∈ L, S y

theorem Many.mono {S T : String → Prop} (h : Many S) (hst : ∀ y, S y → T y) : Many T := by
  obtain ⟨L, a, b, c⟩ := h
  exact ⟨L, a, b, fun y hy => hst y (c y hy)⟩

theorem Many.not_atMost {S : String → Prop} (h : Many S) : ¬ AtMost 26 S := by
  rintro ⟨L, hl, hc⟩
  obtain ⟨M, hn, hlt, hm⟩ := h
  have := (List.Nodup.subperm hn fun y hy => hc y (hm y hy)).length_le
  omega

mutual
theorem generalize_none : ∀ (t : Tm O) (m : VarMap), generalize t m = none → m.Ok →
    Many fun y => y ∈ m.map Prod.fst ∨ VarIn y t
  | .node o args, m, h, hm => by
    unfold generalize at h
    cases hv : Lang.toVar o with
    | some x =>
      simp only [hv] at h
      obtain ⟨h1, h2⟩ := name_none (Option.map_eq_none_iff.1 h)
      refine ⟨x :: m.map Prod.fst, List.nodup_cons.2 ⟨h2, hm.1⟩, by simp; omega, fun y hy => ?_⟩
      rcases List.mem_cons.1 hy with rfl | hy
      · exact Or.inr (.here hv)
      · exact Or.inl hy
    | none =>
      simp only [hv] at h
      refine (generalizeL_none args m (Option.map_eq_none_iff.1 h) hm).mono ?_
      rintro y (h | ⟨a, ha, hy⟩)
      · exact Or.inl h
      · exact Or.inr (.there hv ha hy)
theorem generalizeL_none : ∀ (l : List (Tm O)) (m : VarMap), generalizeL l m = none → m.Ok →
    Many fun y => y ∈ m.map Prod.fst ∨ ∃ a ∈ l, VarIn y a
  | [], m, h, hm => by simp [generalizeL] at h
  | t :: l, m, h, hm => by
    simp only [generalizeL] at h
    cases h1 : generalizeL l m with
    | none =>
      refine (generalizeL_none l m h1 hm).mono ?_
      rintro y (h | ⟨a, ha, hy⟩)
      · exact Or.inl h
      · exact Or.inr ⟨a, List.mem_cons_of_mem _ ha, hy⟩
    | some r =>
      obtain ⟨m1, qs⟩ := r
      rw [h1] at h
      simp only [Option.bind_some, Option.map_eq_none_iff] at h
      obtain ⟨a1, _, _, a4⟩ := generalizeL_spec l m m1 qs h1 hm
      refine (generalize_none t m1 h a1).mono ?_
      rintro y (h | h)
      · rcases (a4 y).1 h with h | ⟨a, ha, hy⟩
        · exact Or.inl h
        · exact Or.inr ⟨a, List.mem_cons_of_mem _ ha, hy⟩
      · exact Or.inr ⟨t, List.mem_cons_self, h⟩
end

/-! ## Pairs -/

/-- The variables of a pair of terms. -/
def PairVar (e1 e2 : Tm O) (x : String) : Prop := VarIn x e1 ∨ VarIn x e2

theorem generalizePair_spec {e1 e2 : Tm O} {l r : Pat O} (h : generalizePair e1 e2 = some (l, r)) :
    ∃ m : VarMap, m.Ok ∧ l = schema m.fn e1 ∧ r = schema m.fn e2 ∧
      ∀ x, x ∈ m.map Prod.fst ↔ PairVar e1 e2 x := by
  unfold generalizePair at h
  obtain ⟨⟨m1, p⟩, h1, h⟩ := Option.bind_eq_some_iff.1 h
  obtain ⟨⟨m2, q⟩, h2, e⟩ := Option.map_eq_some_iff.1 h
  cases e
  obtain ⟨a1, _, a3, a4⟩ := generalize_spec e1 [] m1 p h1 .nil
  obtain ⟨b1, ⟨s, b2⟩, b3, b4⟩ := generalize_spec e2 m1 m2 q h2 a1
  refine ⟨m2, b1, ?_, b3, fun x => ?_⟩
  · change p = _
    rw [a3]
    apply schema_congr
    intro x hx
    rw [b2, VarMap.fn_append ((a4 x).2 (Or.inr hx))]
  · rw [b4, a4]
    simp [PairVar]

theorem generalizePair_none {e1 e2 : Tm O} (h : generalizePair e1 e2 = none) : Many (PairVar e1 e2) := by
  unfold generalizePair at h
  cases h1 : generalize e1 [] with
  | none =>
    refine (generalize_none e1 [] h1 .nil).mono ?_
    rintro y (h | h)
    · simp at h
    · exact Or.inl h
  | some r =>
    obtain ⟨m1, p⟩ := r
    rw [h1] at h
    simp only [Option.bind_some, Option.map_eq_none_iff] at h
    obtain ⟨a1, _, _, a4⟩ := generalize_spec e1 [] m1 p h1 .nil
    refine (generalize_none e2 m1 h a1).mono ?_
    rintro y (h | h)
    · rcases (a4 y).1 h with h | h
      · simp at h
      · exact Or.inl h
    · exact Or.inr h

/-! ## Meaning -/

theorem patVal_schema {V : Type} (ρ : String → String) (ν : String → V) (I : O → List V → V) (t : Tm O) :
    patVal ν I (schema ρ t) = tmVal (fun x => ν (ρ x)) I t := by
  induction t using Tm.ind with
  | hn o l ih =>
    cases hv : Lang.toVar o with
    | some x =>
      rw [schema_var _ hv, patVal]
      unfold tmVal
      rw [Tm.fold_node]
      simp only [hv]
    | none =>
      rw [schema_node _ hv, patVal_node, tmVal_node _ _ hv, List.map_map]
      congr 1
      apply List.map_congr_left
      intro a ha
      exact ih a ha

theorem tmVal_congr' {V : Type} {env env' : String → V} {I : O → List V → V} {t : Tm O}
    (h : ∀ x, VarIn x t → env x = env' x) : tmVal env I t = tmVal env' I t := by
  induction t using Tm.ind with
  | hn o l ih =>
    cases hv : Lang.toVar o with
    | some x =>
      unfold tmVal
      rw [Tm.fold_node, Tm.fold_node]
      simp only [hv]
      exact h x (.here hv)
    | none =>
      rw [tmVal_node _ _ hv, tmVal_node _ _ hv]
      congr 1
      apply List.map_congr_left
      intro a ha
      exact ih a ha fun x hx => h x (.there hv ha hx)

open Classical in
/-- Values of the names from values of the variables. -/
theorem unrename {V : Type} {S : String → Prop} {ρ : String → String} (h : InjOn ρ S) (env : String → V) :
    ∃ ν : String → V, ∀ x, S x → ν (ρ x) = env x := by
  refine ⟨fun v => if hv : ∃ x, S x ∧ ρ x = v then env (choose hv) else env v, fun x hx => ?_⟩
  have hv : ∃ y, S y ∧ ρ y = ρ x := ⟨x, hx, rfl⟩
  simp only [dif_pos hv]
  congr 1
  exact h _ _ (choose_spec hv).1 hx (choose_spec hv).2

/-! ## Patterns turned into terms and back -/

theorem schema_instantiate (hv : ∀ s, Lang.toVar (Lang.mkVar s : O) = some s) (ρ : String → String) {p : Pat O}
    (hp : Schematic p) : schema ρ p.instantiate = renamed (fun v => ρ (dropQ v)) p := by
  induction p using Pat.ind with
  | hv v => rw [Pat.instantiate, schema_var _ (hv _), renamed]
  | hn o l ih =>
    cases hp with
    | node ho hargs =>
    rw [Pat.instantiate, Pat.instantiateL_eq, schema_node _ ho, renamed, renamedL_eq, List.map_map]
    congr 1
    apply List.map_congr_left
    intro a ha
    exact ih a ha (hargs a ha)

theorem varIn_instantiate (hv : ∀ s, Lang.toVar (Lang.mkVar s : O) = some s) {p : Pat O}
    (hp : Schematic p) {v : String} (h : v ∈ p.vars) : VarIn (dropQ v) p.instantiate := by
  induction p using Pat.ind with
  | hv w =>
    simp [Pat.vars] at h
    subst h
    exact .here (hv _)
  | hn o l ih =>
    cases hp with
    | node ho hargs =>
    rw [Pat.vars, Pat.varsL_eq] at h
    obtain ⟨a, ha, h⟩ := List.mem_flatMap.1 h
    rw [Pat.instantiate, Pat.instantiateL_eq]
    exact .there ho (List.mem_map_of_mem ha) (ih a ha (hargs a ha) h)

theorem Schematic.var_head {p : Pat O} (hp : Schematic p) {v : String} (h : v ∈ p.vars) :
    v.toList.head? = some '?' := by
  induction p using Pat.ind with
  | hv w =>
    cases hp with
    | var hq =>
    simp [Pat.vars] at h
    subst h
    exact hq
  | hn o l ih =>
    cases hp with
    | node ho hargs =>
    rw [Pat.vars, Pat.varsL_eq] at h
    obtain ⟨a, ha, h⟩ := List.mem_flatMap.1 h
    exact ih a ha (hargs a ha) h

theorem schema_schematic {ρ : String → String} {t : Tm O} (h : ∀ x, VarIn x t → (ρ x).toList.head? = some '?') :
    Schematic (schema ρ t) := by
  induction t using Tm.ind with
  | hn o l ih =>
    cases hv : Lang.toVar o with
    | some x =>
      rw [schema_var _ hv]
      exact .var (h x (.here hv))
    | none =>
      rw [schema_node _ hv]
      refine .node hv fun a ha => ?_
      obtain ⟨b, hb, rfl⟩ := List.mem_map.1 ha
      exact ih b hb fun x hx => h x (.there hv hb hx)

theorem LetterVar.head {v : String} (h : LetterVar v) : v.toList.head? = some '?' := by
  obtain ⟨c, _, _, rfl⟩ := h
  simp

theorem mem_vars_schema {ρ : String → String} {t : Tm O} {v : String} :
    v ∈ (schema ρ t).vars ↔ ∃ x, VarIn x t ∧ ρ x = v := by
  induction t using Tm.ind with
  | hn o l ih =>
    cases hv : Lang.toVar o with
    | some x =>
      rw [schema_var _ hv]
      simp only [Pat.vars, List.mem_singleton]
      constructor
      · rintro rfl; exact ⟨x, .here hv, rfl⟩
      · rintro ⟨y, (h | ⟨h, _, _⟩), rfl⟩
        · rw [hv] at h; cases h; rfl
        · rw [hv] at h; cases h
    | none =>
      rw [schema_node _ hv, Pat.vars, Pat.varsL_eq]
      simp only [List.mem_flatMap, List.mem_map, exists_exists_and_eq_and]
      constructor
      · rintro ⟨a, ha, h⟩
        obtain ⟨x, hx, e⟩ := (ih a ha).1 h
        exact ⟨x, .there hv ha hx, e⟩
      · rintro ⟨x, (h | ⟨_, ha, hx⟩), e⟩
        · rw [hv] at h; cases h
        · exact ⟨_, ha, (ih _ ha).2 ⟨x, hx, e⟩⟩

/-! ## Terms that differ by the names of variables only -/

theorem renamedTm_node (σ : String → String) {o : O} (h : Lang.toVar o = none) (l : List (Tm O)) :
    renamedTm σ (.node o l) = .node o (l.map (renamedTm σ)) := by
  rw [renamedTm, h]; simp only [renamedTmL_eq]

theorem renamedTm_var (σ : String → String) {o : O} {x : String} (h : Lang.toVar o = some x) (l : List (Tm O)) :
    renamedTm σ (.node o l) = .node (Lang.mkVar (σ x)) [] := by
  rw [renamedTm, h]

/-- The map with renamed keys. -/
def VarMap.renamed (σ : String → String) (m : VarMap) : VarMap := m.map fun e => (σ e.1, e.2)

theorem lookup_renamed {σ : String → String} {S : String → Prop} (hσ : InjOn σ S) {m : VarMap}
    (hm : ∀ x ∈ m.map Prod.fst, S x) {x : String} (hx : S x) : (m.renamed σ).lookup (σ x) = m.lookup x := by
  induction m with
  | nil => rfl
  | cons e m ih =>
    obtain ⟨y, v⟩ := e
    have h := ih fun z hz => hm z (by simp at hz ⊢; exact Or.inr hz)
    rw [VarMap.renamed, List.map_cons, List.lookup_cons, List.lookup_cons]
    by_cases hxy : x = y
    · subst hxy; simp
    · have h1 : (x == y) = false := by simpa using hxy
      have h2 : (σ x == σ y) = false := by
        simp only [beq_eq_false_iff_ne]
        exact fun e => hxy (hσ x y hx (hm y (by simp)) e)
      rw [h1, h2]
      exact h

theorem name_renamed {σ : String → String} {S : String → Prop} (hσ : InjOn σ S) {m : VarMap}
    (hm : ∀ x ∈ m.map Prod.fst, S x) {x : String} (hx : S x) :
    (m.renamed σ).name (σ x) = (m.name x).map fun r => (r.1.renamed σ, r.2) := by
  unfold VarMap.name
  rw [lookup_renamed hσ hm hx]
  cases m.lookup x with
  | some v => rfl
  | none =>
    simp only [Option.map_map]
    have : (VarMap.renamed σ m).length = m.length := by simp [VarMap.renamed]
    rw [this]
    congr 1
    funext a
    simp [VarMap.renamed]

mutual
theorem generalize_renamed (hv : ∀ s, Lang.toVar (Lang.mkVar s : O) = some s) {σ : String → String}
    {S : String → Prop} (hσ : InjOn σ S) : ∀ (t : Tm O) (m : VarMap), m.Ok → (∀ x ∈ m.map Prod.fst, S x) →
    (∀ x, VarIn x t → S x) →
    generalize (renamedTm σ t) (m.renamed σ) = (generalize t m).map fun r => (r.1.renamed σ, r.2)
  | .node o args, m, hm, hk, ht => by
    cases ho : Lang.toVar o with
    | some x =>
      rw [renamedTm_var _ ho]
      simp only [generalize, hv, ho]
      rw [name_renamed hσ hk (ht x (.here ho))]
      simp only [Option.map_map]
      rfl
    | none =>
      rw [renamedTm_node _ ho]
      simp only [generalize, ho]
      rw [generalizeL_renamed hv hσ args m hm hk fun x a ha hx => ht x (.there ho ha hx)]
      simp only [Option.map_map]
      rfl
theorem generalizeL_renamed (hv : ∀ s, Lang.toVar (Lang.mkVar s : O) = some s) {σ : String → String}
    {S : String → Prop} (hσ : InjOn σ S) : ∀ (l : List (Tm O)) (m : VarMap), m.Ok → (∀ x ∈ m.map Prod.fst, S x) →
    (∀ x, ∀ a ∈ l, VarIn x a → S x) →
    generalizeL (l.map (renamedTm σ)) (m.renamed σ) = (generalizeL l m).map fun r => (r.1.renamed σ, r.2)
  | [], m, hm, hk, ht => rfl
  | t :: l, m, hm, hk, ht => by
    simp only [List.map_cons, generalizeL]
    rw [generalizeL_renamed hv hσ l m hm hk fun x a ha hx => ht x a (List.mem_cons_of_mem _ ha) hx]
    cases h1 : generalizeL l m with
    | none => rfl
    | some r =>
      obtain ⟨m1, qs⟩ := r
      obtain ⟨a1, _, _, a4⟩ := generalizeL_spec l m m1 qs h1 hm
      simp only [Option.map_some, Option.bind_some]
      rw [generalize_renamed hv hσ t m1 a1 (fun x hx => by
        rcases (a4 x).1 hx with h | ⟨a, ha, h⟩
        · exact hk x h
        · exact ht x a (List.mem_cons_of_mem _ ha) h) fun x hx => ht x t List.mem_cons_self hx]
      simp only [Option.map_map]
      rfl
end

end Ruler
