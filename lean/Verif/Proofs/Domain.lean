import Verif.Spec.Domain
import Verif.Proofs.RecExpr
/-! Helper lemmas: sample vectors are computed pointwise. -/
namespace Ruler
open Spec
variable {O C : Type}

/-- The vector function `ev` evaluates each position separately with `p`. -/
def Lifts (arity : O → Nat) (len : Nat) (isVar : O → Prop) (ev : O → List (CVec C) → CVec C)
    (p : O → List (Option C) → Option C) : Prop :=
  ∀ o args, ¬ isVar o → args.length = arity o → (∀ a ∈ args, a.length = len) →
    (ev o args).length = len ∧ ∀ i, i < len → (ev o args)[i]? = some (p o (args.map fun a => (a[i]?).join))

theorem cmap1_length (f : C → Option C) (a : CVec C) : (cmap1 f a).length = a.length := by simp [cmap1]
theorem cmap2_length (f : C → C → Option C) {a b : CVec C} {n : Nat} (ha : a.length = n) (hb : b.length = n) :
    (cmap2 f a b).length = n := by simp [cmap2, ha, hb]

theorem cmap1_get (f : C → Option C) {a : CVec C} {n i : Nat} (ha : a.length = n) (hi : i < n) :
    (cmap1 f a)[i]? = some ((a[i]?).join.bind f) := by
  subst ha; simp [cmap1, List.getElem?_eq_getElem hi]
theorem cmap2_get (f : C → C → Option C) {a b : CVec C} {n i : Nat} (ha : a.length = n) (hb : b.length = n)
    (hi : i < n) :
    (cmap2 f a b)[i]? = some ((a[i]?).join.bind fun x => (b[i]?).join.bind fun y => f x y) := by
  have h1 : i < a.length := by omega
  have h2 : i < b.length := by omega
  simp [cmap2, List.getElem?_eq_getElem h1, List.getElem?_eq_getElem h2, List.getElem?_zipWith, List.zip]

theorem list_len0 {α : Type} {l : List α} (h : l.length = 0) : l = [] := List.length_eq_zero_iff.1 h
theorem list_len1 {α : Type} {l : List α} (h : l.length = 1) : ∃ a, l = [a] := List.length_eq_one_iff.1 h
theorem list_len2 {α : Type} {l : List α} (h : l.length = 2) : ∃ a b, l = [a, b] := by
  match l, h with
  | [a, b], _ => exact ⟨a, b, rfl⟩
theorem list_len3 {α : Type} {l : List α} (h : l.length = 3) : ∃ a b c, l = [a, b, c] := by
  match l, h with
  | [a, b, c], _ => exact ⟨a, b, c, rfl⟩

/-- The value of a term at one sample position. -/
def sampleVal [Lang O] (p : O → List (Option C) → Option C) (σ : String → Option C) (t : Tm O) : Option C :=
  Tm.fold (fun o args => match Lang.toVar o with | some x => σ x | none => p o args) t

theorem sampleVal_node [Lang O] (p : O → List (Option C) → Option C) (σ : String → Option C) {o : O}
    (h : Lang.toVar o = none) (l : List (Tm O)) :
    sampleVal p σ (.node o l) = p o (l.map (sampleVal p σ)) := by
  unfold sampleVal
  rw [Tm.fold_node]
  simp only [h]

theorem sampleVal_var [Lang O] (p : O → List (Option C) → Option C) (σ : String → Option C) {o : O} {x : String}
    (h : Lang.toVar o = some x) (l : List (Tm O)) : sampleVal p σ (.node o l) = σ x := by
  unfold sampleVal
  rw [Tm.fold_node]
  simp only [h]

theorem termCvec_get [Lang O] {arity : O → Nat} {P : O → Prop} {len : Nat} {ev : O → List (CVec C) → CVec C}
    {p : O → List (Option C) → Option C} (hl : Lifts arity len (fun o => (Lang.toVar o).isSome) ev p)
    (vars : String → CVec C) {t : Tm O} (hs : WellSorted arity P t) (hv : ∀ x, HasVar x t → (vars x).length = len) :
    (termCvec ev vars t).length = len ∧
    ∀ i, i < len → (termCvec ev vars t)[i]? = some (sampleVal p (fun x => ((vars x)[i]?).join) t) := by
  induction t using Tm.ind with
  | hn o l ih =>
    cases hs with
    | node ha hp hargs =>
    unfold termCvec sampleVal
    simp only [Tm.fold_node]
    have hv' : ∀ a ∈ l, ∀ x, HasVar x a → (vars x).length = len := fun a ha x hx => hv x (.there ha hx)
    cases hvar : Lang.toVar o with
    | some x =>
      have hx := hv x (.here hvar)
      refine ⟨hx, fun i hi => ?_⟩
      have : i < (vars x).length := by omega
      simp [List.getElem?_eq_getElem this]
    | none =>
      have h := hl o (l.map (termCvec ev vars)) (by simp [hvar]) (by simpa using ha) (by
        intro a ha
        obtain ⟨t, ht, rfl⟩ := List.mem_map.1 ha
        exact (ih t ht (hargs t ht) (hv' t ht)).1)
      refine ⟨h.1, fun i hi => ?_⟩
      have := h.2 i hi
      change (ev o (l.map (termCvec ev vars)))[i]? = _
      rw [this, List.map_map]
      congr 2
      apply List.map_congr_left
      intro t ht
      simp only [Function.comp]
      rw [(ih t ht (hargs t ht) (hv' t ht)).2 i hi]
      rfl

theorem patValL_eq {B : Type} (ρ : String → B) (f : O → List B → B) (l : List (Pat O)) :
    patValL ρ f l = l.map (patVal ρ f) := by
  induction l with
  | nil => rfl
  | cons p l ih => simp [patValL, ih]

theorem patVal_node {B : Type} (ρ : String → B) (f : O → List B → B) (o : O) (l : List (Pat O)) :
    patVal ρ f (.node o l) = f o (l.map (patVal ρ f)) := by
  rw [patVal, patValL_eq]

/-- Translating an instantiated pattern bottom-up folds over its tree. -/
theorem run_instantiate {B : Type} [Lang O] (f : O → List B → B) {e : PatternAst O} {p : Pat O} {r : RecExpr O}
    (he : FlatOf e p) (hr : e.instantiate = some r) : RecExpr.run f r = some (Tm.fold f p.instantiate) := by
  rw [RecExpr.run_eq_tree, PatternAst.instantiate_tree e p r he.1 hr he.2]
  rfl

theorem dropQ_cons {v : String} (h : v.toList.head? = some '?') : "?" ++ dropQ v = v := by
  apply String.ext
  rw [String.toList_append]
  cases hl : v.toList with
  | nil => rw [hl] at h; cases h
  | cons c cs =>
    rw [hl] at h
    cases h
    simp [dropQ, hl]

/-- A compositional translation of an instantiated pattern has the value of the pattern. -/
theorem fold_instantiate {S V : Type} [Lang O] {arity : O → Nat} {P : O → Prop} {tr : O → List S → S}
    {val : S → V} {opVal : O → List V → V} {env : String → V}
    (hvar : ∀ x, val (tr (Lang.mkVar x) []) = env x)
    (hop : ∀ o args, P o → args.length = arity o → val (tr o args) = opVal o (args.map val))
    {p : Pat O} (hs : PatSorted arity P p) {ρ : String → V} (henv : ∀ x, env x = ρ ("?" ++ x)) :
    val (Tm.fold tr p.instantiate) = patVal ρ opVal p := by
  induction p using Pat.ind with
  | hv v =>
    cases hs with
    | var hq =>
    rw [Pat.instantiate, Tm.fold_node, List.map_nil, hvar, patVal, henv, dropQ_cons hq]
  | hn o l ih =>
    cases hs with
    | node ha hp hargs =>
    rw [Pat.instantiate, Pat.instantiateL_eq, Tm.fold_node, patVal_node, hop o _ hp (by simpa using ha)]
    congr 1
    rw [List.map_map, List.map_map]
    apply List.map_congr_left
    intro a ha
    exact ih a ha (hargs a ha)

theorem tmVal_node {B : Type} [Lang O] (env : String → B) (f : O → List B → B) {o : O} (h : Lang.toVar o = none)
    (l : List (Tm O)) : tmVal env f (.node o l) = f o (l.map (tmVal env f)) := by
  unfold tmVal
  rw [Tm.fold_node]
  simp only [h]

theorem tmVal_var {B : Type} [Lang O] (env : String → B) (f : O → List B → B) {o : O} {x : String}
    (h : Lang.toVar o = some x) (l : List (Tm O)) : tmVal env f (.node o l) = env x := by
  unfold tmVal
  rw [Tm.fold_node]
  simp only [h]

/-- A total evaluator is defined everywhere. -/
theorem sampleVal_total [Lang O] {arity : O → Nat} {P : O → Prop} {p : O → List (Option C) → Option C}
    {f : O → List C → C}
    (hp : ∀ o args, P o → Lang.toVar o = none → args.length = arity o → p o (args.map some) = some (f o args))
    {t : Tm O} (hs : WellSorted arity P t) {τ : String → Option C} {env : String → C}
    (hτ : ∀ x, HasVar x t → τ x = some (env x)) : sampleVal p τ t = some (tmVal env f t) := by
  induction t using Tm.ind with
  | hn o l ih =>
    cases hs with
    | node ha hP hargs =>
    cases hv : Lang.toVar o with
    | some x => rw [sampleVal_var _ _ hv, tmVal_var _ _ hv, hτ x (.here hv)]
    | none =>
      rw [sampleVal_node _ _ hv, tmVal_node _ _ hv, ← hp o _ hP hv (by simpa using ha), List.map_map]
      congr 1
      apply List.map_congr_left
      intro a ha
      exact ih a ha (hargs a ha) fun x hx => hτ x (.there ha hx)

/-- The value of a term depends only on its variables. -/
theorem tmVal_congr {B : Type} [Lang O] {f : O → List B → B} {env env' : String → B} {t : Tm O}
    (h : ∀ x, HasVar x t → env x = env' x) : tmVal env f t = tmVal env' f t := by
  induction t using Tm.ind with
  | hn o l ih =>
    cases hv : Lang.toVar o with
    | some x => rw [tmVal_var _ _ hv, tmVal_var _ _ hv, h x (.here hv)]
    | none =>
      rw [tmVal_node _ _ hv, tmVal_node _ _ hv]
      congr 1
      apply List.map_congr_left
      intro a ha
      exact ih a ha fun x hx => h x (.there ha hx)

theorem termInterval_node (mk : O → List (Interval C) → Option (Interval C)) (o : O) (l : List (Tm O)) :
    termInterval mk (.node o l) = (l.mapM (termInterval mk)).bind (mk o) := by
  unfold termInterval
  rw [Tm.fold_node, List.mapM_map]
  rfl

/-- If every operator maps good intervals to a good interval that contains the value, so does every term, without
panic. -/
theorem termInterval_sound {B : Type} [Lang O] {arity : O → Nat} {P : O → Prop} {f : O → List B → B}
    {mk : O → List (Interval C) → Option (Interval C)} {mem : Interval C → B → Prop} {Good : Interval C → Prop}
    (hE : Nonempty B)
    (hop : ∀ o Is, P o → Lang.toVar o = none → Is.length = arity o → (∀ I ∈ Is, Good I) →
      (∃ vs, List.Forall₂ mem Is vs) →
      ∃ I, mk o Is = some I ∧ Good I ∧ ∀ vs, List.Forall₂ mem Is vs → mem I (f o vs))
    (hvar : ∀ o x, Lang.toVar o = some x → P o → ∃ I, mk o [] = some I ∧ Good I ∧ ∀ v, mem I v)
    (hv0 : ∀ o x, Lang.toVar o = some x → arity o = 0)
    {t : Tm O} (hs : WellSorted arity P t) :
    ∃ I, termInterval mk t = some I ∧ Good I ∧ ∀ env, mem I (tmVal env f t) := by
  induction t using Tm.ind with
  | hn o l ih =>
    cases hs with
    | node ha hP hargs =>
    rw [termInterval_node]
    have hl : ∃ Is, l.mapM (termInterval mk) = some Is ∧ Is.length = l.length ∧ (∀ I ∈ Is, Good I) ∧
        ∀ env, List.Forall₂ mem Is (l.map (tmVal env f)) := by
      clear ha
      induction l with
      | nil => exact ⟨[], rfl, rfl, by simp, fun _ => .nil⟩
      | cons a l ihl =>
        obtain ⟨I, h1, h2, h3⟩ := ih a (by simp) (hargs a (by simp))
        obtain ⟨Is, k1, k2, k3, k4⟩ := ihl (fun a ha => ih a (by simp [ha])) (fun a ha => hargs a (by simp [ha]))
        refine ⟨I :: Is, ?_, by simp [k2], ?_, ?_⟩
        · rw [List.mapM_cons, h1, k1]; rfl
        · intro J hJ
          rcases List.mem_cons.1 hJ with rfl | hJ
          · exact h2
          · exact k3 J hJ
        · intro env
          exact .cons (h3 env) (k4 env)
    obtain ⟨Is, k1, k2, k3, k4⟩ := hl
    rw [k1, Option.bind_some]
    cases hv : Lang.toVar o with
    | some x =>
      have h0 : l = [] := by rw [← List.length_eq_zero_iff, ha, hv0 o x hv]
      subst h0
      have : Is = [] := List.length_eq_zero_iff.1 k2
      subst this
      obtain ⟨I, i1, i2, i3⟩ := hvar o x hv hP
      exact ⟨I, i1, i2, fun env => by rw [tmVal_var _ _ hv]; exact i3 _⟩
    | none =>
      obtain ⟨b⟩ := hE
      obtain ⟨I, i1, i2, i3⟩ := hop o Is hP hv (k2.trans ha) k3 ⟨_, k4 fun _ => b⟩
      exact ⟨I, i1, i2, fun env => by rw [tmVal_node _ _ hv]; exact i3 _ (k4 env)⟩

end Ruler
