import Verif.Proofs.Validate
/-! Helper lemmas about the evaluator of the Halide domain. -/
namespace Ruler
open Spec
variable {C O : Type}

theorem mapM_get {A B : Type} (f : A → Option B) (l : List A) (r : List B) (h : l.mapM f = some r) :
    r.length = l.length ∧ ∀ j, j < l.length → ∃ a b, l[j]? = some a ∧ r[j]? = some b ∧ f a = some b := by
  induction l generalizing r with
  | nil => cases h; exact ⟨rfl, by intro j hj; simp at hj⟩
  | cons a l ih =>
    rw [List.mapM_cons] at h
    cases ha : f a with
    | none => rw [ha] at h; cases h
    | some b =>
      rw [ha] at h
      cases hr : l.mapM f with
      | none => rw [hr] at h; cases h
      | some r' =>
        rw [hr] at h
        cases h
        obtain ⟨h1, h2⟩ := ih r' hr
        refine ⟨by simp [h1], ?_⟩
        intro j hj
        cases j with
        | zero => exact ⟨a, b, rfl, rfl, ha⟩
        | succ j =>
          obtain ⟨a', b', e1, e2, e3⟩ := h2 j (by simpa using hj)
          exact ⟨a', b', by simpa using e1, by simpa using e2, e3⟩

theorem mapM_id_some {A : Type} (l : List (Option A)) (r : List A) (h : l.mapM id = some r) : l = r.map some := by
  induction l generalizing r with
  | nil => cases h; rfl
  | cons a l ih =>
    rw [List.mapM_cons] at h
    cases a with
    | none => cases h
    | some a =>
      cases hr : l.mapM id with
      | none => rw [hr] at h; cases h
      | some r' =>
        rw [hr] at h
        cases h
        rw [ih r' hr]; rfl

theorem termCvecP_node [Lang O] (ev : O → List (CVec C) → Option (CVec C)) (vars : String → CVec C) {o : O}
    (h : Lang.toVar o = none) (l : List (Tm O)) :
    termCvecP ev vars (.node o l) = (l.mapM (termCvecP ev vars)).bind (ev o) := by
  unfold termCvecP
  rw [Tm.fold_node]
  simp only [h]
  rw [List.mapM_map]
  rfl

theorem termCvecP_var [Lang O] (ev : O → List (CVec C) → Option (CVec C)) (vars : String → CVec C) {o : O} {x : String}
    (h : Lang.toVar o = some x) (l : List (Tm O)) : termCvecP ev vars (.node o l) = some (vars x) := by
  unfold termCvecP
  rw [Tm.fold_node]
  simp only [h]

theorem cmapP1_get {f : C → Option (Option C)} {a r : CVec C} {n : Nat} (h : cmapP1 f a = some r) (ha : a.length = n) :
    r.length = n ∧ ∀ (j : Nat) v, r[j]? = some (some v) → ∃ x, a[j]? = some (some x) ∧ f x = some (some v) := by
  obtain ⟨h1, h2⟩ := mapM_get _ _ _ h
  refine ⟨h1.trans ha, ?_⟩
  intro j v hv
  have hj : j < a.length := by rw [← h1]; exact (List.getElem?_eq_some_iff.1 hv).1
  obtain ⟨x, b, e1, e2, e3⟩ := h2 j hj
  rw [e2] at hv
  cases hv
  cases x with
  | none => simp at e3
  | some x => exact ⟨x, e1, e3⟩

theorem cmapP2_get {f : C → C → Option (Option C)} {a b r : CVec C} {n : Nat} (h : cmapP2 f a b = some r)
    (ha : a.length = n) (hb : b.length = n) :
    r.length = n ∧ ∀ (j : Nat) v, r[j]? = some (some v) → ∃ x y, a[j]? = some (some x) ∧ b[j]? = some (some y) ∧
      f x y = some (some v) := by
  obtain ⟨h1, h2⟩ := mapM_get _ _ _ h
  refine ⟨h1.trans (by simp [ha, hb]), ?_⟩
  intro j v hv
  have hj : j < (a.zip b).length := by rw [← h1]; exact (List.getElem?_eq_some_iff.1 hv).1
  obtain ⟨⟨x, y⟩, r', e1, e2, e3⟩ := h2 j hj
  rw [e2] at hv
  cases hv
  rw [List.getElem?_zip_eq_some] at e1
  cases x with
  | none => simp at e3
  | some x =>
    cases y with
    | none => simp at e3
    | some y => exact ⟨x, y, e1.1, e1.2, e3⟩

theorem cmapP3_get {f : C → C → C → Option (Option C)} {a b c r : CVec C} {n : Nat} (h : cmapP3 f a b c = some r)
    (ha : a.length = n) (hb : b.length = n) (hc : c.length = n) :
    r.length = n ∧ ∀ (j : Nat) v, r[j]? = some (some v) → ∃ x y z, a[j]? = some (some x) ∧ b[j]? = some (some y) ∧
      c[j]? = some (some z) ∧ f x y z = some (some v) := by
  obtain ⟨h1, h2⟩ := mapM_get _ _ _ h
  refine ⟨h1.trans (by simp [ha, hb, hc]), ?_⟩
  intro j v hv
  have hj : j < ((a.zip b).zip c).length := by rw [← h1]; exact (List.getElem?_eq_some_iff.1 hv).1
  obtain ⟨⟨⟨x, y⟩, z⟩, r', e1, e2, e3⟩ := h2 j hj
  rw [e2] at hv
  cases hv
  rw [List.getElem?_zip_eq_some, List.getElem?_zip_eq_some] at e1
  cases x with
  | none => simp at e3
  | some x =>
    cases y with
    | none => simp at e3
    | some y =>
      cases z with
      | none => simp at e3
      | some z => exact ⟨x, y, z, e1.1.1, e1.1.2, e1.2, e3⟩

/-- One node: a defined result comes from defined arguments. -/
theorem pred_eval_get (len : Nat) (o : PredOp) (args : List (CVec Int)) (r : CVec Int) (hv : ∀ x, o ≠ .var x)
    (ha : args.length = o.arity) (hl : ∀ a ∈ args, a.length = len) (h : o.eval len args = some r) :
    r.length = len ∧ ∀ (j : Nat) v, r[j]? = some (some v) →
      ∃ ws, List.Forall₂ (fun (a : CVec Int) w => a[j]? = some (some w)) args ws ∧ o.point ws = some (some v) := by
  have two : ∀ (o : PredOp) (args : List (CVec Int)), (∀ x, o ≠ .var x) → o.arity = 2 → args.length = 2 →
      (∀ a ∈ args, a.length = len) → o.eval len args = some r →
      r.length = len ∧ ∀ (j : Nat) v, r[j]? = some (some v) →
      ∃ ws, List.Forall₂ (fun (a : CVec Int) w => a[j]? = some (some w)) args ws ∧ o.point ws = some (some v) := by
    intro o args hv ho ha hl h
    obtain ⟨a, b, rfl⟩ := list_len2 ha
    have h' : cmapP2 (fun x y => o.point [x, y]) a b = some r := by
      cases o <;> first | exact h | exact absurd rfl (hv _)
    obtain ⟨k1, k2⟩ := cmapP2_get h' (hl a (by simp)) (hl b (by simp))
    refine ⟨k1, fun j v hjv => ?_⟩
    obtain ⟨x, y, e1, e2, e3⟩ := k2 j v hjv
    exact ⟨[x, y], .cons e1 (.cons e2 .nil), e3⟩
  have one : ∀ (o : PredOp) (args : List (CVec Int)), (∀ x, o ≠ .var x) → o.arity = 1 → args.length = 1 →
      (∀ a ∈ args, a.length = len) → o.eval len args = some r →
      r.length = len ∧ ∀ (j : Nat) v, r[j]? = some (some v) →
      ∃ ws, List.Forall₂ (fun (a : CVec Int) w => a[j]? = some (some w)) args ws ∧ o.point ws = some (some v) := by
    intro o args hv ho ha hl h
    obtain ⟨a, rfl⟩ := list_len1 ha
    have h' : cmapP1 (fun x => o.point [x]) a = some r := by
      cases o <;> first | exact h | exact absurd rfl (hv _)
    obtain ⟨k1, k2⟩ := cmapP1_get h' (hl a (by simp))
    refine ⟨k1, fun j v hjv => ?_⟩
    obtain ⟨x, e1, e3⟩ := k2 j v hjv
    exact ⟨[x], .cons e1 .nil, e3⟩
  cases o with
  | var x => exact absurd rfl (hv x)
  | lit c =>
    have := list_len0 ha; subst this
    cases h
    refine ⟨by simp, fun j v hjv => ⟨[], .nil, ?_⟩⟩
    rw [List.getElem?_replicate] at hjv
    split at hjv
    · cases hjv; rfl
    · cases hjv
  | not | neg => exact one _ args hv rfl ha hl h
  | select =>
    obtain ⟨a, b, c, rfl⟩ := list_len3 ha
    obtain ⟨k1, k2⟩ := cmapP3_get h (hl a (by simp)) (hl b (by simp)) (hl c (by simp))
    refine ⟨k1, fun j v hjv => ?_⟩
    obtain ⟨x, y, z, e1, e2, e4, e3⟩ := k2 j v hjv
    exact ⟨[x, y, z], .cons e1 (.cons e2 (.cons e4 .nil)), e3⟩
  | _ => exact two _ args hv rfl ha hl h

end Ruler
