import Verif.Proofs.Plug
import Mathlib.Data.List.Perm.Basic
/-! Helper lemmas about repeated plugging: filling several holes at once. -/
namespace Ruler
open Spec
namespace Sexp

theorem flatMap_swap {α β γ : Type _} (A : List α) (B : List β) (G : α → β → List γ) :
    (A.flatMap fun a => B.flatMap fun b => G a b).Perm (B.flatMap fun b => A.flatMap fun a => G a b) := by
  induction A with
  | nil => simp
  | cons a A ih =>
    simp only [List.flatMap_cons]
    exact (List.Perm.append_left _ ih).trans (List.flatMap_append_perm B (G a) fun b => A.flatMap fun a => G a b)

theorem prods_bind {α β : Type _} (F : α → List β) (xss : List (List α)) :
    ((prods xss).flatMap fun xs => prods (xs.map F)).Perm (prods (xss.map fun xs => xs.flatMap F)) := by
  induction xss with
  | nil => simp [prods]
  | cons xs rest ih =>
    simp only [prods, List.map_cons, List.flatMap_assoc, List.flatMap_map]
    refine List.Perm.flatMap_left _ fun x _ => ?_
    refine (flatMap_swap _ _ fun (r : List α) y => (prods (r.map F)).map (y :: ·)).trans ?_
    refine List.Perm.flatMap_left _ fun y _ => ?_
    rw [← List.map_flatMap]
    exact ih.map _

mutual
/-- Every atom replaced, independently, by one of its terms. -/
def fillAll (f : String → List Sexp) : Sexp → List Sexp
  | .atom a => f a
  | .list l => (prods (fillAllL f l)).map .list
/-- Element-wise. -/
def fillAllL (f : String → List Sexp) : List Sexp → List (List Sexp)
  | [] => []
  | s :: l => fillAll f s :: fillAllL f l
end

theorem fillAllL_eq (f : String → List Sexp) (l : List Sexp) : fillAllL f l = l.map (fillAll f) := by
  induction l with
  | nil => rfl
  | cons s l ih => simp [fillAllL, ih]

theorem prods_perm {α : Type _} {xss yss : List (List α)} (h : List.Forall₂ List.Perm xss yss) :
    (prods xss).Perm (prods yss) := by
  induction h with
  | nil => exact .refl _
  | cons h _ ih =>
    simp only [prods]
    exact (List.Perm.flatMap_right _ h).trans (List.Perm.flatMap_left _ fun x _ => ih.map _)

theorem fillAll_bind (f g : String → List Sexp) (t : Sexp) :
    ((fillAll f t).flatMap (fillAll g)).Perm (fillAll (fun a => (f a).flatMap (fillAll g)) t) := by
  induction t using Sexp.ind with
  | ha a => exact .refl _
  | hl l ih =>
    simp only [fillAll, fillAllL_eq, List.flatMap_map]
    rw [← List.map_flatMap]
    refine List.Perm.map _ ((prods_bind _ _).trans (prods_perm ?_))
    rw [List.map_map, List.forall₂_map_left_iff, List.forall₂_map_right_iff, List.forall₂_same]
    exact ih

/-- What a single plug puts in the place of an atom. -/
def one (name : String) (pegs : List Sexp) (a : String) : List Sexp := if a = name then pegs else [.atom a]

theorem plug_eq_fillAll (name : String) (pegs : List Sexp) {t : Sexp} (hn : NoEmpty t) :
    plug name pegs t = fillAll (one name pegs) t := by
  induction t using Sexp.ind with
  | ha a => rfl
  | hl l ih =>
    rw [NoEmpty.list_iff] at hn
    obtain ⟨hne, hn⟩ := hn
    have hm : multiCartesianProduct (l.map (plug name pegs)) = prods (l.map (plug name pegs)) := by
      cases l with
      | nil => exact absurd rfl hne
      | cons => rfl
    simp only [plug, plugL_eq, hm, fillAll, fillAllL_eq]
    congr 2
    exact List.map_congr_left fun t ht => ih t ht (hn t ht)

theorem fillAll_perm {f g : String → List Sexp} {t : Sexp} (h : ∀ a, Subterm (.atom a) t → (f a).Perm (g a)) :
    (fillAll f t).Perm (fillAll g t) := by
  induction t using Sexp.ind with
  | ha a => exact h a (.refl _)
  | hl l ih =>
    simp only [fillAll, fillAllL_eq]
    refine List.Perm.map _ (prods_perm ?_)
    rw [List.forall₂_map_left_iff, List.forall₂_map_right_iff, List.forall₂_same]
    exact fun t ht => ih t ht fun a ha => h a (.child ht ha)

/-- Plugging twice, as one simultaneous filling. -/
theorem plug_plug {m n : String} {P Q : List Sexp} {t : Sexp} (ht : NoEmpty t) (hP : ∀ p ∈ P, NoEmpty p) :
    ((plug m P t).flatMap (plug n Q)).Perm
      (fillAll (fun a => if a = m then P.flatMap (plug n Q) else if a = n then Q else [.atom a]) t) := by
  have h1 : (plug m P t).flatMap (plug n Q) = (plug m P t).flatMap (fillAll (one n Q)) := by
    apply List.flatMap_congr
    intro s hs
    exact plug_eq_fillAll n Q (Fills.noEmpty hP ht (mem_plug_fills hs))
  rw [h1, plug_eq_fillAll m P ht]
  refine (fillAll_bind _ _ t).trans (fillAll_perm fun a _ => ?_)
  simp only [one]
  split
  · rw [List.flatMap_congr fun s hs => plug_eq_fillAll n Q (hP s hs)]
  · simp only [List.flatMap_cons, List.flatMap_nil, List.append_nil, fillAll, one]
    exact .refl _

theorem flatMap_plug_absent {n : String} {P Q : List Sexp} (hP : ∀ p ∈ P, NoEmpty p)
    (hn : ∀ p ∈ P, ¬ Subterm (.atom n) p) : P.flatMap (plug n Q) = P := by
  rw [List.flatMap_congr fun s hs => plug_not_occurs (hP s hs) (hn s hs)]
  simp

theorem plug_comm {m n : String} (hmn : m ≠ n) {P Q : List Sexp} {t : Sexp} (ht : NoEmpty t)
    (hP : ∀ p ∈ P, NoEmpty p) (hQ : ∀ q ∈ Q, NoEmpty q) (hPn : ∀ p ∈ P, ¬ Subterm (.atom n) p)
    (hQm : ∀ q ∈ Q, ¬ Subterm (.atom m) q) :
    ((plug m P t).flatMap (plug n Q)).Perm ((plug n Q t).flatMap (plug m P)) := by
  refine (plug_plug ht hP).trans (List.Perm.trans ?_ (plug_plug ht hQ).symm)
  rw [flatMap_plug_absent hP hPn, flatMap_plug_absent hQ hQm]
  refine fillAll_perm fun a _ => ?_
  by_cases h1 : a = m
  · subst h1
    simp [hmn]
  · simp [h1]

theorem plug_assoc {m n : String} {P Q : List Sexp} {t : Sexp} (ht : NoEmpty t)
    (hP : ∀ p ∈ P, NoEmpty p) (htn : m ≠ n → ¬ Subterm (.atom n) t) :
    ((plug m P t).flatMap (plug n Q)).Perm (plug m (P.flatMap (plug n Q)) t) := by
  refine (plug_plug ht hP).trans ?_
  rw [plug_eq_fillAll m _ ht]
  refine fillAll_perm fun a ha => ?_
  simp only [one]
  split
  · exact .refl _
  next h1 =>
    split
    next h2 => subst h2; exact absurd ha (htn fun e => h1 e.symm)
    · exact .refl _

theorem plug_removes {name : String} {P : Sexp → Prop} (hP : ∀ p, P p → ¬ Subterm (.atom name) p) {t r : Sexp}
    (h : Fills name P t r) : ¬ Subterm (.atom name) r := by
  induction t using Sexp.ind generalizing r with
  | ha a =>
    cases h with
    | hole hp => exact hP _ hp
    | other hn => intro h; cases h; exact hn rfl
  | hl l ih =>
    cases h with
    | list h =>
      rw [fillsL_iff] at h
      rw [Subterm.list_iff]
      rintro (h' | ⟨s, hs, h'⟩)
      · simp at h'
      · obtain ⟨i, hi, rfl⟩ := List.mem_iff_getElem.1 hs
        have hl := h.length_eq
        exact ih _ (List.getElem_mem (by omega)) ((List.forall₂_iff_get.1 h).2 i (by omega) hi) h'

end Sexp
end Ruler
