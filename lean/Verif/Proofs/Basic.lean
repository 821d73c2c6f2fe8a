import Verif.Spec.Sexp
/-! Basic helper lemmas: induction principles and list forms of the mutually recursive functions. -/
namespace Ruler
open Spec

mutual
theorem Sexp.ind {P : Sexp → Prop} (ha : ∀ a, P (.atom a)) (hl : ∀ l, (∀ s ∈ l, P s) → P (.list l)) :
    ∀ s, P s
  | .atom a => ha a
  | .list l => hl l (Sexp.indL ha hl l)
theorem Sexp.indL {P : Sexp → Prop} (ha : ∀ a, P (.atom a)) (hl : ∀ l, (∀ s ∈ l, P s) → P (.list l)) :
    ∀ l : List Sexp, ∀ s ∈ l, P s
  | [] => by simp
  | t :: l => by
    intro s hs
    rcases List.mem_cons.1 hs with e | h
    · exact e ▸ Sexp.ind ha hl t
    · exact Sexp.indL ha hl l s h
end

mutual
theorem Pattern.ind {P : Pattern → Prop} (hw : P .wild) (hv : ∀ v, P (.var v)) (ha : ∀ a, P (.lit a))
    (hl : ∀ l, (∀ s ∈ l, P s) → P (.list l)) : ∀ s, P s
  | .wild => hw
  | .var v => hv v
  | .lit a => ha a
  | .list l => hl l (Pattern.indL hw hv ha hl l)
theorem Pattern.indL {P : Pattern → Prop} (hw : P .wild) (hv : ∀ v, P (.var v)) (ha : ∀ a, P (.lit a))
    (hl : ∀ l, (∀ s ∈ l, P s) → P (.list l)) : ∀ l : List Pattern, ∀ s ∈ l, P s
  | [] => by simp
  | t :: l => by
    intro s hs
    rcases List.mem_cons.1 hs with e | h
    · exact e ▸ Pattern.ind hw hv ha hl t
    · exact Pattern.indL hw hv ha hl l s h
end

mutual
theorem Filter.ind {P : Filter → Prop} (h1 : ∀ m n, P (.metricLt m n)) (h2 : ∀ m n, P (.metricEq m n))
    (h3 : ∀ p, P (.contains p)) (h4 : ∀ p, P (.excludes p)) (h5 : ∀ p, P (.canon p))
    (h6 : ∀ fs, (∀ f ∈ fs, P f) → P (.and fs)) (h7 : ∀ fs, (∀ f ∈ fs, P f) → P (.or fs))
    (h8 : ∀ f, P f → P (.invert f)) : ∀ f, P f
  | .metricLt m n => h1 m n
  | .metricEq m n => h2 m n
  | .contains p => h3 p
  | .excludes p => h4 p
  | .canon p => h5 p
  | .and fs => h6 fs (Filter.indL h1 h2 h3 h4 h5 h6 h7 h8 fs)
  | .or fs => h7 fs (Filter.indL h1 h2 h3 h4 h5 h6 h7 h8 fs)
  | .invert f => h8 f (Filter.ind h1 h2 h3 h4 h5 h6 h7 h8 f)
theorem Filter.indL {P : Filter → Prop} (h1 : ∀ m n, P (.metricLt m n)) (h2 : ∀ m n, P (.metricEq m n))
    (h3 : ∀ p, P (.contains p)) (h4 : ∀ p, P (.excludes p)) (h5 : ∀ p, P (.canon p))
    (h6 : ∀ fs, (∀ f ∈ fs, P f) → P (.and fs)) (h7 : ∀ fs, (∀ f ∈ fs, P f) → P (.or fs))
    (h8 : ∀ f, P f → P (.invert f)) : ∀ fs : List Filter, ∀ f ∈ fs, P f
  | [] => by simp
  | t :: l => by
    intro s hs
    rcases List.mem_cons.1 hs with e | h
    · exact e ▸ Filter.ind h1 h2 h3 h4 h5 h6 h7 h8 t
    · exact Filter.indL h1 h2 h3 h4 h5 h6 h7 h8 l s h
end

mutual
theorem Workload.ind {P : Workload → Prop} (h1 : ∀ xs, P (.set xs))
    (h2 : ∀ w n p, P w → P p → P (.plug w n p)) (h3 : ∀ f w, P w → P (.filter f w))
    (h4 : ∀ ws, (∀ w ∈ ws, P w) → P (.append ws)) : ∀ w, P w
  | .set xs => h1 xs
  | .plug w n p => h2 w n p (Workload.ind h1 h2 h3 h4 w) (Workload.ind h1 h2 h3 h4 p)
  | .filter f w => h3 f w (Workload.ind h1 h2 h3 h4 w)
  | .append ws => h4 ws (Workload.indL h1 h2 h3 h4 ws)
theorem Workload.indL {P : Workload → Prop} (h1 : ∀ xs, P (.set xs))
    (h2 : ∀ w n p, P w → P p → P (.plug w n p)) (h3 : ∀ f w, P w → P (.filter f w))
    (h4 : ∀ ws, (∀ w ∈ ws, P w) → P (.append ws)) : ∀ ws : List Workload, ∀ w ∈ ws, P w
  | [] => by simp
  | t :: l => by
    intro s hs
    rcases List.mem_cons.1 hs with e | h
    · exact e ▸ Workload.ind h1 h2 h3 h4 t
    · exact Workload.indL h1 h2 h3 h4 l s h
end

namespace Sexp

theorem measureL_eq (m : Metric) (l : List Sexp) : measureL m l = l.mapM (measure m) := by
  induction l with
  | nil => rfl
  | cons s l ih => simp [measureL, ih, Option.map_eq_bind]; rfl

theorem plugL_eq (name : String) (pegs : List Sexp) (l : List Sexp) :
    plugL name pegs l = l.map (plug name pegs) := by
  induction l with
  | nil => rfl
  | cons s l ih => simp [plugL, ih]

theorem applySubstL_eq (σ : List (String × String)) (l : List Sexp) :
    applySubstL σ l = l.map (applySubst σ) := by
  induction l with
  | nil => rfl
  | cons s l ih => simp [applySubstL, ih]

end Sexp

theorem Spec.renameL_eq (ρ : String → String) (l : List Sexp) : renameL ρ l = l.map (rename ρ) := by
  induction l with
  | nil => rfl
  | cons s l ih => simp [renameL, ih]

theorem Spec.occurrencesL_eq (l : List Sexp) : occurrencesL l = l.flatMap occurrences := by
  induction l with
  | nil => rfl
  | cons s l ih => simp [occurrencesL, ih]

theorem Filter.containsTestL_eq (p : Pattern) (l : List Sexp) :
    Filter.containsTestL p l = l.any (Filter.containsTest p) := by
  induction l with
  | nil => rfl
  | cons s l ih => simp [Filter.containsTestL, ih]

theorem Filter.isMonotonicL_eq (l : List Filter) :
    Filter.isMonotonicL l = l.all Filter.isMonotonic := by
  induction l with
  | nil => rfl
  | cons s l ih => simp [Filter.isMonotonicL, ih]

/-! ### sub-terms -/

theorem Spec.Subterm.atom_iff {s : Sexp} {a : String} : Subterm s (.atom a) ↔ s = .atom a := by
  constructor
  · intro h; cases h; rfl
  · rintro rfl; exact .refl _

theorem Spec.Subterm.list_iff {s : Sexp} {l : List Sexp} :
    Subterm s (.list l) ↔ s = .list l ∨ ∃ t ∈ l, Subterm s t := by
  constructor
  · intro h
    cases h with
    | refl => exact .inl rfl
    | child h1 h2 => exact .inr ⟨_, h1, h2⟩
  · rintro (rfl | ⟨t, h1, h2⟩)
    · exact .refl _
    · exact .child h1 h2

theorem Spec.Subterm.trans {r s t : Sexp} (h1 : Subterm r s) (h2 : Subterm s t) : Subterm r t := by
  induction h2 with
  | refl => exact h1
  | child hm _ ih => exact .child hm ih

theorem Spec.mem_occurrences {s t : Sexp} : s ∈ occurrences t ↔ Subterm s t := by
  induction t using Sexp.ind with
  | ha a => simp [occurrences, Subterm.atom_iff]
  | hl l ih =>
    simp only [occurrences, occurrencesL_eq, List.mem_cons, List.mem_flatMap, Subterm.list_iff]
    constructor
    · rintro (h | ⟨t, ht, h⟩)
      · exact .inl h
      · exact .inr ⟨t, ht, (ih t ht).1 h⟩
    · rintro (h | ⟨t, ht, h⟩)
      · exact .inl h
      · exact .inr ⟨t, ht, (ih t ht).2 h⟩

theorem Spec.NoEmpty.list_iff {l : List Sexp} : NoEmpty (.list l) ↔ l ≠ [] ∧ ∀ t ∈ l, NoEmpty t := by
  unfold NoEmpty
  rw [Subterm.list_iff]
  constructor
  · intro h
    refine ⟨fun e => h (.inl (by rw [e])), fun t ht hs => h (.inr ⟨t, ht, hs⟩)⟩
  · rintro ⟨h1, h2⟩ (h | ⟨t, ht, h⟩)
    · exact h1 (by injection h with h; exact h.symm)
    · exact h2 t ht h

theorem Spec.NoEmpty.atom (a : String) : NoEmpty (.atom a) := by
  intro h; cases h

theorem Spec.NoEmpty.sub {s t : Sexp} (h : NoEmpty t) (hs : Subterm s t) : NoEmpty s :=
  fun h' => h (h'.trans hs)

end Ruler
