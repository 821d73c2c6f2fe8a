import Verif.Proofs.Candidates
import Verif.Spec.Saturation
/-!
# Rule tables given as texts

Lemmas that reduce statements about a ruleset read from texts to its list of sides.
-/
namespace Ruler
open Spec
variable {O : Type} [Lang O]

/-- The sides of the rules a text stands for. -/
def sidesOf : Option (Rule O × Option (Rule O)) → List (Pat O × Pat O)
  | none => []
  | some (f, none) => [(f.lhs, f.rhs)]
  | some (f, some b) => [(f.lhs, f.rhs), (b.lhs, b.rhs)]

/-- The sides of all rules of a table. -/
def tableSides (texts : List String) : Option (List (Pat O × Pat O)) :=
  ((texts.map String.toList).mapM Rule.fromString).map fun l => l.flatMap sidesOf

mutual
/-- Does the pattern satisfy `Schematic`. -/
def schematicB : Pat O → Bool
  | .var v => decide (v.toList.head? = some '?')
  | .node o args => (Lang.toVar o).isNone && schematicBL args
/-- As `schematicB`, for a list. -/
def schematicBL : List (Pat O) → Bool
  | [] => true
  | a :: l => schematicB a && schematicBL l
end

theorem schematicBL_iff (l : List (Pat O)) : schematicBL l = true ↔ ∀ a ∈ l, schematicB a = true := by
  induction l with
  | nil => simp [schematicBL]
  | cons a l ih => simp [schematicBL, ih]

theorem schematicB_sound (p : Pat O) (h : schematicB p = true) : Schematic p := by
  induction p using Pat.ind with
  | hv v => exact .var (by simpa [schematicB] using h)
  | hn o args ih =>
    simp only [schematicB, Bool.and_eq_true, Option.isNone_iff_eq_none, schematicBL_iff] at h
    exact .node h.1 fun a ha => ih a ha (h.2 a ha)

omit [Lang O] in
theorem mem_iter_add {m : Ruleset O} {r q : Rule O} (h : q ∈ Ruleset.iter (Ruleset.add m r)) :
    q = r ∨ q ∈ Ruleset.iter m := by
  obtain ⟨e, he, rfl⟩ := List.mem_map.1 h
  rcases IndexMap.mem_insert he with rfl | he
  · exact Or.inl rfl
  · exact Or.inr (List.mem_map_of_mem he)

theorem ofLines_sides (ls : List (List Char)) (m : Ruleset O) (l : List (Option (Rule O × Option (Rule O))))
    (h : ls.mapM Rule.fromString = some l) :
    ∃ rs, Ruleset.ofLines ls m = some rs ∧
      (WellFormed m → WellFormed rs) ∧
      ∀ r ∈ Ruleset.iter rs, r ∈ Ruleset.iter m ∨ (r.lhs, r.rhs) ∈ l.flatMap sidesOf := by
  induction ls generalizing m l with
  | nil =>
    exact ⟨m, rfl, id, fun r hr => .inl hr⟩
  | cons t ls ih =>
    rw [List.mapM_cons] at h
    simp only [Option.bind_eq_bind, Option.pure_def, Option.bind_eq_some_iff] at h
    obtain ⟨x, hx, l', hl', h⟩ := h
    cases h
    unfold Ruleset.ofLines
    rw [hx, Option.bind_some]
    match x with
    | none =>
      obtain ⟨rs, h1, h2, h3⟩ := ih m l' hl'
      exact ⟨rs, h1, h2, fun r hr => by simpa [sidesOf] using h3 r hr⟩
    | some (f, none) =>
      obtain ⟨rs, h1, h2, h3⟩ := ih (Ruleset.add m f) l' hl'
      refine ⟨rs, h1, fun hm => h2 (Ruleset.WellFormed.add hm _), fun r hr => ?_⟩
      rcases h3 r hr with h | h
      · rcases mem_iter_add h with rfl | h
        · exact .inr (by simp [sidesOf])
        · exact .inl h
      · exact .inr (by simp only [List.flatMap_cons, List.mem_append]; exact .inr h)
    | some (f, some b) =>
      obtain ⟨rs, h1, h2, h3⟩ := ih (Ruleset.add (Ruleset.add m f) b) l' hl'
      refine ⟨rs, h1, fun hm => h2 (Ruleset.WellFormed.add (Ruleset.WellFormed.add hm _) _), fun r hr => ?_⟩
      rcases h3 r hr with h | h
      · rcases mem_iter_add h with rfl | h
        · exact .inr (by simp [sidesOf])
        · rcases mem_iter_add h with rfl | h
          · exact .inr (by simp [sidesOf])
          · exact .inl h
      · exact .inr (by simp only [List.flatMap_cons, List.mem_append]; exact .inr h)

/-- A table whose texts parse is a ruleset, and its rules have the sides of the table. -/
theorem table_new {texts : List String} {l : List (Pat O × Pat O)} (h : tableSides texts = some l) :
    ∃ rs : Ruleset O, Ruleset.new (texts.map String.toList) = some rs ∧ WellFormed rs ∧
      ∀ r ∈ Ruleset.iter rs, (r.lhs, r.rhs) ∈ l := by
  obtain ⟨l', h', rfl⟩ := Option.map_eq_some_iff.1 h
  obtain ⟨rs, h1, h2, h3⟩ := ofLines_sides _ [] l' h'
  refine ⟨rs, h1, h2 Ruleset.WellFormed.nil, fun r hr => ?_⟩
  rcases h3 r hr with h | h
  · simp [Ruleset.iter] at h
  · exact h

/-- As `table_new`, about a ruleset already read. -/
theorem table_sides {texts : List String} {l : List (Pat O × Pat O)} (h : tableSides texts = some l) {rs : Ruleset O}
    (hr : Ruleset.new (texts.map String.toList) = some rs) :
    WellFormed rs ∧ ∀ r ∈ Ruleset.iter rs, (r.lhs, r.rhs) ∈ l := by
  obtain ⟨rs', h1, h2, h3⟩ := table_new h
  rw [h1] at hr
  cases hr
  exact ⟨h2, h3⟩

theorem tableSides_append {a b : List String} {l m : List (Pat O × Pat O)} (ha : tableSides a = some l)
    (hb : tableSides b = some m) : tableSides (a ++ b) = some (l ++ m) := by
  obtain ⟨x, hx, rfl⟩ := Option.map_eq_some_iff.1 ha
  obtain ⟨y, hy, rfl⟩ := Option.map_eq_some_iff.1 hb
  rw [tableSides, List.map_append, List.mapM_append, hx, hy]
  simp

end Ruler
