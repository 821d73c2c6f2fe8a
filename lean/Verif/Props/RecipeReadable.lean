import Verif.Props.RecipeWorkloads
/-!
# Property C66, continued: the terms of the searches of the recipes can be read
-/
namespace Ruler
open Spec

/-- The check that all texts of a language can be read. -/
def langReads (O : Type) [Lang O] (L : RecipeLang) : Bool :=
  (L.vals ++ L.vars).all (fun t => (Lang.fromOp (String.ofList t) 0 : Option O).isSome) &&
    (List.range L.ops.length).all fun i => (L.ops.getD i []).all fun t => (Lang.fromOp (String.ofList t) (i + 1) : Option O).isSome

theorem langTerm_reads {O : Type} [Lang O] {L : RecipeLang} (h : langReads O L = true) {t : Sexp} (ht : LangTerm L t) :
    ∃ e : Tm O, Tm.ofSexp t = some e := by
  rw [langReads, Bool.and_eq_true, List.all_eq_true, List.all_eq_true] at h
  have key : Kinded (fun a k => (Lang.fromOp a k : Option O).isSome = true) t := by
    induction ht with
    | val hm => exact .atom (h.1 _ (List.mem_append_left _ hm))
    | var hm => exact .atom (h.1 _ (List.mem_append_right _ hm))
    | @app i os o args h1 h2 h3 _ ih =>
      refine .app (by rintro rfl; cases h3) ?_ ih
      obtain ⟨hi, e⟩ := List.getElem?_eq_some_iff.1 h1
      have := List.all_eq_true.1 (h.2 i (by simpa using hi)) o (by rw [List.getD_eq_getElem?_getD, h1]; exact h2)
      rw [h3]
      exact this
  exact key.ofSexp fun a k hk => Option.isSome_iff_exists.1 hk

theorem level_readable {O : Type} [Lang O] {L : RecipeLang} (h : LangOk L) (hr : langReads O L = true) (met : Metric) {n : Nat}
    (hn : 1 ≤ n) : ReadableIn O (recursiveWorkload met n L) := by
  obtain ⟨w, ts, h1, h2, h3⟩ := C66_level h met n hn
  exact ⟨w, ts, h1, h2, fun t ht => langTerm_reads hr ((h3 t).1 ht).1⟩

/-- **C66.** Every term of every level of the searches of the recipes can be read in the language, whatever the size. -/
theorem C66_levels_readable (met : Metric) {n : Nat} (hn : 1 ≤ n) :
    ReadableIn BoolOp (recursiveWorkload met n boolLang) ∧ ReadableIn (BvOp 4) (recursiveWorkload met n bv4Lang) ∧
    ReadableIn (BvOp 32) (recursiveWorkload met n bv32Lang) ∧ ReadableIn PredOp (recursiveWorkload met n halideBoolLang) ∧
    ReadableIn PredOp (recursiveWorkload met n halideRatLang) ∧ ReadableIn PredOp (recursiveWorkload met n halidePredLang) ∧
    ReadableIn PredOp (recursiveWorkload met n halideFullLang) :=
  ⟨level_readable (langCheck_ok (by decide +kernel)) (by decide +kernel) met hn,
    level_readable (langCheck_ok (by decide +kernel)) (by decide +kernel) met hn,
    level_readable (langCheck_ok (by decide +kernel)) (by decide +kernel) met hn,
    level_readable (langCheck_ok (by decide +kernel)) (by decide +kernel) met hn,
    level_readable (langCheck_ok (by decide +kernel)) (by decide +kernel) met hn,
    level_readable (langCheck_ok (by decide +kernel)) (by decide +kernel) met hn,
    level_readable (langCheck_ok (by decide +kernel)) (by decide +kernel) met hn⟩

end Ruler
