import Verif.Proofs.Text
/-!
# Properties C14, C15: terms and workload files as text
-/
namespace Ruler
open Spec

/-! ## C14 -/

/-- **C14.** Parsing the printed form of a term with printable atoms gives the term back. -/
theorem C14_print_parse (t : Sexp) (h : PlainTerm t) : Sexp.parse (Sexp.print t) = some t := by
  have := Sexp.parse_print_append t h delim_nil
  rwa [List.append_nil] at this

/-- **C14.** Consequently distinct terms never print the same. -/
theorem C14_print_injective (s t : Sexp) (hs : PlainTerm s) (ht : PlainTerm t)
    (h : Sexp.print s = Sexp.print t) : s = t := by
  have := C14_print_parse s hs
  rw [h, C14_print_parse t ht] at this
  exact (Option.some.inj this).symm

/-- **C14.** The hypothesis on atoms is needed: an atom with a blank inside is read back differently. -/
theorem C14_needs_plain : ∃ t, Sexp.parse (Sexp.print t) ≠ some t ∧ Sexp.parse (Sexp.print t) ≠ none :=
  ⟨.atom "a b", by decide, by decide⟩

namespace Sample
/-- `(+ (f x) () 1)` -/
def nested : Sexp := .list [.atom "+", .list [.atom "f", .atom "x"], .list [], .atom "1"]
theorem nested_plain : PlainTerm nested := by
  unfold nested
  simp only [plainTerm_list_iff, plainTerm_atom_iff, List.mem_cons, List.not_mem_nil, or_false, forall_eq_or_imp,
    forall_eq, false_imp_iff, implies_true, true_and]
  decide
end Sample

example : Sexp.parse (Sexp.print Sample.nested) = some Sample.nested := C14_print_parse _ Sample.nested_plain
/-- Test: the printed text. -/
example : Sexp.print Sample.nested = "(+ (f x ) () 1 )".toList := by decide

/-! ## C15 -/

theorem mapM_parse_print (ts : List Sexp) (h : ∀ t ∈ ts, PlainTerm t) :
    (ts.map Sexp.print).mapM Sexp.parse = some ts := by
  induction ts with
  | nil => rfl
  | cons t ts ih =>
    rw [List.map_cons, List.mapM_cons, C14_print_parse t (h t (by simp)), ih fun t ht => h t (by simp [ht])]
    rfl

/-- **C15.** Writing a workload to a file and reading the file back gives a workload with the same terms in the
same order. -/
theorem C15_file_roundtrip (w : Workload) (ts : List Sexp) (hw : w.force = some ts) (h : ∀ t ∈ ts, PlainTerm t) :
    ∃ text w', w.toFile = some text ∧ Workload.fromFile text = some w' ∧ w'.force = some ts := by
  refine ⟨_, .set ts, by rw [Workload.toFile, hw]; rfl, ?_, rfl⟩
  rw [Workload.fromFile, textLines_unlines, mapM_parse_print ts h]
  · rfl
  · intro l hl
    obtain ⟨t, ht, rfl⟩ := List.mem_map.1 hl
    exact Sexp.print_lineOk t (h t ht)

/-- **C15.** Building a workload from the printed texts of terms gives exactly those terms. -/
theorem C15_new (ts : List Sexp) (h : ∀ t ∈ ts, PlainTerm t) :
    ∃ w, Workload.ofTexts (ts.map Sexp.print) = some w ∧ w.force = some ts :=
  ⟨.set ts, by rw [Workload.ofTexts, mapM_parse_print ts h]; rfl, rfl⟩

/-- **C15.** For a printable hole name the text-level plug is the plug studied in C04–C06. -/
theorem C15_plug_name (w pegs : Workload) (name : String) (h : Plain name) :
    w.doPlugText name pegs = some (w.doPlug name pegs) := by
  have hp : PlainTerm (.atom name) := plainTerm_atom_iff.2 h
  have := C14_print_parse (.atom name) hp
  simp only [Sexp.print] at this
  unfold Workload.doPlugText Workload.doPlug
  split
  · rw [this]; rfl
  · split
    · rename_i hne; exact absurd rfl hne
    · rfl

example : ∃ text w', (Workload.set [Sample.nested, .atom "z"]).toFile = some text ∧
    Workload.fromFile text = some w' ∧ w'.force = some [Sample.nested, .atom "z"] := by
  refine C15_file_roundtrip _ _ rfl ?_
  simp only [List.mem_cons, List.not_mem_nil, or_false, forall_eq_or_imp, forall_eq]
  exact ⟨Sample.nested_plain, plainTerm_atom_iff.2 (by decide)⟩

end Ruler
