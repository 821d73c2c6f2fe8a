import Verif.Model.Text
import Verif.Spec.Text
import Verif.Proofs.Total
/-! Helper lemmas for text round trips. -/
namespace Ruler
open Spec

/-- A character that may occur in a printable symbol. -/
def plainChar (c : Char) : Bool := !isBlank c && c != '(' && c != ')' && c != '"'

theorem isBlank_iff (c : Char) : isBlank c = true ↔ c.toNat ∈ blanks := by
  simp only [isBlank, blanks, Bool.or_eq_true, Bool.and_eq_true, decide_eq_true_eq, beq_iff_eq, List.mem_cons,
    List.not_mem_nil, or_false]
  omega

theorem Plain.chars {a : String} (h : Plain a) : a.toList ≠ [] ∧ ∀ c ∈ a.toList, plainChar c = true := by
  refine ⟨h.1, fun c hc => ?_⟩
  obtain ⟨h1, h2, h3, h4⟩ := h.2 c hc
  rw [← isBlank_iff] at h1
  simp [plainChar, h1, h2, h3, h4]

/-- The text starts with a character that ends an atom (or is empty). -/
def Delim (rest : List Char) : Prop := ∀ c r, rest = c :: r → isBlank c = true ∨ c = '(' ∨ c = ')'

theorem tokenize_delim {rest acc : List Char} (h : Delim rest) :
    tokenize rest acc = flushTok acc ++ tokenize rest [] := by
  cases rest with
  | nil => simp [tokenize, flushTok]
  | cons c r =>
    rcases h c r rfl with hb | rfl | rfl
    · simp [tokenize, hb, flushTok]
    · simp [tokenize, show isBlank '(' = false by decide, flushTok]
    · simp [tokenize, show isBlank ')' = false by decide, flushTok]

theorem tokenize_plain (cs : List Char) (h : ∀ c ∈ cs, plainChar c = true) (rest acc : List Char) :
    tokenize (cs ++ rest) acc = tokenize rest (cs.reverse ++ acc) := by
  induction cs generalizing acc with
  | nil => rfl
  | cons c cs ih =>
    have hc := h c (by simp)
    simp only [plainChar, Bool.and_eq_true, Bool.not_eq_true', bne_iff_ne, ne_eq] at hc
    obtain ⟨⟨⟨h1, h2⟩, h3⟩, h4⟩ := hc
    simp only [List.cons_append, tokenize, h1, h2, h3, h4, if_false, Bool.false_eq_true]
    rw [ih fun c hc => h c (by simp [hc])]
    simp

mutual
/-- The tokens of a term. -/
def Sexp.toks : Sexp → List Tok
  | .atom a => [.atom a]
  | .list l => .op :: (Sexp.toksL l ++ [.cl])
/-- The tokens of the elements of a list. -/
def Sexp.toksL : List Sexp → List Tok
  | [] => []
  | s :: l => Sexp.toks s ++ Sexp.toksL l
end

theorem Sexp.toksL_eq (l : List Sexp) : Sexp.toksL l = l.flatMap Sexp.toks := by
  induction l with
  | nil => rfl
  | cons s l ih => simp [Sexp.toksL, ih]

theorem tokenize_atom {a : String} (ha : Plain a) {rest : List Char} (hd : Delim rest) :
    tokenize (a.toList ++ rest) [] = .atom a :: tokenize rest [] := by
  obtain ⟨h1, h2⟩ := Plain.chars ha
  rw [tokenize_plain _ h2, tokenize_delim hd]
  have : a.toList.reverse ++ [] ≠ [] := by simpa using h1
  rw [flushTok, if_neg this]
  simp [String.ofList_toList]

theorem subterm_atom_iff {s : Sexp} {b : String} : Subterm s (.atom b) ↔ s = .atom b := by
  constructor
  · intro h
    generalize e : Sexp.atom b = u at h
    cases h with
    | refl => rfl
    | child => cases e
  · rintro rfl; exact .refl _

theorem subterm_list_iff {s : Sexp} {l : List Sexp} : Subterm s (.list l) ↔ s = .list l ∨ ∃ t ∈ l, Subterm s t := by
  constructor
  · intro h
    generalize e : Sexp.list l = u at h
    cases h with
    | refl => exact .inl rfl
    | @child t k ht hs => cases e; exact .inr ⟨t, ht, hs⟩
  · rintro (rfl | ⟨t, ht, hs⟩)
    · exact .refl _
    · exact .child ht hs

theorem plainTerm_atom_iff {a : String} : PlainTerm (.atom a) ↔ Plain a := by
  constructor
  · intro h; exact h a (.refl _)
  · intro h b hb
    rw [subterm_atom_iff] at hb; cases hb; exact h

theorem plainTerm_list_iff {l : List Sexp} : PlainTerm (.list l) ↔ ∀ s ∈ l, PlainTerm s := by
  constructor
  · intro h s hs a ha; exact h a (.child hs ha)
  · intro h a ha
    rcases subterm_list_iff.1 ha with h' | ⟨t, ht, hs⟩
    · cases h'
    · exact h t ht a hs

theorem PlainTerm.list {l : List Sexp} (h : PlainTerm (.list l)) : ∀ s ∈ l, PlainTerm s :=
  fun _ hs a ha => h a (.child hs ha)

theorem delim_blank (r : List Char) : Delim (' ' :: r) := by
  intro c r' h; cases h; exact .inl (by decide)

theorem delim_close (r : List Char) : Delim (')' :: r) := by
  intro c r' h; cases h; exact .inr (.inr rfl)

theorem delim_nil : Delim [] := by intro c r h; cases h

theorem tokenize_print (s : Sexp) (h : PlainTerm s) {rest : List Char} (hd : Delim rest) :
    tokenize (Sexp.print s ++ rest) [] = Sexp.toks s ++ tokenize rest [] := by
  induction s using Sexp.ind generalizing rest with
  | ha a => exact tokenize_atom (h a (.refl _)) hd
  | hl l ih =>
    have hl := PlainTerm.list h
    have key : ∀ k, (∀ s ∈ k, s ∈ l) → ∀ rest, tokenize (Sexp.printL k ++ rest) [] =
        Sexp.toksL k ++ tokenize rest [] := by
      intro k
      induction k with
      | nil => intros; rfl
      | cons s k ihk =>
        intro hk rest
        simp only [Sexp.printL, Sexp.toksL, List.append_assoc, List.cons_append]
        rw [ih s (hk s (by simp)) (hl s (hk s (by simp))) (delim_blank _)]
        congr 1
        rw [show tokenize (' ' :: (Sexp.printL k ++ rest)) [] = tokenize (Sexp.printL k ++ rest) [] by
          simp [tokenize, show isBlank ' ' = true by decide, flushTok]]
        exact ihk (fun s hs => hk s (by simp [hs])) rest
    simp only [Sexp.print, Sexp.toks, List.cons_append, List.append_assoc]
    rw [show ∀ r, tokenize ('(' :: r) [] = .op :: tokenize r [] from fun r => by
      simp [tokenize, show isBlank '(' = false by decide, flushTok]]
    rw [key l (fun _ h => h)]
    simp [tokenize, show isBlank ')' = false by decide, flushTok]

theorem parseToks_toks (s : Sexp) (rest : List Tok) : ∀ st,
    parseToks (Sexp.toks s ++ rest) st =
      match st with
      | [] => some s
      | f :: st => parseToks rest ((s :: f) :: st) := by
  induction s using Sexp.ind generalizing rest with
  | ha a => intro st; cases st <;> rfl
  | hl l ih =>
    have key : ∀ k, (∀ s ∈ k, s ∈ l) → ∀ rest f st, parseToks (Sexp.toksL k ++ rest) (f :: st) =
        parseToks rest ((k.reverse ++ f) :: st) := by
      intro k
      induction k with
      | nil => intros; rfl
      | cons s k ihk =>
        intro hk rest f st
        simp only [Sexp.toksL, List.append_assoc]
        rw [ih s (hk s (by simp))]
        simp only
        rw [ihk (fun s hs => hk s (by simp [hs]))]
        simp
    intro st
    simp only [Sexp.toks, List.cons_append, List.append_assoc, parseToks, List.nil_append]
    rw [key l (fun _ h => h)]
    cases st with
    | nil => simp [parseToks]
    | cons f st => simp [parseToks]

theorem Sexp.print_ne_nil (s : Sexp) (h : PlainTerm s) : Sexp.print s ≠ [] := by
  cases s with
  | atom a => exact (h a (.refl _)).1
  | list l => simp [Sexp.print]

/-- A term followed by anything that cannot extend its last atom is read back. -/
theorem Sexp.parse_print_append (s : Sexp) (h : PlainTerm s) {rest : List Char} (hd : Delim rest) :
    Sexp.parse (Sexp.print s ++ rest) = some s := by
  have : Sexp.print s ++ rest ≠ [] := by
    intro e; exact Sexp.print_ne_nil s h (List.append_eq_nil_iff.1 e).1
  rw [Sexp.parse, if_neg this, tokenize_print s h hd, parseToks_toks]

/-! ### files -/

/-- A line that survives being written and read. -/
def LineOk (l : List Char) : Prop := '\n' ∉ l ∧ l.getLast? ≠ some '\r'

theorem linesAux_line (l : List Char) (h : '\n' ∉ l) (rest acc : List Char) :
    linesAux (l ++ '\n' :: rest) acc = (chompCr (l.reverse ++ acc)).reverse :: linesAux rest [] := by
  induction l generalizing acc with
  | nil => simp [linesAux]
  | cons c l ih =>
    simp only [List.mem_cons, not_or] at h
    simp only [List.cons_append, linesAux]
    rw [if_neg (fun e => h.1 e.symm), ih h.2]
    simp

theorem textLines_unlines (ls : List (List Char)) (h : ∀ l ∈ ls, LineOk l) : textLines (unlines ls) = ls := by
  unfold textLines unlines
  induction ls with
  | nil => rfl
  | cons l ls ih =>
    have hl := h l (by simp)
    simp only [List.flatMap_cons, List.append_assoc, List.cons_append, List.nil_append]
    rw [linesAux_line l hl.1, ih fun l hl => h l (by simp [hl])]
    congr 1
    rw [List.append_nil]
    have : chompCr l.reverse = l.reverse := by
      cases hr : l.reverse with
      | nil => rfl
      | cons c r =>
        have : l.getLast? = some c := by
          rw [← List.head?_reverse, hr]; rfl
        have hc : c ≠ '\r' := fun e => hl.2 (by rw [this, e])
        unfold chompCr
        split
        · rename_i r' e; cases e; exact absurd rfl hc
        · rfl
    rw [this, List.reverse_reverse]

theorem plain_not_newline {a : String} (h : Plain a) : '\n' ∉ a.toList ∧ '\r' ∉ a.toList :=
  ⟨fun hm => (h.2 _ hm).1 (by decide), fun hm => (h.2 _ hm).1 (by decide)⟩

theorem Sexp.print_line (s : Sexp) (h : PlainTerm s) : '\n' ∉ Sexp.print s ∧ '\r' ∉ Sexp.print s := by
  induction s using Sexp.ind with
  | ha a => exact plain_not_newline (h a (.refl _))
  | hl l ih =>
    have hl := PlainTerm.list h
    have key : ∀ k, (∀ s ∈ k, s ∈ l) → '\n' ∉ Sexp.printL k ∧ '\r' ∉ Sexp.printL k := by
      intro k
      induction k with
      | nil => intro _; simp [Sexp.printL]
      | cons s k ihk =>
        intro hk
        have h1 := ih s (hk s (by simp)) (hl s (hk s (by simp)))
        have h2 := ihk fun s hs => hk s (by simp [hs])
        simp [Sexp.printL, h1, h2]
    have := key l fun _ h => h
    simp [Sexp.print, this]

theorem Sexp.print_lineOk (s : Sexp) (h : PlainTerm s) : LineOk (Sexp.print s) := by
  obtain ⟨h1, h2⟩ := Sexp.print_line s h
  exact ⟨h1, fun e => h2 (List.mem_of_getLast? e)⟩

end Ruler
