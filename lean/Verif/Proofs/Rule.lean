import Verif.Proofs.IndexMap
import Verif.Proofs.Text
/-! Helper lemmas about rules as text. -/
namespace Ruler
open Spec
variable {O : Type}

mutual
theorem Pat.ind {P : Pat O → Prop} (hv : ∀ v, P (.var v)) (hn : ∀ o l, (∀ s ∈ l, P s) → P (.node o l)) :
    ∀ s, P s
  | .var v => hv v
  | .node o l => hn o l (Pat.indL hv hn l)
theorem Pat.indL {P : Pat O → Prop} (hv : ∀ v, P (.var v)) (hn : ∀ o l, (∀ s ∈ l, P s) → P (.node o l)) :
    ∀ l : List (Pat O), ∀ s ∈ l, P s
  | [] => by simp
  | t :: l => by
    intro s hs
    rcases List.mem_cons.1 hs with e | h
    · exact e ▸ Pat.ind hv hn t
    · exact Pat.indL hv hn l s h
end

mutual
theorem Tm.ind {P : Tm O → Prop} (hn : ∀ o l, (∀ s ∈ l, P s) → P (.node o l)) : ∀ s, P s
  | .node o l => hn o l (Tm.indL hn l)
theorem Tm.indL {P : Tm O → Prop} (hn : ∀ o l, (∀ s ∈ l, P s) → P (.node o l)) :
    ∀ l : List (Tm O), ∀ s ∈ l, P s
  | [] => by simp
  | t :: l => by
    intro s hs
    rcases List.mem_cons.1 hs with e | h
    · exact e ▸ Tm.ind hn t
    · exact Tm.indL hn l s h
end

theorem Pat.varsL_eq (l : List (Pat O)) : Pat.varsL l = l.flatMap Pat.vars := by
  induction l with
  | nil => rfl
  | cons p l ih => simp [Pat.varsL, ih]

theorem Pat.toSexpL_eq [Lang O] (l : List (Pat O)) : Pat.toSexpL l = l.map Pat.toSexp := by
  induction l with
  | nil => rfl
  | cons p l ih => simp [Pat.toSexpL, ih]

theorem isVarName_iff {v : String} : isVarName v = true ↔ VarName v := by
  unfold isVarName VarName
  split
  · rename_i c r h; simp [h]
  · rename_i h
    constructor
    · simp
    · rintro ⟨c, r, e⟩; exact absurd e (h c r)

theorem bindsAll_iff {l r : Pat O} : bindsAll l r = true ↔ ∀ v ∈ r.vars, v ∈ l.vars := by
  simp [bindsAll]

theorem tokenize_blank (r : List Char) : tokenize (' ' :: r) [] = tokenize r [] := by
  simp [tokenize, show isBlank ' ' = true by decide, flushTok]

theorem tokenize_printEgg (s : Sexp) (h : PlainTerm s) {rest : List Char} (hd : Delim rest) :
    tokenize (Sexp.printEgg s ++ rest) [] = Sexp.toks s ++ tokenize rest [] := by
  induction s using Sexp.ind generalizing rest with
  | ha a => exact tokenize_atom (h a (.refl _)) hd
  | hl l ih =>
    have hl := PlainTerm.list h
    have hopen : ∀ r, tokenize ('(' :: r) [] = .op :: tokenize r [] := fun r => by
      simp [tokenize, show isBlank '(' = false by decide, flushTok]
    have hclose : ∀ r, tokenize (')' :: r) [] = .cl :: tokenize r [] := fun r => by
      simp [tokenize, show isBlank ')' = false by decide, flushTok]
    have hdel : ∀ (k : List Sexp) (rest : List Char), Delim (Sexp.printEggL k ++ rest) := by
      intro k rest
      cases k with
      | nil => exact delim_close _
      | cons s k => exact delim_blank _
    have key : ∀ k, (∀ s ∈ k, s ∈ l) → ∀ rest, tokenize (Sexp.printEggL k ++ rest) [] =
        Sexp.toksL k ++ .cl :: tokenize rest [] := by
      intro k
      induction k with
      | nil => intro _ rest; exact hclose rest
      | cons s k ihk =>
        intro hk rest
        simp only [Sexp.printEggL, Sexp.toksL, List.append_assoc, List.cons_append, tokenize_blank]
        rw [ih s (hk s (by simp)) (hl s (hk s (by simp))) (hdel k rest)]
        rw [ihk (fun s hs => hk s (by simp [hs])) rest]
    cases l with
    | nil =>
      simp only [Sexp.printEgg, Sexp.toks, List.cons_append, List.nil_append, Sexp.toksL, hopen, hclose]
    | cons s l =>
      simp only [Sexp.printEgg, Sexp.toks, List.cons_append, List.append_assoc, Sexp.toksL, hopen, List.nil_append]
      rw [ih s (by simp) (hl s (by simp)) (hdel l rest), key l (fun s hs => by simp [hs])]

theorem Sexp.printEgg_ne_nil (s : Sexp) (h : PlainTerm s) : Sexp.printEgg s ≠ [] := by
  cases s with
  | atom a => exact (h a (.refl _)).1
  | list l => cases l <;> simp [Sexp.printEgg]

theorem Sexp.parse_printEgg_append (s : Sexp) (h : PlainTerm s) {rest : List Char} (hd : Delim rest) :
    Sexp.parse (Sexp.printEgg s ++ rest) = some s := by
  have : Sexp.printEgg s ++ rest ≠ [] := by
    intro e; exact Sexp.printEgg_ne_nil s h (List.append_eq_nil_iff.1 e).1
  rw [Sexp.parse, if_neg this, tokenize_printEgg s h hd, parseToks_toks]

theorem Sexp.parse_blank_printEgg (s : Sexp) (h : PlainTerm s) :
    Sexp.parse (' ' :: Sexp.printEgg s) = some s := by
  rw [Sexp.parse, if_neg (by simp), tokenize_blank]
  have := tokenize_printEgg s h delim_nil
  rw [List.append_nil] at this
  rw [this, parseToks_toks]

theorem Readable.plain [Lang O] {p : Pat O} (h : Readable p) : PlainTerm p.toSexp := by
  induction p using Pat.ind with
  | hv v =>
    cases h with
    | var h _ => exact plainTerm_atom_iff.2 h
  | hn o l ih =>
    cases h with
    | node h1 h2 h3 h4 =>
      cases l with
      | nil => exact plainTerm_atom_iff.2 h1
      | cons a l =>
        rw [Pat.toSexp, plainTerm_list_iff, Pat.toSexpL_eq]
        intro s hs
        simp only [List.mem_cons, List.mem_map] at hs
        rcases hs with rfl | rfl | ⟨b, hb, rfl⟩
        · exact plainTerm_atom_iff.2 h1
        · exact ih a (by simp) (h4 a (by simp))
        · exact ih b (by simp [hb]) (h4 b (by simp [hb]))

theorem Readable.ofSexp_toSexp [Lang O] {p : Pat O} (h : Readable p) : Pat.ofSexp p.toSexp = some p := by
  induction p using Pat.ind with
  | hv v =>
    cases h with
    | var h h' => simp [Pat.toSexp, Pat.ofSexp, Pat.fromOp, isVarName_iff.2 h']
  | hn o l ih =>
    cases h with
    | node h1 h2 h3 h4 =>
      have hv : isVarName (Lang.display o) = false := by
        rw [← Bool.not_eq_true, isVarName_iff]; exact h2
      cases l with
      | nil =>
        simp only [Pat.toSexp, Pat.ofSexp, Pat.fromOp, hv, Bool.false_eq_true, if_false]
        rw [h3]; rfl
      | cons a l =>
        have key : ∀ k : List (Pat O), (∀ s ∈ k, s ∈ a :: l) → Pat.ofSexpL (k.map Pat.toSexp) = some k := by
          intro k
          induction k with
          | nil => intro _; rfl
          | cons b k ihk =>
            intro hk
            simp only [List.map_cons, Pat.ofSexpL, ih b (hk b (by simp)) (h4 b (hk b (by simp))),
              ihk fun s hs => hk s (by simp [hs])]
            rfl
        have hk := key (a :: l) fun _ h => h
        rw [Pat.toSexp, Pat.toSexpL_eq, Pat.ofSexp]
        rw [List.map_cons] at hk
        rw [hk]
        simp only [Option.bind_some, Pat.fromOp, hv, Bool.false_eq_true, if_false]
        rw [h3]; rfl

theorem Readable.parse_append [Lang O] {p : Pat O} (h : Readable p) {rest : List Char} (hd : Delim rest) :
    Pat.parse (p.print ++ rest) = some p := by
  rw [Pat.parse, Pat.print, Sexp.parse_printEgg_append _ (Readable.plain h) hd]
  exact Readable.ofSexp_toSexp h

theorem Readable.parse_print [Lang O] {p : Pat O} (h : Readable p) : Pat.parse p.print = some p := by
  have := Readable.parse_append h delim_nil
  rwa [List.append_nil] at this

theorem Readable.parse_blank [Lang O] {p : Pat O} (h : Readable p) : Pat.parse (' ' :: p.print) = some p := by
  rw [Pat.parse, Pat.print, Sexp.parse_blank_printEgg _ (Readable.plain h)]
  exact Readable.ofSexp_toSexp h

theorem Readable.print_inj [Lang O] {p q : Pat O} (hp : Readable p) (hq : Readable q) (h : p.print = q.print) :
    p = q := by
  have := Readable.parse_print hp
  rw [h, Readable.parse_print hq] at this
  exact (Option.some.inj this).symm

/-! ### arrows -/

theorem hasArrow_cons {c : Char} {s : List Char} (h : ¬ HasArrow (c :: s)) : ¬ HasArrow s :=
  fun h' => h (h'.trans (List.infix_cons (List.infix_refl s)))

theorem splitArrow_append (l : List Char) (h : ¬ HasArrow l) (rest acc : List Char) :
    splitArrow (l ++ '=' :: '>' :: rest) acc = some (acc.reverse ++ l, rest) := by
  induction l generalizing acc with
  | nil => simp [splitArrow]
  | cons c l ih =>
    rw [List.cons_append, splitArrow]
    · rw [ih (hasArrow_cons h)]; simp
    · intro rest' e e'
      subst e
      cases l with
      | nil => simp at e'
      | cons d l =>
        simp only [List.cons_append, List.cons.injEq] at e'
        obtain ⟨rfl, _⟩ := e'
        exact h ⟨[], l, rfl⟩

theorem splitArrow_none {s : List Char} (h : ¬ HasArrow s) (acc : List Char) : splitArrow s acc = none := by
  induction s generalizing acc with
  | nil => rfl
  | cons c s ih =>
    rw [splitArrow]
    · exact ih (hasArrow_cons h) _
    · rintro rest rfl rfl
      exact h ⟨[], rest, rfl⟩

theorem hasBiArrow_iff {s : List Char} : hasBiArrow s = true ↔ ['<', '=', '>'] <:+: s := by
  induction s with
  | nil => simp [hasBiArrow]
  | cons c s ih =>
    rw [List.infix_cons_iff, ← ih]
    by_cases h : ∃ rest, c :: s = '<' :: '=' :: '>' :: rest
    · obtain ⟨rest, e⟩ := h
      rw [e]
      simp [hasBiArrow]
    · rw [hasBiArrow]
      · constructor
        · exact .inr
        · rintro (⟨r, hr⟩ | h')
          · exact absurd ⟨r, hr.symm⟩ h
          · exact h'
      · rintro rest rfl rfl
        exact h ⟨rest, rfl⟩

theorem hasArrow_of_biArrow {s : List Char} (h : ['<', '=', '>'] <:+: s) : HasArrow s := by
  obtain ⟨a, b, rfl⟩ := h
  exact ⟨a ++ ['<'], b, by simp⟩

/-- An infix of two characters of a concatenation lies in one part or across the seam. -/
theorem arrow_append {a b : List Char} (h : HasArrow (a ++ b)) :
    HasArrow a ∨ HasArrow b ∨ (a.getLast? = some '=' ∧ b.head? = some '>') := by
  induction a with
  | nil => exact .inr (.inl h)
  | cons c a ih =>
    rw [List.cons_append, HasArrow, List.infix_cons_iff] at h
    rcases h with h | h
    · cases a with
      | nil =>
        cases b with
        | nil => simp at h
        | cons d b =>
          simp only [List.nil_append, List.cons_prefix_cons] at h
          obtain ⟨rfl, rfl, _⟩ := h
          exact .inr (.inr ⟨rfl, rfl⟩)
      | cons d a =>
        simp only [List.cons_append, List.cons_prefix_cons] at h
        obtain ⟨rfl, rfl, _⟩ := h
        exact .inl ⟨[], a, rfl⟩
    · rcases ih h with h | h | ⟨h1, h2⟩
      · exact .inl (h.trans (List.infix_cons (List.infix_refl a)))
      · exact .inr (.inl h)
      · refine .inr (.inr ⟨?_, h2⟩)
        cases a with
        | nil => simp at h1
        | cons d a => simpa using h1

theorem noArrow_append {a b : List Char} (ha : ¬ HasArrow a) (hb : ¬ HasArrow b) (h : b.head? ≠ some '>') :
    ¬ HasArrow (a ++ b) := by
  intro hab
  rcases arrow_append hab with h' | h' | ⟨_, h'⟩
  · exact ha h'
  · exact hb h'
  · exact h h'

theorem noArrow_short {s : List Char} (h : s ≠ ['=', '>']) (hl : s.length ≤ 2) : ¬ HasArrow s := by
  intro hs
  have := hs.length_le
  have := hs.eq_of_length (by simp at this; simp; omega)
  exact h this.symm

theorem ruleName_split [Lang O] (l r : Pat O) (h : ¬ HasArrow l.print) :
    splitArrow (ruleName l r) [] = some (l.print ++ [' ', '='], ' ' :: r.print) := by
  have h2 : ruleName l r = (l.print ++ [' ', '=']) ++ '=' :: '>' :: (' ' :: r.print) := by
    simp [ruleName, show " ==> ".toList = [' ', '=', '=', '>', ' '] by decide]
  rw [h2, splitArrow_append _ (noArrow_append h (noArrow_short (by simp) (by simp)) (by simp))]
  rfl

theorem not_biArrow_ruleName [Lang O] (l r : Pat O) (h : ¬ HasArrow l.print) (h' : ¬ HasArrow r.print) :
    hasBiArrow (ruleName l r) = false := by
  rw [← Bool.not_eq_true, hasBiArrow_iff]
  intro hb
  have e : ruleName l r = l.print ++ ' ' :: '=' :: '=' :: '>' :: ' ' :: r.print := by
    simp [ruleName, show " ==> ".toList = [' ', '=', '=', '>', ' '] by decide]
  rw [e] at hb
  clear e
  generalize l.print = a at *
  generalize r.print = b at *
  induction a with
  | nil =>
    simp only [List.nil_append, List.infix_cons_iff, List.cons_prefix_cons] at hb
    rcases hb with ⟨h1, _⟩ | ⟨h1, _⟩ | ⟨h1, _⟩ | ⟨h1, _⟩ | ⟨h1, _⟩ | hb
    · exact absurd h1 (by decide)
    · exact absurd h1 (by decide)
    · exact absurd h1 (by decide)
    · exact absurd h1 (by decide)
    · exact absurd h1 (by decide)
    · exact h' (hasArrow_of_biArrow hb)
  | cons c a ih =>
    rw [List.cons_append, List.infix_cons_iff] at hb
    rcases hb with hb | hb
    · cases a with
      | nil =>
        simp only [List.nil_append, List.cons_prefix_cons] at hb
        exact absurd hb.2.1 (by decide)
      | cons d a =>
        cases a with
        | nil =>
          simp only [List.nil_append, List.cons_append, List.cons_prefix_cons] at hb
          exact absurd hb.2.2.1 (by decide)
        | cons f a =>
          simp only [List.cons_append, List.cons_prefix_cons] at hb
          obtain ⟨rfl, rfl, rfl, _⟩ := hb
          exact h ⟨['<'], a, rfl⟩
    · exact ih (hasArrow_cons h) hb

theorem delim_blankEq : Delim [' ', '='] := delim_blank _

theorem Textual.fromString [Lang O] {r : Rule O} (h : Rule.Textual r) :
    Rule.fromString r.name = some (some (r, none)) := by
  obtain ⟨⟨hn, hb⟩, hl, hr, hal, har⟩ := h
  have hnew : Rule.new r.lhs r.rhs = some r := by
    rw [Rule.new, if_pos (bindsAll_iff.2 hb), ← hn]
  rw [Rule.fromString, hn, ruleName_split _ _ hal]
  simp only [Readable.parse_append hl delim_blankEq, Readable.parse_blank hr, Option.bind_some, hnew,
    not_biArrow_ruleName _ _ hal har, Bool.false_eq_true, if_false]

/-! ### lines -/

theorem Sexp.printEgg_line (s : Sexp) (h : PlainTerm s) : '\n' ∉ Sexp.printEgg s ∧ '\r' ∉ Sexp.printEgg s := by
  induction s using Sexp.ind with
  | ha a => exact plain_not_newline (h a (.refl _))
  | hl l ih =>
    have hl := PlainTerm.list h
    have key : ∀ k, (∀ s ∈ k, s ∈ l) → '\n' ∉ Sexp.printEggL k ∧ '\r' ∉ Sexp.printEggL k := by
      intro k
      induction k with
      | nil => intro _; simp [Sexp.printEggL]
      | cons s k ihk =>
        intro hk
        have h1 := ih s (hk s (by simp)) (hl s (hk s (by simp)))
        have h2 := ihk fun s hs => hk s (by simp [hs])
        simp [Sexp.printEggL, h1, h2]
    cases l with
    | nil => simp [Sexp.printEgg]
    | cons s l =>
      have h1 := ih s (by simp) (hl s (by simp))
      have h2 := key l fun s hs => by simp [hs]
      simp [Sexp.printEgg, h1, h2]

theorem Textual.lineOk [Lang O] {r : Rule O} (h : Rule.Textual r) : LineOk r.name := by
  obtain ⟨⟨hn, hb⟩, hl, hr, hal, har⟩ := h
  have h1 := Sexp.printEgg_line _ (Readable.plain hl)
  have h2 := Sexp.printEgg_line _ (Readable.plain hr)
  have : '\n' ∉ r.name ∧ '\r' ∉ r.name := by
    rw [hn, ruleName, show " ==> ".toList = [' ', '=', '=', '>', ' '] by decide]
    simp [Pat.print, h1, h2]
  exact ⟨this.1, fun e => this.2 (List.mem_of_getLast? e)⟩

end Ruler
