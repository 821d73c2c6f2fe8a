import Verif.Spec.Logger
import Mathlib.Data.List.Lex
import Mathlib.Order.Basic
/-! Reading and writing JSON. -/
namespace Ruler
open Spec
namespace Json

/-! ## Induction -/

theorem ind {P : Json → Prop} (hnull : P .null) (hbool : ∀ b, P (.bool b)) (hnum : ∀ t, P (.num t))
    (hstr : ∀ s, P (.str s)) (harr : ∀ l, (∀ v ∈ l, P v) → P (.arr l))
    (hobj : ∀ l : List (List Char × Json), (∀ e ∈ l, P e.2) → P (.obj l)) (v : Json) : P v :=
  Json.rec (motive_1 := P) (motive_2 := fun l => ∀ v ∈ l, P v) (motive_3 := fun l => ∀ e ∈ l, P e.2)
    (motive_4 := fun e => P e.2) hnull hbool hnum hstr (fun _ ih => harr _ ih) (fun _ ih => hobj _ ih) (by simp)
    (fun _ _ h1 h2 => by simpa using ⟨h1, h2⟩) (by simp)
    (fun _ _ h1 h2 => by
      intro e he
      rcases List.mem_cons.1 he with rfl | he
      · exact h1
      · exact h2 e he) (fun _ _ h => h) v

/-! ## White space -/

/-- White space. -/
abbrev isWs (c : Char) : Prop := c = ' ' ∨ c = '\n' ∨ c = '\t' ∨ c = '\r'

theorem skipWs_append {w s : List Char} (h : ∀ c ∈ w, isWs c) : skipWs (w ++ s) = skipWs s := by
  induction w with
  | nil => rfl
  | cons c w ih =>
    rw [List.cons_append, skipWs, if_pos (h c (by simp))]
    exact ih fun d hd => h d (by simp [hd])

theorem skipWs_cons {c : Char} (h : ¬ isWs c) (s : List Char) : skipWs (c :: s) = c :: s := by
  rw [skipWs, if_neg h]

theorem skipWs_nl (s : List Char) : skipWs ('\n' :: s) = skipWs s := by
  rw [skipWs, if_pos (by simp)]

theorem skipWs_sp (s : List Char) : skipWs (' ' :: s) = skipWs s := by
  rw [skipWs, if_pos (by simp)]

theorem skipWs_indent (n : Nat) (s : List Char) : skipWs (indent n ++ s) = skipWs s := by
  refine skipWs_append fun c hc => Or.inl ?_
  exact (List.mem_replicate.1 hc).2

theorem parseValue_ws {fuel d : Nat} {s s' : List Char} (h : skipWs s = skipWs s') :
    parseValue fuel d s = parseValue fuel d s' := by
  cases fuel with
  | zero => rfl
  | succ fuel => rw [parseValue, parseValue, h]

theorem skipWs_idem (s : List Char) : skipWs (skipWs s) = skipWs s := by
  induction s with
  | nil => rfl
  | cons c s ih =>
    rw [skipWs]
    split
    · exact ih
    · rename_i h
      exact skipWs_cons h s

theorem parseItems_ws {fuel d : Nat} {s s' : List Char} (h : skipWs s = skipWs s') :
    parseItems fuel d s = parseItems fuel d s' := by
  cases fuel with
  | zero => rfl
  | succ fuel => rw [parseItems, parseItems, parseValue_ws h]

theorem parseMembers_ws {fuel d : Nat} {acc : List (List Char × Json)} {s s' : List Char} (h : skipWs s = skipWs s') :
    parseMembers fuel d acc s = parseMembers fuel d acc s' := by
  cases fuel with
  | zero => rfl
  | succ fuel => rw [parseMembers, parseMembers, h]

/-! ## Strings -/

theorem hex_ctrl : ∀ n < 32, hex4 '0' '0' (hexDigit (n / 16)) (hexDigit (n % 16)) = some (Char.ofNat n) := by decide

theorem parseStr_cons (c : Char) (s : List Char) : parseStr (c :: s) =
    if c = '"' then some ([], s)
    else if c = '\\' then
      match s with
      | [] => none
      | e :: s' =>
        if e = 'u' then
          match s' with
          | a :: b :: x :: d :: s'' => (hex4 a b x d).bind fun ch => (parseStr s'').map fun r => (ch :: r.1, r.2)
          | _ => none
        else (unescape e).bind fun ch => (parseStr s').map fun r => (ch :: r.1, r.2)
    else if c.toNat < 32 then none
    else (parseStr s).map fun r => (c :: r.1, r.2) := by
  rw [parseStr.eq_def]
  rfl

theorem parseStr_simple {e c : Char} (he : e ≠ 'u') (h : unescape e = some c) (s : List Char) :
    parseStr (['\\', e] ++ s) = (parseStr s).map fun r => (c :: r.1, r.2) := by
  show parseStr ('\\' :: e :: s) = _
  rw [parseStr_cons, if_neg (by decide), if_pos rfl]
  simp only [if_neg he]
  rw [h, Option.bind_some]

theorem parseStr_escape (c : Char) (s : List Char) :
    parseStr (escape c ++ s) = (parseStr s).map fun r => (c :: r.1, r.2) := by
  unfold escape
  split
  · rename_i h; rw [h]; exact parseStr_simple (by decide) (by decide) s
  split
  · rename_i h; rw [h]; exact parseStr_simple (by decide) (by decide) s
  split
  · rename_i h; rw [h]; exact parseStr_simple (by decide) (by decide) s
  split
  · rename_i h; rw [h]; exact parseStr_simple (by decide) (by decide) s
  split
  · rename_i h; rw [h]; exact parseStr_simple (by decide) (by decide) s
  split
  · rename_i h; rw [h]; exact parseStr_simple (by decide) (by decide) s
  split
  · rename_i h; rw [h]; exact parseStr_simple (by decide) (by decide) s
  rename_i h1 h2 _ _ _ _ _
  split
  · rename_i hlt
    show parseStr ('\\' :: 'u' :: '0' :: '0' :: _ :: _ :: s) = _
    rw [parseStr_cons, if_neg (by decide), if_pos rfl]
    simp only [if_true]
    rw [hex_ctrl _ hlt, Option.bind_some, Char.ofNat_toNat]
  · rename_i hlt
    rw [List.singleton_append, parseStr_cons, if_neg h1, if_neg h2, if_neg hlt]

theorem parseStr_write (s rest : List Char) : parseStr (s.flatMap escape ++ ('"' :: rest)) = some (s, rest) := by
  induction s with
  | nil => rw [List.flatMap_nil, List.nil_append, parseStr_cons, if_pos rfl]
  | cons c s ih =>
    rw [List.flatMap_cons, List.append_assoc, parseStr_escape, ih]
    rfl

theorem parseStr_local' (x : List Char) (n : Nat) : ∀ {s v r : List Char}, s.length ≤ n → parseStr s = some (v, r) →
    parseStr (s ++ x) = some (v, r ++ x) := by
  induction n with
  | zero =>
    intro s v r hn h
    have : s = [] := List.length_eq_zero_iff.1 (by omega)
    subst this
    cases h
  | succ n ih =>
    intro s v r hn h
    cases s with
    | nil => cases h
    | cons c s =>
      simp only [List.length_cons] at hn
      rw [parseStr_cons] at h
      rw [List.cons_append, parseStr_cons]
      split at h
      · rename_i hc; rw [if_pos hc]; cases h; rfl
      rename_i hc; rw [if_neg hc]
      split at h
      · rename_i hc; rw [if_pos hc]
        cases s with
        | nil => cases h
        | cons e s =>
          simp only [List.length_cons] at hn
          simp only [List.cons_append] at h ⊢
          split at h
          · rename_i he; rw [if_pos he]
            split at h
            · rename_i a b y d s2
              simp only [List.length_cons] at hn
              obtain ⟨ch, hch, h⟩ := Option.bind_eq_some_iff.1 h
              obtain ⟨⟨q1, q2⟩, hq, h⟩ := Option.map_eq_some_iff.1 h
              cases h
              simp only [List.cons_append]
              rw [hch, Option.bind_some, ih (by omega) hq]
              rfl
            · cases h
          · rename_i he; rw [if_neg he]
            obtain ⟨ch, hch, h⟩ := Option.bind_eq_some_iff.1 h
            obtain ⟨⟨q1, q2⟩, hq, h⟩ := Option.map_eq_some_iff.1 h
            cases h
            rw [hch, Option.bind_some, ih (by omega) hq]
            rfl
      · rename_i hc; rw [if_neg hc]
        split at h
        · cases h
        · rename_i hc; rw [if_neg hc]
          obtain ⟨⟨q1, q2⟩, hq, h⟩ := Option.map_eq_some_iff.1 h
          cases h
          rw [ih (by omega) hq]
          rfl

theorem parseStr_local (s : List Char) {v r : List Char} (x : List Char) (h : parseStr s = some (v, r)) :
    parseStr (s ++ x) = some (v, r ++ x) := parseStr_local' x _ (Nat.le_refl _) h

/-! ## Numbers -/

theorem numChar_digit {c : Char} (h : c.isDigit = true) : numChar c = true := by simp [numChar, h]

theorem exponentOk_all {s : List Char} (h : exponentOk s = true) : ∀ c ∈ s, numChar c = true := by
  cases s with
  | nil => simp
  | cons e s =>
    simp only [exponentOk, Bool.and_eq_true, Bool.or_eq_true, decide_eq_true_eq] at h
    obtain ⟨he, -, h⟩ := h
    intro c hc
    rcases List.mem_cons.1 hc with rfl | hc
    · rcases he with rfl | rfl <;> decide
    · split at h
      · rcases List.mem_cons.1 hc with rfl | hc
        · decide
        · exact numChar_digit (List.all_eq_true.1 h c hc)
      · rcases List.mem_cons.1 hc with rfl | hc
        · decide
        · exact numChar_digit (List.all_eq_true.1 h c hc)
      · exact numChar_digit (List.all_eq_true.1 h c hc)

theorem mem_take_drop {p : Char → Bool} {s : List Char} {c : Char} (hc : c ∈ s) :
    c ∈ s.takeWhile p ∨ c ∈ s.dropWhile p := by
  rw [← List.takeWhile_append_dropWhile (p := p) (l := s)] at hc
  exact List.mem_append.1 hc

theorem mem_takeWhile_pos {p : Char → Bool} {s : List Char} {c : Char} (hc : c ∈ s.takeWhile p) : p c = true := by
  induction s with
  | nil => simp at hc
  | cons a s ih =>
    rw [List.takeWhile_cons] at hc
    split at hc
    · rcases List.mem_cons.1 hc with rfl | hc
      · assumption
      · exact ih hc
    · simp at hc

theorem fractionOk_all {s : List Char} (h : fractionOk s = true) : ∀ c ∈ s, numChar c = true := by
  unfold fractionOk at h
  split at h
  · rename_i s
    simp only [Bool.and_eq_true] at h
    intro c hc
    rcases List.mem_cons.1 hc with rfl | hc
    · decide
    · rcases mem_take_drop (p := Char.isDigit) hc with hc | hc
      · exact numChar_digit (mem_takeWhile_pos hc)
      · exact exponentOk_all h.2 c hc
  · exact exponentOk_all h

theorem unsignedOk_all {s : List Char} (h : unsignedOk s = true) :
    (∀ c ∈ s, numChar c = true) ∧ ∃ c r, s = c :: r ∧ c.isDigit = true := by
  unfold unsignedOk at h
  simp only [Bool.and_eq_true] at h
  obtain ⟨⟨h1, -⟩, h2⟩ := h
  refine ⟨fun c hc => ?_, ?_⟩
  · rcases mem_take_drop (p := Char.isDigit) hc with hc | hc
    · exact numChar_digit (mem_takeWhile_pos hc)
    · exact fractionOk_all h2 c hc
  · cases s with
    | nil => simp at h1
    | cons c r =>
      refine ⟨c, r, rfl, ?_⟩
      by_contra hc
      simp [hc] at h1

theorem isNumber_all {s : List Char} (h : isNumber s = true) :
    (∀ c ∈ s, numChar c = true) ∧ ∃ c r, s = c :: r ∧ (c = '-' ∨ c.isDigit = true) := by
  unfold isNumber at h
  split at h
  · rename_i s
    refine ⟨fun c hc => ?_, _, _, rfl, Or.inl rfl⟩
    rcases List.mem_cons.1 hc with rfl | hc
    · decide
    · exact (unsignedOk_all h).1 c hc
  · obtain ⟨h1, c, r, h2, h3⟩ := unsignedOk_all h
    exact ⟨h1, c, r, h2, Or.inr h3⟩

theorem exponentOk_iff (s : List Char) : exponentOk s = true ↔
    s = [] ∨ ∃ e x d, s = e :: (x ++ d) ∧ (e = 'e' ∨ e = 'E') ∧ (x = [] ∨ x = ['+'] ∨ x = ['-']) ∧ Digits d := by
  cases s with
  | nil => simp [exponentOk]
  | cons e s =>
    simp only [exponentOk, Bool.and_eq_true, Bool.or_eq_true, decide_eq_true_eq, Bool.not_eq_true', List.isEmpty_eq_false_iff,
      List.all_eq_true]
    constructor
    · rintro ⟨he, h⟩
      right
      split at h
      · exact ⟨e, ['+'], _, rfl, he, by simp, h⟩
      · exact ⟨e, ['-'], _, rfl, he, by simp, h⟩
      · exact ⟨e, [], _, rfl, he, by simp, h⟩
    · rintro (h | ⟨e', x, d, h, he, hx, h1, h2⟩)
      · cases h
      · cases h
        refine ⟨he, ?_⟩
        rcases hx with rfl | rfl | rfl
        · rw [List.nil_append]
          split
          · exact absurd (h2 '+' (by simp)) (by decide)
          · exact absurd (h2 '-' (by simp)) (by decide)
          · exact ⟨h1, h2⟩
        · exact ⟨h1, h2⟩
        · exact ⟨h1, h2⟩

theorem exponent_head {s : List Char} (h : exponentOk s = true) : ∀ c, s.head? = some c → c.isDigit = false ∧ c ≠ '.' := by
  intro c hc
  rcases (exponentOk_iff s).1 h with rfl | ⟨e, x, d, rfl, he, -⟩
  · cases hc
  · simp only [List.head?_cons, Option.some.injEq] at hc
    subst hc
    rcases he with rfl | rfl <;> decide

theorem takeWhile_digits {t rest : List Char} (ht : ∀ c ∈ t, c.isDigit = true)
    (hr : ∀ c, rest.head? = some c → c.isDigit = false) :
    (t ++ rest).takeWhile Char.isDigit = t ∧ (t ++ rest).dropWhile Char.isDigit = rest := by
  induction t with
  | nil =>
    cases rest with
    | nil => simp
    | cons c rest => simp [hr c rfl]
  | cons a t ih =>
    obtain ⟨h1, h2⟩ := ih fun c hc => ht c (by simp [hc])
    simp [ht a (by simp), h1, h2]

theorem takeWhile_digits_ne {s : List Char} (h : (s.takeWhile Char.isDigit).isEmpty = false) : Digits (s.takeWhile Char.isDigit) :=
  ⟨by simpa using h, fun _ hc => mem_takeWhile_pos hc⟩

theorem fractionOk_iff (s : List Char) : fractionOk s = true ↔
    ∃ f x, s = f ++ x ∧ (f = [] ∨ ∃ d, f = '.' :: d ∧ Digits d) ∧ exponentOk x = true := by
  constructor
  · intro h
    unfold fractionOk at h
    split at h
    · rename_i s
      simp only [Bool.and_eq_true, Bool.not_eq_true'] at h
      refine ⟨'.' :: s.takeWhile Char.isDigit, s.dropWhile Char.isDigit, ?_, Or.inr ⟨_, rfl, takeWhile_digits_ne h.1⟩, h.2⟩
      rw [List.cons_append, List.takeWhile_append_dropWhile]
    · exact ⟨[], s, rfl, Or.inl rfl, h⟩
  · rintro ⟨f, x, rfl, rfl | ⟨d, rfl, hd⟩, hx⟩
    · rw [List.nil_append]
      unfold fractionOk
      split
      · exact absurd rfl (exponent_head hx '.' rfl).2
      · exact hx
    · obtain ⟨h1, h2⟩ := takeWhile_digits hd.2 fun c hc => (exponent_head hx c hc).1
      show (!((d ++ x).takeWhile Char.isDigit).isEmpty && exponentOk ((d ++ x).dropWhile Char.isDigit)) = true
      rw [h1, h2, hx]
      simpa using hd.1

theorem fraction_head {s : List Char} (h : fractionOk s = true) : ∀ c, s.head? = some c → c.isDigit = false := by
  intro c hc
  obtain ⟨f, x, rfl, rfl | ⟨d, rfl, -⟩, hx⟩ := (fractionOk_iff s).1 h
  · exact (exponent_head hx c hc).1
  · simp only [List.cons_append, List.head?_cons, Option.some.injEq] at hc
    subst hc
    decide

theorem unsignedOk_iff (s : List Char) : unsignedOk s = true ↔
    ∃ w f, s = w ++ f ∧ Digits w ∧ (w = ['0'] ∨ w.head? ≠ some '0') ∧ fractionOk f = true := by
  have zero : ∀ w : List Char, Digits w → ((w.length = 1 ∨ w.head? ≠ some '0') ↔ (w = ['0'] ∨ w.head? ≠ some '0')) := by
    intro w hw
    match w, hw with
    | [], h => exact absurd rfl h.1
    | [c], _ => by_cases hc : c = '0' <;> simp [hc]
    | _ :: _ :: _, _ => simp
  unfold unsignedOk
  simp only [Bool.and_eq_true, Bool.or_eq_true, decide_eq_true_eq, Bool.not_eq_true']
  constructor
  · rintro ⟨⟨h1, h2⟩, h3⟩
    have hd := takeWhile_digits_ne h1
    exact ⟨_, _, List.takeWhile_append_dropWhile.symm, hd, (zero _ hd).1 h2, h3⟩
  · rintro ⟨w, f, rfl, hw, h0, hf⟩
    obtain ⟨h1, h2⟩ := takeWhile_digits hw.2 (fraction_head hf)
    rw [h1, h2]
    exact ⟨⟨by simpa using hw.1, (zero w hw).2 h0⟩, hf⟩

/-- The numbers that are read are those of the grammar. -/
theorem isNumber_iff (t : List Char) : isNumber t = true ↔ Numeral t := by
  have key : ∀ s, unsignedOk s = true ↔ ∃ w f x, s = w ++ (f ++ x) ∧ Digits w ∧ (w = ['0'] ∨ w.head? ≠ some '0') ∧
      (f = [] ∨ ∃ d, f = '.' :: d ∧ Digits d) ∧
      (x = [] ∨ ∃ e y d, x = e :: (y ++ d) ∧ (e = 'e' ∨ e = 'E') ∧ (y = [] ∨ y = ['+'] ∨ y = ['-']) ∧ Digits d) := by
    intro s
    rw [unsignedOk_iff]
    constructor
    · rintro ⟨w, f, rfl, h1, h2, h3⟩
      obtain ⟨f, x, rfl, h4, h5⟩ := (fractionOk_iff _).1 h3
      exact ⟨w, f, x, rfl, h1, h2, h4, (exponentOk_iff x).1 h5⟩
    · rintro ⟨w, f, x, rfl, h1, h2, h4, h5⟩
      exact ⟨w, f ++ x, rfl, h1, h2, (fractionOk_iff _).2 ⟨f, x, rfl, h4, (exponentOk_iff x).2 h5⟩⟩
  constructor
  · intro h
    unfold isNumber at h
    split at h
    · obtain ⟨w, f, x, rfl, hw⟩ := (key _).1 h
      exact ⟨['-'], w, f, x, rfl, Or.inr rfl, hw⟩
    · obtain ⟨w, f, x, rfl, hw⟩ := (key _).1 h
      exact ⟨[], w, f, x, rfl, Or.inl rfl, hw⟩
  · rintro ⟨s, w, f, x, rfl, rfl | rfl, h⟩
    · have hu := (key _).2 ⟨w, f, x, rfl, h⟩
      rw [List.nil_append]
      unfold isNumber
      split
      · rename_i s hs
        obtain ⟨-, c, r, hc, hd⟩ := unsignedOk_all hu
        rw [hc] at hs
        cases hs
        exact absurd hd (by decide)
      · exact hu
    · exact (key _).2 ⟨w, f, x, rfl, h⟩

instance (t : List Char) : Decidable (Numeral t) := decidable_of_iff _ (isNumber_iff t)

/-- What follows a number does not continue it. -/
def Stops (rest : List Char) : Prop := ∀ c, rest.head? = some c → numChar c = false

theorem takeWhile_stops {p : Char → Bool} {t rest : List Char} (ht : ∀ c ∈ t, p c = true)
    (hr : ∀ c, rest.head? = some c → p c = false) :
    (t ++ rest).takeWhile p = t ∧ (t ++ rest).dropWhile p = rest := by
  induction t with
  | nil =>
    cases rest with
    | nil => simp
    | cons c rest => simp [hr c rfl]
  | cons a t ih =>
    obtain ⟨h1, h2⟩ := ih fun c hc => ht c (by simp [hc])
    simp [ht a (by simp), h1, h2]

theorem parseNum_write {t rest : List Char} (h : isNumber t = true) (hr : Stops rest) :
    parseNum (t ++ rest) = some (.num t, rest) := by
  obtain ⟨h1, h2⟩ := takeWhile_stops (isNumber_all h).1 hr
  unfold parseNum
  simp only [h1, h2, h, if_true]

theorem parseNum_local {s r x : List Char} {v : Json} (h : parseNum s = some (v, r)) (hr : r ≠ []) :
    parseNum (s ++ x) = some (v, r ++ x) := by
  unfold parseNum at h
  simp only at h
  split at h
  · rename_i hn
    cases h
    have hs : s ++ x = s.takeWhile numChar ++ (s.dropWhile numChar ++ x) := by
      rw [← List.append_assoc, List.takeWhile_append_dropWhile]
    rw [hs]
    refine parseNum_write hn fun c hc => ?_
    cases hd : s.dropWhile numChar with
    | nil => exact absurd hd hr
    | cons a l =>
      rw [hd] at hc
      simp only [List.cons_append, List.head?_cons, Option.some.injEq] at hc
      subst hc
      have := List.head?_dropWhile_not numChar s
      rw [hd] at this
      simpa using this
  · cases h

/-! ## Words -/

theorem parseWord_local {s r x : List Char} {v : Json} (h : parseWord s = some (v, r)) :
    parseWord (s ++ x) = some (v, r ++ x) := by
  unfold parseWord at h
  have key : ∀ (w : List Char), w.isPrefixOf s = true → ∃ u, s = w ++ u := by
    intro w hw
    obtain ⟨u, hu⟩ := List.isPrefixOf_iff_prefix.1 hw
    exact ⟨u, hu.symm⟩
  split at h
  · rename_i hw
    obtain ⟨u, rfl⟩ := key _ hw
    cases h
    rfl
  split at h
  · rename_i hw
    obtain ⟨u, rfl⟩ := key _ hw
    cases h
    rfl
  split at h
  · rename_i hw
    obtain ⟨u, rfl⟩ := key _ hw
    cases h
    rfl
  · cases h

/-! ## Objects -/

theorem insertKey_last {acc : List (List Char × Json)} {k : List Char} {v : Json} (h : ∀ e ∈ acc, e.1 ≠ k) :
    insertKey k v acc = acc ++ [(k, v)] := by
  induction acc with
  | nil => rfl
  | cons e acc ih =>
    obtain ⟨k', v'⟩ := e
    rw [insertKey, if_neg (h (k', v') (by simp)).symm, ih fun e he => h e (by simp [he])]
    rfl

/-! ## Reading what was written -/

mutual
/-- Number of calls needed to read a value. -/
def need : Json → Nat
  | .arr l => needL l + 1
  | .obj l => needM l + 1
  | _ => 1
/-- Number of calls needed to read the elements. -/
def needL : List Json → Nat
  | [] => 0
  | v :: l => max (need v) (needL l) + 1
/-- Number of calls needed to read the members. -/
def needM : List (List Char × Json) → Nat
  | [] => 0
  | (_, v) :: l => max (need v) (needM l) + 1
end

theorem need_obj_le {l : List (List Char × Json)} (ih : ∀ e ∈ l, ∀ n, JsonOk e.2 → need e.2 + 1 ≤ 2 * (pretty n e.2).length)
    (h : ∀ e ∈ l, JsonOk e.2) (n : Nat) : need (.obj l) + 1 ≤ 2 * (pretty n (.obj l)).length := by
  have key : ∀ (l : List (List Char × Json)), (∀ e ∈ l, ∀ n, JsonOk e.2 → need e.2 + 1 ≤ 2 * (pretty n e.2).length) →
      (∀ e ∈ l, JsonOk e.2) → ∀ n, needM l ≤ 2 * (prettyM n l).length := by
    intro l
    induction l with
    | nil => intros; simp [needM]
    | cons e l ihl =>
      obtain ⟨k, v⟩ := e
      intro h1 h2 n
      have a1 := h1 (k, v) (by simp) n (h2 (k, v) (by simp))
      have a2 := ihl (fun w hw => h1 w (by simp [hw])) (fun w hw => h2 w (by simp [hw])) n
      simp only [needM, prettyM, List.length_cons, List.length_append] at a1 a2 ⊢
      omega
  cases l with
  | nil => simp [need, needM, pretty]
  | cons e l =>
    obtain ⟨k, v⟩ := e
    have a1 := ih (k, v) (by simp) (n + 1) (h (k, v) (by simp))
    have a2 := key l (fun w hw => ih w (by simp [hw])) (fun w hw => h w (by simp [hw])) (n + 1)
    simp only [need, needM, pretty, List.length_cons, List.length_append] at a1 a2 ⊢
    omega

theorem need_le (v : Json) : ∀ n, JsonOk v → need v + 1 ≤ 2 * (pretty n v).length := by
  induction v using Json.ind with
  | hnull => intro n _; simp [need, pretty]
  | hbool b => intro n _; cases b <;> simp [need, pretty]
  | hnum t =>
    intro n h
    cases h with
    | num h =>
      obtain ⟨-, c, r, rfl, -⟩ := isNumber_all ((isNumber_iff _).2 h)
      simp only [need, pretty, List.length_cons]
      omega
  | hstr s => intro n _; simp only [need, pretty, writeStr, List.length_cons]; omega
  | harr l ih =>
    intro n h
    cases h with
    | arr h =>
      have key : ∀ (l : List Json), (∀ v ∈ l, ∀ n, JsonOk v → need v + 1 ≤ 2 * (pretty n v).length) → (∀ v ∈ l, JsonOk v) →
          ∀ n, needL l ≤ 2 * (prettyL n l).length := by
        intro l
        induction l with
        | nil => intros; simp [needL]
        | cons v l ihl =>
          intro h1 h2 n
          have a1 := h1 v (by simp) n (h2 v (by simp))
          have a2 := ihl (fun w hw => h1 w (by simp [hw])) (fun w hw => h2 w (by simp [hw])) n
          simp only [needL, prettyL, List.length_cons, List.length_append]
          omega
      cases l with
      | nil => simp [need, needL, pretty]
      | cons v l =>
        have a1 := ih v (by simp) (n + 1) (h v (by simp))
        have a2 := key l (fun w hw => ih w (by simp [hw])) (fun w hw => h w (by simp [hw])) (n + 1)
        simp only [need, needL, pretty, List.length_cons, List.length_append]
        omega
  | hobj l ih =>
    intro n h
    cases h with
    | obj _ h => exact need_obj_le ih h n

/-- The text of a value begins with a character that is neither white space nor a closing bracket. -/
theorem pretty_head (v : Json) (n : Nat) (h : JsonOk v) :
    ∃ c r, pretty n v = c :: r ∧ ¬ isWs c ∧ c ≠ ']' ∧ c ≠ '}' := by
  cases h with
  | null => exact ⟨'n', "ull".toList, rfl, by simp [isWs], by decide, by decide⟩
  | bool b =>
    cases b
    · exact ⟨'f', "alse".toList, rfl, by simp [isWs], by decide, by decide⟩
    · exact ⟨'t', "rue".toList, rfl, by simp [isWs], by decide, by decide⟩
  | num h =>
    obtain ⟨-, c, r, rfl, hc⟩ := isNumber_all ((isNumber_iff _).2 h)
    refine ⟨c, r, rfl, ?_, ?_, ?_⟩
    · rintro (rfl | rfl | rfl | rfl) <;> revert hc <;> decide
    · rintro rfl; revert hc; decide
    · rintro rfl; revert hc; decide
  | str s => exact ⟨_, _, rfl, by simp [isWs], by decide, by decide⟩
  | @arr l h => cases l <;> exact ⟨_, _, rfl, by simp [isWs], by decide, by decide⟩
  | @obj l _ h =>
    cases l with
    | nil => exact ⟨_, _, rfl, by simp [isWs], by decide, by decide⟩
    | cons e l => exact ⟨_, _, by rw [pretty], by simp [isWs], by decide, by decide⟩

theorem Stops_of {c : Char} (h : numChar c = false) (rest : List Char) : Stops (c :: rest) := by
  intro d hd
  simp only [List.head?_cons, Option.some.injEq] at hd
  subst hd
  exact h

theorem Stops_prettyL (n : Nat) (l : List Json) (rest : List Char) : Stops (prettyL n l ++ '\n' :: rest) := by
  cases l with
  | nil => exact Stops_of (by decide) _
  | cons v l => rw [prettyL]; exact Stops_of (by decide) _

theorem Stops_prettyM (n : Nat) (l : List (List Char × Json)) (rest : List Char) :
    Stops (prettyM n l ++ '\n' :: rest) := by
  cases l with
  | nil => exact Stops_of (by decide) _
  | cons e l => rw [prettyM]; exact Stops_of (by decide) _

/-- Reading one value that was written. -/
def Reads (v : Json) : Prop := ∀ n fuel d rest, JsonOk v → nesting v < d → need v ≤ fuel → Stops rest →
  parseValue fuel d (pretty n v ++ rest) = some (v, rest)

theorem items_ok (n m : Nat) (rest : List Char) : ∀ (l : List Json) (v : Json) (fuel d : Nat), Reads v → (∀ w ∈ l, Reads w) →
    JsonOk v → (∀ w ∈ l, JsonOk w) → nesting v < d → nestingL l < d → needL (v :: l) ≤ fuel →
    parseItems fuel d (pretty n v ++ (prettyL n l ++ '\n' :: (indent m ++ (']' :: rest)))) = some (v :: l, rest)
  | l, v, 0, d, _, _, _, _, _, _, hf => by simp [needL] at hf
  | [], v, fuel + 1, d, hv, _, ho, _, hd, _, hf => by
    simp only [needL] at hf
    rw [parseItems, prettyL, List.nil_append, hv n fuel d _ ho hd (by omega) (Stops_of (by decide) _), Option.bind_some]
    simp only
    rw [skipWs_nl, skipWs_indent, skipWs_cons (by simp [isWs])]
    simp
  | w :: l, v, fuel + 1, d, hv, hl, ho, hol, hd, hdl, hf => by
    simp only [needL] at hf
    simp only [nestingL] at hdl
    rw [parseItems, hv n fuel d _ ho hd (by omega) (Stops_prettyL _ _ _), Option.bind_some]
    simp only
    rw [prettyL, List.cons_append, skipWs_cons (by simp [isWs])]
    simp only
    rw [if_neg (by decide), if_pos (by trivial)]
    have := items_ok n m rest l w fuel d (hl w (by simp)) (fun u hu => hl u (by simp [hu])) (hol w (by simp))
      (fun u hu => hol u (by simp [hu])) (by omega) (by omega) (by simp only [needL]; omega)
    rw [parseItems_ws (s' := pretty n w ++ (prettyL n l ++ '\n' :: (indent m ++ (']' :: rest)))), this]
    · rfl
    · rw [List.cons_append, skipWs_nl, List.append_assoc, skipWs_indent, List.append_assoc]

/-- Members that are read one after the other. -/
def readMembers (l acc : List (List Char × Json)) : List (List Char × Json) := l.foldl (fun a e => insertKey e.1 e.2 a) acc

theorem readMembers_nodup : ∀ (l acc : List (List Char × Json)), ((acc ++ l).map Prod.fst).Nodup → readMembers l acc = acc ++ l
  | [], acc, _ => by simp [readMembers]
  | (k, v) :: l, acc, h => by
    have hacc : ∀ e ∈ acc, e.1 ≠ k := by
      intro e he
      rw [List.map_append, List.nodup_append] at h
      exact h.2.2 e.1 (List.mem_map_of_mem he) k (by simp)
    have := readMembers_nodup l (acc ++ [(k, v)]) (by simpa using h)
    rw [readMembers, List.foldl_cons, insertKey_last hacc]
    rw [readMembers] at this
    rw [this]
    simp

theorem insertKey_nodup {k : List Char} {v : Json} : ∀ {l : List (List Char × Json)}, (l.map Prod.fst).Nodup →
    ((insertKey k v l).map Prod.fst).Nodup ∧ ∀ x, x ∈ (insertKey k v l).map Prod.fst ↔ x = k ∨ x ∈ l.map Prod.fst
  | [], _ => by simp [insertKey]
  | (k', v') :: l, h => by
    rw [List.map_cons, List.nodup_cons] at h
    rw [insertKey]
    split
    · rename_i e
      subst e
      refine ⟨by simpa using h, fun x => by simp⟩
    · rename_i e
      obtain ⟨h1, h2⟩ := insertKey_nodup (k := k) (v := v) h.2
      refine ⟨?_, fun x => ?_⟩
      · rw [List.map_cons, List.nodup_cons]
        refine ⟨fun hm => ?_, h1⟩
        rcases (h2 k').1 hm with h3 | h3
        · exact e h3.symm
        · exact h.1 h3
      · rw [List.map_cons, List.mem_cons, h2, List.map_cons, List.mem_cons]
        tauto

theorem lookup_insertKey (k : List Char) (v : Json) (x : List Char) : ∀ (l : List (List Char × Json)),
    (insertKey k v l).lookup x = if x = k then some v else l.lookup x
  | [] => by
    by_cases h : x = k
    · simp [insertKey, List.lookup, h]
    · have : (x == k) = false := by simpa using h
      simp [insertKey, List.lookup, h, this]
  | (k', v') :: l => by
    rw [insertKey]
    split
    · rename_i e
      subst e
      by_cases h : x = k
      · simp [h]
      · have : (x == k) = false := by simpa using h
        simp [h, List.lookup_cons, this]
    · rename_i e
      rw [List.lookup_cons, List.lookup_cons, lookup_insertKey k v x l]
      by_cases h : x = k'
      · subst h
        simp [Ne.symm e]
      · have : (x == k') = false := by simpa using h
        simp [this]

theorem readMembers_spec : ∀ (l acc : List (List Char × Json)), (acc.map Prod.fst).Nodup →
    ((readMembers l acc).map Prod.fst).Nodup ∧ ∀ x, (readMembers l acc).lookup x = (l.reverse.lookup x).or (acc.lookup x)
  | [], acc, h => ⟨h, fun x => by simp [readMembers]⟩
  | (k, v) :: l, acc, h => by
    obtain ⟨h1, h2⟩ := readMembers_spec l (insertKey k v acc) (insertKey_nodup h).1
    refine ⟨h1, fun x => ?_⟩
    rw [show readMembers ((k, v) :: l) acc = readMembers l (insertKey k v acc) from rfl, h2, lookup_insertKey, List.reverse_cons,
      List.lookup_append]
    cases l.reverse.lookup x with
    | some w => rfl
    | none =>
      by_cases e : x = k
      · simp [e]
      · have : (x == k) = false := by simpa using e
        simp [List.lookup_cons, this, e]

theorem members_ok (n m : Nat) (rest : List Char) : ∀ (l : List (List Char × Json)) (k : List Char) (v : Json)
    (acc : List (List Char × Json)) (fuel d : Nat), Reads v → (∀ w ∈ l, Reads w.2) →
    JsonOk v → (∀ w ∈ l, JsonOk w.2) → nesting v < d → nestingM l < d → needM ((k, v) :: l) ≤ fuel →
    parseMembers fuel d acc (writeStr k ++ (':' :: ' ' :: (pretty n v ++ (prettyM n l ++ '\n' :: (indent m ++ ('}' :: rest)))))) =
      some (readMembers ((k, v) :: l) acc, rest)
  | l, k, v, acc, 0, d, _, _, _, _, _, _, hf => by simp [needM] at hf
  | l, k, v, acc, fuel + 1, d, hv, hl, ho, hol, hd, hdl, hf => by
    simp only [needM] at hf
    rw [parseMembers, writeStr, List.cons_append, skipWs_cons (by simp [isWs])]
    simp only
    rw [if_pos (by trivial), List.append_assoc, List.singleton_append, parseStr_write, Option.bind_some]
    simp only
    rw [skipWs_cons (by simp [isWs])]
    simp only
    rw [if_pos (by trivial), parseValue_ws (s' := pretty n v ++ (prettyM n l ++ '\n' :: (indent m ++ ('}' :: rest)))) (skipWs_sp _),
      hv n fuel d _ ho hd (by omega) (Stops_prettyM _ _ _), Option.bind_some]
    simp only
    cases l with
    | nil =>
      rw [prettyM, List.nil_append, skipWs_nl, skipWs_indent, skipWs_cons (by simp [isWs])]
      simp [readMembers]
    | cons e l =>
      obtain ⟨k', w⟩ := e
      simp only [nestingM] at hdl
      simp only [needM] at hf
      rw [prettyM, List.cons_append, skipWs_cons (by simp [isWs])]
      simp only
      rw [if_neg (by decide), if_pos (by trivial)]
      have := members_ok n m rest l k' w (insertKey k v acc) fuel d (hl (k', w) (by simp)) (fun u hu => hl u (by simp [hu]))
        (hol (k', w) (by simp)) (fun u hu => hol u (by simp [hu])) (by omega) (by omega) (by simp only [needM]; omega)
      rw [parseMembers_ws (s' := writeStr k' ++ (':' :: ' ' :: (pretty n w ++ (prettyM n l ++ '\n' :: (indent m ++ ('}' :: rest)))))), this]
      · simp [readMembers]
      · rw [List.cons_append, skipWs_nl, List.append_assoc, skipWs_indent]
        simp

theorem obj_reads {l : List (List Char × Json)} (ih : ∀ e ∈ l, Reads e.2) (h : ∀ e ∈ l, JsonOk e.2) (n fuel d : Nat)
    (rest : List Char) (hd : nesting (.obj l) < d) (hf : need (.obj l) ≤ fuel) :
    parseValue fuel d (pretty n (.obj l) ++ rest) = some (.obj (readMembers l []), rest) := by
  simp only [need] at hf
  simp only [nesting] at hd
  obtain ⟨fuel, rfl⟩ : ∃ f, fuel = f + 1 := ⟨fuel - 1, by omega⟩
  cases l with
  | nil =>
    rw [parseValue, pretty, List.cons_append, skipWs_cons (by simp [isWs])]
    simp only
    rw [if_neg (by decide), if_neg (by decide), if_pos (by trivial), if_neg (by omega), List.singleton_append,
      skipWs_cons (by simp [isWs])]
    rfl
  | cons e l =>
    obtain ⟨k, v⟩ := e
    simp only [nestingM] at hd
    rw [parseValue, pretty, List.cons_append, skipWs_cons (by simp [isWs])]
    simp only
    rw [if_neg (by decide), if_neg (by decide), if_pos (by trivial), if_neg (by omega)]
    have hi := members_ok (n + 1) n rest l k v [] fuel (d - 1) (ih (k, v) (by simp)) (fun w hw => ih w (by simp [hw]))
      (h (k, v) (by simp)) (fun w hw => h w (by simp [hw])) (by omega) (by omega) (by omega)
    have hs : skipWs ('\n' :: (indent (n + 1) ++ (writeStr k ++ (':' :: ' ' :: (pretty (n + 1) v ++
          (prettyM (n + 1) l ++ '\n' :: (indent n ++ ['}'])))))) ++ rest) =
        writeStr k ++ (':' :: ' ' :: (pretty (n + 1) v ++ (prettyM (n + 1) l ++ '\n' :: (indent n ++ ('}' :: rest))))) := by
      rw [List.cons_append, skipWs_nl, List.append_assoc, skipWs_indent]
      simp only [writeStr, List.cons_append, List.append_assoc]
      rw [skipWs_cons (by simp [isWs])]
      simp
    rw [hs]
    simp only [writeStr, List.cons_append] at hi ⊢
    rw [if_neg (by decide), hi]
    rfl

theorem reads (v : Json) : Reads v := by
  induction v using Json.ind with
  | hnull =>
    intro n fuel d rest _ _ hf _
    obtain ⟨fuel, rfl⟩ : ∃ f, fuel = f + 1 := ⟨fuel - 1, by simp [need] at hf; omega⟩
    rfl
  | hbool b =>
    intro n fuel d rest _ _ hf _
    obtain ⟨fuel, rfl⟩ : ∃ f, fuel = f + 1 := ⟨fuel - 1, by simp [need] at hf; omega⟩
    cases b <;> rfl
  | hnum t =>
    intro n fuel d rest ho _ hf hr
    obtain ⟨fuel, rfl⟩ : ∃ f, fuel = f + 1 := ⟨fuel - 1, by simp [need] at hf; omega⟩
    cases ho with
    | num h =>
      have hw := parseNum_write ((isNumber_iff _).2 h) hr
      obtain ⟨c, r, hcr, hws, _, _⟩ := pretty_head (.num t) n (.num h)
      have hcr' : t = c :: r := hcr
      obtain ⟨-, c', r', hc', hdig⟩ := isNumber_all ((isNumber_iff _).2 h)
      have : c' = c := by rw [hcr'] at hc'; exact (List.cons.inj hc').1.symm
      subst this
      rw [parseValue, pretty, hcr', List.cons_append, skipWs_cons hws]
      simp only
      rw [if_neg (by rintro rfl; revert hdig; decide), if_neg (by rintro rfl; revert hdig; decide),
        if_neg (by rintro rfl; revert hdig; decide), if_pos (by simpa using hdig), ← List.cons_append, ← hcr', hw]
  | hstr s =>
    intro n fuel d rest _ _ hf _
    obtain ⟨fuel, rfl⟩ : ∃ f, fuel = f + 1 := ⟨fuel - 1, by simp [need] at hf; omega⟩
    rw [parseValue, pretty, writeStr, List.cons_append, skipWs_cons (by simp [isWs])]
    simp only
    rw [if_pos (by trivial), List.append_assoc, List.singleton_append, parseStr_write]
    rfl
  | harr l ih =>
    intro n fuel d rest ho hd hf _
    simp only [need] at hf
    simp only [nesting] at hd
    obtain ⟨fuel, rfl⟩ : ∃ f, fuel = f + 1 := ⟨fuel - 1, by omega⟩
    cases ho with
    | arr h =>
      cases l with
      | nil =>
        rw [parseValue, pretty, List.cons_append, skipWs_cons (by simp [isWs])]
        simp only
        rw [if_neg (by decide), if_pos (by trivial), if_neg (by omega), List.singleton_append, skipWs_cons (by simp [isWs])]
        rfl
      | cons v l =>
        simp only [nestingL] at hd
        rw [parseValue, pretty, List.cons_append, skipWs_cons (by simp [isWs])]
        simp only
        rw [if_neg (by decide), if_pos (by trivial), if_neg (by omega)]
        have hi := items_ok (n + 1) n rest l v fuel (d - 1) (ih v (by simp)) (fun w hw => ih w (by simp [hw]))
          (h v (by simp)) (fun w hw => h w (by simp [hw])) (by omega) (by omega) (by omega)
        obtain ⟨c, r, hcr, hws, hb, _⟩ := pretty_head v (n + 1) (h v (by simp))
        have hs : skipWs ('\n' :: (indent (n + 1) ++ (pretty (n + 1) v ++ (prettyL (n + 1) l ++ '\n' :: (indent n ++ [']'])))) ++ rest) =
            pretty (n + 1) v ++ (prettyL (n + 1) l ++ '\n' :: (indent n ++ (']' :: rest))) := by
          rw [List.cons_append, skipWs_nl, List.append_assoc, skipWs_indent, hcr]
          simp only [List.cons_append, List.append_assoc]
          rw [skipWs_cons hws]
          simp
        rw [hs]
        rw [hcr, List.cons_append] at hi ⊢
        simp only
        rw [if_neg hb, hi]
        rfl
  | hobj l ih =>
    intro n fuel d rest ho hd hf _
    cases ho with
    | obj hp h =>
      have := obj_reads ih h n fuel d rest hd hf
      rwa [readMembers_nodup l [] hp, List.nil_append] at this

theorem parse_pretty {v : Json} (ho : JsonOk v) (hd : nesting v < 128) : parse (pretty 0 v) = some v := by
  have h := reads v 0 (2 * (pretty 0 v).length + 1) 128 [] ho hd (by have := need_le v 0 ho; omega) (by intro c hc; simp at hc)
  rw [List.append_nil] at h
  rw [parse, h]
  rfl

/-- Reading an object with repeated keys. -/
theorem parse_pretty_obj {l : List (List Char × Json)} (h : ∀ e ∈ l, JsonOk e.2) (hd : nesting (.obj l) < 128) :
    parse (pretty 0 (.obj l)) = some (.obj (readMembers l [])) := by
  have h := obj_reads (fun e _ => reads e.2) h 0 (2 * (pretty 0 (.obj l)).length + 1) 128 [] hd (by
    have := need_obj_le (fun e _ => need_le e.2) h 0; omega)
  rw [List.append_nil] at h
  rw [parse, h]
  rfl

theorem parseValue_num {fuel d : Nat} {s t r : List Char} (h : parseValue fuel d s = some (.num t, r)) : isNumber t = true := by
  cases fuel with
  | zero => cases h
  | succ fuel =>
    rw [parseValue] at h
    split at h
    · cases h
    split at h
    · obtain ⟨_, -, h⟩ := Option.map_eq_some_iff.1 h
      cases h
    split at h
    · split at h
      · cases h
      split at h
      · cases h
      split at h
      · cases h
      · obtain ⟨_, -, h⟩ := Option.map_eq_some_iff.1 h
        cases h
    split at h
    · split at h
      · cases h
      split at h
      · cases h
      split at h
      · cases h
      · obtain ⟨_, -, h⟩ := Option.map_eq_some_iff.1 h
        cases h
    split at h
    · rw [parseNum] at h
      split at h
      · rename_i hn
        cases h
        exact hn
      · cases h
    · rw [parseWord] at h
      split at h
      · cases h
      split at h
      · cases h
      split at h
      · cases h
      · cases h

/-! ## Prefixes -/

theorem parse_more (fuel : Nat) : ∀ d s,
    (∀ r, parseValue fuel d s = some r → parseValue (fuel + 1) d s = some r) ∧
    (∀ r, parseItems fuel d s = some r → parseItems (fuel + 1) d s = some r) ∧
    (∀ acc r, parseMembers fuel d acc s = some r → parseMembers (fuel + 1) d acc s = some r) := by
  induction fuel with
  | zero => exact fun d s => ⟨fun r h => (by cases h), fun r h => (by cases h), fun acc r h => (by cases h)⟩
  | succ fuel ih =>
    intro d s
    refine ⟨fun r h => ?_, fun r h => ?_, fun acc r h => ?_⟩
    · rw [parseValue] at h ⊢
      split at h
      · cases h
      · rename_i c s' hs
        try rw [hs]
        try simp only
        split at h
        · rename_i hc; rw [if_pos hc]; exact h
        rename_i hc; rw [if_neg hc]
        split at h
        · rename_i hc; rw [if_pos hc]
          split at h
          · cases h
          rename_i hd; rw [if_neg hd]
          split at h
          · cases h
          rename_i c' s'' hs'
          try rw [hs']
          try simp only
          split at h
          · rename_i hc; rw [if_pos hc]; exact h
          · rename_i hc; rw [if_neg hc]
            obtain ⟨q, hq, h⟩ := Option.map_eq_some_iff.1 h
            rw [(ih _ _).2.1 q hq]
            exact congrArg some h
        rename_i hc; rw [if_neg hc]
        split at h
        · rename_i hc; rw [if_pos hc]
          split at h
          · cases h
          rename_i hd; rw [if_neg hd]
          split at h
          · cases h
          rename_i c' s'' hs'
          try rw [hs']
          try simp only
          split at h
          · rename_i hc; rw [if_pos hc]; exact h
          · rename_i hc; rw [if_neg hc]
            obtain ⟨q, hq, h⟩ := Option.map_eq_some_iff.1 h
            rw [(ih _ _).2.2 _ q hq]
            exact congrArg some h
        · rename_i hc; rw [if_neg hc]; exact h
    · rw [parseItems] at h ⊢
      obtain ⟨q, hq, h⟩ := Option.bind_eq_some_iff.1 h
      rw [(ih _ _).1 q hq, Option.bind_some]
      split at h
      · cases h
      · rename_i hs
        try rw [hs]
        try simp only
        split at h
        · rename_i hc; rw [if_pos hc]; exact h
        rename_i hc; rw [if_neg hc]
        split at h
        · rename_i hc; rw [if_pos hc]
          obtain ⟨q', hq', h⟩ := Option.map_eq_some_iff.1 h
          rw [(ih _ _).2.1 q' hq']
          exact congrArg some h
        · cases h
    · rw [parseMembers] at h ⊢
      split at h
      · cases h
      · rename_i hs
        try rw [hs]
        try simp only
        split at h
        · rename_i hc; rw [if_pos hc]
          obtain ⟨k, hk, h⟩ := Option.bind_eq_some_iff.1 h
          rw [hk, Option.bind_some]
          split at h
          · cases h
          · rename_i hs
            try rw [hs]
            try simp only
            split at h
            · rename_i hc; rw [if_pos hc]
              obtain ⟨q, hq, h⟩ := Option.bind_eq_some_iff.1 h
              rw [(ih _ _).1 q hq, Option.bind_some]
              split at h
              · cases h
              · rename_i hs
                try rw [hs]
                try simp only
                split at h
                · rename_i hc; rw [if_pos hc]; exact h
                rename_i hc; rw [if_neg hc]
                split at h
                · rename_i hc; rw [if_pos hc]
                  exact (ih _ _).2.2 _ r h
                · cases h
            · cases h
        · cases h

theorem parseValue_le {fuel fuel' : Nat} (h : fuel ≤ fuel') {d : Nat} {s : List Char} {r : Json × List Char}
    (hp : parseValue fuel d s = some r) : parseValue fuel' d s = some r := by
  induction h with
  | refl => exact hp
  | step _ ih => exact (parse_more _ _ _).1 r ih

theorem skipWs_append_cons {s s' : List Char} {c : Char} (h : skipWs s = c :: s') (x : List Char) :
    skipWs (s ++ x) = c :: (s' ++ x) := by
  induction s with
  | nil => cases h
  | cons a s ih =>
    rw [skipWs] at h
    rw [List.cons_append, skipWs]
    split at h
    · rename_i ha; rw [if_pos ha]; exact ih h
    · rename_i ha; rw [if_neg ha]; cases h; rfl

/-- The value is a number. -/
def IsNum : Json → Prop
  | .num _ => True
  | _ => False

/-- More text behind what is read changes nothing, unless a number is continued. -/
theorem parse_local (fuel : Nat) (x : List Char) : ∀ d s,
    (∀ v r, parseValue fuel d s = some (v, r) → (r ≠ [] ∨ ¬ IsNum v) → parseValue fuel d (s ++ x) = some (v, r ++ x)) ∧
    (∀ v r, parseItems fuel d s = some (v, r) → parseItems fuel d (s ++ x) = some (v, r ++ x)) ∧
    (∀ acc v r, parseMembers fuel d acc s = some (v, r) → parseMembers fuel d acc (s ++ x) = some (v, r ++ x)) := by
  induction fuel with
  | zero => exact fun d s => ⟨fun v r h => (by cases h), fun v r h => (by cases h), fun acc v r h => (by cases h)⟩
  | succ fuel ih =>
    intro d s
    refine ⟨fun v r h hn => ?_, fun v r h => ?_, fun acc v r h => ?_⟩
    · rw [parseValue] at h ⊢
      split at h
      · cases h
      · rename_i c s' hs
        rw [skipWs_append_cons hs]
        simp only
        split at h
        · rename_i hc; rw [if_pos hc]
          obtain ⟨q, hq, h⟩ := Option.map_eq_some_iff.1 h
          cases h
          rw [parseStr_local _ x hq]
          rfl
        rename_i hc; rw [if_neg hc]
        split at h
        · rename_i hc; rw [if_pos hc]
          split at h
          · cases h
          rename_i hd; rw [if_neg hd]
          split at h
          · cases h
          rename_i c' s'' hs'
          rw [skipWs_append_cons hs']
          simp only
          split at h
          · rename_i hc; rw [if_pos hc]; cases h; rfl
          · rename_i hc; rw [if_neg hc]
            obtain ⟨q, hq, h⟩ := Option.map_eq_some_iff.1 h
            cases h
            rw [← List.cons_append, (ih _ _).2.1 _ _ hq]
            rfl
        rename_i hc; rw [if_neg hc]
        split at h
        · rename_i hc; rw [if_pos hc]
          split at h
          · cases h
          rename_i hd; rw [if_neg hd]
          split at h
          · cases h
          rename_i c' s'' hs'
          rw [skipWs_append_cons hs']
          simp only
          split at h
          · rename_i hc; rw [if_pos hc]; cases h; rfl
          · rename_i hc; rw [if_neg hc]
            obtain ⟨q, hq, h⟩ := Option.map_eq_some_iff.1 h
            cases h
            rw [← List.cons_append, (ih _ _).2.2 _ _ _ hq]
            rfl
        · rename_i hc; rw [if_neg hc]
          split at h
          · rename_i hc; rw [if_pos hc]
            refine parseNum_local (s := c :: s') h ?_
            rcases hn with hn | hn
            · exact hn
            · exfalso
              unfold parseNum at h
              simp only at h
              split at h
              · cases h; exact hn trivial
              · cases h
          · rename_i hc; rw [if_neg hc]
            exact parseWord_local (s := c :: s') h
    · rw [parseItems] at h ⊢
      obtain ⟨q, hq, h⟩ := Option.bind_eq_some_iff.1 h
      obtain ⟨v0, r0⟩ := q
      split at h
      · cases h
      · rename_i c s' hs
        have hne : r0 ≠ [] := by rintro rfl; cases hs
        rw [(ih _ _).1 _ _ hq (Or.inl hne), Option.bind_some]
        simp only
        rw [skipWs_append_cons hs]
        simp only
        split at h
        · rename_i hc; rw [if_pos hc]; cases h; rfl
        rename_i hc; rw [if_neg hc]
        split at h
        · rename_i hc; rw [if_pos hc]
          obtain ⟨q', hq', h⟩ := Option.map_eq_some_iff.1 h
          cases h
          rw [(ih _ _).2.1 _ _ hq']
          rfl
        · cases h
    · rw [parseMembers] at h ⊢
      split at h
      · cases h
      · rename_i c s' hs
        rw [skipWs_append_cons hs]
        simp only
        split at h
        · rename_i hc; rw [if_pos hc]
          obtain ⟨k, hk, h⟩ := Option.bind_eq_some_iff.1 h
          rw [parseStr_local _ x hk, Option.bind_some]
          simp only
          split at h
          · cases h
          · rename_i c' s'' hs'
            rw [skipWs_append_cons hs']
            simp only
            split at h
            · rename_i hc; rw [if_pos hc]
              obtain ⟨⟨v0, r0⟩, hq, h⟩ := Option.bind_eq_some_iff.1 h
              split at h
              · cases h
              · rename_i c3 s3 hs3
                have hne : r0 ≠ [] := by rintro rfl; cases hs3
                rw [(ih _ _).1 _ _ hq (Or.inl hne), Option.bind_some]
                simp only
                rw [skipWs_append_cons hs3]
                simp only
                split at h
                · rename_i hc; rw [if_pos hc]; cases h; rfl
                rename_i hc; rw [if_neg hc]
                split at h
                · rename_i hc; rw [if_pos hc]
                  exact (ih _ _).2.2 _ _ _ h
                · cases h
            · cases h
        · cases h

/-- No proper prefix of the text of an array can be read. -/
theorem parse_prefix {l : List Json} (ho : JsonOk (.arr l)) (hd : nesting (.arr l) < 128) {p x : List Char}
    (hp : pretty 0 (.arr l) = p ++ x) (hx : x ≠ []) : parse p = none := by
  cases hpar : parse p with
  | none => rfl
  | some v =>
    exfalso
    unfold parse at hpar
    obtain ⟨⟨v', r⟩, hv, -⟩ := Option.bind_eq_some_iff.1 hpar
    have hnum : ¬ IsNum v' := by
      cases p with
      | nil => rw [parseValue] at hv; cases hv
      | cons c p =>
        have hc : c = '[' := by
          cases l with
          | nil => simp [pretty] at hp; exact hp.1.symm
          | cons a l => rw [pretty] at hp; exact (List.cons.inj hp).1.symm
        subst hc
        rw [parseValue, skipWs_cons (by simp [isWs])] at hv
        simp only at hv
        rw [if_neg (by decide), if_pos (by trivial)] at hv
        split at hv
        · cases hv
        split at hv
        · cases hv
        split at hv
        · cases hv; exact id
        · obtain ⟨q, -, hq⟩ := Option.map_eq_some_iff.1 hv
          cases hq
          exact id
    have h1 := (parse_local _ x _ _).1 _ _ hv (Or.inr hnum)
    rw [← hp] at h1
    have h2 := reads (.arr l) 0 (2 * (pretty 0 (.arr l)).length + 1) 128 [] ho hd
      (by have := need_le (.arr l) 0 ho; omega) (by intro c hc; simp at hc)
    rw [List.append_nil, parseValue_le (by rw [hp, List.length_append]; omega) h1] at h2
    simp only [Option.some.injEq, Prod.mk.injEq, List.append_eq_nil_iff] at h2
    exact hx h2.2.2

end Json
end Ruler
