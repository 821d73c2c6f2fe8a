import Verif.Proofs.Logger
/-!
# C54: the result log
-/
namespace Ruler
open Spec

theorem nestingL_lt {l : List Json} {n : Nat} (hn : 0 < n) (h : ∀ v ∈ l, nesting v < n) : nestingL l < n := by
  induction l with
  | nil => exact hn
  | cons v l ih =>
    have h1 := h v (by simp)
    have h2 := ih fun w hw => h w (by simp [hw])
    simp only [nestingL]
    omega

theorem rows_ok {rows : List Json} (h : ∀ r ∈ rows, RowOk r) : JsonOk (.arr rows) ∧ nesting (.arr rows) < 128 := by
  refine ⟨.arr fun v hv => (h v hv).1, ?_⟩
  have := nestingL_lt (n := 127) (by omega) fun v hv => (h v hv).2
  simp only [nesting]
  omega

theorem pretty_ne_nil (l : List Json) : Json.pretty 0 (.arr l) ≠ [] := by
  cases l <;> simp [Json.pretty]

theorem logged_pretty {rows : List Json} (h : ∀ r ∈ rows, RowOk r) : Logged (some (Json.pretty 0 (.arr rows))) rows :=
  Or.inr ⟨_, rfl, pretty_ne_nil _, Json.parse_pretty (rows_ok h).1 (rows_ok h).2⟩

theorem logText_of {f : LogFile} {rows : List Json} (h : Logged f rows) (row : Json) :
    logText (f.getD []) row = some (Json.pretty 0 (.arr (rows ++ [row]))) := by
  unfold logText
  rcases h with ⟨h1, rfl⟩ | ⟨s, rfl, hs, hp⟩
  · rw [if_pos h1]; rfl
  · rw [if_neg (by simpa using hs)]
    simp only [Option.getD_some, hp]

/-- **C54.** Of several members of an object with the same key the last is read. -/
theorem C54_repeated_key {l : List (List Char × Json)} (h : ∀ e ∈ l, JsonOk e.2) (hd : nesting (.obj l) < 128) :
    ∃ l', Json.parse (Json.pretty 0 (.obj l)) = some (.obj l') ∧ (l'.map Prod.fst).Nodup ∧ ∀ k, l'.lookup k = l.reverse.lookup k := by
  obtain ⟨h1, h2⟩ := Json.readMembers_spec l [] (by simp)
  exact ⟨_, Json.parse_pretty_obj h hd, h1, fun k => by rw [h2]; simp⟩

/-- Test: the later value of a key is read. -/
example : (Json.parse "{\"a\": 1, \"b\": 2, \"a\": 3}".toList).map (Json.pretty 0) =
    some "{\n  \"a\": 3,\n  \"b\": 2\n}".toList := by decide +kernel

/-- **C54.** The numbers that can be read are those of the grammar. -/
theorem C54_numbers (t : List Char) : Json.parse t = some (.num t) ↔ Numeral t := by
  constructor
  · intro h
    obtain ⟨⟨v, r⟩, h1, h2⟩ := Option.bind_eq_some_iff.1 h
    split at h2
    · cases h2
      exact (Json.isNumber_iff t).1 (Json.parseValue_num h1)
    · cases h2
  · intro h
    exact Json.parse_pretty (v := .num t) (.num h) (by simp [nesting])

/-- Test: times are numbers. -/
example : Numeral "12.25".toList ∧ Numeral "-30e+17".toList ∧ Numeral "0".toList ∧ ¬ Numeral "012".toList ∧ ¬ Numeral "1.".toList :=
  ⟨by decide +kernel, by decide +kernel, by decide +kernel, by decide +kernel, by decide +kernel⟩

/-- **C54.** A call does not panic, keeps all rows of the file and appends its own. -/
theorem C54_append {f : LogFile} {rows : List Json} {row : Json} (hf : Logged f rows) (hr : ∀ r ∈ rows, RowOk r)
    (hrow : RowOk row) : ∃ f', addJsonToFile f row = some f' ∧ Logged f' (rows ++ [row]) := by
  refine ⟨some (Json.pretty 0 (.arr (rows ++ [row]))), ?_, logged_pretty ?_⟩
  · rw [addJsonToFile, logText_of hf]; rfl
  · intro r h
    rcases List.mem_append.1 h with h | h
    · exact hr r h
    · rw [List.mem_singleton.1 h]; exact hrow

/-- **C54.** After any history of calls the file holds the earlier rows and those of the calls, in this order. -/
theorem C54_history {f : LogFile} {rows news : List Json} (hf : Logged f rows) (hr : ∀ r ∈ rows, RowOk r)
    (hn : ∀ r ∈ news, RowOk r) : ∃ f', news.foldlM addJsonToFile f = some f' ∧ Logged f' (rows ++ news) := by
  induction news generalizing f rows with
  | nil => exact ⟨f, rfl, by simpa using hf⟩
  | cons a news ih =>
    obtain ⟨f1, h1, h2⟩ := C54_append hf hr (hn a (by simp))
    obtain ⟨f2, h3, h4⟩ := ih h2 (fun r h => by
      rcases List.mem_append.1 h with h | h
      · exact hr r h
      · rw [List.mem_singleton.1 h]; exact hn a (by simp)) (fun r h => hn r (by simp [h]))
    refine ⟨f2, ?_, by simpa using h4⟩
    rw [List.foldlM_cons, h1]
    exact h3

/-- What a file holds is determined. -/
theorem C54_determined {f : LogFile} {a b : List Json} (ha : Logged f a) (hb : Logged f b) : a = b := by
  rcases ha with ⟨h1, rfl⟩ | ⟨s, rfl, hs, hp⟩
  · rcases hb with ⟨_, rfl⟩ | ⟨s, rfl, hs, _⟩
    · rfl
    · exact absurd h1 (by simpa using hs)
  · rcases hb with ⟨h1, _⟩ | ⟨s', h', _, hp'⟩
    · exact absurd h1 (by simpa using hs)
    · cases h'
      rw [hp] at hp'
      cases hp'
      rfl

/-! ## Interrupted calls -/

/-- The steps of one call that writes its text in the given portions. -/
def callSteps (i : Nat) (portions : List Nat) : List (Nat × LogStep) :=
  (i, .openFile) :: (i, .read) :: (i, .truncate) :: portions.map fun n => (i, .write n)

theorem logSchedule_append (rows : Nat → Json) (a b : List (Nat × LogStep)) (st : LogFile × (Nat → LogCall)) :
    logSchedule rows (a ++ b) st = (logSchedule rows a st).bind (logSchedule rows b) := by
  induction a generalizing st with
  | nil => rfl
  | cons e a ih =>
    obtain ⟨i, s⟩ := e
    obtain ⟨f, ks⟩ := st
    rw [List.cons_append, logSchedule, logSchedule]
    cases logStep (rows i) f (ks i) s with
    | none => rfl
    | some r => exact ih _

/-- Writing in portions: the file is a prefix of the text. -/
theorem write_portions (rows : Nat → Json) (i : Nat) (t : List Char) (portions : List Nat) : ∀ (k : Nat)
    (ks : Nat → LogCall), k ≤ t.length → ks i = ⟨some t, k⟩ →
    ∃ ks', logSchedule rows (portions.map fun n => (i, LogStep.write n)) (some (t.take k), ks) =
      some (some (t.take (k + portions.sum)), ks') ∧ (∀ j, j ≠ i → ks' j = ks j) := by
  induction portions with
  | nil => intro k ks _ _; exact ⟨ks, rfl, fun _ _ => rfl⟩
  | cons n portions ih =>
    intro k ks hk hks
    have hov : overlay (t.take k) k ((t.drop k).take n) = t.take (min (k + n) t.length) := by
      unfold overlay
      have hl : (t.take k).length = k := by simp [hk]
      rw [hl, Nat.sub_self, List.replicate_zero, List.append_nil, List.take_take, Nat.min_self,
        List.drop_eq_nil_of_le (as := t.take k) (by omega), List.append_nil, ← List.take_add]
      by_cases hle : k + n ≤ t.length
      · rw [Nat.min_eq_left hle]
      · rw [List.take_of_length_le (by omega), Nat.min_eq_right (by omega), List.take_length]
    rw [List.map_cons, logSchedule, hks, logStep]
    simp only [Option.bind_some, Option.map_some]
    rw [hov]
    obtain ⟨ks', h1, h2⟩ := ih (min (k + n) t.length) (fun j => if j = i then ⟨some t, min (k + n) t.length⟩ else ks j)
      (by omega) (by simp)
    refine ⟨ks', ?_, fun j hj => ?_⟩
    · rw [h1]
      congr 3
      rw [List.sum_cons]
      by_cases hle : k + n ≤ t.length
      · rw [Nat.min_eq_left hle, Nat.add_assoc]
      · rw [List.take_of_length_le (by omega), List.take_of_length_le (by omega)]
    · rw [h2 j hj]
      simp [hj]

theorem callSteps_run {f : LogFile} {rows : List Json} (hf : Logged f rows) (row : Nat → Json) (i : Nat)
    (portions : List Nat) (ks : Nat → LogCall) : ∃ ks', logSchedule row (callSteps i portions) (f, ks) =
      some (some ((Json.pretty 0 (.arr (rows ++ [row i]))).take portions.sum), ks') ∧ ∀ j, j ≠ i → ks' j = ks j := by
  have ht := logText_of hf (row i)
  set t := Json.pretty 0 (.arr (rows ++ [row i])) with htdef
  obtain ⟨ks', h1, h2⟩ := write_portions row i t portions 0
    (fun j => if j = i then ⟨some t, 0⟩ else ks j) (by omega) (by simp)
  refine ⟨ks', ?_, fun j hj => by rw [h2 j hj]; simp [hj]⟩
  rw [List.take_zero, Nat.zero_add] at h1
  rw [← h1]
  unfold callSteps
  rw [logSchedule, logStep, Option.bind_some, logSchedule]
  simp only [logStep, Option.bind_some, if_true, ht, Option.map_some]
  rw [logSchedule]
  simp only [logStep, if_true, Option.map_some, Option.bind_some]
  congr 2
  funext j
  by_cases hj : j = i <;> simp [hj]

/-- **C54.** A call that is not disturbed and writes its whole text does what `add_json_to_file` does, in whatever portions it
writes. -/
theorem C54_serial {f : LogFile} {rows : List Json} (hf : Logged f rows) (row : Nat → Json) (i : Nat) (portions : List Nat)
    (ks : Nat → LogCall) {f' : LogFile} (hall : addJsonToFile f (row i) = some f')
    (hsum : (f'.getD []).length ≤ portions.sum) :
    ∃ ks', logSchedule row (callSteps i portions) (f, ks) = some (f', ks') := by
  rw [addJsonToFile, logText_of hf, Option.map_some, Option.some.injEq] at hall
  subst hall
  obtain ⟨ks', h, -⟩ := callSteps_run hf row i portions ks
  exact ⟨ks', by rw [h, List.take_of_length_le (by simpa using hsum)]⟩

/-- **C54.** A call that is interrupted after any of its steps leaves the file with the earlier rows; or empty, so that the
next call starts from nothing; or in a state in which every later call panics; or with its own row appended. -/
theorem C54_interrupted {f : LogFile} {rows : List Json} (hf : Logged f rows) (hr : ∀ r ∈ rows, RowOk r)
    (row : Nat → Json) (i : Nat) (hrow : RowOk (row i)) (portions : List Nat) (ks : Nat → LogCall)
    {steps rest : List (Nat × LogStep)} (hs : callSteps i portions = steps ++ rest) :
    ∃ f' ks', logSchedule row steps (f, ks) = some (f', ks') ∧
      (Logged f' rows ∨ f' = some [] ∨ (∀ row', addJsonToFile f' row' = none) ∨ Logged f' (rows ++ [row i])) := by
  have hopen : Logged (some (f.getD [])) rows := by
    rcases hf with ⟨h1, h2⟩ | ⟨s, rfl, hs, hp⟩
    · exact Or.inl ⟨by simpa using h1, h2⟩
    · exact Or.inr ⟨s, rfl, hs, hp⟩
  have ht := logText_of hf (row i)
  match steps with
  | [] => exact ⟨f, ks, rfl, Or.inl hf⟩
  | [a] =>
    cases hs
    exact ⟨_, _, rfl, Or.inl hopen⟩
  | [a, b] =>
    cases hs
    have : ∃ ks', logSchedule row [(i, .openFile), (i, .read)] (f, ks) = some (some (f.getD []), ks') := by
      simp only [logSchedule, logStep, Option.bind_some, ht, Option.map_some]
      exact ⟨_, rfl⟩
    obtain ⟨ks', h⟩ := this
    exact ⟨_, ks', h, Or.inl hopen⟩
  | a :: b :: c :: steps =>
    unfold callSteps at hs
    simp only [List.cons_append, List.cons.injEq] at hs
    obtain ⟨rfl, rfl, rfl, hs⟩ := hs
    obtain ⟨p1, p2, rfl, rfl, hp2⟩ : ∃ p1 p2, portions = p1 ++ p2 ∧ steps = p1.map (fun n => (i, LogStep.write n)) ∧
        rest = p2.map (fun n => (i, LogStep.write n)) := by
      obtain ⟨l1, l2, h1, h2, h3⟩ := List.map_eq_append_iff.1 hs
      exact ⟨l1, l2, h1, h2.symm, h3.symm⟩
    obtain ⟨ks', h, -⟩ := callSteps_run hf row i p1 ks
    refine ⟨_, ks', h, ?_⟩
    have hok : ∀ r ∈ rows ++ [row i], RowOk r := by
      intro r h
      rcases List.mem_append.1 h with h | h
      · exact hr r h
      · rw [List.mem_singleton.1 h]; exact hrow
    by_cases h0 : p1.sum = 0
    · right; left
      rw [h0, List.take_zero]
    · right; right
      by_cases hlt : p1.sum < (Json.pretty 0 (.arr (rows ++ [row i]))).length
      · left
        intro row'
        have hpre := Json.parse_prefix (rows_ok hok).1 (rows_ok hok).2
          (List.take_append_drop p1.sum (Json.pretty 0 (.arr (rows ++ [row i])))).symm
          (by intro h; have := congrArg List.length h; simp at this; omega)
        have hne : (Json.pretty 0 (.arr (rows ++ [row i]))).take p1.sum ≠ [] := by
          intro h
          have := congrArg List.length h
          rw [List.length_take, List.length_nil] at this
          omega
        rw [addJsonToFile, logText, Option.getD_some, if_neg hne, hpre]
        rfl
      · right
        rw [List.take_of_length_le (by omega)]
        exact logged_pretty hok

/-- **C54.** All rows are lost when a call is interrupted after truncating the file: the next call logs only its own. -/
theorem C54_interruption_loses {f : LogFile} {rows : List Json} (hf : Logged f rows) (row : Nat → Json) (i : Nat)
    (ks : Nat → LogCall) {new : Json} (hnew : RowOk new) :
    ∃ f' ks' f'', logSchedule row (callSteps i []) (f, ks) = some (f', ks') ∧ addJsonToFile f' new = some f'' ∧
      Logged f'' [new] := by
  obtain ⟨ks', h, -⟩ := callSteps_run hf row i [] ks
  exact ⟨_, ks', _, h, rfl, logged_pretty (by simpa using hnew)⟩

/-! ## Calls at the same time -/

/-- **C54 does not hold for calls that overlap.** If two calls read the file before either writes it, both succeed and the row
of the one that writes first is lost. -/
theorem C54_overlap_loses_row {f : LogFile} {rows : List Json} (hf : Logged f rows) (hr : ∀ r ∈ rows, RowOk r)
    (row : Nat → Json) (h1 : RowOk (row 1)) (ks : Nat → LogCall) :
    ∃ n m f' ks', logSchedule row
      [(0, .openFile), (0, .read), (1, .openFile), (1, .read), (0, .truncate), (0, .write n), (1, .truncate), (1, .write m)]
      (f, ks) = some (f', ks') ∧ (f'.getD []).length ≤ m ∧ Logged f' (rows ++ [row 1]) := by
  have t0 := logText_of hf (row 0)
  have t1 := logText_of hf (row 1)
  refine ⟨(Json.pretty 0 (.arr (rows ++ [row 0]))).length, (Json.pretty 0 (.arr (rows ++ [row 1]))).length,
    some (Json.pretty 0 (.arr (rows ++ [row 1]))), ?_⟩
  simp only [logSchedule, logStep, Option.bind_some, Option.map_some, Option.getD_some, t0, t1, if_true]
  simp only [Nat.one_ne_zero, Nat.zero_ne_one, if_false, Option.map_some, Option.bind_some]
  refine ⟨fun j =>
    if j = 1 then ⟨some (Json.pretty 0 (.arr (rows ++ [row 1]))), (Json.pretty 0 (.arr (rows ++ [row 1]))).length⟩
    else if j = 0 then ⟨some (Json.pretty 0 (.arr (rows ++ [row 0]))), (Json.pretty 0 (.arr (rows ++ [row 0]))).length⟩
    else ks j, ?_, Nat.le_refl _, logged_pretty ?_⟩
  · simp only [Option.some.injEq, Prod.mk.injEq]
    refine ⟨?_, ?_⟩
    · simp [overlay]
    · funext j
      by_cases hj1 : j = 1
      · subst hj1; simp
      · by_cases hj0 : j = 0
        · subst hj0; simp
        · simp [hj0, hj1]
  · intro r h
    rcases List.mem_append.1 h with h | h
    · exact hr r h
    · rw [List.mem_singleton.1 h]; exact h1

/-- **C54 does not hold for calls that overlap.** If a call reads the file while another one has written part of it, it
panics. -/
theorem C54_overlap_panics {f : LogFile} {rows : List Json} (hf : Logged f rows) (hr : ∀ r ∈ rows, RowOk r)
    (row : Nat → Json) (h0 : RowOk (row 0)) (ks : Nat → LogCall) :
    logSchedule row [(0, .openFile), (0, .read), (0, .truncate), (0, .write 1), (1, .openFile), (1, .read)] (f, ks) = none := by
  obtain ⟨f', ks', h, hcase⟩ := C54_interrupted hf hr row 0 h0 [1] ks (rest := []) (List.append_nil _).symm
  obtain ⟨ks2, h2, -⟩ := callSteps_run hf row 0 [1] ks
  rw [h] at h2
  simp only [Option.some.injEq, Prod.mk.injEq] at h2
  obtain ⟨hf', -⟩ := h2
  have hok : ∀ r ∈ rows ++ [row 0], RowOk r := by
    intro r h
    rcases List.mem_append.1 h with h | h
    · exact hr r h
    · rw [List.mem_singleton.1 h]; exact h0
  have hhead : ∃ c t, Json.pretty 0 (.arr (rows ++ [row 0])) = '[' :: c :: t := by
    cases h : rows ++ [row 0] with
    | nil => simp at h
    | cons v l => exact ⟨_, _, by rw [Json.pretty]⟩
  obtain ⟨c, t, hct⟩ := hhead
  have hpre : Json.parse ['['] = none :=
    Json.parse_prefix (rows_ok hok).1 (rows_ok hok).2 (p := ['[']) (x := c :: t) hct (by simp)
  have hf'' : f' = some ['['] := by rw [hf', hct]; rfl
  have e : ([(0, .openFile), (0, .read), (0, .truncate), (0, .write 1), (1, .openFile), (1, .read)] : List (Nat × LogStep)) =
      callSteps 0 [1] ++ [(1, .openFile), (1, .read)] := rfl
  rw [e, logSchedule_append, h, Option.bind_some, hf'']
  simp only [logSchedule, logStep, Option.bind_some, Option.getD_some]
  have hlt : logText ['['] (row 1) = none := by rw [logText, if_neg (List.cons_ne_nil _ _), hpre]
  rw [hlt]
  rfl

/-! ## Nesting -/

/-- Arrays nested to the given depth. -/
def tower : Nat → Json
  | 0 => .null
  | k + 1 => .arr [tower k]

theorem tower_ok (k : Nat) : JsonOk (tower k) := by
  induction k with
  | zero => exact .null
  | succ k ih => exact .arr (by simpa using ih)

theorem tower_unreadable (k : Nat) : ∀ n fuel d rest, 1 ≤ d → d ≤ k →
    Json.parseValue fuel d (Json.pretty n (tower k) ++ rest) = none := by
  induction k with
  | zero => intro n fuel d rest h1 h2; omega
  | succ k ih =>
    intro n fuel d rest h1 h2
    cases fuel with
    | zero => rfl
    | succ fuel =>
      rw [tower, Json.parseValue, Json.pretty, List.cons_append, Json.skipWs_cons (by simp [Json.isWs])]
      simp only
      rw [if_neg (by decide), if_pos (by trivial)]
      by_cases hd : d ≤ 1
      · rw [if_pos hd]
      · rw [if_neg hd, List.cons_append, Json.skipWs_nl, List.append_assoc, Json.skipWs_indent]
        obtain ⟨c, r, hcr, hws, hb, _⟩ := Json.pretty_head (tower k) (n + 1) (tower_ok k)
        have hv := fun fuel rest => ih (n + 1) fuel (d - 1) rest (by omega) (by omega)
        rw [hcr] at hv
        rw [hcr, List.cons_append, List.cons_append, Json.skipWs_cons hws]
        simp only
        rw [if_neg hb]
        cases fuel with
        | zero => rfl
        | succ fuel =>
          rw [Json.parseItems]
          have := hv fuel ((Json.prettyL (n + 1) [] ++ '\n' :: (Json.indent n ++ [']'])) ++ rest)
          rw [List.cons_append, ← List.append_assoc] at this
          rw [this]
          rfl

/-- **C54.** The limit on the nesting is needed: a row nested 127 deep is written, but every call after that panics. -/
theorem C54_nesting_limit : nesting (tower 127) = 127 ∧
    ∃ f, addJsonToFile none (tower 127) = some f ∧ ∀ row, addJsonToFile f row = none := by
  refine ⟨?_, _, rfl, fun row => ?_⟩
  · have : ∀ k, nesting (tower k) = k := by
      intro k
      induction k with
      | zero => rfl
      | succ k ih => simp only [tower, nesting, nestingL, ih]; omega
    exact this 127
  · have hp : Json.parse (Json.pretty 0 (.arr [tower 127])) = none := by
      have := tower_unreadable 128 0 (2 * (Json.pretty 0 (tower 128)).length + 1) 128 [] (by omega) (by omega)
      rw [List.append_nil] at this
      show Json.parse (Json.pretty 0 (tower 128)) = none
      rw [Json.parse, this]
      rfl
    show (logText (Json.pretty 0 (.arr [tower 127])) row).map some = none
    rw [logText, if_neg (pretty_ne_nil _), hp]
    rfl

/-! ## Examples -/

namespace Sample

/-- A row as `write_ff_phase` makes it, with a quotation mark and a line break in the rules. -/
def logRow : Json :=
  .obj [("TYPE".toList, .str "ff_phases".toList), ("rules".toList, .arr [.str "(f \"a\")\n".toList, .str []]),
    ("time".toList, .num "-0.5e+3".toList)]

theorem logRow_ok : RowOk logRow := by
  refine ⟨.obj (by decide) ?_, by decide⟩
  intro e he
  simp only [List.mem_cons, List.not_mem_nil, or_false] at he
  rcases he with rfl | rfl | rfl
  · exact .str _
  · refine .arr ?_
    intro v hv
    simp only [List.mem_cons, List.not_mem_nil, or_false] at hv
    rcases hv with rfl | rfl <;> exact .str _
  · exact .num (by decide)

end Sample

example : ∃ f, [Sample.logRow, Json.null, Sample.logRow].foldlM addJsonToFile none = some f ∧
    Logged f [Sample.logRow, .null, Sample.logRow] := by
  refine C54_history (rows := []) (Or.inl ⟨rfl, rfl⟩) (by simp) ?_
  intro r hr
  simp only [List.mem_cons, List.not_mem_nil, or_false] at hr
  rcases hr with rfl | rfl | rfl
  · exact Sample.logRow_ok
  · exact ⟨.null, by decide⟩
  · exact Sample.logRow_ok

-- The text is the one `serde_json` prints.
example : Json.pretty 0 (.arr [.obj [("a".toList, .num "1".toList), ("b".toList, .arr [])]]) =
    "[\n  {\n    \"a\": 1,\n    \"b\": []\n  }\n]".toList := by decide +kernel

end Ruler
