import Verif.Proofs.LogRows
import Verif.Props.Logger
/-!
# C76: the rows of the result tables say what was computed

What `write_baseline`, `write_bv_derivability` and `write_ff_phase` (src/logger.rs) add to the log.
-/
namespace Ruler
open Spec
variable {O C V : Type} [Lang O]

/-- Read a row. -/
local macro "row" : tactic => `(tactic| ((try simp only [HasText, HasTexts, HasNum, List.cons_append, List.nil_append]); (repeat first | rw [field_here] | rw [field_skip (by decide)]); (try rw [field_nil]); (try rfl)))

/-- **C76 (Table 1).** A row of the table of phases names the schedule and rules of each phase, and lists the rules found, in their order;
earlier rows stay. -/
theorem C76_ff {f : LogFile} {rows : List Json} (hf : Logged f rows) (hr : ∀ r ∈ rows, RowOk r)
    (p1 p2 p3 : Scheduler × List Char) {time : List Char} (ht : Numeral time) {rules : Ruleset O}
    (hw : WellFormed rules) :
    ∃ f' row, writeFfPhase p1 p2 p3 time rules f = some f' ∧ Logged f' (rows ++ [row]) ∧ RowOk row ∧
      HasText row ["TYPE"] "ff_phases".toList ∧ HasTexts row ["rules"] ((Ruleset.iter rules).map Rule.name) ∧
      HasNum row ["time"] time ∧
      ∀ k p, (k, p) ∈ [("phase1", p1), ("phase2", p2), ("phase3", p3)] → ∃ w, HasText row [k] (w ++ " (".toList ++ p.2 ++ [')']) ∧
        (w = "eqsat".toList ↔ ∃ l, p.1 = .simple l) ∧ (w = "sat".toList ↔ ∃ l, p.1 = .saturating l) ∧
        (w = "compress".toList ↔ ∃ l, p.1 = .compress l) := by
  have hn : (Ruleset.iter rules).map Rule.name = Ruleset.toStrVec rules := by
    rw [Ruleset.iter, List.map_map]
    exact List.map_congr_left fun e he => (hw.1 e he).symm
  have hok : RowOk (.object [("TYPE", .str "ff_phases".toList), ("phase1", .str (phaseText p1.1 p1.2)),
      ("phase2", .str (phaseText p2.1 p2.2)), ("phase3", .str (phaseText p3.1 p3.2)), ("time", .num time),
      ("rules", .texts (Ruleset.toStrVec rules))]) := by
    refine ⟨jsonOk_object (by simp only [List.map_cons, List.map_nil]; decide) ?_,
      Nat.lt_of_le_of_lt (nesting_object (k := 1) ?_) (by decide)⟩
    · simp only [List.forall_mem_cons]
      exact ⟨.str _, .str _, .str _, .str _, .num ht, jsonOk_texts _, by simp⟩
    · simp only [List.forall_mem_cons, nesting_texts]
      simp [nesting]
  obtain ⟨f', h1, h2⟩ := C54_append hf hr hok
  refine ⟨f', _, h1, h2, hok, by row, by rw [hn]; row, by row, ?_⟩
  intro k p hkp
  have hp : ∀ (s : Scheduler) (n : List Char), ∃ w, phaseText s n = w ++ " (".toList ++ n ++ [')'] ∧
      (w = "eqsat".toList ↔ ∃ l, s = .simple l) ∧ (w = "sat".toList ↔ ∃ l, s = .saturating l) ∧
      (w = "compress".toList ↔ ∃ l, s = .compress l) := by
    intro s n
    have hpar : ")".toList = [')'] := by decide
    have d1 : "eqsat".toList ≠ "sat".toList := by decide
    have d2 : "eqsat".toList ≠ "compress".toList := by decide
    have d3 : "sat".toList ≠ "compress".toList := by decide
    refine ⟨schedulerName s, by rw [phaseText, hpar, List.append_assoc, List.append_assoc], ?_⟩
    cases s with
    | simple l =>
      exact ⟨⟨fun _ => ⟨l, rfl⟩, fun _ => rfl⟩, ⟨fun h => absurd h d1, fun ⟨_, h⟩ => nomatch h⟩,
        ⟨fun h => absurd h d2, fun ⟨_, h⟩ => nomatch h⟩⟩
    | saturating l =>
      exact ⟨⟨fun h => absurd h d1.symm, fun ⟨_, h⟩ => nomatch h⟩, ⟨fun _ => ⟨l, rfl⟩, fun _ => rfl⟩,
        ⟨fun h => absurd h d3, fun ⟨_, h⟩ => nomatch h⟩⟩
    | compress l =>
      exact ⟨⟨fun h => absurd h d2.symm, fun ⟨_, h⟩ => nomatch h⟩, ⟨fun h => absurd h d3.symm, fun ⟨_, h⟩ => nomatch h⟩,
        ⟨fun _ => ⟨l, rfl⟩, fun _ => rfl⟩⟩
  simp only [List.mem_cons, Prod.mk.injEq, List.not_mem_nil, or_false] at hkp
  rcases hkp with ⟨rfl, rfl⟩ | ⟨rfl, rfl⟩ | ⟨rfl, rfl⟩
  all_goals
    obtain ⟨w, e, hw'⟩ := hp p.1 p.2
    refine ⟨w, ?_, hw'⟩
    rw [← e]
    row

variable [LinearOrder C] {D : Domain O C}

/-- What one call of `derive` searches for a rule: five iterations, 100000 nodes, 1000 matches of a rule. -/
abbrev DeriveEnv.found (D : Domain O C) (E : DeriveEnv O) (ty : DeriveType) (by_ : Ruleset O) (r : Rule O) : Option Bool :=
  Ruleset.canDerive D (E.eg r) E.isSat ty ⟨5, 100000, 1000⟩ (E.tr r) by_ r

theorem getDerivability_spec {E : DeriveEnv O} {rs against : Ruleset O} {ty : DeriveType} {v : Json} (hw : WellFormed against)
    (ht : Numeral E.time) (h : getDerivability D E rs against ty = some v) :
    JsonOk v ∧ nesting v ≤ 2 ∧ ∃ can cannot, v = .object [("derive_type", .str ty.text), ("can", .texts can), ("cannot", .texts cannot),
      ("time", .num E.time)] ∧ (can ++ cannot).Perm ((Ruleset.iter against).map Rule.name) ∧
      ∀ r ∈ Ruleset.iter against, (r.name ∈ can → E.found D ty rs r = some true) ∧
        (r.name ∈ cannot → E.found D ty rs r = some false) := by
  obtain ⟨r, hr, rfl⟩ := Option.map_eq_some_iff.1 h
  obtain ⟨h1, h2⟩ := derive_texts hw hr
  refine ⟨jsonOk_object (by simp only [List.map_cons, List.map_nil]; decide) ?_, nesting_object (k := 1) ?_, _, _, rfl, h1, h2⟩
  · simp only [List.forall_mem_cons]
    exact ⟨.str _, jsonOk_texts _, jsonOk_texts _, .num ht, by simp⟩
  · simp only [List.forall_mem_cons, nesting_texts]
    simp [nesting]

theorem derivabilityUnless_spec {skip : Bool} {E : DeriveType → DeriveEnv O} {rs against : Ruleset O} {v : Json}
    (hw : WellFormed against) (ht : ∀ ty, Numeral (E ty).time)
    (h : derivabilityUnless D skip E rs against = some v) :
    JsonOk v ∧ nesting v ≤ 3 ∧ (skip = true → v = .obj []) ∧ (skip = false →
      (Reports v ["lhs"] against ((E .lhs).found D .lhs rs) ∧ HasText v ["lhs", "derive_type"] "Lhs".toList) ∧
      Reports v ["lhs_rhs"] against ((E .lhsAndRhs).found D .lhsAndRhs rs) ∧
        HasText v ["lhs_rhs", "derive_type"] "LhsAndRhs".toList) := by
  unfold derivabilityUnless at h
  cases skip with
  | true =>
    rw [if_pos rfl, Option.some.injEq] at h
    subst h
    exact ⟨jsonOk_object (by simp) (by simp), by decide, fun _ => rfl, by simp⟩
  | false =>
    rw [if_neg (by simp), Option.bind_eq_some_iff] at h
    obtain ⟨a, ha, h⟩ := h
    obtain ⟨b, hb, rfl⟩ := Option.map_eq_some_iff.1 h
    obtain ⟨a1, a2, c1, c2, rfl, a3, a4⟩ := getDerivability_spec hw (ht _) ha
    obtain ⟨b1, b2, d1, d2, rfl, b3, b4⟩ := getDerivability_spec hw (ht _) hb
    refine ⟨jsonOk_object (by simp only [List.map_cons, List.map_nil]; decide) ?_, nesting_object (k := 2) ?_, by simp, fun _ => ?_⟩
    · simp only [List.forall_mem_cons]
      exact ⟨a1, b1, by simp⟩
    · simp only [List.forall_mem_cons]
      exact ⟨a2, b2, by simp⟩
    · exact ⟨⟨⟨c1, c2, by row, by row, a3, a4⟩, by row⟩, ⟨d1, d2, by row, by row, b3, b4⟩, by row⟩

theorem skipDerive_iff (a b : List Char) : skipDerive.contains (a, b) = true ↔ TooSlow a b := by
  rw [List.contains_iff_mem, skipDerive, TooSlow]
  simp only [List.mem_cons, Prod.mk.injEq, List.not_mem_nil, or_false]
  constructor
  · rintro (⟨h1, h2⟩ | ⟨h1, h2⟩)
    · exact ⟨h1, Or.inl h2⟩
    · exact ⟨h1, Or.inr h2⟩
  · rintro ⟨h1, h2 | h2⟩
    · exact Or.inl ⟨h1, h2⟩
    · exact Or.inr ⟨h1, h2⟩

/-- Moving a report below a key. -/
theorem Reports.under {v row : Json} {p q : List String} {against : Ruleset O} {found : Rule O → Option Bool}
    (h : Reports v p against found) (hq : ∀ ks, field row (q ++ ks) = field v ks) : Reports row (q ++ p) against found := by
  obtain ⟨c, n, h1, h2, h3, h4⟩ := h
  refine ⟨c, n, ?_, ?_, h3, h4⟩
  · rw [HasTexts, List.append_assoc, hq]; exact h1
  · rw [HasTexts, List.append_assoc, hq]; exact h2

/-- **C76 (Tables 2 and 3).** A row of the baseline table: the earlier rows stay; the row has the names, the time and the texts of the rules in
their order; the lines of the recipe are counted, or a dash stands for a missing recipe; and for both
directions and both ways to derive it splits the rules that were to be derived into those for which the deriving rules found the
equation and the others. Only the two comparisons that take too long are left out. -/
theorem C76_baseline {f f' : LogFile} {rows : List Json} (hf : Logged f rows) (hr : ∀ r ∈ rows, RowOk r)
    {E E' : DeriveType → DeriveEnv O} {files : List Char → Option (List Char)} {ruleset baseline : Ruleset O}
    {spec base time : List Char} (hw : WellFormed ruleset) (hb : WellFormed baseline)
    (ht : Numeral time) (hE : ∀ ty, Numeral (E ty).time) (hE' : ∀ ty, Numeral (E' ty).time)
    (h : writeBaseline D E E' files ruleset spec baseline base time f = some f') :
    ∃ row, Logged f' (rows ++ [row]) ∧ RowOk row ∧
      HasText row ["TYPE"] "baseline".toList ∧ HasText row ["spec_name"] spec ∧ HasText row ["baseline_name"] base ∧
      HasNum row ["time"] time ∧ HasTexts row ["rules"] ((Ruleset.iter ruleset).map Rule.name) ∧
      (∀ s, files spec = some s → HasText row ["loc"] (Nat.repr (lineCount s)).toList) ∧
      (files spec = none → HasText row ["loc"] "-".toList) ∧
      (¬ TooSlow spec base →
        Reports row ["derivability", "enumo_derives_baseline", "lhs"] baseline ((E .lhs).found D .lhs ruleset) ∧
        Reports row ["derivability", "enumo_derives_baseline", "lhs_rhs"] baseline ((E .lhsAndRhs).found D .lhsAndRhs ruleset)) ∧
      (¬ TooSlow base spec →
        Reports row ["derivability", "baseline_derives_enumo", "lhs"] ruleset ((E' .lhs).found D .lhs baseline) ∧
        Reports row ["derivability", "baseline_derives_enumo", "lhs_rhs"] ruleset
          ((E' .lhsAndRhs).found D .lhsAndRhs baseline)) ∧
      (TooSlow spec base → field row ["derivability", "enumo_derives_baseline"] = some (.obj [])) ∧
      (TooSlow base spec → field row ["derivability", "baseline_derives_enumo"] = some (.obj [])) := by
  have hn : (Ruleset.iter ruleset).map Rule.name = Ruleset.toStrVec ruleset := by
    rw [Ruleset.iter, List.map_map]
    exact List.map_congr_left fun e he => (hw.1 e he).symm
  rw [writeBaseline, Option.bind_eq_some_iff] at h
  obtain ⟨row, hrow, h⟩ := h
  rw [baselineRow, Option.bind_eq_some_iff] at hrow
  obtain ⟨a, ha, hrow⟩ := hrow
  obtain ⟨b, hb', hrow⟩ := Option.map_eq_some_iff.1 hrow
  obtain ⟨a1, a2, a3, a4⟩ := derivabilityUnless_spec hb hE ha
  obtain ⟨b1, b2, b3, b4⟩ := derivabilityUnless_spec hw hE' hb'
  have hok : RowOk row := by
    rw [← hrow]
    refine ⟨jsonOk_object (by simp only [List.map_cons, List.map_nil]; decide) ?_,
      Nat.lt_of_le_of_lt (nesting_object (k := 4) ?_) (by decide)⟩
    · simp only [List.forall_mem_cons]
      refine ⟨.str _, .str _, .str _, .str _, jsonOk_texts _, .num ht, jsonOk_object (by simp only [List.map_cons, List.map_nil]; decide) ?_, by simp⟩
      simp only [List.forall_mem_cons]
      exact ⟨a1, b1, by simp⟩
    · simp only [List.forall_mem_cons, nesting_texts]
      refine ⟨by simp [nesting], by simp [nesting], by simp [nesting], by simp [nesting], by simp, by simp [nesting], nesting_object (k := 3) ?_, by simp⟩
      simp only [List.forall_mem_cons]
      exact ⟨a2, b2, by simp⟩
  obtain ⟨f'', h1, h2⟩ := C54_append hf hr hok
  rw [h1, Option.some.injEq] at h
  subst h
  refine ⟨row, h2, hok, ?_⟩
  subst hrow
  refine ⟨by row, by row, by row, by row, by rw [hn]; row, fun s hs => ?_, fun hs => ?_, fun hs => ?_, fun hs => ?_, fun hs => ?_, fun hs => ?_⟩
  · have e : countLines files spec = some (lineCount s) := by rw [countLines, hs, Option.map_some, textLines_length]
    simp only [e]
    row
    rw [Nat.repr, String.toList_ofList]
  · have e : countLines files spec = none := by rw [countLines, hs]; rfl
    simp only [e]
    row
  · have hsk : skipDerive.contains (spec, base) = false := by
      rw [← skipDerive_iff] at hs
      simpa using hs
    obtain ⟨⟨h1, -⟩, h2, -⟩ := a4 hsk
    exact ⟨Reports.under (q := ["derivability", "enumo_derives_baseline"]) h1 fun ks => by row,
      Reports.under (q := ["derivability", "enumo_derives_baseline"]) h2 fun ks => by row⟩
  · have hsk : skipDerive.contains (base, spec) = false := by
      rw [← skipDerive_iff] at hs
      simpa using hs
    obtain ⟨⟨h1, -⟩, h2, -⟩ := b4 hsk
    exact ⟨Reports.under (q := ["derivability", "baseline_derives_enumo"]) h1 fun ks => by row,
      Reports.under (q := ["derivability", "baseline_derives_enumo"]) h2 fun ks => by row⟩
  · have := a3 ((skipDerive_iff _ _).2 hs)
    subst this
    row
  · have := b3 ((skipDerive_iff _ _).2 hs)
    subst this
    row

/-- **C76.** A rule that a table lists as derivable holds wherever the deriving rules hold. -/
theorem C76_listed {row : Json} {path : List String} {by_ against : Ruleset O} {E : DeriveEnv O} {ty : DeriveType}
    {ar : O → Nat → Prop} {I : O → List V → V} {mem : Interval C → V → Prop} (hF : ∀ env, FoldsIn D ar (withVars env I) mem)
    (hv : VarsOk (O := O) ar) (hby : ∀ q ∈ Ruleset.iter by_, GoodRule ar q ∧ Holds I q)
    (hag : ∀ q ∈ Ruleset.iter against, GoodRule ar q) (h : Reports row path against (E.found D ty by_)) {r : Rule O}
    (hr : Listed row (path ++ ["can"]) against r) : Holds I r := by
  obtain ⟨can, cannot, h1, -, -, h4⟩ := h
  obtain ⟨hr1, l, hl, hrl⟩ := hr
  rw [HasTexts, h1, Option.some.injEq, Json.arr.injEq] at hl
  have : l = can := by
    have hinj : Function.Injective Json.str := fun a b h => by cases h; rfl
    exact (List.map_injective_iff.2 hinj hl).symm
  subst this
  exact C32_sound hF hv hby (hag r hr1) ((h4 r hr1).1 hrl)

/-- **C76 (Table 5).** A row of the bit-vector table: the earlier rows stay; it has the name of the domain, the texts of the generated rules, and
those of exactly the ported rules that the validation accepts, in their order; and for both ways to derive it splits the
generated rules into those for which the accepted ported rules found the equation and the others. -/
theorem C76_bv {f f' : LogFile} {rows : List Json} (hf : Logged f rows) (hr : ∀ r ∈ rows, RowOk r)
    {E : DeriveType → DeriveEnv O} {valid : Rule O → Bool} {split : Ruleset.Split} {vtime domain genTime : List Char}
    {gen ported : Ruleset O} (hg : WellFormed gen) (hp : WellFormed ported) (hv : Numeral vtime)
    (ht : Numeral genTime) (hE : ∀ ty, Numeral (E ty).time)
    (h : writeBvDerivability D E valid split vtime domain gen genTime ported f = some f') :
    ∃ row sound, Logged f' (rows ++ [row]) ∧ RowOk row ∧ WellFormed sound ∧
      Ruleset.iter sound = (Ruleset.iter ported).filter valid ∧
      HasText row ["TYPE"] "bv".toList ∧ HasText row ["domain"] domain ∧
      HasTexts row ["direct_gen", "rules"] ((Ruleset.iter gen).map Rule.name) ∧ HasNum row ["direct_gen", "time"] genTime ∧
      HasTexts row ["from_bv4", "rules"] ((Ruleset.iter sound).map Rule.name) ∧ HasNum row ["from_bv4", "time"] vtime ∧
      Reports row ["derivability", "lhs"] gen ((E .lhs).found D .lhs sound) ∧
      Reports row ["derivability", "lhs_rhs"] gen ((E .lhsAndRhs).found D .lhsAndRhs sound) := by
  have names : ∀ {s : Ruleset O}, WellFormed s → (Ruleset.iter s).map Rule.name = Ruleset.toStrVec s := by
    intro s hs
    rw [Ruleset.iter, List.map_map]
    exact List.map_congr_left fun e he => (hs.1 e he).symm
  have hsound : (Ruleset.partition split valid ported).1 = ported.filter fun e => valid e.2 := by
    rw [C17_partition _ _ _ hp]
  have hws : WellFormed (ported.filter fun e => valid e.2) :=
    ⟨fun e he => hp.1 e (List.mem_of_mem_filter he), hp.2.sublist (List.filter_sublist.map _)⟩
  rw [writeBvDerivability, Option.bind_eq_some_iff] at h
  obtain ⟨row, hrow, h⟩ := h
  simp only [bvRow, hsound] at hrow
  rw [Option.bind_eq_some_iff] at hrow
  obtain ⟨b, hb, hrow⟩ := hrow
  obtain ⟨a, ha, hrow⟩ := Option.map_eq_some_iff.1 hrow
  obtain ⟨a1, a2⟩ := derive_texts hg ha
  obtain ⟨b1, b2⟩ := derive_texts hg hb
  have hok : RowOk row := by
    rw [← hrow]
    refine ⟨jsonOk_object (by simp only [List.map_cons, List.map_nil]; decide) ?_,
      Nat.lt_of_le_of_lt (nesting_object (k := 3) ?_) (by decide)⟩
    · simp only [List.forall_mem_cons]
      refine ⟨.str _, .str _, jsonOk_object (by simp only [List.map_cons, List.map_nil]; decide) ?_, jsonOk_object (by simp only [List.map_cons, List.map_nil]; decide) ?_, jsonOk_object (by simp only [List.map_cons, List.map_nil]; decide) ?_, by simp⟩
      · simp only [List.forall_mem_cons]
        exact ⟨jsonOk_texts _, .num ht, by simp⟩
      · simp only [List.forall_mem_cons]
        exact ⟨jsonOk_texts _, .num hv, by simp⟩
      · simp only [List.forall_mem_cons]
        refine ⟨jsonOk_object (by simp only [List.map_cons, List.map_nil]; decide) ?_, jsonOk_object (by simp only [List.map_cons, List.map_nil]; decide) ?_, by simp⟩ <;>
        · simp only [List.forall_mem_cons]
          exact ⟨jsonOk_texts _, jsonOk_texts _, .num (hE _), by simp⟩
    · simp only [List.forall_mem_cons]
      refine ⟨by simp [nesting], by simp [nesting], Nat.le_trans (nesting_object (k := 1) ?_) (by decide), Nat.le_trans (nesting_object (k := 1) ?_) (by decide), nesting_object (k := 2) ?_, by simp⟩
      · simp only [List.forall_mem_cons, nesting_texts]
        simp [nesting]
      · simp only [List.forall_mem_cons, nesting_texts]
        simp [nesting]
      · simp only [List.forall_mem_cons]
        refine ⟨nesting_object (k := 1) ?_, nesting_object (k := 1) ?_, by simp⟩ <;>
        · simp only [List.forall_mem_cons, nesting_texts]
          simp [nesting]
  obtain ⟨f'', h1, h2⟩ := C54_append hf hr hok
  rw [h1, Option.some.injEq] at h
  subst h
  refine ⟨row, ported.filter fun e => valid e.2, h2, hok, hws, ?_, ?_⟩
  · rw [Ruleset.iter, Ruleset.iter, List.filter_map]; rfl
  subst hrow
  refine ⟨by row, by row, by rw [names hg]; row, by row, by rw [names hws]; row, by row, ?_, ?_⟩
  · exact ⟨_, _, by row, by row, a1, a2⟩
  · exact ⟨_, _, by row, by row, b1, b2⟩

end Ruler
