import Verif.Proofs.Ruleset
import Verif.Spec.Sample
/-!
# Properties C16 - C20: rulesets as ordered maps, their text, and bidirectional printing
-/
namespace Ruler
open Spec
variable {O : Type}

namespace Sample
/-- `(+ ?a ?b) ==> (+ ?b ?a)` -/
def comm : Rule Sym := ⟨ruleName ab ba, ab, ba⟩
/-- `(+ ?b ?a) ==> (+ ?a ?b)` -/
def comm' : Rule Sym := ⟨ruleName ba ab, ba, ab⟩
/-- `(* ?a 0) ==> 0` -/
def mul0 : Rule Sym := ⟨ruleName a0 zero, a0, zero⟩
/-- `(+ ?a ?b) ==> (+ ?a ?b)` -/
def ident : Rule Sym := ⟨ruleName ab ab, ab, ab⟩

theorem readable_pv {s : String} (h : Plain s) (h' : isVarName s = true) : Readable (pv s) :=
  .var h (isVarName_iff.1 h')
theorem readable_nd {s : String} {l : List (Pat Sym)} (h : Plain s) (h' : isVarName s = false)
    (hl : ∀ a ∈ l, Readable a) : Readable (nd s l) :=
  .node h (fun hv => by have := isVarName_iff.2 hv
                        rw [show Lang.display (⟨s⟩ : Sym) = s from rfl, h'] at this; cases this) rfl hl

theorem readable_ab : Readable ab := by
  refine readable_nd (by decide) (by decide) ?_
  intro a ha
  simp only [List.mem_cons, List.not_mem_nil, or_false] at ha
  rcases ha with rfl | rfl <;> exact readable_pv (by decide) (by decide)
theorem readable_ba : Readable ba := by
  refine readable_nd (by decide) (by decide) ?_
  intro a ha
  simp only [List.mem_cons, List.not_mem_nil, or_false] at ha
  rcases ha with rfl | rfl <;> exact readable_pv (by decide) (by decide)
theorem readable_zero : Readable zero := readable_nd (by decide) (by decide) (by simp)
theorem readable_a0 : Readable a0 := by
  refine readable_nd (by decide) (by decide) ?_
  intro a ha
  simp only [List.mem_cons, List.not_mem_nil, or_false] at ha
  rcases ha with rfl | rfl
  · exact readable_pv (by decide) (by decide)
  · exact readable_zero

theorem noArrow (s : List Char) (h : (List.range s.length).all (fun i => s.drop i |>.take 2 |> (· ≠ ['=', '>'])) = true) :
    ¬ HasArrow s := by
  rintro ⟨a, b, rfl⟩
  rw [List.all_eq_true] at h
  have := h a.length (by simp [List.mem_range])
  simp at this

theorem textual_comm : Rule.Textual comm :=
  ⟨⟨rfl, by decide⟩, readable_ab, readable_ba, noArrow _ (by decide), noArrow _ (by decide)⟩
theorem textual_comm' : Rule.Textual comm' :=
  ⟨⟨rfl, by decide⟩, readable_ba, readable_ab, noArrow _ (by decide), noArrow _ (by decide)⟩
theorem textual_mul0 : Rule.Textual mul0 :=
  ⟨⟨rfl, by decide⟩, readable_a0, readable_zero, noArrow _ (by decide), noArrow _ (by decide)⟩
theorem textual_ident : Rule.Textual ident :=
  ⟨⟨rfl, by decide⟩, readable_ab, readable_ab, noArrow _ (by decide), noArrow _ (by decide)⟩

/-- A history with every kind of operation. -/
def history : History Sym :=
  .union (.removeAll (.addAll (.add .empty comm) [comm', mul0, comm]) (.add .empty comm)) (.extend .empty (.add .empty mul0))
/-- Three rules, two of which are the reverse of each other. -/
def rules : Ruleset Sym := Ruleset.addAll [] [comm, mul0, comm']
theorem rules_wf : WellFormed rules := (History.wf (.addAll .empty [comm, mul0, comm']))
theorem rules_textual : ∀ r ∈ Ruleset.iter rules, Rule.Textual r := by
  intro r hr
  have : r ∈ [comm, mul0, comm'] := hr
  simp only [List.mem_cons, List.not_mem_nil, or_false] at this
  rcases this with rfl | rfl | rfl
  · exact textual_comm
  · exact textual_mul0
  · exact textual_comm'
end Sample

/-! ## C16 -/

/-- **C16.** After any history of operations, looking a name up gives what the map algebra of the history says:
insertions overwrite, removals delete, nothing else changes. -/
theorem C16_lookup (h : History O) (n : List Char) : IndexMap.get? h.run n = h.meaning n := History.get h n

/-- **C16.** Every rule is stored under its own name and every name occurs once. -/
theorem C16_unique (h : History O) :
    (∀ e ∈ h.run, e.1 = e.2.name) ∧ (h.run.map Prod.fst).Nodup := History.wf h

/-- **C16.** The rules one iterates over are exactly those the history means, and membership is by name. -/
theorem C16_members (h : History O) (r : Rule O) :
    (r ∈ Ruleset.iter h.run ↔ h.meaning r.name = some r) ∧
    (Ruleset.contains h.run r = true ↔ (h.meaning r.name).isSome = true) := by
  constructor
  · rw [← History.get, IndexMap.get?_eq_some_iff (History.wf h).2]
    unfold Ruleset.iter
    rw [List.mem_map]
    constructor
    · rintro ⟨⟨k, r'⟩, he, rfl⟩
      have := (History.wf h).1 _ he
      simp only at this
      rwa [← this]
    · intro he; exact ⟨_, he, rfl⟩
  · rw [Ruleset.contains, IndexMap.containsKey_iff, ← History.get, Option.isSome_iff_ne_none, ne_eq,
      IndexMap.get?_eq_none_iff, Classical.not_not]

/-- **C16.** Without removals the iteration order is the order of first insertion. -/
theorem C16_order (h : History O) (hr : h.NoRemoval) :
    Ruleset.toStrVec h.run = firstOcc h.insertions := History.order h hr

/-- **C16.** With removals it is not: removing a rule moves the last rule into its place. -/
theorem C16_removal_reorders : ∃ h : History Sample.Sym,
    Ruleset.toStrVec h.run ≠ (firstOcc h.insertions).filter fun n => (h.meaning n).isSome :=
  ⟨.removeAll (.addAll .empty [Sample.comm, Sample.comm', Sample.mul0]) (.add .empty Sample.comm), by decide⟩

/-- Test: a history with all operations; the map holds `comm'` and `mul0`. -/
example : Ruleset.toStrVec Sample.history.run = [Sample.mul0.name, Sample.comm'.name] := by decide
example : (Sample.history).meaning Sample.comm.name = none := by
  rw [← C16_lookup]; decide
example : History.NoRemoval (O := Sample.Sym) (.union (.addAll .empty [Sample.comm, Sample.mul0]) (.add .empty Sample.comm)) :=
  ⟨trivial, trivial⟩

/-! ## C17 -/

/-- **C17.** However the parallel iterator splits the work, the first output holds exactly the rules satisfying the
predicate and the second exactly the others, both in the original order. -/
theorem C17_partition (t : Ruleset.Split) (f : Rule O → Bool) (rs : Ruleset O) (h : WellFormed rs) :
    Ruleset.partition t f rs = (rs.filter fun e => f e.2, rs.filter fun e => !f e.2) := by
  rw [Ruleset.partition, parPartition_eq]
  simp only [addAll_filter h f, addAll_filter h fun r => !f r]

/-- **C17.** Every rule lands in exactly one of the outputs. -/
theorem C17_exactly_one (t : Ruleset.Split) (f : Rule O → Bool) (rs : Ruleset O) (h : WellFormed rs) (r : Rule O)
    (hr : r ∈ Ruleset.iter rs) :
    (r ∈ Ruleset.iter (Ruleset.partition t f rs).1 ∧ r ∉ Ruleset.iter (Ruleset.partition t f rs).2 ∧ f r = true) ∨
    (r ∉ Ruleset.iter (Ruleset.partition t f rs).1 ∧ r ∈ Ruleset.iter (Ruleset.partition t f rs).2 ∧ f r = false) := by
  rw [C17_partition t f rs h]
  unfold Ruleset.iter at *
  obtain ⟨e, he, rfl⟩ := List.mem_map.1 hr
  have hout : ∀ (g : Rule O → Bool), e.2 ∈ (rs.filter fun x => g x.2).map Prod.snd ↔ g e.2 = true := by
    intro g
    rw [List.mem_map]
    constructor
    · rintro ⟨x, hx, hxe⟩
      rw [List.mem_filter] at hx
      rw [← hxe]; exact hx.2
    · intro hg; exact ⟨e, List.mem_filter.2 ⟨he, hg⟩, rfl⟩
  simp only [hout]
  rw [hout fun r => !f r]
  cases f e.2 <;> simp

example : Ruleset.partition (.fork 2 (.fork 1 .leaf .leaf) .leaf) (fun r => decide (r.rhs = Sample.zero)) Sample.rules
    = ([(Sample.mul0.name, Sample.mul0)], [(Sample.comm.name, Sample.comm), (Sample.comm'.name, Sample.comm')]) := by
  rw [C17_partition _ _ _ Sample.rules_wf]; rfl

/-! ## C18 -/

/-- **C18.** Reading a rule's own text gives that rule back, and nothing else. -/
theorem C18_roundtrip [Lang O] (r : Rule O) (h : Rule.Textual r) :
    Rule.fromString r.name = some (some (r, none)) := Textual.fromString h

/-- **C18.** A line with `<=>` gives both directions. -/
theorem C18_both [Lang O] (l r : Pat O) (hl : Readable l) (hr : Readable r) (al : ¬ HasArrow l.print)
    (hv : ∀ v, v ∈ l.vars ↔ v ∈ r.vars) :
    ∃ fwd bwd, Rule.fromString (l.print ++ " <=> ".toList ++ r.print) = some (some (fwd, some bwd)) ∧
      fwd.lhs = l ∧ fwd.rhs = r ∧ bwd.lhs = r ∧ bwd.rhs = l ∧
      fwd.name = ruleName l r ∧ bwd.name = ruleName r l := by
  have h1 : bindsAll l r = true := bindsAll_iff.2 fun v h => (hv v).2 h
  have h2 : bindsAll r l = true := bindsAll_iff.2 fun v h => (hv v).1 h
  refine ⟨⟨ruleName l r, l, r⟩, ⟨ruleName r l, r, l⟩, ?_, rfl, rfl, rfl, rfl, rfl, rfl⟩
  change Rule.fromString (Ruleset.biName l r) = _
  rw [Rule.fromString, biName_split l r al]
  simp only [Readable.parse_append hl (delim_blank _), Readable.parse_blank hr, Option.bind_some, Rule.new, h1, h2,
    if_true, biArrow_biName, Option.map_some]

/-- **C18.** A line with `=>` gives the forward direction only. -/
theorem C18_forward [Lang O] (l r : Pat O) (hl : Readable l) (hr : Readable r) (al : ¬ HasArrow l.print)
    (ar : ¬ HasArrow r.print) (hv : ∀ v ∈ r.vars, v ∈ l.vars) :
    ∃ fwd, Rule.fromString (l.print ++ " => ".toList ++ r.print) = some (some (fwd, none)) ∧
      fwd.lhs = l ∧ fwd.rhs = r ∧ fwd.name = ruleName l r := by
  refine ⟨⟨ruleName l r, l, r⟩, ?_, rfl, rfl, rfl⟩
  rw [Rule.fromString, forwardLine_split l r al]
  simp only [Readable.parse_append hl (delim_blank _), Readable.parse_blank hr, Option.bind_some, Rule.new,
    bindsAll_iff.2 hv, if_true, not_biArrow_forwardLine l r al ar, Bool.false_eq_true, if_false]

/-- **C18.** A line is rejected with an error (and never with a crash) exactly if it has no arrow. -/
theorem C18_no_arrow [Lang O] (s : List Char) :
    Rule.fromString (O := O) s = some none ↔ ¬ HasArrow s := by
  constructor
  · intro h ha
    obtain ⟨a, b, e⟩ := splitArrow_some_of_arrow ha
    rw [Rule.fromString, e] at h
    simp only at h
    cases h1 : Pat.parse (O := O) a with
    | none => rw [h1] at h; cases h
    | some p =>
      cases h2 : Pat.parse (O := O) b with
      | none => rw [h1, h2] at h; cases h
      | some q =>
        rw [h1, h2] at h
        simp only [Option.bind_some] at h
        cases h3 : Rule.new p q with
        | none => rw [h3] at h; cases h
        | some f =>
          rw [h3] at h
          simp only [Option.bind_some] at h
          split at h
          · cases h4 : Rule.new q p with
            | none => rw [h4] at h; cases h
            | some g => rw [h4] at h; cases h
          · cases h
  · intro h
    rw [Rule.fromString, splitArrow_none h]

/-- **C18.** A right side with a variable that the left side does not bind makes reading the line crash. -/
theorem C18_unbound_panics [Lang O] (l r : Pat O) (hl : Readable l) (hr : Readable r) (al : ¬ HasArrow l.print)
    (hv : ¬ ∀ v ∈ r.vars, v ∈ l.vars) : Rule.fromString (O := O) (ruleName l r) = none := by
  have h : bindsAll l r = false := by
    rw [← Bool.not_eq_true, bindsAll_iff]; exact hv
  rw [Rule.fromString, ruleName_split _ _ al]
  simp only [Readable.parse_append hl delim_blankEq, Readable.parse_blank hr, Option.bind_some, Rule.new, h,
    Bool.false_eq_true, if_false, Option.bind_none]

/-- **C18.** Freedom from arrows is needed: an operator whose text contains `=>` (such as an implication) makes a
readable, properly named rule be read back as something else. -/
theorem C18_needs_no_arrow : ∃ r : Rule Sample.Sym, Rule.Proper r ∧ Readable r.lhs ∧ Readable r.rhs ∧
    Rule.fromString r.name ≠ some (some (r, none)) := by
  refine ⟨⟨ruleName (Sample.nd "=>" [Sample.pv "?a", Sample.pv "?a"]) (Sample.nd "1" []),
    Sample.nd "=>" [Sample.pv "?a", Sample.pv "?a"], Sample.nd "1" []⟩, ⟨rfl, by decide⟩, ?_, ?_, by decide⟩
  · refine Sample.readable_nd (by decide) (by decide) ?_
    intro a ha
    simp only [List.mem_cons, List.not_mem_nil, or_false, or_self] at ha
    subst ha
    exact Sample.readable_pv (by decide) (by decide)
  · exact Sample.readable_nd (by decide) (by decide) (by simp)

example : Rule.fromString Sample.comm.name = some (some (Sample.comm, none)) := C18_roundtrip _ Sample.textual_comm
/-- Test: the text of a rule. -/
example : Sample.comm.name = "(+ ?a ?b) ==> (+ ?b ?a)".toList := by decide
example : ∃ fwd bwd, Rule.fromString (Sample.ab.print ++ " <=> ".toList ++ Sample.ba.print) = some (some (fwd, some bwd)) ∧
      fwd.lhs = Sample.ab ∧ fwd.rhs = Sample.ba ∧ bwd.lhs = Sample.ba ∧ bwd.rhs = Sample.ab ∧
      fwd.name = ruleName Sample.ab Sample.ba ∧ bwd.name = ruleName Sample.ba Sample.ab :=
  C18_both _ _ Sample.readable_ab Sample.readable_ba Sample.textual_comm.2.2.2.1
    (by intro v; simp [Sample.ab, Sample.ba, Sample.nd, Sample.pv, Pat.vars, Pat.varsL, or_comm])

/-! ## C19 -/

/-- **C19.** Saving a ruleset to a file and loading the file gives the same rules in the same order. -/
theorem C19_file_roundtrip [Lang O] (rs : Ruleset O) (hw : WellFormed rs) (ht : ∀ r ∈ Ruleset.iter rs, Rule.Textual r) :
    Ruleset.fromFile (Ruleset.toFile rs) = some rs := by
  have hn : Ruleset.toStrVec rs = (Ruleset.iter rs).map Rule.name := by
    unfold Ruleset.toStrVec
    conv_lhs => rw [wf_entries hw, List.map_map]
    rfl
  rw [Ruleset.fromFile, Ruleset.toFile, textLines_unlines, hn, ofLines_names _ ht]
  · rw [Ruleset.addAll_nodup _ (wf_names hw) (by simp), List.nil_append, ← wf_entries hw]
  · intro l hl
    rw [hn] at hl
    obtain ⟨r, hr, rfl⟩ := List.mem_map.1 hl
    exact Textual.lineOk (ht r hr)

/-- **C19.** The same through the list of rule texts. -/
theorem C19_texts_roundtrip [Lang O] (rs : Ruleset O) (hw : WellFormed rs) (ht : ∀ r ∈ Ruleset.iter rs, Rule.Textual r) :
    Ruleset.new (Ruleset.toStrVec rs) = some rs := by
  have hn : Ruleset.toStrVec rs = (Ruleset.iter rs).map Rule.name := by
    unfold Ruleset.toStrVec
    conv_lhs => rw [wf_entries hw, List.map_map]
    rfl
  rw [Ruleset.new, hn, ofLines_names _ ht, Ruleset.addAll_nodup _ (wf_names hw) (by simp), List.nil_append,
    ← wf_entries hw]

/-- **C19.** Loading lines of text adds, line by line, the rules each line gives (both directions for `<=>`, none for a
line without arrow), and crashes exactly if reading one of the lines does. -/
theorem C19_load [Lang O] (lines : List (List Char)) :
    Ruleset.new (O := O) lines =
      (lines.mapM Rule.fromString).map fun rs => History.run (.addAll .empty (rs.flatMap lineRules)) := by
  suffices h : ∀ m : Ruleset O, Ruleset.ofLines lines m =
      (lines.mapM Rule.fromString).map fun rs => Ruleset.addAll m (rs.flatMap lineRules) from h []
  induction lines with
  | nil => intro m; rfl
  | cons l ls ih =>
    intro m
    rw [Ruleset.ofLines, List.mapM_cons]
    cases h1 : Rule.fromString (O := O) l with
    | none => rfl
    | some r =>
      rw [Option.bind_some]
      have e : (do let a ← some r; let b ← ls.mapM (Rule.fromString (O := O)); pure (a :: b)) =
        (ls.mapM Rule.fromString).map fun b => r :: b := by
        cases ls.mapM (Rule.fromString (O := O)) <;> rfl
      rw [e, Option.map_map]
      rcases r with _ | ⟨fwd, _ | bwd⟩ <;> simp only [ih] <;> congr 1

/-- **C19.** Loading what `pretty_print` shows gives a ruleset with the same rules. -/
theorem C19_load_printed [Lang O] (rs : Ruleset O) (hw : WellFormed rs) (ht : ∀ r ∈ Ruleset.iter rs, Rule.Textual r) :
    ∃ rs', Ruleset.new (Ruleset.prettyLines rs) = some rs' ∧ ∀ r, r ∈ Ruleset.iter rs' ↔ r ∈ Ruleset.iter rs := by
  have hn : (Ruleset.iter rs).Nodup := List.Nodup.of_map _ (wf_names hw)
  have hline : ∀ line ∈ Ruleset.prettyLines rs, ∃ x, Rule.fromString line = some x ∧
      (∀ r ∈ lineRules x, r ∈ Ruleset.iter rs) ∧
      (∀ r ∈ Ruleset.iter rs, Represents line r → r ∈ lineRules x) := by
    intro line hl
    rw [prettyLines_eq hw ht] at hl
    obtain ⟨q, hq, ⟨h1, rfl⟩ | ⟨h1, rfl⟩⟩ := mem_linesOf hl
    · have hv : ∀ v, v ∈ q.lhs.vars ↔ v ∈ q.rhs.vars := fun v => ⟨(ht _ h1).1.2 v, (ht _ hq).1.2 v⟩
      have tq := ht q hq
      have e : Rule.fromString (Ruleset.biName q.lhs q.rhs) = some (some (q, some (Rule.rev q))) := by
        rw [Rule.fromString, biName_split _ _ tq.2.2.2.1]
        have e1 : Rule.new q.lhs q.rhs = some q := by
          rw [Rule.new, if_pos (bindsAll_iff.2 tq.1.2), ← tq.1.1]
        have e2 : Rule.new q.rhs q.lhs = some (Rule.rev q) := by
          rw [Rule.new, if_pos (bindsAll_iff.2 fun v => (hv v).1)]; rfl
        simp only [Readable.parse_append tq.2.1 (delim_blank _), Readable.parse_blank tq.2.2.1, Option.bind_some, e1,
          e2, if_true, biArrow_biName, Option.map_some]
      refine ⟨_, e, ?_, ?_⟩
      · intro r hr
        simp only [lineRules, List.mem_cons, List.not_mem_nil, or_false] at hr
        rcases hr with rfl | rfl
        · exact hq
        · exact h1
      · intro r hr h
        have tr := ht r hr
        simp only [lineRules, List.mem_cons, List.not_mem_nil, or_false]
        rcases h with h | h | h
        · exact absurd h (biName_ne_name tr _ _)
        · exact .inl (biName_inj tq tr h).symm
        · right
          obtain ⟨e1, e2⟩ := biName_inj' tq.2.1 tq.2.2.1 tr.2.2.1 tr.2.1 tq.2.2.2.1 tr.2.2.2.2 h
          rw [← Rule.rev_rev tr.1]
          congr 1
          unfold Rule.rev
          have e3 := tq.1.1
          cases q
          simp only at e1 e2 e3
          subst e1; subst e2; subst e3
          rfl
    · refine ⟨_, Textual.fromString (ht q hq), ?_, ?_⟩
      · intro r hr
        simp only [lineRules, List.mem_cons, List.not_mem_nil, or_false] at hr
        rw [hr]; exact hq
      · intro r hr h
        rcases h with h | h | h
        · simp [lineRules, Rule.Textual.ext (ht q hq) (ht r hr) h]
        · exact absurd h.symm (biName_ne_name (ht q hq) _ _)
        · exact absurd h.symm (biName_ne_name (ht q hq) _ _)
  rw [C19_load]
  obtain ⟨xs, hxs, hx1, hx2⟩ : ∃ xs, (Ruleset.prettyLines rs).mapM (Rule.fromString (O := O)) = some xs ∧
      (∀ r ∈ xs.flatMap lineRules, r ∈ Ruleset.iter rs) ∧
      (∀ r ∈ Ruleset.iter rs, (∃ line ∈ Ruleset.prettyLines rs, Represents line r) → r ∈ xs.flatMap lineRules) := by
    generalize Ruleset.prettyLines rs = ls at hline
    induction ls with
    | nil => exact ⟨[], rfl, by simp, by simp⟩
    | cons l ls ih =>
      obtain ⟨x, h1, h2, h3⟩ := hline l (by simp)
      obtain ⟨xs, h4, h5, h6⟩ := ih fun line hl => hline line (by simp [hl])
      refine ⟨x :: xs, by rw [List.mapM_cons, h1, h4]; rfl, ?_, ?_⟩
      · intro r hr
        rw [List.flatMap_cons, List.mem_append] at hr
        exact hr.elim (h2 r) (h5 r)
      · rintro r hr ⟨line, hl, hrep⟩
        rw [List.flatMap_cons, List.mem_append]
        rcases List.mem_cons.1 hl with rfl | hl
        · exact .inl (h3 r hr hrep)
        · exact .inr (h6 r hr ⟨line, hl, hrep⟩)
  refine ⟨_, by rw [hxs]; rfl, ?_⟩
  intro r
  have hall : ∀ q ∈ xs.flatMap lineRules, Rule.Textual q := fun q hq => ht q (hx1 q hq)
  have hiter : r ∈ Ruleset.iter (History.run (.addAll .empty (xs.flatMap lineRules))) ↔ r ∈ xs.flatMap lineRules := by
    generalize xs.flatMap lineRules = l at hall
    have hmem : ∀ (m : List Char → Option (Rule O)) (n : List Char) (q : Rule O), l.foldl update m n = some q →
        q ∈ l ∨ m n = some q := by
      clear hall
      induction l with
      | nil => intro m n q h; exact .inr h
      | cons a l ih =>
        intro m n q h
        rcases ih (update m a) n q h with h | h
        · exact .inl (by simp [h])
        · unfold update at h
          split at h
          · exact .inl (by simp [Option.some.inj h])
          · exact .inr h
    have hsome : ∀ (m : List Char → Option (Rule O)) (q : Rule O), (q ∈ l ∨ (m q.name).isSome) →
        (l.foldl update m q.name).isSome := by
      clear hall hmem
      induction l with
      | nil => intro m q h; simpa using h
      | cons a l ih =>
        intro m q h
        apply ih
        unfold update
        by_cases e : q.name = a.name
        · right; simp [e]
        · rcases h with h | h
          · rcases List.mem_cons.1 h with rfl | h
            · exact absurd rfl e
            · exact .inl h
          · right; simpa [e] using h
    rw [(C16_members (.addAll .empty l) r).1]
    constructor
    · intro h
      rcases hmem _ _ _ h with h | h
      · exact h
      · cases h
    · intro h
      have h1 := hsome (fun _ => none) r (.inl h)
      obtain ⟨q, hq⟩ := Option.isSome_iff_exists.1 h1
      have h2 : q ∈ l := by
        rcases hmem _ _ _ hq with h | h
        · exact h
        · cases h
      have h3 : (History.addAll .empty l).meaning r.name = some q := hq
      have h4 := C16_lookup (.addAll .empty l) r.name
      rw [h3, IndexMap.get?_eq_some_iff (History.wf _).2] at h4
      have h5 : r.name = q.name := (History.wf (.addAll .empty l)).1 _ h4
      rw [h3, Rule.Textual.ext (hall r h) (hall q h2) h5]
  rw [hiter]
  constructor
  · exact hx1 r
  · intro hr
    refine hx2 r hr ?_
    obtain ⟨s, hs, hrep⟩ := lines_cover ht hn hr
    exact ⟨s, by rw [prettyLines_eq hw ht]; exact hs, hrep⟩

/-- **C19.** Two rulesets compare equal exactly if they list the same rule texts in the same order; for rules that can
be written as text this means they are the same. -/
theorem C19_equality [Lang O] (a b : Ruleset O) (ha : WellFormed a) (hb : WellFormed b)
    (hta : ∀ r ∈ Ruleset.iter a, Rule.Textual r) (htb : ∀ r ∈ Ruleset.iter b, Rule.Textual r) :
    Ruleset.eq a b = true ↔ a = b := by
  rw [Ruleset.eq_iff]
  constructor
  · intro h
    have h1 := C19_texts_roundtrip a ha hta
    rw [h, C19_texts_roundtrip b hb htb] at h1
    exact (Option.some.inj h1).symm
  · rintro rfl; rfl

example : Ruleset.fromFile (Ruleset.toFile Sample.rules) = some Sample.rules :=
  C19_file_roundtrip _ Sample.rules_wf Sample.rules_textual

example : ∃ rs', Ruleset.new (Ruleset.prettyLines Sample.rules) = some rs' ∧
    ∀ r, r ∈ Ruleset.iter rs' ↔ r ∈ Ruleset.iter Sample.rules :=
  C19_load_printed _ Sample.rules_wf Sample.rules_textual
/-! ## C20 -/

/-- **C20.** Every printed line is different, and every rule is represented by exactly one of them. -/
theorem C20_exactly_one_line [Lang O] (rs : Ruleset O) (hw : WellFormed rs)
    (ht : ∀ r ∈ Ruleset.iter rs, Rule.Textual r) :
    (Ruleset.prettyLines rs).Nodup ∧
    ∀ r ∈ Ruleset.iter rs, ∃! line, line ∈ Ruleset.prettyLines rs ∧ Represents line r := by
  have hn : (Ruleset.iter rs).Nodup := List.Nodup.of_map _ (wf_names hw)
  rw [prettyLines_eq hw ht]
  refine ⟨linesOf_nodup ht _ _ (fun _ h => h) hn, ?_⟩
  intro r hr
  obtain ⟨s, hs, hrep⟩ := lines_cover ht hn hr
  exact ⟨s, ⟨hs, hrep⟩, fun s' h' => lines_unique ht hn hr h'.1 hs h'.2 hrep⟩

/-- **C20.** Nothing else is printed: each line stands for a rule of the set, and a `<=>` line is printed only if
both directions are in the set. -/
theorem C20_no_spurious_line [Lang O] (rs : Ruleset O) (hw : WellFormed rs)
    (ht : ∀ r ∈ Ruleset.iter rs, Rule.Textual r) (line : List Char) (h : line ∈ Ruleset.prettyLines rs) :
    ∃ r ∈ Ruleset.iter rs, line = r.name ∨ (line = r.lhs.print ++ " <=> ".toList ++ r.rhs.print ∧
      ∃ r' ∈ Ruleset.iter rs, r'.lhs = r.rhs ∧ r'.rhs = r.lhs) := by
  rw [prettyLines_eq hw ht] at h
  obtain ⟨r, hr, h | h⟩ := mem_linesOf h
  · exact ⟨r, hr, .inr ⟨h.2, _, h.1, rfl, rfl⟩⟩
  · exact ⟨r, hr, .inl h.2⟩

/-- **C20.** The number of printed lines is the advertised count, plus one for every second identity rule (rounded
up): the count treats a rule equal to its own reverse as half a pair. -/
theorem C20_count [Lang O] (rs : Ruleset O) (hw : WellFormed rs) (ht : ∀ r ∈ Ruleset.iter rs, Rule.Textual r) :
    (Ruleset.prettyLines rs).length =
      Ruleset.bidirLen rs + ((Ruleset.iter rs).countP (fun r => decide (r.lhs = r.rhs)) + 1) / 2 := by
  classical
  have hn : (Ruleset.iter rs).Nodup := List.Nodup.of_map _ (wf_names hw)
  rw [prettyLines_eq hw ht, linesOf_length _ [] _ (List.nil_append _).symm hn, Ruleset.bidirLen]
  have e1 : (Ruleset.iter rs).countP (fun r => Ruleset.hasReverse rs r) =
      (Ruleset.iter rs).countP (fun r => decide (Rule.rev r ∈ Ruleset.iter rs)) := by
    apply List.countP_congr
    intro r hr
    simp [hasReverse_iff hw ht hr]
  have e2 : (Ruleset.iter rs).countP (fun r => !Ruleset.hasReverse rs r) =
      (Ruleset.iter rs).countP (fun r => decide (Rule.rev r ∉ Ruleset.iter rs)) := by
    apply List.countP_congr
    intro r hr
    simp [← hasReverse_iff hw ht hr]
  have hc := bidir_counts (L := Ruleset.iter rs) (fun r hr => (ht r hr).1) hn
  have e3 : (Ruleset.iter rs).countP (fun r => decide (r.lhs = r.rhs)) =
      @List.countP _ (fun r => @decide (r.lhs = r.rhs) (Classical.propDecidable _)) (Ruleset.iter rs) := by
    apply List.countP_congr
    intro r _
    simp
  simp only [e1, e2]
  rw [e3]
  omega

/-- **C20.** In particular, without identity rules exactly the advertised number of lines is printed. -/
theorem C20_count_no_identity [Lang O] (rs : Ruleset O) (hw : WellFormed rs)
    (ht : ∀ r ∈ Ruleset.iter rs, Rule.Textual r) (hi : ∀ r ∈ Ruleset.iter rs, r.lhs ≠ r.rhs) :
    (Ruleset.prettyLines rs).length = Ruleset.bidirLen rs := by
  rw [C20_count rs hw ht, List.countP_eq_zero.2 fun r hr => by simpa using hi r hr]
  rfl

/-- **C20.** With an identity rule the two differ: one line is printed, the count is zero. -/
theorem C20_identity_differs : ∃ rs : Ruleset Sample.Sym, WellFormed rs ∧ (∀ r ∈ Ruleset.iter rs, Rule.Textual r) ∧
    (Ruleset.prettyLines rs).length = 1 ∧ Ruleset.bidirLen rs = 0 := by
  refine ⟨Ruleset.addAll [] [Sample.ident], History.wf (.addAll .empty [Sample.ident]), ?_, by decide, by decide⟩
  intro r hr
  have : r ∈ [Sample.ident] := hr
  rw [List.mem_singleton.1 this]; exact Sample.textual_ident

example : (Ruleset.prettyLines Sample.rules).length = Ruleset.bidirLen Sample.rules :=
  C20_count_no_identity _ Sample.rules_wf Sample.rules_textual (by
    intro r hr
    have : r ∈ [Sample.comm, Sample.mul0, Sample.comm'] := hr
    simp only [List.mem_cons, List.not_mem_nil, or_false] at this
    rcases this with rfl | rfl | rfl <;> decide)
/-- Test: what is printed for the three rules. -/
example : Ruleset.prettyLines Sample.rules =
    ["(+ ?a ?b) <=> (+ ?b ?a)".toList, "(* ?a 0) ==> 0".toList] := by decide

end Ruler
