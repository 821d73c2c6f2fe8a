import Verif.Proofs.Plug
import Verif.Proofs.Match
import Verif.Proofs.Canon
/-!
# Properties C01 – C10: the workload language
-/
namespace Ruler
open Spec

/-! Sample data for the non-vacuity examples: `{VAR, (OP EXPR EXPR)}` plugged with itself. -/
namespace Sample
/-- `x` as an atom -/
abbrev a (x : String) : Sexp := .atom x
/-- `{VAR, (OP EXPR EXPR)}` -/
def grammar : Workload := .set [a "VAR", .list [a "OP", a "EXPR", a "EXPR"]]
/-- the grammar with `EXPR` plugged by itself -/
def level2 : Workload := .plug grammar "EXPR" grammar
theorem noEmpty_grammar : ∀ t ∈ [a "VAR", .list [a "OP", a "EXPR", a "EXPR"]], NoEmpty t := by
  intro t ht
  simp only [List.mem_cons, List.not_mem_nil, or_false] at ht
  rcases ht with rfl | rfl
  · exact NoEmpty.atom _
  · rw [NoEmpty.list_iff]
    refine ⟨by simp, ?_⟩
    intro t ht
    simp only [List.mem_cons, List.not_mem_nil, or_false] at ht
    rcases ht with rfl | rfl | rfl <;> exact NoEmpty.atom _
theorem level2_ok : AllSets NoEmpty level2 := .plug (.set noEmpty_grammar) (.set noEmpty_grammar)
end Sample

/-! ## C01 -/

/-- **C01.** For a workload whose literal terms contain no empty list, forcing the filtered workload gives exactly
the terms of the workload that pass the filter, in order and with multiplicity, and nothing panics. -/
theorem C01_filter_exact (w : Workload) (f : Filter) (h : AllSets NoEmpty w) :
    ∃ ts, w.force = some ts ∧ (∀ t ∈ ts, f.test t ≠ none) ∧
      (w.addFilter f).force = some (ts.filter fun t => decide (f.test t = some true)) := by
  obtain ⟨h1, h2⟩ := Workload.AllSets.force h
  refine ⟨_, h1, fun t ht => by simp [Filter.test_noEmpty f t (h2 t ht)], ?_⟩
  rw [(Workload.AllSets.force (Workload.AllSets.addFilter h f)).1, Workload.forceT_addFilter]
  congr 1
  apply List.filter_congr
  intro t ht
  simp [Filter.test_noEmpty f t (h2 t ht)]

/-- **C01**, for arbitrary terms (empty lists allowed) when no filter uses the depth metric. -/
theorem C01_filter_exact_depthFree (w : Workload) (f : Filter) (h : AllFilters DepthFree w)
    (hf : DepthFree f) :
    ∃ ts, w.force = some ts ∧ (∀ t ∈ ts, f.test t ≠ none) ∧
      (w.addFilter f).force = some (ts.filter fun t => decide (f.test t = some true)) := by
  refine ⟨_, Workload.AllFilters.force h, fun t _ => by simp [Filter.test_depthFree hf], ?_⟩
  rw [Workload.AllFilters.force (Workload.AllFilters.addFilter h hf), Workload.forceT_addFilter]
  congr 1
  apply List.filter_congr
  intro t _
  simp [Filter.test_depthFree hf]

/-- **C01**, without any hypothesis on terms or filters: whenever nothing panics the result is right. -/
theorem C01_filter_agree (w : Workload) (f : Filter) (ts rs : List Sexp) (hw : w.force = some ts)
    (ht : ∀ t ∈ ts, f.test t ≠ none) (hr : (w.addFilter f).force = some rs) :
    rs = ts.filter fun t => decide (f.test t = some true) := by
  rw [Workload.force_some _ _ hr, Workload.forceT_addFilter, ← Workload.force_some _ _ hw]
  apply List.filter_congr
  intro t hm
  cases hb : f.test t with
  | none => exact absurd hb (ht t hm)
  | some b => simp [← Filter.test_some f t b hb]

/-- The permitted deviation of **C01** really occurs: filtering by depth can panic although filtering the
forced terms would not, when an unused peg contains an empty list. -/
theorem C01_filter_may_panic : ∃ (w : Workload) (f : Filter) (ts : List Sexp), w.force = some ts ∧
    (∀ t ∈ ts, f.test t ≠ none) ∧ (w.addFilter f).force = none :=
  ⟨.plug (.set [.atom "a"]) "x" (.set [.list []]), .metricLt .depth 5, [.atom "a"],
    by decide, by decide, by decide⟩

-- non-vacuity: a nested plug with a pushed-down filter, keeping 2 of 5 terms
example : AllSets NoEmpty Sample.level2 ∧
    (Sample.level2.addFilter (.metricLt .atoms 5)).force =
      some [.atom "VAR", .list [.atom "OP", .atom "VAR", .atom "VAR"]] ∧
    (Sample.level2.force.map List.length) = some 5 :=
  ⟨Sample.level2_ok, by decide, by decide⟩
example : AllFilters DepthFree (.filter (.metricLt .lists 3) Sample.level2) :=
  .filter (.metricLt _ _ (by decide)) (.plug (.set _) (.set _))

/-! ## C02 -/

/-- **C02.** If a filter is treated as monotonic and a term passes it, every sub-term passes it (and testing the
sub-term does not panic). -/
theorem C02_monotonic (f : Filter) (hf : f.isMonotonic = true) (s t : Sexp) (hs : Subterm s t)
    (h : f.test t = some true) : f.test s = some true := by
  induction f using Filter.ind with
  | h1 m n =>
    simp only [Filter.test, Option.map_eq_some_iff, decide_eq_true_eq] at h ⊢
    obtain ⟨k, hk, hlt⟩ := h
    have hk' := Sexp.measure_some m t k hk
    have hs' : s.measure m = some (s.measureT m) := by
      by_cases hm : m = .depth
      · subst hm
        exact Sexp.measure_noEmpty _ _ ((Sexp.measure_depth_noEmpty t k hk).sub hs)
      · exact Sexp.measure_not_depth m s hm
    exact ⟨_, hs', by have := Sexp.measureT_mono (m := m) hs; omega⟩
  | h2 m n => simp [Filter.isMonotonic] at hf
  | h3 p => simp [Filter.isMonotonic] at hf
  | h4 p =>
    have := Filter.testT_mono (.excludes p) hf hs (Filter.test_some _ _ _ h).symm
    simp only [Filter.test, Filter.testT] at this ⊢
    rw [this]
  | h5 p => simp [Filter.isMonotonic] at hf
  | h6 fs ih =>
    simp only [Filter.isMonotonic, Filter.isMonotonicL_eq, List.all_eq_true] at hf
    simp only [Filter.test] at h ⊢
    induction fs with
    | nil => rfl
    | cons f fs ihf =>
      simp only [Filter.testAll, Option.bind_eq_some_iff] at h ⊢
      obtain ⟨b, hb, h⟩ := h
      cases b with
      | false => simp at h
      | true =>
        refine ⟨true, ih f (by simp) (hf f (by simp)) hb, ?_⟩
        simp only [if_true] at h ⊢
        exact ihf (fun g hg => ih g (by simp [hg])) h (fun g hg => hf g (by simp [hg]))
  | h7 fs ih => simp [Filter.isMonotonic] at hf
  | h8 f ih => simp [Filter.isMonotonic] at hf

-- non-vacuity
example : (Filter.and [.metricLt .depth 3, .excludes (.lit "x")]).isMonotonic = true ∧
    Subterm (.atom "b") (.list [.atom "a", .atom "b"]) ∧
    (Filter.and [.metricLt .depth 3, .excludes (.lit "x")]).test (.list [.atom "a", .atom "b"]) = some true :=
  ⟨by decide, .child (by simp : Sexp.atom "b" ∈ _) (.refl _), by decide⟩

/-! ## C03 -/

/-- **C03.** Filtering twice keeps exactly the terms that pass both filters. -/
theorem C03_filter_twice (w : Workload) (f g : Filter) (h : AllSets NoEmpty w) :
    ∃ ts, w.force = some ts ∧ ((w.addFilter f).addFilter g).force =
      some (ts.filter fun t => decide (f.test t = some true ∧ g.test t = some true)) := by
  obtain ⟨h1, h2⟩ := Workload.AllSets.force h
  refine ⟨_, h1, ?_⟩
  rw [(Workload.AllSets.force (Workload.AllSets.addFilter (Workload.AllSets.addFilter h f) g)).1,
    Workload.forceT_addFilter, Workload.forceT_addFilter, List.filter_filter]
  congr 1
  apply List.filter_congr
  intro t ht
  rw [Filter.test_noEmpty f t (h2 t ht), Filter.test_noEmpty g t (h2 t ht)]
  cases f.testT t <;> cases g.testT t <;> rfl

/-- **C03**, on a single term, for arbitrary terms: the fused filter is the conjunction whenever no test panics. -/
theorem C03_conj (f g : Filter) (s : Sexp) (b bf bg : Bool) (h : (f.conj g).test s = some b)
    (hf : f.test s = some bf) (hg : g.test s = some bg) : b = (bf && bg) := by
  rw [Filter.test_some _ _ _ h, Filter.testT_conj, ← Filter.test_some _ _ _ hf, ← Filter.test_some _ _ _ hg]

-- non-vacuity: a subsumed metric bound is discarded, a needed one is kept
example : (Filter.conj (.metricLt .atoms 3) (.metricLt .atoms 5)).test (.list [.atom "a", .atom "b"]) = some true ∧
    (Filter.conj (.metricLt .atoms 5) (.metricLt .atoms 2)).test (.list [.atom "a", .atom "b"]) = some false ∧
    (Filter.metricLt .atoms 5).test (.list [.atom "a", .atom "b"]) = some true ∧
    (Filter.metricLt .atoms 2).test (.list [.atom "a", .atom "b"]) = some false := by decide

/-! ## C04 – C06 -/

theorem ofAtom_literal {name : String} (h : LiteralName name) : Pattern.ofAtom name = .lit name := by
  simp [Pattern.ofAtom, h.1, h.2]

theorem containsTest_lit (name : String) (t : Sexp) :
    Filter.containsTest (.lit name) t = true ↔ Subterm (.atom name) t := by
  rw [Filter.containsTest_iff]
  constructor
  · rintro ⟨s, hs, hm⟩
    rw [matches_iff] at hm
    obtain ⟨τ, hi⟩ := hm
    cases hi
    exact hs
  · intro h
    exact ⟨_, h, (matches_iff _ _).2 ⟨fun _ => .atom "", .lit name⟩⟩

/-- **C04.** The terms of `w.plug(name, pegs)` are exactly the terms of `w` with each occurrence of the hole
replaced, independently, by some term of `pegs`. (For the empty literal set of pegs the library takes a different route, which
requires the hole name to read as a literal; see C06.) -/
theorem C04_plug_fills (w pegs : Workload) (name : String) (hw : AllSets NoEmpty w) (hp : AllSets NoEmpty pegs)
    (hn : pegs = .set [] → LiteralName name) :
    ∃ ts ps rs, w.force = some ts ∧ pegs.force = some ps ∧ (w.doPlug name pegs).force = some rs ∧
      ∀ r, r ∈ rs ↔ ∃ t ∈ ts, Fills name (· ∈ ps) t r := by
  obtain ⟨h1, h2⟩ := Workload.AllSets.force hw
  obtain ⟨h3, h4⟩ := Workload.AllSets.force hp
  refine ⟨_, _, _, h1, h3, (Workload.AllSets.force (Workload.AllSets.doPlug hw hp)).1, ?_⟩
  intro r
  unfold Workload.doPlug
  split
  · rw [Workload.forceT_addFilter, List.mem_filter, ofAtom_literal (hn rfl)]
    simp only [Filter.testT, Workload.forceT, List.not_mem_nil, fills_false_iff, Bool.not_eq_true',
      ← Bool.not_eq_true, containsTest_lit]
    constructor
    · rintro ⟨h, h'⟩; exact ⟨r, h, rfl, h'⟩
    · rintro ⟨t, ht, rfl, h'⟩; exact ⟨ht, h'⟩
  · simp only [Workload.forceT, List.mem_flatMap]
    constructor
    · rintro ⟨t, ht, h⟩; exact ⟨t, ht, Sexp.mem_plug_fills h⟩
    · rintro ⟨t, ht, h⟩; exact ⟨t, ht, Sexp.fills_mem_plug (h2 t ht) h⟩

/-- **C04**, soundness half for arbitrary workloads (empty lists allowed): nothing but fillings appears. -/
theorem C04_plug_only_fills (w pegs : Workload) (name : String) (ts ps rs : List Sexp)
    (hw : w.force = some ts) (hp : pegs.force = some ps) (hn : pegs = .set [] → LiteralName name)
    (hr : (w.doPlug name pegs).force = some rs) : ∀ r ∈ rs, ∃ t ∈ ts, Fills name (· ∈ ps) t r := by
  intro r hm
  rw [Workload.force_some _ _ hr] at hm
  rw [Workload.force_some _ _ hw, Workload.force_some _ _ hp]
  unfold Workload.doPlug at hm
  split at hm
  · rw [Workload.forceT_addFilter, List.mem_filter, ofAtom_literal (hn rfl)] at hm
    simp only [Filter.testT, Bool.not_eq_true', ← Bool.not_eq_true, containsTest_lit] at hm
    refine ⟨r, hm.1, ?_⟩
    simp only [Workload.forceT, List.not_mem_nil]
    exact fills_false_iff.2 ⟨rfl, hm.2⟩
  · simp only [Workload.forceT, List.mem_flatMap] at hm
    obtain ⟨t, ht, h⟩ := hm
    exact ⟨t, ht, Sexp.mem_plug_fills h⟩

/-- Why C04 asks for terms without empty lists: the empty list disappears under any plug, although filling its
(zero) holes leaves it unchanged. -/
theorem C04_empty_list_vanishes : ((Workload.set [.list []]).doPlug "x" (.set [.atom "a"])).force = some [] ∧
    Fills "x" (· ∈ [Sexp.atom "a"]) (.list []) (.list []) :=
  ⟨by decide, .list .nil⟩

-- non-vacuity: two holes, two pegs, four fillings
example : AllSets NoEmpty Sample.grammar ∧ (Sample.grammar.doPlug "EXPR" (.set [.atom "p", .atom "q"])).force =
    some [.atom "VAR", .list [.atom "OP", .atom "p", .atom "p"], .list [.atom "OP", .atom "p", .atom "q"],
      .list [.atom "OP", .atom "q", .atom "p"], .list [.atom "OP", .atom "q", .atom "q"]] :=
  ⟨.set Sample.noEmpty_grammar, by decide⟩

/-- **C05.** The number of terms of `w.plug(name, pegs)` is the sum over terms `t` of `w` of `|pegs|` to the
number of occurrences of the hole in `t`. -/
theorem C05_plug_count (w pegs : Workload) (name : String) (hw : AllSets NoEmpty w) (hp : AllSets NoEmpty pegs)
    (hn : pegs = .set [] → LiteralName name) :
    ∃ ts ps rs, w.force = some ts ∧ pegs.force = some ps ∧ (w.doPlug name pegs).force = some rs ∧
      rs.length = (ts.map fun t => ps.length ^ holeCount name t).sum := by
  obtain ⟨h1, h2⟩ := Workload.AllSets.force hw
  obtain ⟨h3, h4⟩ := Workload.AllSets.force hp
  refine ⟨_, _, _, h1, h3, (Workload.AllSets.force (Workload.AllSets.doPlug hw hp)).1, ?_⟩
  unfold Workload.doPlug
  split
  · rw [Workload.forceT_addFilter, ofAtom_literal (hn rfl)]
    simp only [Filter.testT, Workload.forceT, List.length_nil]
    generalize w.forceT = ts
    induction ts with
    | nil => rfl
    | cons t ts ih =>
      simp only [List.filter_cons, List.map_cons, List.sum_cons, ← ih]
      by_cases hc : Filter.containsTest (.lit name) t = true
      · have : 0 < holeCount name t := by
          rw [holeCount, List.count_pos_iff, mem_occurrences]
          exact (containsTest_lit name t).1 hc
        simp [hc, Nat.zero_pow this]
      · have : holeCount name t = 0 := by
          rw [holeCount, List.count_eq_zero, mem_occurrences]
          exact fun h => hc ((containsTest_lit name t).2 h)
        rw [Bool.not_eq_true] at hc
        simp [hc, this, Nat.add_comm]
  · simp only [Workload.forceT, List.length_flatMap]
    congr 1
    apply List.map_congr_left
    intro t ht
    exact Sexp.length_plug name _ t (h2 t ht)

/-- **C05**, distinctness: with distinct pegs, the fillings of one term are pairwise distinct. -/
theorem C05_plug_nodup (t : Sexp) (name : String) (pegs : List Sexp) (hp : pegs.Nodup) (rs : List Sexp)
    (hr : ((Workload.set [t]).doPlug name (.set pegs)).force = some rs) : rs.Nodup := by
  rw [Workload.force_some _ _ hr]
  unfold Workload.doPlug
  split
  · rw [Workload.forceT_addFilter]
    exact List.Nodup.filter _ (by simp [Workload.forceT])
  · simpa [Workload.forceT] using Sexp.nodup_plug hp t

example : ((Sample.grammar.doPlug "EXPR" (.set [.atom "p", .atom "q"])).force.map List.length) = some 5 ∧
    (([Sexp.atom "VAR", .list [.atom "OP", .atom "EXPR", .atom "EXPR"]].map fun t => 2 ^ holeCount "EXPR" t).sum) = 5 := by
  decide

/-- **C06** (partial). Plugging the empty set deletes exactly the terms that mention the hole, for every hole name
that reads as a literal. Missing: names `*` and `?…` (see `C06_not_for_wildcards`). -/
theorem C06_empty_plug_partial (w : Workload) (name : String) (hn : LiteralName name) (hw : AllSets NoEmpty w) :
    ∃ ts rs, w.force = some ts ∧ (w.doPlug name (.set [])).force = some rs ∧
      rs.Sublist ts ∧ (∀ r, r ∈ rs ↔ r ∈ ts ∧ ¬ Subterm (.atom name) r) ∧
      ∀ r, ¬ Subterm (.atom name) r → rs.count r = ts.count r := by
  obtain ⟨h1, h2⟩ := Workload.AllSets.force hw
  refine ⟨_, _, h1, (Workload.AllSets.force (Workload.AllSets.doPlug hw (.set (by simp)))).1, ?_⟩
  simp only [Workload.doPlug, Workload.forceT_addFilter, ofAtom_literal hn, Filter.testT]
  refine ⟨List.filter_sublist, ?_, ?_⟩
  · intro r
    rw [List.mem_filter, Bool.not_eq_true', ← Bool.not_eq_true, containsTest_lit]
  · intro r hr
    rw [List.count_filter]
    rw [Bool.not_eq_true', ← Bool.not_eq_true, containsTest_lit]
    exact hr

/-- **C06 fails for wildcard and variable names**: the hole name is parsed as a *pattern*, so plugging the empty set
into a hole called `*` or `?x` removes terms that do not mention it. -/
theorem C06_not_for_wildcards : ¬ (∀ (w : Workload) (name : String), AllSets NoEmpty w →
    ∃ ts rs, w.force = some ts ∧ (w.doPlug name (.set [])).force = some rs ∧
      ∀ r, r ∈ rs ↔ r ∈ ts ∧ ¬ Subterm (.atom name) r) := by
  intro h
  obtain ⟨ts, rs, h1, h2, h3⟩ := h (.set [.atom "a"]) "?x" (.set (by simp [NoEmpty.atom]))
  have e1 : ts = [.atom "a"] := by injection h1 with h1; exact h1.symm
  have e2 : rs = [] := by
    have : ((Workload.set [.atom "a"]).doPlug "?x" (.set [])).force = some [] := by decide
    rw [this] at h2; injection h2 with h2; exact h2.symm
  subst e1 e2
  have := (h3 (.atom "a")).2 ⟨by simp, by rw [Subterm.atom_iff]; decide⟩
  simp at this

example : LiteralName "OP3" ∧ ¬ LiteralName "*" ∧ ¬ LiteralName "?x" ∧
    (Sample.grammar.doPlug "OP" (.set [])).force = some [.atom "VAR"] := by decide

/-! ## C07 -/

/-- **C07.** Appending gives the multiset union of the terms. -/
theorem C07_append (a b : Workload) (xs ys : List Sexp) (ha : a.force = some xs) (hb : b.force = some ys) :
    ∃ rs, (a.doAppend b).force = some rs ∧ rs.Perm (xs ++ ys) := by
  unfold Workload.doAppend
  split
  · simp only [Workload.force] at ha hb ⊢
    simp at ha hb; subst ha hb
    exact ⟨_, rfl, .refl _⟩
  · simp only [Workload.force] at ha hb ⊢
    exact ⟨_, by rw [Workload.forceL_append, ha, hb]; rfl, .refl _⟩
  · simp only [Workload.force] at ha ⊢
    refine ⟨xs ++ ys, ?_, .refl _⟩
    rw [Workload.forceL_append, ha]
    simp [Workload.forceL, hb]
  · simp only [Workload.force] at hb ⊢
    refine ⟨ys ++ xs, ?_, List.perm_append_comm⟩
    rw [Workload.forceL_append, hb]
    simp [Workload.forceL, ha]
  · exact ⟨xs ++ ys, by simp [Workload.force, Workload.forceL, ha, hb], .refl _⟩

/-- **C07**, order: unless only the right-hand side is an append node, the order is preserved too. -/
theorem C07_append_order (a b : Workload) (xs ys : List Sexp) (ha : a.force = some xs) (hb : b.force = some ys)
    (h : (∃ ws, a = .append ws) ∨ ∀ ws, b ≠ .append ws) : (a.doAppend b).force = some (xs ++ ys) := by
  unfold Workload.doAppend
  split
  · simp only [Workload.force] at ha hb ⊢
    simp at ha hb; subst ha hb; rfl
  · simp only [Workload.force] at ha hb ⊢
    rw [Workload.forceL_append, ha, hb]; rfl
  · simp only [Workload.force] at ha ⊢
    rw [Workload.forceL_append, ha]
    simp [Workload.forceL, hb]
  next h1 =>
    rcases h with ⟨ws, h⟩ | h
    · exact absurd h (h1 ws)
    · exact absurd rfl (h _)
  · simp [Workload.force, Workload.forceL, ha, hb]

/-- Order is *not* preserved when only the right-hand side is an append node. -/
theorem C07_append_reorders : ((Workload.set [.atom "a"]).doAppend (.append [.set [.atom "b"]])).force =
    some [.atom "b", .atom "a"] := by decide

example : ((Workload.append [.set [.atom "a"], Sample.grammar]).doAppend (.set [.atom "b"])).force =
    some [.atom "a", .atom "VAR", .list [.atom "OP", .atom "EXPR", .atom "EXPR"], .atom "b"] := by decide

/-! ## C08 -/

/-- **C08.** A term passes `Contains(p)` iff some sub-term is an instance of `p` under one consistent substitution. -/
theorem C08_contains (p : Pattern) (t : Sexp) :
    (Filter.contains p).test t = some true ↔ ∃ s σ, Subterm s t ∧ Instance σ p s := by
  simp only [Filter.test, Option.some.injEq, Filter.containsTest_iff, matches_iff]
  constructor
  · rintro ⟨s, hs, σ, h⟩; exact ⟨s, σ, hs, h⟩
  · rintro ⟨s, σ, hs, h⟩; exact ⟨s, hs, σ, h⟩

/-- **C08.** `Excludes(p)` is the negation of `Contains(p)`; neither panics. -/
theorem C08_excludes (p : Pattern) (t : Sexp) :
    (Filter.excludes p).test t = some true ↔ ¬ ∃ s σ, Subterm s t ∧ Instance σ p s := by
  rw [← C08_contains]
  simp [Filter.test]

/-- **C08.** Pattern tests always give an answer. -/
theorem C08_no_panic (p : Pattern) (t : Sexp) :
    (Filter.contains p).test t ≠ none ∧ (Filter.excludes p).test t ≠ none := by
  simp [Filter.test]

-- non-vacuity: the non-linear pattern (f ?x ?x) is found deep inside, and rejected where inconsistent
example : (Filter.contains (.list [.lit "f", .var "?x", .var "?x"])).test
      (.list [.atom "g", .list [.atom "f", .list [.atom "a"], .list [.atom "a"]]]) = some true ∧
    (Filter.contains (.list [.lit "f", .var "?x", .var "?x"])).test
      (.list [.atom "g", .list [.atom "f", .list [.atom "a"], .list [.atom "b"]]]) = some false := by decide

/-! ## C09 -/

/-- **C09.** Canonicalisation never fails and its result is a renaming of the listed symbols. -/
theorem C09_canon_is_renaming (S : List String) (hS : S.Nodup) (s : Sexp) :
    ∃ c, s.canon S = some c ∧ SameUpToRenaming S s c := by
  obtain ⟨c, hc⟩ := Sexp.canon_total S s
  exact ⟨c, hc, Sexp.canon_same S hS s c hc⟩

/-- **C09.** Two terms have the same canonical form iff they differ by a bijective renaming of listed symbols. -/
theorem C09_canon_complete_invariant (S : List String) (hS : S.Nodup) (s t : Sexp) :
    s.canon S = t.canon S ↔ SameUpToRenaming S s t := by
  constructor
  · intro h
    obtain ⟨c, hc, h1⟩ := C09_canon_is_renaming S hS s
    have h2 := Sexp.canon_same S hS t c (h ▸ hc)
    exact SameUpToRenaming.trans h1 (SameUpToRenaming.symm h2)
  · intro h; exact (Sexp.canon_eq_of_same h).symm

/-- **C09.** Canonicalisation is idempotent. -/
theorem C09_canon_idempotent (S : List String) (hS : S.Nodup) (s c : Sexp) (h : s.canon S = some c) :
    c.canon S = some c := by
  rw [Sexp.canon_eq_of_same (Sexp.canon_same S hS s c h), h]

/-- **C09.** The `Canon` filter keeps exactly one representative of every renaming class. -/
theorem C09_canon_filter_unique (S : List String) (hS : S.Nodup) (s : Sexp) :
    ∃ c, (SameUpToRenaming S s c ∧ (Filter.canon S).test c = some true) ∧
      ∀ d, SameUpToRenaming S s d → (Filter.canon S).test d = some true → d = c := by
  obtain ⟨c, hc, h⟩ := C09_canon_is_renaming S hS s
  refine ⟨c, ⟨h, by simp [Filter.test, C09_canon_idempotent S hS s c hc]⟩, ?_⟩
  intro d hd ht
  have e := (C09_canon_complete_invariant S hS s d).2 hd
  obtain ⟨c', hc'⟩ := Sexp.canon_total S d
  simp only [Filter.test, hc', Option.map_some, Option.some.injEq, decide_eq_true_eq] at ht
  rw [hc, hc'] at e
  injection e with e
  rw [e, ht]

/-- **C09** needs distinct symbols: with a repeated symbol canonicalisation merges different symbols and is
not idempotent. -/
theorem C09_needs_distinct : ∃ (S : List String) (s c : Sexp), s.canon S = some c ∧ c.canon S ≠ some c :=
  ⟨["a", "a", "b", "c"], .list [.atom "a", .atom "b", .atom "c"], .list [.atom "a", .atom "a", .atom "b"],
    by decide, by decide⟩

example : ["x", "y", "z"].Nodup ∧
    (Sexp.list [.atom "+", .atom "z", .list [.atom "x", .atom "z"]]).canon ["x", "y", "z"] =
      some (.list [.atom "+", .atom "x", .list [.atom "y", .atom "x"]]) := by decide

/-! ## C10 -/

/-- **C10.** The atoms metric counts leaves. -/
theorem C10_atoms (s : Sexp) : s.measure .atoms = some ((occurrences s).countP isAtom) := by
  rw [Sexp.measure_not_depth _ _ (by decide)]
  congr 1
  induction s using Sexp.ind with
  | ha a => rfl
  | hl l ih =>
    simp only [Sexp.measureT, Sexp.measureTL_eq, occurrences, occurrencesL_eq, List.countP_cons]
    simp only [isAtom, Bool.false_eq_true, if_false, Nat.add_zero]
    induction l with
    | nil => rfl
    | cons t l ihl =>
      simp only [List.map_cons, List.sum_cons, List.flatMap_cons, List.countP_append,
        ih t (by simp), ihl fun u hu => ih u (by simp [hu])]

/-- **C10.** The lists metric counts list nodes. -/
theorem C10_lists (s : Sexp) : s.measure .lists = some ((occurrences s).countP fun t => !isAtom t) := by
  rw [Sexp.measure_not_depth _ _ (by decide)]
  congr 1
  induction s using Sexp.ind with
  | ha a => rfl
  | hl l ih =>
    simp only [Sexp.measureT, Sexp.measureTL_eq, occurrences, occurrencesL_eq, List.countP_cons]
    have h0 : isAtom (.list l) = false := rfl
    simp only [h0, Bool.not_false, if_true]
    congr 1
    clear h0
    induction l with
    | nil => rfl
    | cons t l ihl =>
      simp only [List.map_cons, List.sum_cons, List.flatMap_cons, List.countP_append,
        ih t (by simp), ihl fun u hu => ih u (by simp [hu])]

theorem path_le_measureT {s : Sexp} {n : Nat} (h : Path s n) : n ≤ s.measureT .depth := by
  induction h with
  | atom a => exact Nat.le_refl _
  | @child t l n hm _ ih =>
    have : Sexp.measureT .depth t ∈ Sexp.measureTL .depth l := by
      rw [Sexp.measureTL_eq]; exact List.mem_map_of_mem hm
    exact Nat.succ_le_succ (Nat.le_trans ih (list_le_foldr_max this))

theorem path_measureT {s : Sexp} (h : NoEmpty s) : Path s (s.measureT .depth) := by
  induction s using Sexp.ind with
  | ha a => exact .atom a
  | hl l ih =>
    rw [NoEmpty.list_iff] at h
    have hne : Sexp.measureTL .depth l ≠ [] := by rw [Sexp.measureTL_eq]; simpa using h.1
    have hm := list_foldr_max_mem hne
    rw [Sexp.measureTL_eq, List.mem_map] at hm
    obtain ⟨t, ht, e⟩ := hm
    simp only [Sexp.measureT, Sexp.measureTL_eq]
    rw [← e]
    exact .child ht (ih t ht (h.2 t ht))

/-- **C10.** The depth metric is the length of the longest root-to-leaf path. -/
theorem C10_depth (s : Sexp) (d : Nat) :
    s.measure .depth = some d ↔ NoEmpty s ∧ Path s d ∧ ∀ n, Path s n → n ≤ d := by
  constructor
  · intro h
    have hn := Sexp.measure_depth_noEmpty s d h
    rw [Sexp.measure_some _ _ _ h]
    exact ⟨hn, path_measureT hn, fun n hp => path_le_measureT hp⟩
  · rintro ⟨hn, hp, hmax⟩
    rw [Sexp.measure_noEmpty _ _ hn]
    have h1 := path_le_measureT hp
    have h2 := hmax _ (path_measureT hn)
    congr 1; omega

/-- **C10.** Measuring fails exactly for the depth of a term containing an empty list. -/
theorem C10_panic_iff (m : Metric) (s : Sexp) : s.measure m = none ↔ m = .depth ∧ Subterm (.list []) s := by
  constructor
  · intro h
    by_cases hm : m = .depth
    · refine ⟨hm, ?_⟩
      by_cases hs : NoEmpty s
      · rw [Sexp.measure_noEmpty _ _ hs] at h; cases h
      · rwa [NoEmpty, Classical.not_not] at hs
    · rw [Sexp.measure_not_depth _ _ hm] at h; cases h
  · rintro ⟨rfl, hs⟩
    cases h : s.measure .depth with
    | none => rfl
    | some k => exact absurd hs (Sexp.measure_depth_noEmpty s k h)

/-- **C10.** No metric of a sub-term exceeds that of the term. -/
theorem C10_mono (m : Metric) (s t : Sexp) (a b : Nat) (h : Subterm s t) (ha : s.measure m = some a)
    (hb : t.measure m = some b) : a ≤ b := by
  rw [Sexp.measure_some _ _ _ ha, Sexp.measure_some _ _ _ hb]
  exact Sexp.measureT_mono h

/-- **C10.** Depth and the lists metric strictly decrease on proper sub-terms. -/
theorem C10_strict (m : Metric) (hm : m ≠ .atoms) (s t : Sexp) (a b : Nat) (h : Subterm s t) (hne : s ≠ t)
    (ha : s.measure m = some a) (hb : t.measure m = some b) : a < b := by
  rw [Sexp.measure_some _ _ _ ha, Sexp.measure_some _ _ _ hb]
  cases h with
  | refl => exact absurd rfl hne
  | @child u l hu hs =>
    have h1 := Sexp.measureT_mono (m := m) hs
    have h2 : Sexp.measureT m u ∈ Sexp.measureTL m l := by
      rw [Sexp.measureTL_eq]; exact List.mem_map_of_mem hu
    cases m with
    | atoms => exact absurd rfl hm
    | lists => have := list_le_sum h2; simp only [Sexp.measureT]; omega
    | depth => have := list_le_foldr_max h2; simp only [Sexp.measureT]; omega

example : (Sexp.list [.atom "+", .list [.atom "f", .atom "x"], .atom "y"]).measure .atoms = some 4 ∧
    (Sexp.list [.atom "+", .list [.atom "f", .atom "x"], .atom "y"]).measure .lists = some 2 ∧
    (Sexp.list [.atom "+", .list [.atom "f", .atom "x"], .atom "y"]).measure .depth = some 3 ∧
    (Sexp.list [.atom "+", .list []]).measure .depth = none := by decide

end Ruler
