import Verif.Proofs.Saturating
import Verif.Props.Compress
/-!
# Saturating rules: C35
-/
namespace Ruler
open Spec EGraph
variable {O C : Type} [Lang O] [LinearOrder C] {D : Domain O C} {ar : O → Nat → Prop}

/-- **C35** (classification). In a domain without constant folding `is_saturating` answers yes iff every proper subpattern of
the right-hand side occurs in the left-hand side, whatever choices egg makes. -/
theorem C35_classified (hD : NoFold D) (hv : VarsOk (O := O) ar) {r : Rule O} (hl : Schematic r.lhs)
    (hr : Schematic r.rhs) {E : Egg} {steps : List Repair} {b : Bool} (h : isSaturating D E steps r = some b) :
    b = true ↔ ∀ q, PatSub q r.rhs → q ≠ r.rhs → PatSub q r.lhs :=
  isSaturating_iff hD hv hl hr h

/-- **C35**, part: in a domain without constant folding, applying a rule classified as saturating to any match in any rebuilt
e-graph adds no class, if the sample vectors are defined afterwards: there are not more classes than before, and each of them
contains an old id. Missing: domains with constant folding, where the claim fails (`C35_folding`). -/
theorem C35_saturating_partial (hD : NoFold D) (hv : VarsOk (O := O) ar) {r : Rule O} (hl : Schematic r.lhs)
    (hr : Schematic r.rhs) {E : Egg} {steps : List Repair} (hs : isSaturating D E steps r = some true)
    {g g' : EGraph O C} (hg : AnyHistory D g) (hc : g.closed = true) {m : Nat × Subst} (hm : m ∈ g.search r.lhs)
    {E' : Egg} (h : applyOne D E' r.rhs g m = some g') (hdef : ∀ i, i < g'.n → (g'.dataOf i).isDefined = true) :
    g'.numClasses ≤ g.numClasses ∧ ∀ i, i < g'.n → ∃ j, j < g.n ∧ g'.find j = g'.find i := by
  have hargs := (isSaturating_iff hD hv hl hr hs).1 rfl
  obtain ⟨val, hI⟩ := AnyHistory.free hD hg
  have hmo := search_ok hI r m hm
  have hrep : PRep g m.2 r.lhs m.1 := by
    unfold EGraph.search at hm
    simp only [List.mem_flatMap, List.mem_map] at hm
    obtain ⟨i, hi, σ, hσ, rfl⟩ := hm
    simp only [EGraph.classes, List.mem_filter, List.mem_range] at hi
    exact ematch_rep hI r.lhs i [] σ hi.1 (by intro v j hv; simp at hv) hσ
  have hsame : ∀ g', Shrinks g g' → g'.numClasses ≤ g.numClasses ∧ ∀ i, i < g'.n → ∃ j, j < g.n ∧ g'.find j = g'.find i :=
    fun g' hS => ⟨hS.numClasses_le, fun i hi => ⟨i, hS.n_eq ▸ hi, rfl⟩⟩
  unfold applyOne at h
  split at h
  · cases h
    exact hsame g (Shrinks.refl g)
  · rw [Option.bind_eq_some_iff] at h
    obtain ⟨⟨g1, k⟩, h1, h⟩ := h
    simp only at h
    have hold : g1 = g → k < g.n → g'.numClasses ≤ g.numClasses ∧
        ∀ i, i < g'.n → ∃ j, j < g.n ∧ g'.find j = g'.find i := by
      rintro rfl hk
      apply hsame
      split at h
      · cases h; exact Shrinks.refl _
      · split at h
        · cases h; exact Shrinks.refl _
        · exact (union_free hD hI hk hmo.lt h).1
    cases hrhs : r.rhs with
    | var v =>
      rw [hrhs, addPat, Option.map_eq_some_iff] at h1
      obtain ⟨j, hj, h1⟩ := h1
      cases h1
      exact hold rfl (hmo.bounded v _ hj)
    | node o args =>
      have hne : ∀ p ∈ args, p ≠ r.rhs := by
        intro p hp he
        have h1 : TmSub p.instantiate p.instantiate := .refl _
        rw [hrhs] at he
        conv at h1 => lhs; rw [he]
        rw [Pat.instantiate, Pat.instantiateL_eq] at h1
        exact not_sub_arg (List.mem_map_of_mem hp) h1
      obtain ⟨js, hjs⟩ := addPatL_rep (D := D) (E := E') hI hc args fun p hp =>
        PRep.sub (hargs p (by rw [hrhs]; exact .arg hp (.refl _)) (hne p hp)) hrep
      have hreach1 : ∃ val1 : Nat → Unit, Inv (fun _ _ => True) (fun _ _ => ()) Free g1 val1 ∧ k < g1.n := by
        obtain ⟨v1, J1, _, k1, _⟩ := addPat_ok (foldInv (NoFold.foldsIn hD _ _)) m.2 (fun _ => ()) r.rhs (PatOk.any _) g val
          g1 k hI (fun v j hv => ⟨hmo.bounded v j hv, rfl⟩) h1
        exact ⟨v1, J1, k1⟩
      rw [hrhs, addPat, hjs, Option.bind_some] at h1
      simp only [EGraph.add, addWith] at h1
      cases hlk : g.lookup ⟨o, js⟩ with
      | some i =>
        rw [hlk] at h1
        cases h1
        obtain ⟨e, he, _, h3⟩ := lookup_some hlk
        exact hold rfl (h3 ▸ hI.find_lt _ (hI.nodes_lt e he).1)
      | none =>
        rw [hlk] at h1
        simp only at h1
        rw [Option.bind_eq_some_iff] at h1
        obtain ⟨s, hsig, h1⟩ := h1
        rw [Option.map_eq_some_iff] at h1
        obtain ⟨g2, hmod, h1⟩ := h1
        simp only [Prod.mk.injEq] at h1
        obtain ⟨rfl, rfl⟩ := h1
        have := modify_free hD (by simp only [EGraph.dataOf, if_true]; exact hD.1 _ _ _ (makeSig_some hsig).2.1) hmod
        subst this
        simp only [if_true] at h hreach1
        have hmn : g.n ≠ m.1 := Nat.ne_of_gt hmo.lt
        rw [if_neg hmn] at h
        split at h
        · rename_i hu
          cases h
          have := hdef g.n (Nat.lt_succ_self _)
          rw [this] at hu
          cases hu
        · obtain ⟨v1, J1, _⟩ := hreach1
          have hfm : g.find m.1 < g.n := hI.find_lt _ hmo.lt
          have hlt : g.n < g.n + 1 := Nat.lt_succ_self _
          have hml : m.1 < g.n + 1 := Nat.lt_succ_of_lt hmo.lt
          obtain ⟨S, hf, hcount⟩ := union_drop hD J1 (i := g.n) (j := m.1) hlt hml (by
            simp only [if_true, if_neg (Ne.symm hmn)]
            exact Nat.ne_of_gt hfm) h
          constructor
          · have hn1 : ∀ g1 : EGraph O C, g1.n = g.n + 1 → (∀ i, g1.find i = if i = g.n then g.n else g.find i) →
                g1.numClasses ≤ g.numClasses + 1 := by
              intro g1 hn hf1
              have := length_le_of_subset (l := g1.classes) (m := g.n :: g.classes) (classes_nodup _) (by
                intro x hx
                rw [mem_classes, hn, hf1] at hx
                by_cases hxn : x = g.n
                · simp [hxn]
                · rw [if_neg hxn] at hx
                  exact List.mem_cons_of_mem _ (mem_classes.2 ⟨by omega, hx.2⟩))
              simpa [EGraph.numClasses] using this
            exact Nat.le_of_succ_le_succ (Nat.le_trans hcount (hn1 _ rfl fun _ => rfl))
          · intro i hi
            rw [S.n_eq] at hi
            by_cases hin : i = g.n
            · exact ⟨m.1, hmo.lt, by rw [hin, hf]⟩
            · exact ⟨i, Nat.lt_of_le_of_ne (Nat.le_of_lt_succ hi) hin, rfl⟩

-- Commutativity is saturating, distributing is not (the e-graphs are rebuilt with nothing to do).
example : isSaturating halideDomain Sample.egg [] Sample.predComm = some true ∧
    isSaturating halideDomain Sample.egg []
      ⟨[], .node .mul [.var "?a", .node .add [.var "?b", .var "?c"]],
        .node .add [.node .mul [.var "?a", .var "?b"], .node .mul [.var "?a", .var "?c"]]⟩ = some false := by
  decide +kernel

-- Applying commutativity to `(+ a b)` in the e-graph of `(- (+ a b))`, `(- (+ b a))` merges two classes.
example : ∃ g g' : EGraph PredOp Int, AnyHistory halideDomain g ∧ g.closed = true ∧
    (∃ σ, (2, σ) ∈ g.search Sample.predComm.lhs ∧ applyOne halideDomain Sample.egg Sample.predComm.rhs g (2, σ) = some g') ∧
    (∀ i, i < g'.n → (g'.dataOf i).isDefined = true) ∧ g.numClasses = 6 ∧ g'.numClasses = 5 := by
  have h : (Sample.predStart.map fun g => (g.closed, g.numClasses, ((g.search Sample.predComm.lhs)[0]?).bind fun m =>
      if m.1 = 2 then (applyOne halideDomain Sample.egg Sample.predComm.rhs g m).map fun g' =>
        (g'.numClasses, (List.range g'.n).all fun i => (g'.dataOf i).isDefined) else none)) =
      some (true, 6, some (5, true)) := by decide +kernel
  rw [Option.map_eq_some_iff] at h
  obtain ⟨g, hg, h⟩ := h
  simp only [Prod.mk.injEq] at h
  obtain ⟨h1, h2, h3⟩ := h
  rw [Option.bind_eq_some_iff] at h3
  obtain ⟨⟨i, σ⟩, hm, h3⟩ := h3
  split at h3
  · rename_i hi
    simp only at hi
    subst hi
    rw [Option.map_eq_some_iff] at h3
    obtain ⟨g', hg', h3⟩ := h3
    simp only [Prod.mk.injEq, List.all_eq_true, List.mem_range] at h3
    exact ⟨g, g', reach_termsToEGraph (fun _ => ⟨rfl, trivial⟩) (fun t _ => TmOk.any t) hg, h1,
      ⟨σ, List.mem_of_getElem? hm, hg'⟩, h3.2, h2, h3.1⟩
  · cases h3

/-- **C35 fails with constant folding** (finding). The valid rule `(^ (^ ?x ?x) false) ==> (& (~ ?x) false)` of the Boolean
domain is classified as saturating, because its right-hand side folds to `false` and the new class `(~ ?x)` is offset by
merging the left-hand side with `false`. In an e-graph where these two are equal already the application adds a class,
although every sample is defined. -/
theorem C35_folding : ∃ (g g' : EGraph BoolOp Bool) (steps : List Repair),
    isSaturating boolDomain Sample.egg steps Sample.foldRule = some true ∧
    AnyHistory boolDomain g ∧ g.closed = true ∧
    (∃ m ∈ g.search Sample.foldRule.lhs, applyOne boolDomain Sample.egg Sample.foldRule.rhs g m = some g') ∧
    (∀ i, i < g'.n → (g'.dataOf i).isDefined = true) ∧ g'.numClasses = g.numClasses + 1 := by
  have h0 : isSaturating boolDomain Sample.egg [.congr 3, .congr 4] Sample.foldRule = some true := by decide +kernel
  have h : (Sample.foldStart.map fun g => (g.closed, g.numClasses, ((g.search Sample.foldRule.lhs)[0]?).bind fun m =>
      (applyOne boolDomain Sample.egg Sample.foldRule.rhs g m).map fun g' =>
        (g'.numClasses, (List.range g'.n).all fun i => (g'.dataOf i).isDefined))) =
      some (true, 3, some (4, true)) := by decide +kernel
  rw [Option.map_eq_some_iff] at h
  obtain ⟨g, hg, h⟩ := h
  simp only [Prod.mk.injEq] at h
  obtain ⟨h1, h2, h3⟩ := h
  rw [Option.bind_eq_some_iff] at h3
  obtain ⟨m, hm, h3⟩ := h3
  rw [Option.map_eq_some_iff] at h3
  obtain ⟨g', hg', h3⟩ := h3
  simp only [Prod.mk.injEq, List.all_eq_true, List.mem_range] at h3
  rw [Sample.foldStart, Option.bind_eq_some_iff] at hg
  obtain ⟨g0, hg0, hg⟩ := hg
  refine ⟨g, g', _, h0, .run (reach_termsToEGraph (fun _ => ⟨rfl, trivial⟩) (fun t _ => TmOk.any t) hg0)
    (fun _ _ => trivial) hg, h1, ⟨m, List.mem_of_getElem? hm, hg'⟩, h3.2, ?_⟩
  rw [h3.1, h2]

/-- **C35 needs defined samples** (finding): without constant folding, a rule classified as saturating adds a class when its
right-hand side is undefined on all samples — `apply_one` inserts it before it looks at its samples, and then does not merge
it (src/enumo/rule.rs:88-95). -/
theorem C35_undefined : ∃ (g g' : EGraph PredOp Int) (steps : List Repair),
    isSaturating halideDomain Sample.egg steps Sample.overRule = some true ∧
    AnyHistory halideDomain g ∧ g.closed = true ∧
    (∃ m ∈ g.search Sample.overRule.lhs, applyOne halideDomain Sample.egg Sample.overRule.rhs g m = some g') ∧
    (∃ i, i < g'.n ∧ (g'.dataOf i).isDefined = false) ∧ g'.numClasses = g.numClasses + 1 := by
  have h0 : isSaturating halideDomain Sample.egg [] Sample.overRule = some true := by decide +kernel
  have h : (Sample.overStart.map fun g => (g.closed, g.numClasses, ((g.search Sample.overRule.lhs)[0]?).bind fun m =>
      (applyOne halideDomain Sample.egg Sample.overRule.rhs g m).map fun g' =>
        (g'.numClasses, g'.n, (g'.dataOf 3).isDefined))) =
      some (true, 3, some (4, 4, false)) := by decide +kernel
  rw [Option.map_eq_some_iff] at h
  obtain ⟨g, hg, h⟩ := h
  simp only [Prod.mk.injEq] at h
  obtain ⟨h1, h2, h3⟩ := h
  rw [Option.bind_eq_some_iff] at h3
  obtain ⟨m, hm, h3⟩ := h3
  rw [Option.map_eq_some_iff] at h3
  obtain ⟨g', hg', h3⟩ := h3
  simp only [Prod.mk.injEq] at h3
  refine ⟨g, g', _, h0, reach_termsToEGraph (fun _ => ⟨rfl, trivial⟩) (fun t _ => TmOk.any t) hg, h1,
    ⟨m, List.mem_of_getElem? hm, hg'⟩, ⟨3, by rw [h3.2.1]; decide, h3.2.2⟩, ?_⟩
  rw [h3.1, h2]

end Ruler
