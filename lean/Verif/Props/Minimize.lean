import Verif.Proofs.Minimize
import Verif.Props.Derive
import Verif.Spec.SampleEGraph
import Verif.Props.Ruleset
/-!
# Rule selection (C21–C24)

The theorems quantify over the scheduler, all choices of egg in every round, the score and all answers of the validator
(`MinEnv`). `Ruleset.minimize` takes a bound on the number of rounds, which C21 removes.
-/
namespace Ruler
open Spec EGraph
open scoped List
variable {O C V : Type} [Lang O] [LinearOrder C] {D : Domain O C} {ar : O → Nat → Prop}

/-! ## C21: termination -/

/-- As many rounds as there are candidates are enough: the loop then ends (or egg panics in one of the saturations). -/
theorem C21_terminates (M : MinEnv O) {cands prior : Ruleset O} (hw : WellFormed cands) {fuel : Nat}
    (hf : cands.length ≤ fuel) : Ruleset.minimize D M fuel cands prior ≠ .running := by
  have h := minimizeLoop_stops (D := D) (M := M) fuel (round := 0) (asked := []) (chosen := prior) hw
    Ruleset.WellFormed.nil hf
  unfold Ruleset.minimize
  split
  · simp
  · exact h

/-- The outcome does not depend on the bound. -/
theorem C21_bound_irrelevant (M : MinEnv O) {cands prior : Ruleset O} (hw : WellFormed cands) {fuel : Nat}
    (hf : cands.length ≤ fuel) : Ruleset.minimize D M fuel cands prior = Ruleset.minimize D M cands.length cands prior := by
  obtain ⟨k, rfl⟩ := Nat.le.dest hf
  unfold Ruleset.minimize
  rw [minimizeLoop_mono _ _ (minimizeLoop_stops (D := D) (M := M) _ hw Ruleset.WellFormed.nil (Nat.le_refl _))]

/-- The only way not to return a result is a panic in the saturation of one of the rounds. -/
theorem C21_panic_only (M : MinEnv O) {cands prior : Ruleset O} (hw : WellFormed cands) {fuel : Nat}
    (hf : cands.length ≤ fuel) :
    (∃ out inv asked, Ruleset.minimize D M fuel cands prior = .done out inv asked) ∨
    ∃ k cs ch, k < cands.length ∧ (∀ r ∈ Ruleset.iter cs, r ∈ Ruleset.iter cands) ∧
      Ruleset.shrink D (M.eg k) M.isSat M.sched (M.tr k) cs ch = none := by
  have h := minimizeLoop_stops (D := D) (M := M) fuel (round := 0) (asked := []) (chosen := prior) hw
    Ruleset.WellFormed.nil hf
  unfold Ruleset.minimize
  cases hm : minimizeLoop D M fuel 0 cands prior [] [] with
  | done c i a => exact Or.inl ⟨_, _, _, rfl⟩
  | panic =>
    obtain ⟨k, cs, ch, h1, -, h2, h3⟩ := minimizeLoop_panic _ hw Ruleset.WellFormed.nil hm
    exact Or.inr ⟨k, cs, ch, by omega, h1, h3⟩
  | running => exact absurd hm h

private theorem minimize_done {M : MinEnv O} {cands prior out inv : Ruleset O} {asked : List (Rule O)} {fuel : Nat}
    (hc : WellFormed cands) (hp : WellFormed prior) (h : Ruleset.minimize D M fuel cands prior = .done out inv asked) :
    ∃ chosen, LoopInv D M cands prior [] chosen asked inv ∧ out = Ruleset.removeAll chosen prior := by
  unfold Ruleset.minimize at h
  split at h
  · rename_i ch i a hm
    cases h
    refine ⟨ch, minimizeLoop_inv fuel ⟨hc, hp, Ruleset.WellFormed.nil, fun r hr => hr, fun q hq => Or.inl hq, ?_⟩ hm, rfl⟩
    exact fun c hc => Or.inl hc
  · rename_i hm
    exact (hm _ _ _ h).elim

/-! ## C22: only validated candidates, none already known -/

/-- Every returned rule was accepted by the validator, is a candidate or the other direction of one and has the name of
a candidate, and no rule of the prior ruleset has its name. -/
theorem C22_validated {M : MinEnv O} {cands prior out inv : Ruleset O} {asked : List (Rule O)} {fuel : Nat}
    (hc : WellFormed cands) (hp : WellFormed prior) (h : Ruleset.minimize D M fuel cands prior = .done out inv asked) :
    WellFormed out ∧ ∀ q ∈ Ruleset.iter out,
      Answered M.valid asked true q ∧ IsCandidate cands q ∧ ¬ Named prior q.name := by
  obtain ⟨ch, hi, rfl⟩ := minimize_done hc hp h
  refine ⟨Ruleset.WellFormed.removeAll hi.wch prior, fun q hq => ?_⟩
  rw [mem_removeAll hi.wch hp] at hq
  rcases hi.orig q hq.1 with h1 | ⟨h1, h2⟩
  · exact absurd ⟨q, h1, rfl⟩ hq.2
  · exact ⟨h1, h2, hq.2⟩

/-- Names determine the sides of textual rules, so the other direction of a candidate that has the name of a candidate is
that candidate. -/
theorem isCandidate_mem {cands : Ruleset O} (ht : ∀ r ∈ Ruleset.iter cands, Rule.Textual r) {q : Rule O}
    (h : IsCandidate cands q) : q ∈ Ruleset.iter cands := by
  rcases h with h | ⟨⟨c', hc', e'⟩, c, hc, e1, e2, e3, -⟩
  · exact h
  · obtain ⟨⟨hn, hb⟩, hl, hr, hal, har⟩ := ht c hc
    obtain ⟨⟨hn', hb'⟩, hl', hr', hal', har'⟩ := ht c' hc'
    have hname : ruleName c'.lhs c'.rhs = ruleName c.rhs c.lhs := by rw [← hn', e', e3, e1, e2]
    have h1 := ruleName_split c'.lhs c'.rhs hal'
    rw [hname, ruleName_split c.rhs c.lhs har] at h1
    simp only [Option.some.injEq, Prod.mk.injEq, List.append_cancel_right_eq, List.cons.injEq, true_and] at h1
    have hL := Readable.print_inj hr hl' h1.1
    have hR := Readable.print_inj hl hr' h1.2
    have : q = c' := by
      obtain ⟨n, a, b⟩ := q
      obtain ⟨n', a', b'⟩ := c'
      simp_all
    exact this ▸ hc'

/-- If the candidates can be written as text, every returned rule is itself a candidate. -/
theorem C22_candidates {M : MinEnv O} {cands prior out inv : Ruleset O} {asked : List (Rule O)} {fuel : Nat}
    (hc : WellFormed cands) (hp : WellFormed prior) (ht : ∀ r ∈ Ruleset.iter cands, Rule.Textual r)
    (h : Ruleset.minimize D M fuel cands prior = .done out inv asked) :
    ∀ q ∈ Ruleset.iter out, q ∈ Ruleset.iter cands ∧ q ∉ Ruleset.iter prior ∧ Answered M.valid asked true q := by
  intro q hq
  obtain ⟨h1, h2, h3⟩ := (C22_validated hc hp h).2 q hq
  exact ⟨isCandidate_mem ht h2, fun hq => h3 ⟨q, hq, rfl⟩, h1⟩

/-- Every rule reported as invalid is a candidate or the other direction of a candidate. -/
theorem C22_invalid {M : MinEnv O} {cands prior out inv : Ruleset O} {asked : List (Rule O)} {fuel : Nat}
    (hc : WellFormed cands) (hp : WellFormed prior) (h : Ruleset.minimize D M fuel cands prior = .done out inv asked) :
    WellFormed inv ∧ ∀ q ∈ Ruleset.iter inv, ∃ c ∈ Ruleset.iter cands, q = c ∨ Rule.new c.rhs c.lhs = some q := by
  refine ⟨?_, ?_⟩
  · obtain ⟨ch, hi, rfl⟩ := minimize_done hc hp h
    exact hi.winv
  · unfold Ruleset.minimize at h
    split at h
    · rename_i ch i a hm
      cases h
      exact minimizeLoop_invalid fuel hc Ruleset.WellFormed.nil (fun r hr => hr) (by simp [Ruleset.iter]) hm
    · rename_i hm
      exact (hm _ _ _ h).elim

/-! ## C23: nothing is lost -/

/-- Every candidate has the name of a prior or a returned rule, or was rejected by the validator and is reported as
invalid, or its sides were merged in a saturation with rules that all have the name of a prior or a returned rule. -/
theorem C23_covered {M : MinEnv O} {cands prior out inv : Ruleset O} {asked : List (Rule O)} {fuel : Nat}
    (hc : WellFormed cands) (hp : WellFormed prior) (h : Ruleset.minimize D M fuel cands prior = .done out inv asked)
    (c : Rule O) (hcand : c ∈ Ruleset.iter cands) :
    Named prior c.name ∨ Named out c.name ∨ (Answered M.valid asked false c ∧ Named inv c.name) ∨
    ∃ (round : Nat) (cs ch rest : Ruleset O),
      Ruleset.shrink D (M.eg round) M.isSat M.sched (M.tr round) cs ch = some rest ∧
      c ∈ Ruleset.iter cs ∧ c ∉ Ruleset.iter rest ∧
      ∀ q ∈ Ruleset.iter ch, Named prior q.name ∨ Named out q.name := by
  obtain ⟨chosen, hi, rfl⟩ := minimize_done hc hp h
  have hn : ∀ n, Named chosen n → Named prior n ∨ Named (Ruleset.removeAll chosen prior) n := by
    intro n hn
    by_cases h1 : Named prior n
    · exact Or.inl h1
    · exact Or.inr ((named_removeAll hi.wch hp).2 ⟨hn, h1⟩)
  rcases hi.cover c hcand with h1 | h1 | h1 | ⟨k, cs, ch, rest, h1, h2, h3, h4, h5, h6⟩
  · simp [Ruleset.iter] at h1
  · rcases hn _ h1 with h2 | h2
    · exact Or.inl h2
    · exact Or.inr (Or.inl h2)
  · exact Or.inr (Or.inr (Or.inl h1))
  · exact Or.inr (Or.inr (Or.inr ⟨k, cs, ch, rest, h1, h4, h5, fun q hq => hn _ (h6 q hq).2⟩))

/-- What the candidates mean is not lost: in every algebra in which constant folding is correct and the prior and the returned
rules hold, every candidate holds that the validator did not reject. -/
theorem C23_follows {I : O → List V → V} {mem : Interval C → V → Prop} (hF : ∀ env, FoldsIn D ar (withVars env I) mem)
    (hv : VarsOk (O := O) ar) {M : MinEnv O} {cands prior out inv : Ruleset O} {asked : List (Rule O)} {fuel : Nat}
    (hc : WellFormed cands) (hp : WellFormed prior) (htc : ∀ r ∈ Ruleset.iter cands, Rule.Textual r ∧ GoodRule ar r)
    (htp : ∀ r ∈ Ruleset.iter prior, Rule.Textual r ∧ GoodRule ar r)
    (h : Ruleset.minimize D M fuel cands prior = .done out inv asked)
    (hI : ∀ q, q ∈ Ruleset.iter prior ∨ q ∈ Ruleset.iter out → Holds I q)
    (c : Rule O) (hcand : c ∈ Ruleset.iter cands) : Holds I c ∨ Answered M.valid asked false c := by
  have hout := C22_candidates hc hp (fun r hr => (htc r hr).1) h
  obtain ⟨chosen, hi, rfl⟩ := minimize_done hc hp h
  have hmem : ∀ q, Origin M cands prior asked q → Rule.Textual q ∧ GoodRule ar q := by
    intro q hq
    rcases hq with hq | ⟨-, hq⟩
    · exact htp q hq
    · exact htc q (isCandidate_mem (fun r hr => (htc r hr).1) hq)
  -- a textual rule with the name of a chosen rule holds
  have hname : ∀ q, Rule.Textual q → Named chosen q.name → Holds I q := by
    rintro q hq ⟨q', hq', e⟩
    have := Rule.Textual.ext (hmem q' (hi.orig q' hq')).1 hq e
    subst this
    by_cases hn : Named prior q'.name
    · obtain ⟨p, hp', e⟩ := hn
      have := Rule.Textual.ext (htp p hp').1 hq e
      subst this
      exact hI _ (Or.inl hp')
    · exact hI _ (Or.inr ((mem_removeAll hi.wch hp).2 ⟨hq', hn⟩))
  rcases hi.cover c hcand with h1 | h1 | ⟨h1, -⟩ | ⟨k, cs, ch, rest, h1, h2, h3, h4, h5, h6⟩
  · simp [Ruleset.iter] at h1
  · exact Or.inl (hname c (htc c hcand).1 h1)
  · exact Or.inr h1
  · refine Or.inl ((C34_sound hF hv h2 (fun r hr => (htc r (h3 r hr)).2) (fun q hq => ?_) h1).2 c h4 h5)
    obtain ⟨h7, h8⟩ := hmem q (h6 q hq).1
    exact ⟨h8, hname q h7 (h6 q hq).2⟩

/-- Without constant folding: the candidates that were not rejected are equational consequences of the prior and the
returned rules. -/
theorem C23_consequence (hD : NoFold D) (hv : VarsOk (O := O) ar) {M : MinEnv O} {cands prior out inv : Ruleset O}
    {asked : List (Rule O)} {fuel : Nat} (hc : WellFormed cands) (hp : WellFormed prior)
    (htc : ∀ r ∈ Ruleset.iter cands, Rule.Textual r ∧ GoodRule ar r)
    (htp : ∀ r ∈ Ruleset.iter prior, Rule.Textual r ∧ GoodRule ar r)
    (h : Ruleset.minimize D M fuel cands prior = .done out inv asked) (c : Rule O) (hcand : c ∈ Ruleset.iter cands)
    (hr : ¬ Answered M.valid asked false c) :
    ∀ (V : Type) (I : O → List V → V), (∀ q, q ∈ Ruleset.iter prior ∨ q ∈ Ruleset.iter out → Holds I q) → Holds I c :=
  fun _ _ hI => (C23_follows (fun _ => NoFold.foldsIn hD ar _) hv hc hp htc htp h hI c hcand).resolve_right hr

/-! ## C24: best candidates first -/

/-- The candidates are taken in descending order of score. All but the last one taken were rejected; the selected rules are
the last one taken or its other direction. If nothing is selected, all candidates were taken and rejected. -/
theorem C24_best {score : Rule O → List Int} {valid : List (Rule O) → Rule O → Bool} {cands inv rest : Ruleset O}
    {asked : List (Rule O)} {st : Sel O} (hw : WellFormed cands) (hi : WellFormed inv)
    (h : Ruleset.select score valid 1 cands asked inv = (rest, st)) :
    ∃ taken, taken ++ Ruleset.iter rest ~ Ruleset.iter cands ∧
      taken.Pairwise (fun a b => ScoreLe (score b) (score a)) ∧
      (∀ a ∈ taken, ∀ b ∈ Ruleset.iter rest, ScoreLe (score b) (score a)) ∧
      ((st.selected = [] ∧ rest = [] ∧ ∀ a ∈ taken, Answered valid st.asked false a) ∨
        ∃ rejected best, taken = rejected ++ [best] ∧ (∀ a ∈ rejected, Answered valid st.asked false a) ∧
          st.selected ≠ [] ∧ ∀ q ∈ Ruleset.iter st.selected, q = best ∨ Rule.new best.rhs best.lhs = some q) := by
  have hp : (Ruleset.sortByScore score cands).reverse ~ cands := (List.reverse_perm _).trans (sort_perm score cands)
  have hs : (Ruleset.sortByScore score cands).reverse.Pairwise fun a b => ScoreLe (score b.2) (score a.2) := by
    rw [List.pairwise_reverse]
    have : Std.Total fun a b : List Char × Rule O => lexLe (score a.2) (score b.2) = true :=
      ⟨fun a b => by simpa using lexLe_total (score a.2) (score b.2)⟩
    have : IsTrans _ fun a b : List Char × Rule O => lexLe (score a.2) (score b.2) = true :=
      ⟨fun _ _ _ => lexLe_trans _ _ _⟩
    exact List.pairwise_insertionSort (r := fun a b : List Char × Rule O => lexLe (score a.2) (score b.2) = true) cands
  unfold Ruleset.select at h
  have h1 := selectLoop_one (valid := valid) (Ruleset.sortByScore score cands).reverse ⟨asked, [], inv⟩ rfl
  have hw' : WellFormed (selectLoop valid 1 (Ruleset.sortByScore score cands).reverse ⟨asked, [], inv⟩).2.selected := by
    have := selectLoop_ind (valid := valid) (step := 1)
      (P := SelInv valid (Ruleset.sortByScore score cands).reverse asked inv)
      (fun e rest st h => h.take (wf_of_perm hp hw))
      (Ruleset.sortByScore score cands).reverse ⟨asked, [], inv⟩
      ⟨List.suffix_refl _, List.suffix_refl _, Ruleset.WellFormed.nil, hi, by simp [Ruleset.iter], fun n h => h,
        fun c hc => Or.inl hc⟩
    exact this.wsel
  simp only [extend_nil hw', Prod.mk.injEq] at h
  obtain ⟨rfl, rfl⟩ := h
  generalize (Ruleset.sortByScore score cands).reverse = l at *
  generalize selectLoop valid 1 l ⟨asked, [], inv⟩ = r at *
  rcases h1 with ⟨h1, h2, h3⟩ | ⟨pre, e, tail, rfl, h2, h3, h4, h5⟩
  · refine ⟨l.map Prod.snd, ?_, ?_, ?_, Or.inl ⟨h2, ?_, ?_⟩⟩
    · rw [h1]; simpa [Ruleset.iter] using hp.map Prod.snd
    · exact List.pairwise_map.2 hs
    · intro a _ b hb; rw [h1] at hb; simp [Ruleset.iter] at hb
    · simp [h1]
    · intro a ha
      obtain ⟨x, hx, rfl⟩ := List.mem_map.1 ha
      exact h3 x hx
  · have hs' : (pre ++ [e] ++ tail).Pairwise fun a b => ScoreLe (score b.2) (score a.2) := by simpa using hs
    rw [List.pairwise_append] at hs'
    refine ⟨(pre ++ [e]).map Prod.snd, ?_, List.pairwise_map.2 hs'.1, ?_, Or.inr ⟨pre.map Prod.snd, e.2, by simp, ?_, h4, h5⟩⟩
    · have : (pre ++ [e]).map Prod.snd ++ Ruleset.iter r.1.reverse ~ (pre ++ e :: tail).map Prod.snd := by
        rw [h2, show (pre ++ e :: tail) = (pre ++ [e]) ++ tail by simp, List.map_append (l₁ := pre ++ [e])]
        exact List.Perm.append_left _ ((List.reverse_perm tail).map _)
      exact this.trans (hp.map Prod.snd)
    · intro a ha b hb
      obtain ⟨x, hx, rfl⟩ := List.mem_map.1 ha
      obtain ⟨y, hy, rfl⟩ := List.mem_map.1 hb
      rw [h2] at hy
      exact hs'.2.2 x hx y (List.mem_reverse.1 hy)
    · intro a ha
      obtain ⟨x, hx, rfl⟩ := List.mem_map.1 ha
      exact h3 x hx

/-- The order of scores is total and transitive, and scores that are equally good are equal. -/
theorem C24_order : (∀ a b, ScoreLe a b ∨ ScoreLe b a) ∧ (∀ a b c, ScoreLe a b → ScoreLe b c → ScoreLe a c) ∧
    ∀ a b, ScoreLe a b → ScoreLe b a → a = b :=
  ⟨fun a b => by simpa [ScoreLe] using lexLe_total a b, lexLe_trans, lexLe_antisymm⟩

/-- The first component in which scores differ decides. -/
theorem C24_lexicographic {p a b : List Int} {x y : Int} (h : x < y) :
    ScoreLe (p ++ x :: a) (p ++ y :: b) ∧ ¬ ScoreLe (p ++ y :: b) (p ++ x :: a) := by
  unfold ScoreLe
  induction p with
  | nil => simp [lexLe, h, Int.lt_asymm h]
  | cons z p ih => simpa [lexLe] using ih

theorem treeNodes_eq {A : Type} (t : Tm A) : Tm.fold (fun _ ns => 1 + ns.sum) t = treeNodes t := by
  induction t using Tm.ind with
  | _ o l ih =>
    rw [Tm.fold_node, treeNodes]
    have : (l.map (Tm.fold fun _ ns => 1 + ns.sum)).sum = treeNodesL l := by
      clear o
      induction l with
      | nil => rfl
      | cons a l ihl =>
        rw [List.map_cons, List.sum_cons, treeNodesL, ih a (by simp), ihl fun b hb => ih b (by simp [hb])]
    omega

theorem exactly_dedup {α : Type} [DecidableEq α] {l : List α} {P : α → Prop} (h : ∀ a, a ∈ l ↔ P a) :
    Exactly (dedup l).length P := ⟨dedup l, nodup_dedup l, fun a => mem_dedup.trans (h a), rfl⟩

theorem exactly_countP {α : Type} (p : α → Bool) (l : List α) :
    Exactly (l.countP p) fun i : Nat => ∃ a, l[i]? = some a ∧ p a = true := by
  refine ⟨(List.range l.length).filter fun i => (l[i]?).any p, List.nodup_range.filter _, ?_, ?_⟩
  · intro i
    simp only [List.mem_filter, List.mem_range, Option.any_eq_true]
    constructor
    · rintro ⟨_, a, h1, h2⟩; exact ⟨a, h1, h2⟩
    · rintro ⟨a, h1, h2⟩; exact ⟨(List.getElem?_eq_some_iff.1 h1).1, a, h1, h2⟩
  · rw [← List.countP_eq_length_filter]
    induction l with
    | nil => rfl
    | cons a l ih =>
      rw [List.length_cons, List.range_succ_eq_map, List.countP_cons, List.countP_map, List.countP_cons, ← ih]
      simp [Function.comp_def]

/-- **C24** (meaning of scores). A score consists of the number of variables of the rule, and, counted negatively, the number
of constants, the size of the larger side, the size of both sides and the number of operators. -/
theorem C24_components {l r : PatternAst O} {s : List Int} (h : score l r = some s) : Nonempty (HasScore l r s) := by
  unfold score astSize at h
  rw [RecExpr.run_eq_tree, RecExpr.run_eq_tree, Option.bind_eq_some_iff] at h
  obtain ⟨ls, h1, h⟩ := h
  obtain ⟨rs, h2, h⟩ := Option.map_eq_some_iff.1 h
  obtain ⟨tl, htl, rfl⟩ := Option.map_eq_some_iff.1 h1
  obtain ⟨tr, htr, rfl⟩ := Option.map_eq_some_iff.1 h2
  rw [treeNodes_eq, treeNodes_eq] at h
  refine ⟨⟨(dedup (dedup (l.filterMap fun n => n.op.var?) ++ dedup (r.filterMap fun n => n.op.var?))).length,
    (l ++ r).countP fun n => n.op.isConst,
    (dedup (((l ++ r).filter fun n => !n.children.isEmpty).map fun n => n.op.display)).length,
    tl, tr, htl, htr, exactly_dedup ?_, ?_, exactly_dedup ?_, by rw [← h]; push_cast; rfl⟩⟩
  · intro x
    simp only [List.mem_append, mem_dedup, List.mem_filterMap]
    have e : ∀ n : FNode (POp O), n.op.var? = some x ↔ n.op = .var x := by
      intro n; cases n.op <;> simp [POp.var?]
    simp only [e]
    constructor
    · rintro (⟨n, h1, h2⟩ | ⟨n, h1, h2⟩)
      · exact ⟨n, .inl h1, h2⟩
      · exact ⟨n, .inr h1, h2⟩
    · rintro ⟨n, h1 | h1, h2⟩
      · exact .inl ⟨n, h1, h2⟩
      · exact .inr ⟨n, h1, h2⟩
  · obtain ⟨L, hL1, hL2, hL3⟩ := exactly_countP (fun n : FNode (POp O) => n.op.isConst) (l ++ r)
    refine ⟨L, hL1, fun i => (hL2 i).trans ?_, hL3⟩
    constructor
    · rintro ⟨n, h1, h2⟩
      cases ho : n.op with
      | var v => rw [ho] at h2; cases h2
      | op o => rw [ho] at h2; exact ⟨n, o, h1, ho, h2⟩
    · rintro ⟨n, o, h1, h2, h3⟩
      exact ⟨n, h1, by rw [h2]; exact h3⟩
  · intro x
    simp only [List.mem_map, List.mem_filter, Bool.not_eq_true', List.isEmpty_eq_false_iff, and_assoc]

/-- Both directions of a rule have the same score. -/
theorem C24_symmetric (l r : PatternAst O) : score l r = score r l := score_comm l r

/-! ## Examples -/

namespace Sample

/-- Natural numbers without interval analysis. -/
def freeNat : Domain NatOp Int := { natDom with mkInterval := fun _ _ => some ⟨none, none⟩ }
/-- Nothing is applied. -/
def quiet : SchedTrace := { trace with simple := ⟨[], []⟩ }
/-- `(+ ?a ?b) ==> (+ ?b ?a)` under the name the library gives it. -/
def commRule : Rule NatOp := ⟨ruleName addComm.lhs addComm.rhs, addComm.lhs, addComm.rhs⟩
/-- `(+ ?c ?b) ==> (+ ?b ?c)` -/
def commRule2 : Rule NatOp :=
  ⟨ruleName (.node NatOp.add [.var "?c", .var "?b"]) (.node NatOp.add [.var "?b", .var "?c"]),
    .node NatOp.add [.var "?c", .var "?b"], .node NatOp.add [.var "?b", .var "?c"]⟩
/-- `(+ ?a ?b) ==> ?a` -/
def fstRule : Rule NatOp := ⟨ruleName addComm.lhs (.var "?a"), addComm.lhs, .var "?a"⟩
/-- Candidates. -/
def pick : Ruleset NatOp := Ruleset.addAll [] [fstRule, commRule2, commRule]
/-- The validator rejects `(+ ?a ?b) ==> ?a`; commutativity is applied once. -/
def pickEnv : MinEnv NatOp where
  sched := .simple limits
  isSat _ := false
  eg _ := egg
  tr k := if k = 0 then trace else quiet
  score r := [(r.name.length : Int)]
  valid _ r := decide (r.name.length ≠ fstRule.name.length)
/-- Lengths of the names. -/
def sizes : MinResult NatOp → Option (List Nat × List Nat × List Nat)
  | .done a b c => some (a.map (·.1.length), b.map (·.1.length), c.map (·.name.length))
  | _ => none

end Sample

-- One instance of commutativity is returned, the other one merges and is dropped, and the third candidate is rejected. The
-- reverse of the first rule, which is no candidate, is reported as invalid without being asked about.
example : WellFormed Sample.pick ∧ Sample.pick.length = 3 ∧
    Sample.sizes (Ruleset.minimize Sample.natDom Sample.pickEnv 3 Sample.pick []) = some ([23], [23, 16], [16, 23]) :=
  ⟨Ruleset.WellFormed.addAll Ruleset.WellFormed.nil _, by decide +kernel, by decide +kernel⟩

namespace Sample

theorem readable_plus {x y : String} (hx : Plain x ∧ isVarName x = true) (hy : Plain y ∧ isVarName y = true) :
    Readable (.node NatOp.add [.var x, .var y]) := by
  refine .node (by decide) (fun h => by have := isVarName_iff.2 h; revert this; decide) rfl ?_
  intro a ha
  simp only [List.mem_cons, List.not_mem_nil, or_false] at ha
  rcases ha with rfl | rfl
  · exact .var hx.1 (isVarName_iff.1 hx.2)
  · exact .var hy.1 (isVarName_iff.1 hy.2)

theorem good_plus {x y : String} (hx : x.toList.head? = some '?') (hy : y.toList.head? = some '?') :
    Schematic (.node NatOp.add [.var x, .var y]) := by
  refine .node rfl ?_
  intro a ha
  simp only [List.mem_cons, List.not_mem_nil, or_false] at ha
  rcases ha with rfl | rfl
  · exact .var hx
  · exact .var hy

theorem pick_ok : ∀ r ∈ Ruleset.iter pick, Rule.Textual r ∧ GoodRule (fun _ _ => True) r := by
  intro r hr
  have : r ∈ [fstRule, commRule2, commRule] := hr
  simp only [List.mem_cons, List.not_mem_nil, or_false] at this
  rcases this with rfl | rfl | rfl
  · exact ⟨⟨⟨rfl, by decide⟩, readable_plus (by decide) (by decide), .var (by decide) (isVarName_iff.1 (by decide)),
      noArrow _ (by decide), noArrow _ (by decide)⟩, ⟨PatOk.any _, PatOk.any _⟩, good_plus (by decide) (by decide),
      .var (by decide)⟩
  · exact ⟨⟨⟨rfl, by decide⟩, readable_plus (by decide) (by decide), readable_plus (by decide) (by decide),
      noArrow _ (by decide), noArrow _ (by decide)⟩, ⟨PatOk.any _, PatOk.any _⟩, good_plus (by decide) (by decide),
      good_plus (by decide) (by decide)⟩
  · exact ⟨⟨⟨rfl, by decide⟩, readable_plus (by decide) (by decide), readable_plus (by decide) (by decide),
      noArrow _ (by decide), noArrow _ (by decide)⟩, ⟨PatOk.any _, PatOk.any _⟩, good_plus (by decide) (by decide),
      good_plus (by decide) (by decide)⟩

end Sample

example : Sample.sizes (Ruleset.minimize Sample.freeNat Sample.pickEnv 3 Sample.pick []) =
    some ([23], [23, 16], [16, 23]) := by decide +kernel
-- The candidate that was dropped follows from the one that is returned.
example {out inv : Ruleset NatOp} {asked : List (Rule NatOp)}
    (h : Ruleset.minimize Sample.freeNat Sample.pickEnv 3 Sample.pick [] = .done out inv asked) (V : Type)
    (I : NatOp → List V → V) (hI : ∀ q ∈ Ruleset.iter out, Holds I q) : Holds I Sample.commRule2 :=
  C23_consequence (ar := fun _ _ => True) ⟨fun _ _ _ h => by cases h; rfl, fun _ _ => rfl, fun _ => rfl⟩ (fun _ => ⟨rfl, trivial⟩)
    (Ruleset.WellFormed.addAll Ruleset.WellFormed.nil _) Ruleset.WellFormed.nil Sample.pick_ok
    (by simp [Ruleset.iter]) h Sample.commRule2 (show _ ∈ [Sample.fstRule, Sample.commRule2, Sample.commRule] by simp)
    (by rintro ⟨l, -, hl⟩; exact absurd hl (show decide (23 ≠ 16) ≠ false by decide)) V I (fun q hq => hI q (hq.resolve_left (by simp [Ruleset.iter])))

end Ruler
