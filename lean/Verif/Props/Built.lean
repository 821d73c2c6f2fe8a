import Verif.Spec.Built
import Verif.Props.Minimize
/-!
# Rules never invent variables (C28)
-/
namespace Ruler
open Spec EGraph
variable {O C : Type} [Lang O] [LinearOrder C] {D : Domain O C}

private theorem fromString_proper {s : List Char} {q : Rule O} {b : Option (Rule O)}
    (h : Rule.fromString s = some (some (q, b))) : Rule.Proper q ∧ ∀ p, b = some p → Rule.Proper p := by
  unfold Rule.fromString at h
  split at h
  · cases h
  · rw [Option.bind_eq_some_iff] at h
    obtain ⟨lp, -, h⟩ := h
    rw [Option.bind_eq_some_iff] at h
    obtain ⟨rp, -, h⟩ := h
    rw [Option.bind_eq_some_iff] at h
    obtain ⟨fwd, h1, h⟩ := h
    split at h
    · rw [Option.map_eq_some_iff] at h
      obtain ⟨bwd, h2, h⟩ := h
      cases h
      exact ⟨(new_sides h1).2.2, by rintro p ⟨⟩; exact (new_sides h2).2.2⟩
    · cases h
      exact ⟨(new_sides h1).2.2, by simp⟩

/-- Well-formed, and all rules proper. -/
private def Ok (rs : Ruleset O) : Prop := WellFormed rs ∧ ∀ r ∈ Ruleset.iter rs, Rule.Proper r

private theorem Ok.nil : Ok ([] : Ruleset O) := ⟨Ruleset.WellFormed.nil, by simp [Ruleset.iter]⟩

private theorem Ok.add {rs : Ruleset O} {q : Rule O} (h : Ok rs) (hq : Rule.Proper q) : Ok (Ruleset.add rs q) := by
  refine ⟨Ruleset.WellFormed.add h.1 q, fun r hr => ?_⟩
  rcases mem_add hr with hr | rfl
  · exact h.2 r hr
  · exact hq

private theorem Ok.addAll {rs : Ruleset O} {qs : List (Rule O)} (h : Ok rs) (hq : ∀ q ∈ qs, Rule.Proper q) :
    Ok (Ruleset.addAll rs qs) := by
  refine ⟨Ruleset.WellFormed.addAll h.1 qs, fun r hr => ?_⟩
  rcases mem_iter_addAll' hr with hr | hr
  · exact h.2 r hr
  · exact hq r hr

private theorem Ok.ofLines {ls : List (List Char)} {m rs : Ruleset O} (hm : Ok m) (h : Ruleset.ofLines ls m = some rs) :
    Ok rs := by
  induction ls generalizing m with
  | nil => cases h; exact hm
  | cons l ls ih =>
    rw [Ruleset.ofLines, Option.bind_eq_some_iff] at h
    obtain ⟨o, ho, h⟩ := h
    split at h
    · exact ih hm h
    · exact ih (hm.add (fromString_proper ho).1) h
    · exact ih ((hm.add (fromString_proper ho).1).add ((fromString_proper ho).2 _ rfl)) h

private theorem Ok.addPairs {ps : List (Tm O × Tm O)} {m rs : Ruleset O} (hm : Ok m) (h : Ruleset.addPairs m ps = some rs) :
    Ok rs := by
  obtain ⟨-, rfl⟩ := addPairs_eq h
  refine hm.addAll fun q hq => ?_
  obtain ⟨p, -, hq⟩ := List.mem_flatMap.1 hq
  obtain ⟨d, -, hq⟩ := List.mem_flatMap.1 hq
  rcases List.mem_append.1 hq with hq | hq
  · exact (new_sides (Option.mem_toList.1 hq)).2.2
  · exact (new_sides (Option.mem_toList.1 hq)).2.2

private theorem Ok.extend {a b : Ruleset O} (ha : Ok a) (hb : Ok b) : Ok (Ruleset.extend a b) :=
  ⟨Ruleset.WellFormed.extend ha.1 hb.1, fun r hr => (mem_extend_rules hr).elim (ha.2 r) (hb.2 r)⟩

private theorem Ok.partition {rs : Ruleset O} (h : Ok rs) (t : Ruleset.Split) (f : Rule O → Bool) :
    Ok (Ruleset.partition t f rs).1 ∧ Ok (Ruleset.partition t f rs).2 := by
  rw [C17_partition t f rs h.1]
  refine ⟨⟨wf_of_sublist List.filter_sublist h.1, fun r hr => ?_⟩, ⟨wf_of_sublist List.filter_sublist h.1, fun r hr => ?_⟩⟩
  · obtain ⟨e, he, rfl⟩ := List.mem_map.1 hr
    exact h.2 _ (List.mem_map_of_mem (List.mem_filter.1 he).1)
  · obtain ⟨e, he, rfl⟩ := List.mem_map.1 hr
    exact h.2 _ (List.mem_map_of_mem (List.mem_filter.1 he).1)

private theorem Ok.minimized {M : MinEnv O} {fuel : Nat} {cands prior out inv : Ruleset O} {asked : List (Rule O)}
    (hc : Ok cands) (hp : Ok prior) (h : Ruleset.minimize D M fuel cands prior = .done out inv asked) : Ok out ∧ Ok inv := by
  obtain ⟨h1, h2⟩ := C22_validated hc.1 hp.1 h
  obtain ⟨h3, h4⟩ := C22_invalid hc.1 hp.1 h
  refine ⟨⟨h1, fun q hq => ?_⟩, ⟨h3, fun q hq => ?_⟩⟩
  · rcases (h2 q hq).2.1 with h | ⟨-, c, -, -, -, h⟩
    · exact hc.2 q h
    · exact h
  · obtain ⟨c, hc', rfl | h⟩ := h4 q hq
    · exact hc.2 _ hc'
    · exact (new_sides h).2.2

private theorem Ok.derived {isSat : Rule O → Bool} {ty : DeriveType} {limits : Limits} {split : Ruleset.Split}
    {eg : Rule O → Egg} {tr : Rule O → SchedTrace} {rs against yes no : Ruleset O} (ha : Ok against)
    (h : Ruleset.derive D isSat ty limits split eg tr rs against = some (yes, no)) : Ok yes ∧ Ok no := by
  unfold Ruleset.derive at h
  split at h
  · have := ha.partition split fun r => (Ruleset.canDerive D (eg r) isSat ty limits (tr r) rs r).getD false
    rw [Option.some.injEq] at h
    rw [h] at this
    exact this
  · cases h

mutual
private theorem builtRule_proper {q : Rule O} : BuiltRule D q → Rule.Proper q
  | .new h => (new_sides h).2.2
  | .fwd h => (fromString_proper h).1
  | .bwd h => (fromString_proper h).2 _ rfl
  | .taken h hq => (built_ok h).2 q hq
private theorem built_ok {rs : Ruleset O} : Built D rs → Ok rs
  | .default => Ok.nil
  | .new h => Ok.ofLines Ok.nil h
  | .fromFile h => Ok.ofLines Ok.nil h
  | .add h hq => (built_ok h).add (builtRule_proper hq)
  | .addAll h hq => (built_ok h).addAll fun q hm => builtRule_proper (hq q hm)
  | .addFromTerms (rs := m) (s := s) (t := t) h h' =>
    Ok.addPairs (ps := [(s, t)]) (built_ok h) (by rw [Ruleset.addPairs, List.foldlM_cons, h']; rfl)
  | .union ha hb => (built_ok ha).extend (built_ok hb)
  | .extend ha hb => (built_ok ha).extend (built_ok hb)
  | .removeAll ha hb =>
    ⟨Ruleset.WellFormed.removeAll (built_ok ha).1 _, fun r hr =>
      (built_ok ha).2 r ((mem_removeAll (built_ok ha).1 (built_ok hb).1).1 hr).1⟩
  | .partitionYes t f h => ((built_ok h).partition t f).1
  | .partitionNo t f h => ((built_ok h).partition t f).2
  | .cvecMatch h => by
    unfold Ruler.cvecMatch at h
    rw [Option.bind_eq_some_iff] at h
    obtain ⟨ps, -, h⟩ := h
    exact Ok.addPairs Ok.nil h
  | .fastCvecMatch h => Ok.addPairs Ok.nil h
  | .extractCandidates h => Ok.addPairs Ok.nil h
  | .minimized hc hp h => (Ok.minimized (built_ok hc) (built_ok hp) h).1
  | .invalid hc hp h => (Ok.minimized (built_ok hc) (built_ok hp) h).2
  | .derivable ha h => (Ok.derived (built_ok ha) h).1
  | .underivable ha h => (Ok.derived (built_ok ha) h).2
end

/-- **C28.** In every ruleset built through the API, every rule binds all variables of its right-hand side on the left. -/
theorem C28_bound {rs : Ruleset O} (h : Built D rs) : ∀ r ∈ Ruleset.iter rs, ∀ v ∈ r.rhs.vars, v ∈ r.lhs.vars :=
  fun r hr => ((built_ok h).2 r hr).2

/-- **C28.** Rules are stored under the text of their two sides, and no two rules have the same text. -/
theorem C28_named {rs : Ruleset O} (h : Built D rs) : (∀ e ∈ rs, e.1 = ruleName e.2.lhs e.2.rhs) ∧ (rs.map Prod.fst).Nodup :=
  ⟨fun e he => ((built_ok h).1.1 e he).trans ((built_ok h).2 e.2 (List.mem_map_of_mem he)).1, (built_ok h).1.2⟩

/-- **C28.** `Rule::new` refuses exactly the pairs of patterns whose right-hand side has an unbound variable. -/
theorem C28_new (l r : Pat O) : Rule.new l r = none ↔ ∃ v ∈ r.vars, v ∉ l.vars := by
  rw [Rule.new]
  by_cases h : bindsAll l r = true
  · rw [if_pos h]
    simp only [reduceCtorEq, false_iff, not_exists, not_and, not_not]
    exact bindsAll_iff.1 h
  · rw [if_neg h]
    simp only [true_iff]
    rw [bindsAll_iff] at h
    simpa using h

-- Candidates taken from a file, minimised.
example {out inv : Ruleset NatOp} {asked : List (Rule NatOp)}
    (h : Ruleset.minimize Sample.natDom Sample.pickEnv 3 Sample.pick [] = .done out inv asked) :
    Built Sample.natDom out := by
  refine .minimized (cands := Sample.pick) (.addAll .default fun q hq => ?_) .default h
  have : Rule.Proper q := (Sample.pick_ok q hq).1.1
  exact .new (l := q.lhs) (r := q.rhs) (by rw [Rule.new, if_pos (bindsAll_iff.2 this.2), ← this.1])

end Ruler
