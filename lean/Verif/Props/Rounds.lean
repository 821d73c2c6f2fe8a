import Verif.Spec.Rounds
import Verif.Props.Saturated
import Verif.Props.Minimize
/-!
# What `minimize` selects is not redundant: C80
-/
namespace Ruler
open Spec EGraph
variable {O C V : Type} [Lang O] [LinearOrder C] {D : Domain O C} {ar : O → Nat → Prop}

/-- Adding rules of known text. -/
private theorem mem_extend_textual {a b : Ruleset O} (ha : WellFormed a) (hb : WellFormed b) (hta : ∀ r ∈ Ruleset.iter a, Rule.Textual r)
    (htb : ∀ r ∈ Ruleset.iter b, Rule.Textual r) (q : Rule O) :
    q ∈ Ruleset.iter (Ruleset.extend a b) ↔ q ∈ Ruleset.iter a ∨ q ∈ Ruleset.iter b := by
  refine ⟨mem_extend_rules, fun h => ?_⟩
  have ht : Rule.Textual q := h.elim (hta q) (htb q)
  have hn : Named (Ruleset.extend a b) q.name := (named_extend ha hb).2 (h.imp (fun h => ⟨q, h, rfl⟩) fun h => ⟨q, h, rfl⟩)
  obtain ⟨q', hq', e⟩ := hn
  have : Rule.Textual q' := (mem_extend_rules hq').elim (hta q') (htb q')
  rw [← Rule.Textual.ext this ht e]
  exact hq'

/-- One selection takes a rule and possibly its reversal. -/
private theorem one_rule {score : Rule O → List Int} {valid : List (Rule O) → Rule O → Bool} {cands inv : Ruleset O} {asked : List (Rule O)}
    (hw : WellFormed cands) (hi : WellFormed inv) (e : Rule O) :
    ∃ b, ∀ q ∈ Ruleset.iter (Ruleset.select score valid 1 cands asked inv).2.selected, q = b ∨ Rule.new b.rhs b.lhs = some q := by
  obtain ⟨_, _, _, _, h4⟩ := C24_best hw hi (Prod.mk.eta (p := Ruleset.select score valid 1 cands asked inv)).symm
  rcases h4 with ⟨h4, _⟩ | ⟨_, b, _, _, _, h4⟩
  · exact ⟨e, by simp [h4, Ruleset.iter]⟩
  · exact ⟨b, h4⟩

omit [LinearOrder C] in
/-- The term of a pattern is an instance of it. -/
private theorem instantiate_eq (p : Pat O) : p.instantiate = patInst (fun v => .node (Lang.mkVar (dropQ v)) []) p := by
  induction p using Pat.ind with
  | hv v => rfl
  | hn o l ih => rw [Pat.instantiate, Pat.instantiateL_eq, patInst, patInstL_eq]; congr 1; exact List.map_congr_left ih

/-- A rule makes its own sides meet. -/
private theorem meets_self {R : Rule O → Prop} {r : Rule O} (h : R r) : Meets R r.lhs.instantiate r.rhs.instantiate := by
  rw [instantiate_eq, instantiate_eq]
  exact ⟨_, .single (.rule _ h), .refl⟩

section
variable {M : MinEnv O} {lim : Limits} {cands prior : Ruleset O}

private theorem visit_shrink (hE : EmptyVectors D)
    (hsch : M.sched = .simple lim ∨ (NoFold D ∧ M.sched = .compress lim ∧ ∀ k ks, ((M.tr k).order ks).Perm ks))
    (hsat : RoundsSaturate D M lim cands prior) {k : Nat} {cs ch inv rest : Ruleset O} {asked : List (Rule O)}
    (hv : Visits D M cands prior k cs ch asked inv) (hne : cs ≠ [])
    (h : Ruleset.shrink D (M.eg k) M.isSat M.sched (M.tr k) (Ruleset.select M.score M.valid 1 cs asked inv).1
        (Ruleset.extend ch (Ruleset.select M.score M.valid 1 cs asked inv).2.selected) = some rest) :
    ∀ r ∈ Ruleset.iter rest, ¬ Meets (· ∈ Ruleset.iter (Ruleset.extend ch (Ruleset.select M.score M.valid 1 cs asked inv).2.selected))
      r.lhs.instantiate r.rhs.instantiate := by
  have hs := hsat k cs ch asked inv hv hne
  rcases hsch with e | ⟨hD, e, hord⟩
  · rw [e] at h
    exact C79_shrink hE h hs
  · rw [e] at h
    exact C79_compress hD hE (hord k) h hs

/-- The rounds after the first. -/
private theorem later_rounds (hE : EmptyVectors D)
    (hsch : M.sched = .simple lim ∨ (NoFold D ∧ M.sched = .compress lim ∧ ∀ k ks, ((M.tr k).order ks).Perm ks))
    (hsat : RoundsSaturate D M lim cands prior) (htc : ∀ r ∈ Ruleset.iter cands, Rule.Textual r) (fuel : Nat)
    {k : Nat} {cs ch inv out inv' : Ruleset O} {asked asked' : List (Rule O)} (hv : Visits D M cands prior k cs ch asked inv)
    (hL : LoopInv D M cands prior cs ch asked inv) (hch : ∀ r ∈ Ruleset.iter ch, Rule.Textual r)
    (hfree : ∀ r ∈ Ruleset.iter cs, ¬ Meets (· ∈ Ruleset.iter ch) r.lhs.instantiate r.rhs.instantiate)
    (h : minimizeLoop D M fuel k cs ch asked inv = .done out inv' asked') :
    ∃ rounds : List (List (Rule O)), (∀ r, r ∈ Ruleset.iter out ↔ r ∈ Ruleset.iter ch ∨ r ∈ rounds.flatten) ∧
      (∀ l ∈ rounds, ∃ b, ∀ q ∈ l, q = b ∨ Rule.new b.rhs b.lhs = some q) ∧
      ∀ (j : Nat) (l : List (Rule O)), rounds[j]? = some l → ∀ q ∈ l,
        ¬ Meets (fun r => r ∈ Ruleset.iter ch ∨ r ∈ (rounds.take j).flatten) q.lhs.instantiate q.rhs.instantiate := by
  induction fuel generalizing k cs ch inv asked with
  | zero =>
    rw [minimizeLoop] at h
    cases cs with
    | nil => simp at h; obtain ⟨rfl, rfl, rfl⟩ := h; exact ⟨[], by simp, by simp, by simp⟩
    | cons e l => simp at h
  | succ fuel ih =>
    rw [minimizeLoop] at h
    cases cs with
    | nil => simp at h; obtain ⟨rfl, rfl, rfl⟩ := h; exact ⟨[], by simp, by simp, by simp⟩
    | cons e l =>
      simp only [List.isEmpty_cons, Bool.false_eq_true, if_false] at h
      split at h
      · cases h
      · rename_i rest hs
        have hne : (e :: l : Ruleset O) ≠ [] := by simp
        have ok := select_ok (score := M.score) (valid := M.valid) (step := 1) hL.wc hL.winv asked
        have hcs : ∀ r ∈ Ruleset.iter (e :: l), Rule.Textual r := fun r hr => htc r (hL.sub r hr)
        have hsel : ∀ q ∈ Ruleset.iter (Ruleset.select M.score M.valid 1 (e :: l) asked inv).2.selected, q ∈ Ruleset.iter (e :: l) :=
          fun q hq => isCandidate_mem hcs (ok.sel q hq).2
        have hm := mem_extend_textual hL.wch ok.wsel hch fun q hq => hcs q (hsel q hq)
        obtain ⟨rounds, h1, h2, h3⟩ := ih (.next hv hne hs) (hL.step k hs)
          (fun r hr => ((hm r).1 hr).elim (hch r) fun hr => hcs r (hsel r hr)) (visit_shrink hE hsch hsat hv hne hs) h
        refine ⟨Ruleset.iter (Ruleset.select M.score M.valid 1 (e :: l) asked inv).2.selected :: rounds, ?_, ?_, ?_⟩
        · intro r
          rw [h1, hm, List.flatten_cons, List.mem_append, or_assoc]
        · intro l' hl'
          rcases List.mem_cons.1 hl' with rfl | hl'
          · exact one_rule hL.wc hL.winv e.2
          · exact h2 l' hl'
        · intro j l' hj q hq
          cases j with
          | zero =>
            simp only [List.getElem?_cons_zero, Option.some.injEq] at hj
            subst hj
            simpa using hfree q (hsel q hq)
          | succ j =>
            simp only [List.getElem?_cons_succ] at hj
            have := h3 j l' hj q hq
            simpa [hm, or_assoc] using this
end

/-- **C80.** If running the chosen rules saturates in every round, then `minimize` returns its rules in rounds such that no rule of a later round is
redundant: its sides cannot be rewritten to a common term by the prior rules and the rules of the earlier rounds; where those rules can be read in both
directions, it cannot be proved from them. The rules of one round are a rule and its reversal.

Full property: the same for the first round and the prior rules. This is false (`C80_first`): candidates are not compared with the prior rules before
the first selection. -/
theorem C80_irredundant_partial (hE : EmptyVectors D) {M : MinEnv O} {lim : Limits} {cands prior out inv : Ruleset O} {asked : List (Rule O)} {fuel : Nat}
    (hsch : M.sched = .simple lim ∨ (NoFold D ∧ M.sched = .compress lim ∧ ∀ k ks, ((M.tr k).order ks).Perm ks))
    (hsat : RoundsSaturate D M lim cands prior) (hc : WellFormed cands) (hp : WellFormed prior)
    (htc : ∀ r ∈ Ruleset.iter cands, Rule.Textual r) (htp : ∀ r ∈ Ruleset.iter prior, Rule.Textual r)
    (h : Ruleset.minimize D M fuel cands prior = .done out inv asked) :
    ∃ (first : List (Rule O)) (rounds : List (List (Rule O))),
      (∀ r, r ∈ Ruleset.iter prior ∨ r ∈ Ruleset.iter out ↔ r ∈ Ruleset.iter prior ∨ r ∈ first ∨ r ∈ rounds.flatten) ∧
      (∀ r ∈ rounds.flatten, r ∈ Ruleset.iter out) ∧
      (∀ l ∈ first :: rounds, ∃ b, ∀ q ∈ l, q = b ∨ Rule.new b.rhs b.lhs = some q) ∧
      ∀ (j : Nat) (l : List (Rule O)), rounds[j]? = some l → ∀ q ∈ l, ∀ R : Rule O → Prop,
        (∀ r, R r ↔ r ∈ Ruleset.iter prior ∨ r ∈ first ∨ r ∈ (rounds.take j).flatten) →
        ¬ Meets R q.lhs.instantiate q.rhs.instantiate ∧
          (Reversible R → ¬ Provable R (fun _ _ => False) q.lhs.instantiate q.rhs.instantiate) := by
  unfold Ruleset.minimize at h
  split at h
  rotate_left
  · rename_i hm; exact (hm _ _ _ h).elim
  rename_i ch i a hm
  cases h
  have hL : LoopInv D M cands prior cands prior [] [] :=
    ⟨hc, hp, Ruleset.WellFormed.nil, fun r hr => hr, fun q hq => Or.inl hq, fun c hc => Or.inl hc⟩
  have hfin := minimizeLoop_inv fuel hL hm
  have hch := hfin.wch
  have htx : ∀ r ∈ Ruleset.iter ch, Rule.Textual r := fun r hr =>
    (hfin.orig r hr).elim (htp r) fun h => htc r (isCandidate_mem htc h.2)
  suffices hmain : ∃ (first : List (Rule O)) (rounds : List (List (Rule O))),
      (∀ r, r ∈ Ruleset.iter ch ↔ r ∈ Ruleset.iter prior ∨ r ∈ first ∨ r ∈ rounds.flatten) ∧
      (∀ l ∈ first :: rounds, ∃ b, ∀ q ∈ l, q = b ∨ Rule.new b.rhs b.lhs = some q) ∧
      ∀ (j : Nat) (l : List (Rule O)), rounds[j]? = some l → ∀ q ∈ l,
        ¬ Meets (fun r => r ∈ Ruleset.iter prior ∨ r ∈ first ∨ r ∈ (rounds.take j).flatten) q.lhs.instantiate q.rhs.instantiate by
    obtain ⟨first, rounds, h1, h3, h4⟩ := hmain
    refine ⟨first, rounds, fun r => ?_, fun r hr => ?_, h3, fun j l hj q hq R hR => ?_⟩
    · rw [mem_removeAll hch hp, ← h1]
      refine ⟨fun h => h.elim (fun h => (h1 r).2 (Or.inl h)) fun h => h.1, fun h => ?_⟩
      by_cases hn : Named prior r.name
      · obtain ⟨r', hr', e⟩ := hn
        exact Or.inl (Rule.Textual.ext (htp r' hr') (htx r h) e ▸ hr')
      · exact Or.inr ⟨h, hn⟩
    · rw [mem_removeAll hch hp, h1]
      refine ⟨Or.inr (Or.inr hr), fun ⟨r', hr', e⟩ => ?_⟩
      obtain ⟨l, hl, hrl⟩ := List.mem_flatten.1 hr
      obtain ⟨j, hj⟩ := List.getElem?_of_mem hl
      refine h4 j l hj r hrl (meets_self (Or.inl ?_))
      rwa [← Rule.Textual.ext (htp r' hr') (htx r ((h1 r).2 (Or.inr (Or.inr hr)))) e]
    · have hRR : R = fun r => r ∈ Ruleset.iter prior ∨ r ∈ first ∨ r ∈ (rounds.take j).flatten := by
        funext r; exact propext (hR r)
      have hn := h4 j l hj q hq
      rw [← hRR] at hn
      exact ⟨hn, fun hrev hpv => hn ⟨_, (provable_iff_rewritesTo hrev).1 hpv, .refl⟩⟩
  cases fuel with
  | zero =>
    rw [minimizeLoop] at hm
    cases cands with
    | nil => simp at hm; obtain ⟨rfl, rfl, rfl⟩ := hm; exact ⟨[], [], by simp, by simpa using ⟨(⟨[], .var "", .var ""⟩ : Rule O)⟩, by simp⟩
    | cons e l => simp at hm
  | succ fuel =>
    rw [minimizeLoop] at hm
    cases cands with
    | nil => simp at hm; obtain ⟨rfl, rfl, rfl⟩ := hm; exact ⟨[], [], by simp, by simpa using ⟨(⟨[], .var "", .var ""⟩ : Rule O)⟩, by simp⟩
    | cons e l =>
      simp only [List.isEmpty_cons, Bool.false_eq_true, if_false] at hm
      split at hm
      · cases hm
      · rename_i rest hs
        have hne : (e :: l : Ruleset O) ≠ [] := by simp
        have ok := select_ok (score := M.score) (valid := M.valid) (step := 1) hc Ruleset.WellFormed.nil ([] : List (Rule O))
        have hsel : ∀ q ∈ Ruleset.iter (Ruleset.select M.score M.valid 1 (e :: l) [] []).2.selected, q ∈ Ruleset.iter (e :: l) :=
          fun q hq => isCandidate_mem htc (ok.sel q hq).2
        have hmem := mem_extend_textual hp ok.wsel htp fun q hq => htc q (hsel q hq)
        obtain ⟨rounds, h1, h2, h3⟩ := later_rounds hE hsch hsat htc fuel (.next .start hne hs) (hL.step 0 hs)
          (fun r hr => ((hmem r).1 hr).elim (htp r) fun hr => htc r (hsel r hr)) (visit_shrink hE hsch hsat .start hne hs) hm
        refine ⟨Ruleset.iter (Ruleset.select M.score M.valid 1 (e :: l) [] []).2.selected, rounds, ?_, ?_, ?_⟩
        rotate_left
        · intro l' hl'
          rcases List.mem_cons.1 hl' with rfl | hl'
          · exact one_rule hc Ruleset.WellFormed.nil e.2
          · exact h2 l' hl'
        · intro j l' hj q hq
          simpa [hmem, or_assoc] using h3 j l' hj q hq
        · intro r
          rw [h1, hmem, or_assoc]

/-! ## Examples -/

/-- A checker for `RoundsSaturate`. -/
def roundsB (D : Domain O C) (M : MinEnv O) (lim : Limits) : Nat → Nat → Ruleset O → Ruleset O → List (Rule O) → Ruleset O → Bool
  | 0, _, cands, _, _, _ => cands.isEmpty
  | fuel + 1, k, cands, chosen, asked, inv =>
    cands.isEmpty || (
      let s := Ruleset.select M.score M.valid 1 cands asked inv
      let chosen := Ruleset.extend chosen s.2.selected
      (match insertSides D (M.eg k) (Ruleset.iter s.1) EGraph.empty with
        | some (g, _) => match Scheduler.run D (M.eg k) M.isSat (.simple lim) chosen (M.tr k) g with
          | some out => saturatedB D (M.eg k) (Ruleset.iter chosen) out
          | none => true
        | none => true) &&
      match Ruleset.shrink D (M.eg k) M.isSat M.sched (M.tr k) s.1 chosen with
      | none => true
      | some rest => roundsB D M lim fuel (k + 1) rest chosen s.2.asked s.2.invalid)

theorem roundsB_ok {M : MinEnv O} {lim : Limits} {fuel : Nat} {cands prior : Ruleset O} (h : roundsB D M lim fuel 0 cands prior [] [] = true) :
    RoundsSaturate D M lim cands prior := by
  intro k cs ch asked inv hv hne
  have : ∃ f, roundsB D M lim f k cs ch asked inv = true := by
    clear hne
    induction hv with
    | start => exact ⟨fuel, h⟩
    | next hv hne hs ih =>
      obtain ⟨f, hf⟩ := ih
      cases f with
      | zero => simp [roundsB, hne] at hf
      | succ f =>
        simp only [roundsB, List.isEmpty_eq_false_iff.2 hne, Bool.false_or, Bool.and_eq_true, hs] at hf
        exact ⟨f, hf.2⟩
  obtain ⟨f, hf⟩ := this
  intro g l out hg ho
  cases f with
  | zero => simp [roundsB, hne] at hf
  | succ f =>
    simp only [roundsB, List.isEmpty_eq_false_iff.2 hne, Bool.false_or, Bool.and_eq_true, hg, ho] at hf
    exact saturatedB_ok hf.1

namespace Sample

/-- Everything is accepted, commutativity is preferred. -/
def roundsEnv : MinEnv NatOp :=
  { pickEnv with
    score := fun r => [if r.name.length = fstRule.name.length then 0 else 1]
    valid := fun _ _ => true
    tr := fun k => if k = 0 then { trace with simple := ⟨[], [⟨[[0, 1, 2]], [.congr 0]⟩]⟩ } else quiet }

/-- `(+ ?a ?b) ==> (+ ?b ?a)` is a candidate. -/
def knownCands : Ruleset NatOp := Ruleset.addAll [] [commRule]
/-- `(+ ?c ?b) ==> (+ ?b ?c)` is known. -/
def knownPrior : Ruleset NatOp := Ruleset.addAll [] [commRule2]

end Sample

-- Two rounds: commutativity, which makes its second copy superfluous, and `(+ ?a ?b) ==> ?a`; both saturate.
example : Sample.sizes (Ruleset.minimize Sample.natDom Sample.roundsEnv 3 Sample.pick []) = some ([23, 16], [23], [16, 23]) ∧
    RoundsSaturate Sample.natDom Sample.roundsEnv Sample.limits Sample.pick [] :=
  ⟨by decide +kernel, roundsB_ok (fuel := 3) (by decide +kernel)⟩
-- The second is not redundant.
example {out inv : Ruleset NatOp} {asked : List (Rule NatOp)}
    (h : Ruleset.minimize Sample.natDom Sample.roundsEnv 3 Sample.pick [] = .done out inv asked) :
    ∃ (first : List (Rule NatOp)) (rounds : List (List (Rule NatOp))),
      (∀ r, r ∈ Ruleset.iter out ↔ r ∈ first ∨ r ∈ rounds.flatten) ∧
      ∀ l, rounds[0]? = some l → ∀ q ∈ l, ¬ Meets (· ∈ first) q.lhs.instantiate q.rhs.instantiate := by
  obtain ⟨first, rounds, h1, _, _, h4⟩ := C80_irredundant_partial (C79_domains (fun i j => i + j) 4 Sample.exactRat).2.1 (lim := Sample.limits)
    (Or.inl rfl) (roundsB_ok (fuel := 3) (by decide +kernel)) (Ruleset.WellFormed.addAll Ruleset.WellFormed.nil _) Ruleset.WellFormed.nil
    (fun r hr => (Sample.pick_ok r hr).1) (by simp [Ruleset.iter]) h
  exact ⟨first, rounds, fun r => by simpa [Ruleset.iter] using h1 r, fun l hl q hq =>
    (h4 0 l hl q hq (· ∈ first) (by simp [Ruleset.iter])).1⟩

/-- **C80 (first round).** The first rule that `minimize` selects can be redundant: candidates that follow from the prior rules are not removed before it. Here
the prior rule is `(+ ?c ?b) ==> (+ ?b ?c)`, the only candidate is `(+ ?a ?b) ==> (+ ?b ?a)`, and it is returned. -/
theorem C80_first : ∃ (M : MinEnv NatOp) (lim : Limits) (cands prior out inv : Ruleset NatOp) (asked : List (Rule NatOp)),
    M.sched = .simple lim ∧ RoundsSaturate Sample.natDom M lim cands prior ∧ WellFormed cands ∧ WellFormed prior ∧
      (∀ r ∈ Ruleset.iter cands, Rule.Textual r) ∧ (∀ r ∈ Ruleset.iter prior, Rule.Textual r) ∧
      Ruleset.minimize Sample.natDom M 3 cands prior = .done out inv asked ∧
      ∃ q ∈ Ruleset.iter out, Meets (· ∈ Ruleset.iter prior) q.lhs.instantiate q.rhs.instantiate := by
  have hs : Sample.sizes (Ruleset.minimize Sample.natDom Sample.roundsEnv 3 Sample.knownCands Sample.knownPrior) = some ([23], [23], [23]) := by
    decide +kernel
  have hwc : WellFormed Sample.knownCands := Ruleset.WellFormed.addAll Ruleset.WellFormed.nil _
  have hwp : WellFormed Sample.knownPrior := Ruleset.WellFormed.addAll Ruleset.WellFormed.nil _
  have htc : ∀ r ∈ Ruleset.iter Sample.knownCands, Rule.Textual r := fun r hr =>
    (Sample.pick_ok r (show r ∈ [Sample.fstRule, Sample.commRule2, Sample.commRule] by
      have : r ∈ [Sample.commRule] := hr; simp_all)).1
  have htp : ∀ r ∈ Ruleset.iter Sample.knownPrior, Rule.Textual r := fun r hr =>
    (Sample.pick_ok r (show r ∈ [Sample.fstRule, Sample.commRule2, Sample.commRule] by
      have : r ∈ [Sample.commRule2] := hr; simp_all)).1
  cases hm : Ruleset.minimize Sample.natDom Sample.roundsEnv 3 Sample.knownCands Sample.knownPrior with
  | panic => rw [hm] at hs; cases hs
  | running => rw [hm] at hs; cases hs
  | done out inv asked =>
    refine ⟨Sample.roundsEnv, Sample.limits, Sample.knownCands, Sample.knownPrior, out, inv, asked, rfl, roundsB_ok (fuel := 3) (by decide +kernel),
      hwc, hwp, htc, htp, hm, ?_⟩
    rw [hm] at hs
    cases out with
    | nil => cases hs
    | cons e out =>
      have hq : e.2 ∈ Ruleset.iter (e :: out) := List.mem_cons_self
      refine ⟨e.2, hq, ?_⟩
      have h1 : e.2 ∈ [Sample.commRule] := (C22_candidates hwc hwp htc hm e.2 hq).1
      rw [List.mem_singleton.1 h1]
      refine ⟨_, .single ?_, .refl⟩
      exact Rewrites.rule (r := Sample.commRule2) (fun v => if v = "?c" then .node (NatOp.var "a") [] else .node (NatOp.var "b") [])
        (show _ ∈ [Sample.commRule2] by simp)


end Ruler
