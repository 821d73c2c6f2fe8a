import Verif.Proofs.BoolComplete
import Verif.Props.Complete
/-!
# C73: the Boolean recipe finds all equations
-/
namespace Ruler
open Spec

/-- Instances of well-sorted patterns without implications are formulas. -/
theorem formula_patInst {P : String → Prop} {σ : String → Tm BoolOp} (hσ : ∀ v, Formula P (σ v)) {p : Pat BoolOp}
    (ho : PatOk (fun (o : BoolOp) k => k = o.arity) p) (hs : Schematic p) (hu : OnlyOps (· ≠ BoolOp.implies) p) :
    Formula P (patInst σ p) := by
  induction p using Pat.ind with
  | hv v => exact hσ v
  | hn o l ih =>
    cases ho with
    | node har ho =>
    cases hs with
    | node hv hs =>
    cases hu with
    | node hi hu =>
    have hm : ∀ s ∈ l, Formula P (patInst σ s) := fun s h => ih s h (ho s h) (hs s h) (hu s h)
    cases o with
    | lit b => cases List.eq_nil_of_length_eq_zero har; exact .lit b
    | var x => simp [Lang.toVar] at hv
    | not =>
      obtain ⟨a, rfl⟩ := List.length_eq_one_iff.1 har
      exact .not (hm a (by simp))
    | implies => exact absurd rfl hi
    | and =>
      obtain ⟨a, b, rfl⟩ := List.length_eq_two.1 har
      exact .and (hm a (by simp)) (hm b (by simp))
    | or =>
      obtain ⟨a, b, rfl⟩ := List.length_eq_two.1 har
      exact .or (hm a (by simp)) (hm b (by simp))
    | xor =>
      obtain ⟨a, b, rfl⟩ := List.length_eq_two.1 har
      exact .xor (hm a (by simp)) (hm b (by simp))

/-- **C73.** The rules of `recursive_rules` over the Boolean language with three variables and at least five atoms, together
with the prior rules, are complete:
an equation between formulas of any size over any variables can be proved from them and constant folding iff it is valid. -/
theorem C73_recursive {vars : List String} (hL : LangOk (boolLangOf vars)) (habc : ∀ x ∈ ["a", "b", "c"], x ∈ vars) {n : Nat}
    (hn : 5 ≤ n) {E : Nat → RunEnv BoolOp Bool} (hE : ∀ k, RunOk boolDomain (E k))
    (hsmall : ∀ g, AnyHistory boolDomain g → ∀ i ∈ g.classes, Least g tmSize i ((E n).best g i))
    (hval : BoolAnswers (E n).min.valid) {prior out : Ruleset BoolOp} {log : List (Nat × List (Rule BoolOp))}
    (hp : AllRules (fun o k => k = o.arity) (fun q => Holds boolOpVal q ∧ RuleUses (· ≠ .implies) q) prior)
    (h : recursiveRules boolDomain E .atoms (boolLangOf vars) prior n = some (out, log)) {P : String → Prop} {t u : Tm BoolOp}
    (ht : Formula P t) (hu : Formula P u) :
    Provable (· ∈ Ruleset.iter out) Decided t u ↔ ∀ env, boolVal env t = boolVal env u := by
  have hall := AllRules.recursive bool_typed hE hL (boolLang_uses vars) hp h fun q hq _ _ _ => by
    rcases C64_recursive hE hp.named (fun r hr => ⟨hp.sorted r hr, (hp.hold r hr).1⟩) n h q hq with h | h
    · exact (hp.hold q h).1
    · exact h.2.2
  refine ⟨provable_valid fun r hr => ⟨hall.sorted r hr, (hall.hold r hr).1⟩, fun heq => ?_⟩
  obtain ⟨l, k1⟩ := ht.finite
  obtain ⟨l', k2⟩ := hu.finite
  refine provable_of_short (fun r hr => (hall.sorted r hr).2) (fun t u ht hu h1 h2 h3 => ?_) (l ++ l')
    (k1.mono fun _ hx => List.mem_append_left _ hx) (k2.mono fun _ hx => List.mem_append_right _ hx) heq
  exact (C70_recursive hL (by omega) hE hsmall hval hp h (ht.mono habc) (hu.mono habc) (h1.trans hn) (h2.trans hn)).2 h3

/-- **C73.** The Boolean recipe (with the sizes of the repository, five and seven, or larger ones) is complete for Boolean algebra: an
equation between formulas of any size over any variables can be proved from the rules it returns and constant folding, by replacing
equals by equals, iff it is valid. -/
theorem C73_bool {m n : Nat} (hm : 5 ≤ m) (hn : 1 ≤ n) {E : Nat → Nat → RunEnv BoolOp Bool} (hE : ∀ i k, RunOk boolDomain (E i k))
    (hsmall : ∀ g, AnyHistory boolDomain g → ∀ i ∈ g.classes, Least g tmSize i ((E 0 m).best g i))
    (hval : BoolAnswers (E 0 m).min.valid) {out : Ruleset BoolOp} (h : boolRulesSized m n E = some out)
    {P : String → Prop} {t u : Tm BoolOp} (ht : Formula P t) (hu : Formula P u) :
    Provable (· ∈ Ruleset.iter out) Decided t u ↔ ∀ env, boolVal env t = boolVal env u := by
  have hout := C67_bool hn hE h
  refine ⟨provable_valid fun r hr => ⟨hout.sorted r hr, (hout.hold r hr).1⟩, fun heq => ?_⟩
  obtain ⟨l, k1⟩ := ht.finite
  obtain ⟨l', k2⟩ := hu.finite
  refine provable_of_short (fun r hr => (hout.sorted r hr).2) (fun t u ht hu h1 h2 h3 => ?_) (l ++ l')
    (k1.mono fun _ hx => List.mem_append_left _ hx) (k2.mono fun _ hx => List.mem_append_right _ hx) heq
  exact (C70_bool (by omega) hn hE hsmall hval h ht hu (h1.trans hm) (h2.trans hm)).2 h3

/-- **C73.** With the sizes of the repository: the rules that `bool_rules` returns are complete. -/
theorem C73_bool_rules {E : Nat → Nat → RunEnv BoolOp Bool} (hE : ∀ i k, RunOk boolDomain (E i k))
    (hsmall : ∀ i k g, AnyHistory boolDomain g → ∀ j ∈ g.classes, Least g tmSize j ((E i k).best g j))
    (hval : ∀ i k, BoolAnswers (E i k).min.valid) {out : Ruleset BoolOp} (h : boolRules E = some out)
    {P : String → Prop} {t u : Tm BoolOp} (ht : Formula P t) (hu : Formula P u) :
    Provable (· ∈ Ruleset.iter out) Decided t u ↔ ∀ env, boolVal env t = boolVal env u :=
  C73_bool (m := 5) (n := 7) (by omega) (by omega) hE (hsmall 0 5) (hval 0 5) h ht hu

/-- **C73.** In particular the second run of the recipe, on formulas of up to seven atoms, cannot add anything that did not follow
from the search: every instance of every rule of the recipe can be proved from the rules of the search. -/
theorem C73_second_run {m n : Nat} (hm : 5 ≤ m) (hn : 1 ≤ n) {E : Nat → Nat → RunEnv BoolOp Bool}
    (hE : ∀ i k, RunOk boolDomain (E i k))
    (hsmall : ∀ g, AnyHistory boolDomain g → ∀ i ∈ g.classes, Least g tmSize i ((E 0 m).best g i))
    (hval : BoolAnswers (E 0 m).min.valid) {out : Ruleset BoolOp} (h : boolRulesSized m n E = some out) :
    ∃ r1 log, recursiveRules boolDomain (E 0) .atoms boolLang [] m = some (r1, log) ∧
      ∀ q ∈ Ruleset.iter out, ∀ (P : String → Prop) (σ : String → Tm BoolOp), (∀ v, Formula P (σ v)) →
        Provable (· ∈ Ruleset.iter r1) Decided (patInst σ q.lhs) (patInst σ q.rhs) := by
  have hout := C67_bool hn hE h
  simp only [boolRulesSized, Option.bind_eq_bind, Option.bind_eq_some_iff, Option.pure_def, Option.some.injEq] at h
  obtain ⟨⟨r5, log⟩, h5, -⟩ := h
  refine ⟨r5, log, h5, fun q hq P σ hσ => ?_⟩
  obtain ⟨⟨o1, o2⟩, s1, s2⟩ := hout.sorted q hq
  obtain ⟨hh, u1, u2⟩ := hout.hold q hq
  refine (C73_recursive (langCheck_ok (by decide +kernel)) (fun _ h => h) hm (hE 0) hsmall hval AllRules.nil h5 (formula_patInst hσ o1 s1 u1)
    (formula_patInst hσ o2 s2 u2)).2 fun env => ?_
  exact provable_valid (R := (· = q)) (fun r hr => hr ▸ ⟨⟨⟨o1, o2⟩, s1, s2⟩, hh⟩) (.rule σ rfl) env

end Ruler
