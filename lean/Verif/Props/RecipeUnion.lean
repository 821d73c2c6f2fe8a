import Verif.Props.RecipeRules
import Verif.Props.RecipeRuns
/-!
# C71: recipes return all rules that their runs found
-/
namespace Ruler
open Spec EGraph

namespace Spec

/-- The rules of `rs` are those of the parts. -/
def UnionOf {O : Type} (rs : Ruleset O) (parts : List (Ruleset O)) : Prop :=
  ∀ q, q ∈ Ruleset.iter rs ↔ ∃ p ∈ parts, q ∈ Ruleset.iter p

end Spec

section
variable {O : Type} [Lang O] {ar : O → Nat → Prop} {P Q : Rule O → Prop}

theorem mem_extend_all {a b : Ruleset O} (ha : AllRules ar P a) (hb : AllRules ar Q b) (q : Rule O) :
    q ∈ Ruleset.iter (Ruleset.extend a b) ↔ q ∈ Ruleset.iter a ∨ q ∈ Ruleset.iter b := by
  refine ⟨mem_extend_rules, fun h => ?_⟩
  rcases h with h | h
  · by_cases hn : Named b q.name
    · obtain ⟨x, hx, ex⟩ := hn
      rw [← Rule.Textual.ext (hb.textual x hx) (ha.textual q h) ex]
      exact mem_extend_right ha.named hb.named hx
    · exact mem_extend_left ha.named hb.named h hn
  · exact mem_extend_right ha.named hb.named h

theorem unionOf_nil {a : Ruleset O} (ha : AllRules ar P a) : UnionOf (Ruleset.extend [] a) [a] := fun q => by
  rw [extend_nil ha.named]; simp

theorem unionOf_extend {a b : Ruleset O} {parts : List (Ruleset O)} (ha : AllRules ar P a) (hb : AllRules ar Q b)
    (h : UnionOf a parts) : UnionOf (Ruleset.extend a b) (parts ++ [b]) := fun q => by
  rw [mem_extend_all ha hb, h q]
  simp only [List.mem_append, List.mem_singleton]
  constructor
  · rintro (⟨p, hp, hq⟩ | hq)
    · exact ⟨p, .inl hp, hq⟩
    · exact ⟨b, .inr rfl, hq⟩
  · rintro ⟨p, hp | rfl, hq⟩
    · exact .inl ⟨p, hp, hq⟩
    · exact .inr hq

end

/-- **C71** (Booleans). `bool_rules` returns the rules of its recursive search together with those of the run over the canonical terms,
which knows the former. -/
theorem C71_bool {m n : Nat} (hn : 1 ≤ n) {E : Nat → Nat → RunEnv BoolOp Bool} (hE : ∀ i k, RunOk boolDomain (E i k))
    {out : Ruleset BoolOp} (h : boolRulesSized m n E = some out) :
    ∃ first second log known w asked, UnionOf out [first, second] ∧ UnionOf known [first] ∧
      recursiveRules boolDomain (E 0) .atoms (.new ["true", "false"] ["a", "b", "c"] [["~"], ["&", "|", "^"]]) [] m =
        some (first, log) ∧
      boolCanon n = some w ∧ runWorkload boolDomain (E 1 0) w known .synthesis .minimize true = some (second, asked) := by
  simp only [boolRulesSized, Option.bind_eq_bind, Option.bind_eq_some_iff, Option.pure_def, Option.some.injEq] at h
  obtain ⟨⟨first, log⟩, h5, w, hw, ⟨second, asked⟩, h7, rfl⟩ := h
  have h1 := AllRules.recursive (P := fun _ => True) bool_typed (hE 0) (langCheck_ok (by decide +kernel))
    (langSig_spec (by decide +kernel)) AllRules.nil h5 fun _ _ _ _ _ => trivial
  have h2 := AllRules.extend AllRules.nil h1
  have h3 := AllRules.run bool_typed (hE 1 0)
    (Spec.Lists.uses (C66_bool_canon n hn) (fun s hs t ht => langUses_term (langSig_spec (by decide +kernel)) hs.1 ht) hw)
    h2 h7 fun _ _ _ _ _ => trivial
  exact ⟨first, second, log, _, w, asked, unionOf_extend h2 h3 (unionOf_nil h1), unionOf_nil h1, h5, hw, h7⟩

-- The recipe with the sizes 0 and 3: the second run finds rules.
example : ∃ out second, boolRulesSized 0 3 (fun _ _ => Sample.boolEnv) = some out ∧ UnionOf out [[], second] ∧
    1 ≤ second.length := by
  have key : (boolRulesSized 0 3 fun _ _ => Sample.boolEnv).map (fun r => decide (1 ≤ r.length)) = some true := by decide +kernel
  obtain ⟨out, h, hl⟩ := Option.map_eq_some_iff.1 key
  obtain ⟨first, second, log, known, w, asked, h1, -, h2, -, -⟩ := C71_bool (by decide)
    (fun _ _ => Sample.boolEnv_ok) h
  cases h2
  refine ⟨out, second, h, h1, ?_⟩
  rw [decide_eq_true_eq] at hl
  obtain ⟨e, l, rfl⟩ := List.exists_cons_of_ne_nil (List.ne_nil_of_length_pos hl)
  obtain ⟨p, hp, hq⟩ := (h1 e.2).1 (by simp [Ruleset.iter])
  rcases List.mem_cons.1 hp with rfl | hp
  · simp [Ruleset.iter] at hq
  · rw [List.mem_singleton] at hp
    subst hp
    exact List.length_pos_of_mem (List.mem_map.1 hq).choose_spec.1

/-- **C71** (bit vectors). The same for `bv4_fancy_rules`. -/
theorem C71_bv4_fancy {m n : Nat} (hn : 1 ≤ n) {E : Nat → Nat → RunEnv (BvOp 4) (BV 4)} (hE : ∀ i k, RunOk (bvDomain 4) (E i k))
    {out : Ruleset (BvOp 4)} (h : bv4FancySized m n E = some out) :
    ∃ first second log known w asked, UnionOf out [first, second] ∧ UnionOf known [first] ∧
      recursiveRules (bvDomain 4) (E 0) .atoms (.new ["0", "1"] ["a", "b", "c"]
        [["~", "-"], ["&", "|", "*", "--", "+", "<<", ">>"]]) [] m = some (first, log) ∧
      bv4Canon n = some w ∧ runWorkload (bvDomain 4) (E 1 0) w known .synthesis .minimize true = some (second, asked) := by
  simp only [bv4FancySized, Option.bind_eq_bind, Option.bind_eq_some_iff, Option.pure_def, Option.some.injEq] at h
  obtain ⟨⟨first, log⟩, h5, w, hw, ⟨second, asked⟩, h7, rfl⟩ := h
  have h1 := AllRules.recursive (P := fun _ => True) (bv_typed (by decide)) (hE 0) (langCheck_ok (by decide +kernel))
    (langSig_spec (by decide +kernel)) AllRules.nil h5 fun _ _ _ _ _ => trivial
  have h2 := AllRules.extend AllRules.nil h1
  have h3 := AllRules.run (bv_typed (by decide)) (hE 1 0) (Spec.Lists.uses (C66_bv4_canon n hn) (fun s hs t ht => by
    rcases hs with ⟨a, ha, rfl⟩ | hs
    · exact langUses_term (L := .new ["0", "1"] [] []) (langSig_spec (by decide +kernel)) (by
        have e : Sexp.atom a = word a.toList := by rw [word, String.ofList_toList]
        rw [e]
        exact .val (List.mem_map_of_mem ha)) ht
    · exact langUses_term (langSig_spec (by decide +kernel)) hs.1 ht) hw) h2 h7 fun _ _ _ _ _ => trivial
  exact ⟨first, second, log, _, w, asked, unionOf_extend h2 h3 (unionOf_nil h1), unionOf_nil h1, h5, hw, h7⟩

/-- **C71** (Halide). `halide_rules` returns the rules of four recursive searches and four runs. Each of the first six knows the rules of
all before it; the last two, over selections, know those of the first two searches only (the rules that `rat_only` started from and
found). -/
theorem C71_halide {m n : Nat} {E : Nat → Nat → RunEnv PredOp Int} (hE : ∀ i k, RunOk halideDomain (E i k))
    {out : Ruleset PredOp} (h : halideRulesSized m n E = some out) :
    let search i (lang : RecipeLang) size (before : List (Ruleset PredOp)) found := ∃ known log, UnionOf known before ∧
      recursiveRules halideDomain (E i) .atoms lang known size = some (found, log)
    let run i (workload : Option Workload) limits (before : List (Ruleset PredOp)) found := ∃ known w asked, UnionOf known before ∧
      workload = some w ∧ runWorkload halideDomain (E i 0) w known .synthesis limits true = some (found, asked)
    ∃ r1 r2 r3 r4 r5 r6 r7 r8, UnionOf out [r1, r2, r3, r4, r5, r6, r7, r8] ∧
      search 0 halideBoolLang m [] r1 ∧ search 1 halideRatLang m [r1] r2 ∧ search 2 halidePredLang m [r1, r2] r3 ∧
      search 3 halideFullLang n [r1, r2, r3] r4 ∧ run 4 (halideNested halideArith) .minimize [r1, r2, r3, r4] r5 ∧
      run 5 (halideNested halideFull) .minimize [r1, r2, r3, r4, r5] r6 ∧
      run 6 (halideSelect ["+", "-", "*"]) halideLimits [r2] r7 ∧ run 7 (halideSelect ["min", "max"]) halideLimits [r2] r8 := by
  simp only [halideRulesSized, Option.bind_eq_bind, Option.bind_eq_some_iff, Option.pure_def, Option.some.injEq] at h
  obtain ⟨⟨r1, l1⟩, h1, ⟨r2, l2⟩, h2, ⟨r3, l3⟩, h3, ⟨r4, l4⟩, h4, w5, e5, ⟨r5, l5⟩, h5, w6, e6, ⟨r6, l6⟩, h6, w7, e7, ⟨r7, l7⟩, h7,
    w8, e8, ⟨r8, l8⟩, h8, rfl⟩ := h
  have hrec : ∀ {i n} {lang prior} {r : Ruleset PredOp × List (Nat × List (Rule PredOp))}, LangOk lang →
      LangUses (fun o => o ≠ PredOp.div ∧ o ≠ .implies) lang →
      AllRules (fun o k => k = o.arity ∧ PredLitFits o) (fun q => True ∧ RuleUses (fun o => o ≠ .div ∧ o ≠ .implies) q) prior →
      recursiveRules halideDomain (E i) .atoms lang prior n = some r →
      AllRules (fun o k => k = o.arity ∧ PredLitFits o)
        (fun q => True ∧ RuleUses (fun o => o ≠ .div ∧ o ≠ .implies) q) r.1 := fun hL hu hp h =>
    AllRules.recursive halide_typed (hE _) hL hu hp h fun _ _ _ _ _ => trivial
  have hrun : ∀ {i w} {prior} {pl ml : Limits} {r : Ruleset PredOp × List (Rule PredOp)},
      WorkloadUses (fun o => o ≠ PredOp.div ∧ o ≠ .implies) w →
      AllRules (fun o k => k = o.arity ∧ PredLitFits o) (fun q => True ∧ RuleUses (fun o => o ≠ .div ∧ o ≠ .implies) q) prior →
      runWorkload halideDomain (E i 0) w prior pl ml true = some r →
      AllRules (fun o k => k = o.arity ∧ PredLitFits o)
        (fun q => True ∧ RuleUses (fun o => o ≠ .div ∧ o ≠ .implies) q) r.1 := fun hw hp h =>
    AllRules.run halide_typed (hE _ _) hw hp h fun _ _ _ _ _ => trivial
  have k1' := hrec (langCheck_ok (by decide +kernel)) (langSig_spec (by decide +kernel)) AllRules.nil h1
  have k1 := AllRules.extend AllRules.nil k1'
  have k2' := hrec (langCheck_ok (by decide +kernel)) (langSig_spec (by decide +kernel)) k1 h2
  have k2 := AllRules.extend k1 k2'
  have k3' := hrec (langCheck_ok (by decide +kernel)) (langSig_spec (by decide +kernel)) k2 h3
  have k3 := AllRules.extend k2 k3'
  have k4' := hrec (langCheck_ok (by decide +kernel)) (langSig_spec (by decide +kernel)) k3 h4
  have k4 := AllRules.extend k3 k4'
  have k5' := hrun (sigUses_spec (by decide +kernel) e5) k4 h5
  have k5 := AllRules.extend k4 k5'
  have k6' := hrun (sigUses_spec (by decide +kernel) e6) k5 h6
  have k6 := AllRules.extend k5 k6'
  have k7' := hrun (sigUses_spec (by decide +kernel) e7) k2' h7
  have k7 := AllRules.extend k6 k7'
  have k8' := hrun (sigUses_spec (by decide +kernel) e8) k2' h8
  have u1 := unionOf_nil k1'
  have u2 := unionOf_extend k1 k2' u1
  have u3 := unionOf_extend k2 k3' u2
  have u4 := unionOf_extend k3 k4' u3
  have u5 := unionOf_extend k4 k5' u4
  have u6 := unionOf_extend k5 k6' u5
  have u7 := unionOf_extend k6 k7' u6
  exact ⟨r1, r2, r3, r4, r5, r6, r7, r8, unionOf_extend k7 k8' u7, ⟨[], l1, fun q => by simp [Ruleset.iter], h1⟩, ⟨_, l2, u1, h2⟩,
    ⟨_, l3, u2, h3⟩, ⟨_, l4, u3, h4⟩, ⟨_, _, l5, u4, e5, h5⟩, ⟨_, _, l6, u5, e6, h6⟩, ⟨r2, _, l7, fun q => by simp, e7, h7⟩,
    ⟨r2, _, l8, fun q => by simp, e8, h8⟩⟩

end Ruler
