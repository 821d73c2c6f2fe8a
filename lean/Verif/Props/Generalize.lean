import Verif.Proofs.Candidates
import Verif.Model.DomNat
/-!
# Candidate rules from terms: C27
-/
namespace Ruler
open Spec
variable {O : Type} [Lang O]

/-- **C27.** The two patterns made from a pair of terms are the two terms with every variable replaced by a pattern
variable, in the same way on both sides, different variables by different pattern variables; the pattern variables are
`?a` to `?z`. -/
theorem C27_renames {e1 e2 : Tm O} {l r : Pat O} (h : generalizePair e1 e2 = some (l, r)) :
    ∃ ρ : String → String, InjOn ρ (fun x => VarIn x e1 ∨ VarIn x e2) ∧
      (∀ x, VarIn x e1 ∨ VarIn x e2 → LetterVar (ρ x)) ∧ l = schema ρ e1 ∧ r = schema ρ e2 := by
  obtain ⟨m, hm, hl, hr, hk⟩ := generalizePair_spec h
  exact ⟨m.fn, fun a b ha hb => hm.fn_inj a b ((hk a).2 ha) ((hk b).2 hb), fun x hx => hm.fn_letter ((hk x).2 hx), hl, hr⟩

/-- **C27.** It succeeds exactly if the two terms together have at most 26 different variables; otherwise the code
panics. -/
theorem C27_total (e1 e2 : Tm O) :
    (generalizePair e1 e2).isSome ↔ AtMost 26 (fun x => VarIn x e1 ∨ VarIn x e2) := by
  cases h : generalizePair e1 e2 with
  | none =>
    simp only [Option.isSome_none, Bool.false_eq_true, false_iff]
    exact (generalizePair_none h).not_atMost
  | some p =>
    simp only [Option.isSome_some, true_iff]
    obtain ⟨m, hm, _, _, hk⟩ := generalizePair_spec (l := p.1) (r := p.2) h
    exact ⟨m.map Prod.fst, by simpa using hm.length_le, fun x hx => (hk x).2 hx⟩

/-- **C27.** The equation between the patterns is valid in an algebra iff the equation between the terms is. -/
theorem C27_valid {V : Type} (I : O → List V → V) {e1 e2 : Tm O} {l r : Pat O}
    (h : generalizePair e1 e2 = some (l, r)) :
    (∀ ν : String → V, patVal ν I l = patVal ν I r) ↔ ∀ env : String → V, tmVal env I e1 = tmVal env I e2 := by
  obtain ⟨ρ, hi, _, rfl, rfl⟩ := C27_renames h
  constructor
  · intro hv env
    obtain ⟨ν, hν⟩ := unrename hi env
    have := hv ν
    rw [patVal_schema, patVal_schema] at this
    rw [tmVal_congr' (env' := fun x => ν (ρ x)) fun x hx => (hν x (Or.inl hx)).symm,
      tmVal_congr' (env' := fun x => ν (ρ x)) (t := e2) fun x hx => (hν x (Or.inr hx)).symm]
    exact this
  · intro hv ν
    rw [patVal_schema, patVal_schema]
    exact hv _

/-- **C27.** The rules that `add_from_recexprs` adds: their sides are these patterns, in either direction in which all
variables are bound; nothing else changes. -/
theorem C27_added {rs rs' : Ruleset O} {e1 e2 : Tm O} (h : rs.addFromTerms e1 e2 = some rs') :
    ∃ l r, generalizePair e1 e2 = some (l, r) ∧ ∀ n, n ∈ rs'.map Prod.fst ↔ n ∈ rs.map Prod.fst ∨
      (Covers e1 e2 ∧ n = ruleName l r) ∨ (Covers e2 e1 ∧ n = ruleName r l) := by
  obtain ⟨h1, h2⟩ := addFromTerms_eq h
  obtain ⟨⟨l, r⟩, hp⟩ := Option.isSome_iff_exists.1 h1
  refine ⟨l, r, hp, fun n => ?_⟩
  obtain ⟨ρ, hi, _, hl, hr⟩ := C27_renames hp
  rw [h2, mem_keys_addAll]
  refine or_congr Iff.rfl ?_
  have b1 := bindsAll_schema hi
  have b2 := bindsAll_schema (e1 := e2) (e2 := e1) (ρ := ρ)
    (fun a b ha hb => hi a b (pairVar_comm.1 ha) (pairVar_comm.1 hb))
  rw [← hl, ← hr] at b1 b2
  simp only [dirsOf, hp, Option.toList_some, List.flatMap_cons, List.flatMap_nil, List.append_nil, dirs, List.map_append,
    List.mem_append, Rule.new]
  by_cases c1 : Covers e1 e2 <;> by_cases c2 : Covers e2 e1 <;> simp [c1, c2, b1, b2]

/-- **C27.** Turning the two sides of a rule into terms and generalizing them again only renames the variables of the
rule, injectively. -/
theorem C27_instantiate (hv : ∀ s, Lang.toVar (Lang.mkVar s : O) = some s) {p q : Pat O} (hp : Schematic p)
    (hq : Schematic q) {l r : Pat O} (h : generalizePair p.instantiate q.instantiate = some (l, r)) :
    ∃ σ : String → String, InjOn σ (fun v => v ∈ p.vars ∨ v ∈ q.vars) ∧ l = renamed σ p ∧ r = renamed σ q := by
  obtain ⟨ρ, hi, _, rfl, rfl⟩ := C27_renames h
  refine ⟨fun v => ρ (dropQ v), ?_, schema_instantiate hv ρ hp, schema_instantiate hv ρ hq⟩
  intro a b ha hb e
  have qa : a.toList.head? = some '?' := ha.elim (Schematic.var_head hp) (Schematic.var_head hq)
  have qb : b.toList.head? = some '?' := hb.elim (Schematic.var_head hp) (Schematic.var_head hq)
  have va := ha.imp (varIn_instantiate hv hp) (varIn_instantiate hv hq)
  have vb := hb.imp (varIn_instantiate hv hp) (varIn_instantiate hv hq)
  have := hi _ _ va vb e
  rw [← dropQ_cons qa, ← dropQ_cons qb, this]

/-- **C27.** Candidates do not depend on the names of the variables: pairs of terms that differ by an injective renaming of
the variables give the same pair of patterns. -/
theorem C27_canonical (hv : ∀ s, Lang.toVar (Lang.mkVar s : O) = some s) {e1 e2 : Tm O} {σ : String → String}
    (hσ : InjOn σ (fun x => VarIn x e1 ∨ VarIn x e2)) :
    generalizePair (renamedTm σ e1) (renamedTm σ e2) = generalizePair e1 e2 := by
  unfold generalizePair
  have h1 := generalize_renamed hv hσ e1 [] .nil (by simp) fun x hx => Or.inl hx
  have : VarMap.renamed σ [] = [] := rfl
  rw [this] at h1
  rw [h1]
  cases h : generalize e1 [] with
  | none => rfl
  | some p =>
    obtain ⟨m, l⟩ := p
    obtain ⟨a1, _, _, a4⟩ := generalize_spec e1 [] m l h .nil
    simp only [Option.map_some, Option.bind_some]
    rw [generalize_renamed hv hσ e2 m a1 (fun x hx => by
      rcases (a4 x).1 hx with h | h
      · simp at h
      · exact Or.inl h) fun x hx => Or.inr hx]
    simp only [Option.map_map]
    rfl

namespace Sample
/-- A variable of the natural numbers. -/
def nv (x : String) : Tm NatOp := .node (.var x) []
/-- A sum. -/
def nadd (a b : Tm NatOp) : Tm NatOp := .node .add [a, b]
/-- Twenty-seven variables. -/
def manyVars : Tm NatOp :=
  ((List.range 27).map fun i => nv (String.ofList [Char.ofNat (97 + i)])).foldl nadd (.node .z [])

-- `x + y` and `y + x` become `?b + ?a` and `?a + ?b`, which are two rules; `x + y` and `y` give one rule; `x + 0` and `y`
-- give none; 27 variables are too many.
example : generalizePair (nadd (nv "x") (nv "y")) (nadd (nv "y") (nv "x")) =
      some (.node .add [.var "?b", .var "?a"], .node .add [.var "?a", .var "?b"]) ∧
    (Ruleset.addFromTerms [] (nadd (nv "x") (nv "y")) (nadd (nv "y") (nv "x"))).map List.length = some 2 ∧
    (Ruleset.addFromTerms [] (nadd (nv "x") (nv "y")) (nv "y")).map List.length = some 1 ∧
    (Ruleset.addFromTerms [] (nadd (nv "x") (.node .z [])) (nv "y")).map List.length = some 0 ∧
    (generalizePair manyVars manyVars).isNone = true := by decide +kernel
end Sample

end Ruler
