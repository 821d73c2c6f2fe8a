import Verif.Props.Complete
import Verif.Props.ProgressExamples
/-!
# C70: examples
-/
namespace Ruler
open Spec EGraph
variable {O C : Type} [Lang O] [LinearOrder C] {D : Domain O C}

namespace Sample

/-- Every class has a smallest term. -/
theorem least_exists {g : EGraph O C} (hg : AnyHistory D g) {i : Nat} (hi : i ∈ g.classes) : ∃ t, Least g tmSize i t := by
  obtain ⟨t, ht⟩ : ∃ t, Rep g t i := ⟨_, (Classical.choose_spec (computed_exists astCost_laws D) g hg i hi).2.1⟩
  have hex : ∃ n t, Rep g t i ∧ tmSize t = n := ⟨_, t, ht, rfl⟩
  classical
  obtain ⟨t, ht, e⟩ := Nat.find_spec hex
  exact ⟨t, ht, fun u hu => e ▸ Nat.find_min' hex ⟨u, hu, rfl⟩⟩

/-- The extraction algorithm, for few passes and small terms; otherwise any smallest term. -/
noncomputable def smallest [Inhabited (Tm O)] (g : EGraph O C) (i : Nat) : Tm O :=
  ((findCosts g astCost g.classNodes g.classes 10 fun _ => none).bind fun b => buildBest g b 10 i).getD
    (Classical.epsilon (Least g tmSize i))

theorem smallest_ok [Inhabited (Tm O)] {g : EGraph O C} (hg : AnyHistory D g) {i : Nat} (hi : i ∈ g.classes) :
    Least g tmSize i (smallest g i) := by
  unfold smallest
  cases h : ((findCosts g astCost g.classNodes g.classes 10 fun _ => none).bind fun b => buildBest g b 10 i) with
  | none => exact Classical.epsilon_spec (least_exists hg hi)
  | some t =>
    obtain ⟨b, hb, ht⟩ := Option.bind_eq_some_iff.1 h
    have hlt : i < g.n ∧ g.find i = i := by simpa [EGraph.classes] using hi
    obtain ⟨d, t', nd, h1, -, h3⟩ := C55_smallest hg (fun _ => List.Perm.refl _) (List.Perm.refl _) hb i hlt.1
    have e1 := buildBest_le (Nat.le_max_left d 10) h1
    rw [buildBest_le (Nat.le_max_right d 10) ht] at e1
    cases e1
    exact h3

/-- A rule under the name the library gives it. -/
def named (l r : Pat BoolOp) : Rule BoolOp := ⟨ruleName l r, l, r⟩
/-- An operator on two patterns. -/
def two (o : BoolOp) (l r : Pat BoolOp) : Pat BoolOp := .node o [l, r]
/-- `true` -/
def pT : Pat BoolOp := .node (.lit true) []
/-- `false` -/
def pF : Pat BoolOp := .node (.lit false) []
/-- `?a` -/
def pa : Pat BoolOp := .var "?a"
/-- Eleven rules about constants and idempotence. -/
def unitRules : List (Rule BoolOp) :=
  [named (two .and pa pa) pa, named (two .and pa pT) pa, named (two .and pT pa) pa, named (two .or pa pa) pa,
    named (two .or pa pF) pa, named (two .or pF pa) pa, named (two .xor pa pa) pF, named (two .xor pa pF) pa,
    named (two .xor pF pa) pa, named (two .xor pa pT) (.node .not [pa]), named (two .xor pT pa) (.node .not [pa])]

/-- What a side of a rule has to satisfy. -/
def Side (p : Pat BoolOp) : Prop :=
  PatOk (fun (o : BoolOp) k => k = o.arity) p ∧ Schematic p ∧ Readable p ∧ OnlyOps (· ≠ BoolOp.implies) p

theorem side_pa : Side pa := ⟨.var, .var (by decide), .var (by decide) (isVarName_iff.1 (by decide)), .var _⟩
theorem side_node {o : BoolOp} {l : List (Pat BoolOp)} (h : l.length = o.arity) (ho : Lang.toVar o = none) (hi : o ≠ .implies)
    (hl : ∀ a ∈ l, Side a) : Side (.node o l) :=
  have h' := bool_opsReadable o l.length h ho
  ⟨.node h fun a ha => (hl a ha).1, .node ho fun a ha => (hl a ha).2.1,
    .node h'.1 h'.2.1 h'.2.2.1 fun a ha => (hl a ha).2.2.1, .node hi fun a ha => (hl a ha).2.2.2⟩
theorem side_pT : Side pT := side_node rfl rfl (by simp) (by simp)
theorem side_pF : Side pF := side_node rfl rfl (by simp) (by simp)
theorem side_two {o : BoolOp} {l r : Pat BoolOp} (h : o.arity = 2) (ho : Lang.toVar o = none) (hi : o ≠ .implies) (hl : Side l)
    (hr : Side r) : Side (two o l r) := side_node h.symm ho hi (by simpa using ⟨hl, hr⟩)
theorem side_not {l : Pat BoolOp} (hl : Side l) : Side (.node .not [l]) := side_node rfl rfl (by simp) (by simpa using hl)

theorem unitRules_ok : AllRules (fun o k => k = o.arity) (fun q => Holds boolOpVal q ∧ RuleUses (· ≠ .implies) q)
    (Ruleset.addAll [] unitRules) := by
  refine AllRules.of (Ruleset.WellFormed.addAll Ruleset.WellFormed.nil _) fun q hq => ?_
  have hq : q ∈ unitRules := hq
  have mk : ∀ {l r}, Side l → Side r → (∀ v ∈ r.vars, v ∈ l.vars) →
      (∀ s ∈ [l.print, r.print], (List.range s.length).all (fun i => s.drop i |>.take 2 |> (· ≠ ['=', '>'])) = true) →
      Holds boolOpVal (named l r) → Rule.Textual (named l r) ∧ GoodRule (fun o k => k = o.arity) (named l r) ∧
        Holds boolOpVal (named l r) ∧ RuleUses (· ≠ .implies) (named l r) := fun hl hr hv ha hh =>
    ⟨⟨⟨rfl, hv⟩, hl.2.2.1, hr.2.2.1, noArrow _ (ha _ (by simp [named])), noArrow _ (ha _ (by simp [named]))⟩, ⟨⟨hl.1, hr.1⟩, hl.2.1, hr.2.1⟩, hh,
      hl.2.2.2, hr.2.2.2⟩
  simp only [unitRules, List.mem_cons, List.not_mem_nil, or_false] at hq
  rcases hq with rfl | rfl | rfl | rfl | rfl | rfl | rfl | rfl | rfl | rfl | rfl
  all_goals
    refine mk ?_ ?_ (by decide +kernel) (by decide +kernel) ?_
    · first
        | exact side_two rfl rfl (by simp) side_pa side_pa
        | exact side_two rfl rfl (by simp) side_pa side_pT
        | exact side_two rfl rfl (by simp) side_pT side_pa
        | exact side_two rfl rfl (by simp) side_pa side_pF
        | exact side_two rfl rfl (by simp) side_pF side_pa
    · first | exact side_pa | exact side_pF | exact side_not side_pa
    · intro ρ
      simp only [named, two, pa, pT, pF, patVal, patValL, boolOpVal]
      cases ρ "?a" <;> rfl

/-- Steps that close a small e-graph. -/
def steps (n : Nat) : List Repair := List.replicate n (.congr 0)
/-- Choices of a run in which every rule is applied to its first match. -/
noncomputable def unitEnv : RunEnv BoolOp Bool where
  build := egg
  eg := egg
  isSat _ := false
  tr := { quiet with simple := ⟨steps 20, [⟨List.replicate 11 [0], steps 20⟩]⟩, cloneRepairs := steps 20 }
  order g := g.classes
  best g i := haveI : Inhabited (Tm BoolOp) := ⟨boolLit true⟩
    smallest g i
  min := { sched := .simple limits, isSat := fun _ => false, eg := fun _ => egg,
           tr := fun _ => { quiet with simple := ⟨steps 5, []⟩, cloneRepairs := steps 5 },
           score := fun r => [(r.name.length : Int)], valid := fun _ _ => true }

theorem unitEnv_small {g : EGraph BoolOp Bool} (hg : AnyHistory boolDomain g) {i : Nat} (hi : i ∈ g.classes) :
    Least g tmSize i (unitEnv.best g i) :=
  haveI : Inhabited (Tm BoolOp) := ⟨boolLit true⟩
  smallest_ok hg hi

theorem unitEnv_ok : RunOk boolDomain unitEnv := fun _ hg => ⟨List.Perm.refl _, fun _ hi => (unitEnv_small hg hi).1⟩

/-- `x` -/
def fx : Tm BoolOp := .node (.var "x") []

end Sample

-- Three levels over one variable, starting from eleven rules: double negation is found in both directions. The theorem says that
-- thirteen rules are enough for all equations between formulas of size three, such as `(~ (~ x)) = (& x true)`, and that
-- `(~ x) = x` cannot be proved.
example : ∃ out log, recursiveRules boolDomain (fun _ => Sample.unitEnv) .atoms (boolLangOf ["x"]) (Ruleset.addAll [] Sample.unitRules)
      3 = some (out, log) ∧ out.length = 13 ∧
    Provable (· ∈ Ruleset.iter out) Decided (.node .not [.node .not [Sample.fx]]) (.node .and [Sample.fx, boolLit true]) ∧
    ¬ Provable (· ∈ Ruleset.iter out) Decided (.node .not [Sample.fx]) Sample.fx := by
  have key : (recursiveRules boolDomain (fun _ => Sample.unitEnv) .atoms (boolLangOf ["x"]) (Ruleset.addAll [] Sample.unitRules) 3).map
    (fun r => r.1.length) = some 13 := by decide +kernel
  obtain ⟨⟨out, log⟩, h, hl⟩ := Option.map_eq_some_iff.1 key
  have hx : Formula (· ∈ ["x"]) Sample.fx := .var (by simp)
  have hall := fun {t u : Tm BoolOp} (ht : Formula (· ∈ ["x"]) t) (hu : Formula (· ∈ ["x"]) u) (h1 : tmSize t ≤ 3) (h2 : tmSize u ≤ 3) =>
    C70_recursive (langCheck_ok (by decide +kernel)) (by omega) (fun _ => Sample.unitEnv_ok) (fun _ hg _ hi => Sample.unitEnv_small hg hi)
      boolAnswers_true Sample.unitRules_ok h ht hu h1 h2
  refine ⟨out, log, h, hl, (hall (.not (.not hx)) (.and hx (.lit _)) (by decide) (by decide)).2 fun env => ?_,
    fun hc => ?_⟩
  · rw [boolVal_node rfl, boolVal_node rfl]
    simp only [List.map_cons, List.map_nil, boolVal_node (o := BoolOp.not) rfl, boolVal_lit, boolOpVal]
    simp
  · have := (hall (.not hx) hx (by decide) (by decide)).1 hc fun _ => true
    exact absurd this (by decide)

end Ruler
