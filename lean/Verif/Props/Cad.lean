import Verif.Props.Lifting
import Verif.Proofs.CadVal
import Mathlib.Tactic.Linarith
/-!
# C61: rules for solids lifted from rules for functions on space
-/
namespace Ruler
open Spec EGraph
open scoped List

theorem cadDomain_noFold : NoFold cadDomain := ⟨fun _ _ _ h => by cases h; rfl, fun _ _ => rfl, fun _ => rfl⟩

theorem cadVarsOk : VarsOk (O := CadOp) AnySort := fun _ => ⟨rfl, trivial⟩

/-- Two patterns describe the same function wherever both describe one. -/
def SameSolid (r : Rule CadOp) : Prop :=
  ∀ ω ρ f g, FRep ω ρ r.lhs f → FRep ω ρ r.rhs g → f = g

theorem sameSolid_of_holds {r : Rule CadOp} (h : ∀ T, Holds (cadVal T) r) : SameSolid r := by
  obtain ⟨T⟩ := tripleCode
  intro ω ρ f g hf hg
  rw [← FRep.val T hf, ← FRep.val T hg]
  exact h T _

theorem cadPrior_holds (T : TripleCode) : ∀ p ∈ cadFrepSides ++ cadSubstSides, ∀ ρ,
    patVal ρ (cadVal T) p.1 = patVal ρ (cadVal T) p.2 := fun p hp =>
  (List.mem_append.1 hp).elim (cadFrep_holds T p) (cadSubst_holds T p)

theorem cadSides_sch (p : Pat CadOp × Pat CadOp) (h : p ∈ cadFrepSides ++ cadSubstSides ∨ p ∈ cadLiftingSides) :
    Schematic p.1 ∧ Schematic p.2 :=
  have := cadSides_schematic p (List.mem_append.2 h)
  ⟨schematicB_sound _ this.1, schematicB_sound _ this.2⟩

/-- Find the function of a pattern of the tables. -/
macro "frep" : tactic => `(tactic| repeat' first
  | exact FRep.dimX | exact FRep.dimY | exact FRep.dimZ | exact FRep.num _
  | exact FRep.var _ (by decide)
  | apply FRep.lit | apply FRep.scalar | apply FRep.op .add | apply FRep.op .sub | apply FRep.op .mul | apply FRep.op .div
  | apply FRep.op .max | apply FRep.op .min | apply FRep.opVar | apply FRep.subst | apply FRep.trans | apply FRep.scale
  | apply FRep.cube | apply FRep.cylinder | apply FRep.sphere)

theorem cadFrep_describe : ∀ p ∈ cadFrepSides, ∀ ω ρ, (∃ f, FRep ω ρ p.1 f) ∧ ∃ g, FRep ω ρ p.2 g := by
  simp only [cadFrepSides, List.forall_mem_cons]
  refine ⟨?_, ?_, ?_, ?_, ?_, ?_, by simp⟩ <;> intro ω ρ <;> constructor <;> apply Exists.intro <;> frep

theorem cadSubst_describe : ∀ p ∈ cadSubstSides, ∀ ω ρ, (∃ f, FRep ω ρ p.1 f) ∧ ∃ g, FRep ω ρ p.2 g := by
  simp only [cadSubstSides, List.forall_mem_cons]
  refine ⟨?_, ?_, ?_, ?_, ?_, ?_, ?_, ?_, ?_, by simp⟩ <;> intro ω ρ <;> constructor <;> apply Exists.intro <;> frep

theorem cadLifting_describe : ∀ p ∈ cadLiftingSides, ∀ ω ρ, (∃ f, FRep ω ρ p.1 f) ∧ ∃ g, FRep ω ρ p.2 g := by
  simp only [cadLiftingSides, List.forall_mem_cons]
  refine ⟨?_, ?_, ?_, ?_, ?_, by simp⟩ <;> intro ω ρ <;> constructor <;> apply Exists.intro <;> frep

/-- **C61** (tables). The prior and the exploratory rules of tests/szalinski.rs are read without a panic, and the two sides of
every one of them describe the same (partial) function on space, whatever functions and operators the variables stand for:
both are defined at the same points, and equal there. -/
theorem C61_tables : ∃ expl prior : Ruleset CadOp,
    Ruleset.new (CadOp.liftingTexts.map String.toList) = some expl ∧
    Ruleset.new (CadOp.priorTexts.map String.toList) = some prior ∧
    ∀ r, r ∈ Ruleset.iter expl ∨ r ∈ Ruleset.iter prior → ∀ ω ρ, ∃ f, FRep ω ρ r.lhs f ∧ FRep ω ρ r.rhs f := by
  obtain ⟨expl, h1, -, h2⟩ := table_new cadLifting_sides
  obtain ⟨prior, h3, -, h4⟩ := table_new cadPrior_sides
  refine ⟨expl, prior, h1, h3, fun r hr ω ρ => ?_⟩
  have hd : (∃ f, FRep ω ρ r.lhs f) ∧ ∃ g, FRep ω ρ r.rhs g := by
    rcases hr with hr | hr
    · exact cadLifting_describe _ (h2 r hr) ω ρ
    · rcases List.mem_append.1 (h4 r hr) with h | h
      · exact cadFrep_describe _ h ω ρ
      · exact cadSubst_describe _ h ω ρ
  have hs : SameSolid r := sameSolid_of_holds fun T =>
    hr.elim (fun hr => cadLifting_holds T _ (h2 r hr)) fun hr => cadPrior_holds T _ (h4 r hr)
  obtain ⟨⟨f, hf⟩, g, hg⟩ := hd
  exact ⟨f, hf, (hs ω ρ f g hf hg) ▸ hg⟩

theorem mapM_mem {α β : Type} {f : α → Option β} : ∀ {l : List α} {r : List β}, l.mapM f = some r → ∀ t ∈ l, ∃ y ∈ r, f t = some y
  | [], _, _, _, ht => by cases ht
  | a :: l, r, h, t, ht => by
    rw [List.mapM_cons] at h
    obtain ⟨y, hy, h⟩ := Option.bind_eq_some_iff.1 h
    obtain ⟨ys, hys, h⟩ := Option.bind_eq_some_iff.1 h
    cases h
    rcases List.mem_cons.1 ht with rfl | ht
    · exact ⟨y, by simp, hy⟩
    · obtain ⟨z, hz, e⟩ := mapM_mem hys t ht
      exact ⟨z, by simp [hz], e⟩

/-- Some of the lines of a table have some of its rules. -/
theorem tableSides_subset {O : Type} [Lang O] [DecidableEq O] {texts : List String} {l : List (Pat O × Pat O)}
    (h : tableSides texts = some l) : ∀ {lines : List String}, (∀ t ∈ lines, t ∈ texts) →
      ∃ l', tableSides lines = some l' ∧ ∀ p ∈ l', p ∈ l
  | [], _ => ⟨[], rfl, fun _ h => by cases h⟩
  | t :: lines, hs => by
    obtain ⟨x, hx, rfl⟩ := Option.map_eq_some_iff.1 h
    obtain ⟨m, hm, hsub⟩ := tableSides_subset h fun t ht => hs t (List.mem_cons_of_mem _ ht)
    obtain ⟨y, hy, hf⟩ := mapM_mem hx _ (List.mem_map.2 ⟨t, hs t (by simp), rfl⟩)
    have h1 : tableSides (O := O) [t] = some (sidesOf y) := by
      rw [tableSides]
      simp [hf]
    refine ⟨_, tableSides_append h1 hm, fun p hp => ?_⟩
    rcases List.mem_append.1 hp with hp | hp
    · exact List.mem_flatMap.2 ⟨y, hy, hp⟩
    · exact hsub p hp

/-- **C61** (rule lifting). Whatever chain of fast-forwarding runs is made with (some of) the rules of tests/szalinski.rs: if both sides
of a resulting rule describe functions, then these are the same, defined at the same points; and a rule not in the prior
does not mention coordinates, substitution, `Scalar`, `max` and `min`. -/
theorem C61_lifting {expl prior out : Ruleset CadOp}
    {explLines lines : List String} (hel : ∀ t ∈ explLines, t ∈ CadOp.liftingTexts)
    (he : Ruleset.new (explLines.map String.toList) = some expl)
    (hpl : ∀ t ∈ lines, t ∈ CadOp.priorTexts) (hp : Ruleset.new (lines.map String.toList) = some prior)
    {steps : List (FastStep CadOp Int)} (hs : ∀ st ∈ steps, StepOk cadDomain st)
    (h : fastRecipe cadDomain expl steps prior = some out) :
    ∀ q ∈ Ruleset.iter out, SameSolid q ∧ (q ∈ Ruleset.iter prior ∨
      OnlyOps (fun o => o ∉ [.dimX, .dimY, .dimZ, .subst, .scalar, .max, .min]) q.lhs ∧
      OnlyOps (fun o => o ∉ [.dimX, .dimY, .dimZ, .subst, .scalar, .max, .min]) q.rhs) := by
  obtain ⟨m1, e1, s1⟩ := tableSides_subset cadLifting_sides hel
  obtain ⟨m2, e2, s2⟩ := tableSides_subset cadPrior_sides hpl
  obtain ⟨hw, hsides⟩ := table_sides e2 hp
  have key := fun T => (C57_recipe (I := cadVal T) (fun _ => NoFold.foldsIn cadDomain_noFold _ _) cadVarsOk
    (fun r hr =>
      have := s1 _ ((table_sides e1 he).2 r hr)
      ⟨cadSides_sch _ (.inr this), cadLifting_holds T _ this⟩) steps hs hw
    (fun r hr => ⟨cadSides_sch _ (.inl (s2 _ (hsides r hr))), cadPrior_holds T _ (s2 _ (hsides r hr))⟩) h).2
  have ha : ∀ o : CadOp, Lang.allowed o = true → o ∉ [CadOp.dimX, .dimY, .dimZ, .subst, .scalar, .max, .min] := by
    intro o ho hm
    simp only [List.mem_cons, List.not_mem_nil, or_false] at hm
    rcases hm with rfl | rfl | rfl | rfl | rfl | rfl | rfl <;> cases ho
  obtain ⟨T⟩ := tripleCode
  exact fun q hq => ⟨sameSolid_of_holds fun T => (key T q hq).1,
    (key T q hq).2.imp_right fun a => ⟨a.1.ops ha, a.2.ops ha⟩⟩

theorem cadExpected_describe : ∀ p ∈ cadExpectedSides, ∀ ω ρ, ∃ f, FRep ω ρ p.1 f ∧ FRep ω ρ p.2 f := by
  have hd : ∀ p ∈ cadExpectedSides, ∀ ω ρ, (∃ f, FRep ω ρ p.1 f) ∧ ∃ g, FRep ω ρ p.2 g := by
    simp only [cadExpectedSides, List.forall_mem_cons]
    refine ⟨?_, ?_, ?_, ?_, ?_, ?_, ?_, ?_, ?_, ?_, ?_, ?_, ?_, ?_, ?_, ?_, ?_, ?_, by simp⟩ <;> intro ω ρ <;>
      constructor <;> apply Exists.intro <;> frep
  intro p hp ω ρ
  obtain ⟨T⟩ := tripleCode
  obtain ⟨⟨f, hf⟩, g, hg⟩ := hd p hp ω ρ
  have : f = g := by
    rw [← FRep.val T hf, ← FRep.val T hg]
    exact cadExpected_holds T p hp _
  exact ⟨f, hf, this ▸ hg⟩

/-- **C61** (the expected rules). The two sides of every rule that the test expects to be derivable describe the same
function: they are true. -/
theorem C61_expected : ∃ rs : Ruleset CadOp, Ruleset.new (CadOp.expectedTexts.map String.toList) = some rs ∧
    ∀ r ∈ Ruleset.iter rs, ∀ ω ρ, ∃ f, FRep ω ρ r.lhs f ∧ FRep ω ρ r.rhs f := by
  obtain ⟨rs, h1, -, h2⟩ := table_new cadExpected_sides
  exact ⟨rs, h1, fun r hr => cadExpected_describe _ (h2 r hr)⟩

theorem nonneg_div {a b : ℝ} (h : 0 < b) : 0 ≤ a / b ↔ 0 ≤ a := by
  constructor
  · intro h1
    have := mul_nonneg h1 h.le
    rwa [div_mul_cancel₀ _ h.ne'] at this
  · exact fun h1 => div_nonneg h1 h.le

/-- **C61** (shapes). The functions that the exploratory rules give to boxes, cylinders and balls with positive measures are
defined everywhere and describe these shapes: they are not negative exactly at the points of the shape. -/
theorem C61_shapes (x y z : ℝ) {a b c : ℝ} (ha : 0 < a) (hb : 0 < b) (hc : 0 < c) :
    (∃ v, cubeField (some a) (some b) (some c) (some x, some y, some z) = some v ∧
      (0 ≤ v ↔ (0 ≤ x ∧ x ≤ a) ∧ (0 ≤ y ∧ y ≤ b) ∧ 0 ≤ z ∧ z ≤ c)) ∧
    (∃ v, cylinderField (some a) (some b) (some x, some y, some z) = some v ∧
      (0 ≤ v ↔ x ^ 2 + y ^ 2 ≤ b ^ 2 ∧ |z| ≤ a / 2)) ∧
    ∃ v, sphereField (some a) (some x, some y, some z) = some v ∧ (0 ≤ v ↔ x ^ 2 + y ^ 2 + z ^ 2 ≤ a ^ 2) := by
  simp only [cubeField, cylinderField, sphereField, CadArith.fn, ha.ne', hb.ne', hc.ne', if_false]
  refine ⟨⟨_, rfl, ?_⟩, ⟨_, rfl, ?_⟩, _, rfl, ?_⟩
  · simp only [le_min_iff, sub_nonneg, div_le_one ha, div_le_one hb, div_le_one hc, nonneg_div ha,
      nonneg_div hb, nonneg_div hc]
    tauto
  · rw [le_min_iff, le_min_iff, abs_le]
    have e : 1 - x / b * (x / b) - y / b * (y / b) = (b ^ 2 - x ^ 2 - y ^ 2) / b ^ 2 := by field_simp
    have e1 : 1 / 2 - z / a = (a / 2 - z) / a := by field_simp
    have e2 : 1 / 2 + z / a = (a / 2 + z) / a := by field_simp
    rw [e, e1, e2, nonneg_div (by positivity), nonneg_div ha, nonneg_div ha]
    constructor
    · rintro ⟨h1, h2, h3⟩; exact ⟨by linarith, by linarith, by linarith⟩
    · rintro ⟨h1, h2, h3⟩; exact ⟨by linarith, by linarith, by linarith⟩
  · have e : 1 - x / a * (x / a) - y / a * (y / a) - z / a * (z / a) = (a ^ 2 - x ^ 2 - y ^ 2 - z ^ 2) / a ^ 2 := by field_simp
    rw [e, nonneg_div (by positivity)]
    constructor <;> intro h <;> linarith

end Ruler
