import Verif.Proofs.Trig
import Verif.Proofs.RatText
import Verif.Proofs.EGraph
/-!
# The trigonometric rules hold for complex numbers
-/
namespace Ruler
open Spec EGraph Complex

theorem real_zero : trigVal (.real "0") [] = 0 := by
  have h : ratOfText "0".toList = some 0 := by decide +kernel
  simp only [trigVal, h, Option.getD_some, Rat.cast_zero]
theorem real_one : trigVal (.real "1") [] = 1 := by
  have h : ratOfText "1".toList = some 1 := by decide +kernel
  simp only [trigVal, h, Option.getD_some, Rat.cast_one]
theorem real_two : trigVal (.real "2") [] = 2 := by
  have h : ratOfText "2".toList = some 2 := by decide +kernel
  simp only [trigVal, h, Option.getD_some, Rat.cast_ofNat]
theorem real_four : trigVal (.real "4") [] = 4 := by
  have h : ratOfText "4".toList = some 4 := by decide +kernel
  simp only [trigVal, h, Option.getD_some, Rat.cast_ofNat]
theorem real_neg_one : trigVal (.real "-1") [] = -1 := by
  have h : ratOfText "-1".toList = some (-1) := by decide +kernel
  simp only [trigVal, h, Option.getD_some, Rat.cast_neg, Rat.cast_one]

theorem sin_exp (z : ℂ) : Complex.sin z = (exp (-z * I) - exp (z * I)) * I / 2 := by rw [Complex.sin]
theorem cos_exp (z : ℂ) : Complex.cos z = (exp (z * I) + exp (-z * I)) / 2 := by rw [Complex.cos]
theorem exp_neg_mul (z : ℂ) : exp (-z * I) = (exp (z * I))⁻¹ := by rw [neg_mul, exp_neg]
theorem exp_add_mul (z w : ℂ) : exp ((z + w) * I) = exp (z * I) * exp (w * I) := by rw [add_mul, exp_add]
theorem exp_sub_mul (z w : ℂ) : exp ((z - w) * I) = exp (z * I) * (exp (w * I))⁻¹ := by rw [sub_mul, exp_sub, div_eq_mul_inv]

/-- Unfold both sides. -/
macro "trig_unfold" : tactic => `(tactic| (
  intro ρ
  simp only [patVal, patValL, real_zero, real_one, real_two, real_four, real_neg_one]
  simp only [trigVal]))

theorem trigComplexGood_holds : ∀ p ∈ trigComplexGood, ∀ ρ, patVal ρ trigVal p.1 = patVal ρ trigVal p.2 := by
  simp only [trigComplexGood, List.forall_mem_cons]
  refine ⟨?_, ?_, ?_, ?_, ?_, ?_, ?_, ?_, ?_, ?_, ?_, ?_, ?_, ?_, ?_, ?_, ?_, ?_, ?_, ?_, ?_, ?_, ?_, ?_, ?_, ?_, ?_, ?_, ?_, ?_, ?_, ?_, ?_, ?_, ?_, ?_, ?_, ?_, ?_, ?_, ?_, ?_, ?_, ?_, ?_, ?_, ?_, ?_, ?_, ?_, ?_, ?_, ?_, by simp⟩ <;> trig_unfold <;> ring

theorem div_mul_I (x c : ℂ) : x / (c * I) = -(x * I) / c := by
  rw [div_mul_eq_div_div, div_I]; ring

theorem cis_half : exp ((Real.pi : ℂ) / 2 * I) = I := exp_pi_div_two_mul_I

theorem mul_I_I (x : ℂ) : x * I * I = -x := by rw [mul_assoc, I_mul_I, mul_neg_one]

theorem trigPrior_holds : ∀ p ∈ trigPriorSides, ∀ ρ, patVal ρ trigVal p.1 = patVal ρ trigVal p.2 := by
  simp only [trigPriorSides, List.forall_mem_cons]
  refine ⟨?_, ?_, ?_, ?_, ?_, ?_, ?_, ?_, ?_, ?_, ?_, ?_, ?_, ?_, ?_, by simp⟩ <;> trig_unfold
  · ring
  · ring
  · simp
  · exact cis_half
  · rw [exp_neg_mul, cis_half, inv_I]
  · exact exp_pi_mul_I
  · exact exp_add_mul _ _
  · exact (exp_add_mul _ _).symm
  · rw [exp_sub_mul, exp_neg_mul]
  · rw [exp_sub_mul, exp_neg_mul]
  · rw [exp_neg_mul, one_div]
  · rw [exp_neg_mul, one_div]
  · rw [exp_neg_mul, mul_inv_cancel₀ (exp_ne_zero _)]
  · rw [one_div, inv_I]
  · exact I_mul_I

theorem tan_exp (z : ℂ) : Complex.tan z = I * ((exp (-z * I) - exp (z * I)) / (exp (-z * I) + exp (z * I))) := by
  rw [Complex.tan, sin_exp, cos_exp, div_div_div_cancel_right₀ two_ne_zero, add_comm (exp (z * I)), mul_div_assoc,
    mul_comm _ I, mul_div_assoc']
  ring

theorem trigExploratory_holds : ∀ p ∈ trigExploratorySides, ∀ ρ, patVal ρ trigVal p.1 = patVal ρ trigVal p.2 := by
  simp only [trigExploratorySides, List.forall_mem_cons]
  refine ⟨?_, ?_, ?_, ?_, ?_, ?_, ?_, ?_, ?_, ?_, ?_, ?_, ?_, ?_, ?_, ?_, ?_, ?_, by simp⟩ <;> trig_unfold
  · rw [div_mul_I, sin_exp]; ring
  · rw [div_mul_I, sin_exp]; ring
  · exact cos_exp _
  · exact (cos_exp _).symm
  · exact tan_exp _
  · exact (tan_exp _).symm
  · rw [sin_exp]; ring
  · rw [sin_exp]; ring
  · rw [div_mul_I, cos_exp, add_mul, mul_comm I, mul_comm I, mul_I_I, mul_I_I]; ring
  · rw [div_mul_I, cos_exp, add_mul, mul_comm I, mul_comm I, mul_I_I, mul_I_I]; ring
  · rfl
  · rfl
  · simp only [cos_exp, exp_neg_mul, exp_add_mul, exp_sub_mul]
    field_simp
    ring
  · simp only [sin_exp, exp_neg_mul, exp_add_mul, exp_sub_mul]
    field_simp
    rw [I_sq]
    ring
  · simp only [sin_exp, cos_exp, exp_neg_mul, exp_add_mul, exp_sub_mul, div_mul_I]
    field_simp
    ring
  · simp only [sin_exp, cos_exp, exp_neg_mul, exp_add_mul, exp_sub_mul, div_mul_I]
    field_simp
    ring

/-- The four remaining rules hold where their divisions are defined. -/
theorem trigBad_where_defined : ∀ p ∈ trigBad, ∀ ρ, DefinedAt trigVal trigOk ρ p.1 → DefinedAt trigVal trigOk ρ p.2 →
    patVal ρ trigVal p.1 = patVal ρ trigVal p.2 := by
  have inv : ∀ (ρ : String → ℂ) (x y : Pat TrigOp), DefinedAt trigVal trigOk ρ (.node .div [x, y]) →
      patVal ρ trigVal y ≠ 0 ∧ DefinedAt trigVal trigOk ρ x ∧ DefinedAt trigVal trigOk ρ y := by
    intro ρ x y h
    cases h with
    | node h1 h2 => exact ⟨by simpa [patValL, trigOk] using h1, h2 x (by simp), h2 y (by simp)⟩
  have sub : ∀ (ρ : String → ℂ) (x y : Pat TrigOp), DefinedAt trigVal trigOk ρ (.node .sub [x, y]) →
      DefinedAt trigVal trigOk ρ x ∧ DefinedAt trigVal trigOk ρ y := by
    intro ρ x y h
    cases h with
    | node h1 h2 => exact ⟨h2 x (by simp), h2 y (by simp)⟩
  simp only [trigBad, List.forall_mem_cons]
  refine ⟨?_, ?_, ?_, ?_, by simp⟩
  · intro ρ h1 _
    have hb := (inv _ _ _ h1).1
    simp only [patVal, patValL, trigVal] at hb ⊢
    field_simp
  · intro ρ _ h1
    have hb := (inv _ _ _ h1).1
    simp only [patVal, patValL, trigVal] at hb ⊢
    field_simp
  · intro ρ h1 h2
    obtain ⟨h3, -, h4⟩ := inv _ _ _ h1
    obtain ⟨h5, -, h6⟩ := inv _ _ _ h2
    have hc := (inv _ _ _ (sub _ _ _ h4).1).1
    have ha := (inv _ _ _ (sub _ _ _ h6).1).1
    simp only [patVal, patValL, trigVal] at ha hc h3 h5 ⊢
    field_simp at h3 h5 ⊢
  · intro ρ h1 _
    have hb := (inv _ _ _ h1).1
    simp only [patVal, patValL, real_one] at hb ⊢
    simp only [trigVal]
    exact div_self hb

/-! ## Constant folding -/

theorem trig_constant (x : Rat) : trigVal (.real (String.ofList (ratText x))) [] = (x : ℂ) := by
  simp only [trigVal, String.toList_ofList, ratOfText_ratText, Option.getD_some]

theorem extractConstant_some {nodes : List (FNode TrigOp)} {x : Rat} (h : TrigOp.extractConstant nodes = some x) :
    ∃ nd ∈ nodes, ∃ s, nd.op = .real s ∧ nd.children = [] ∧ ratOfText s.toList = some x := by
  obtain ⟨nd, hnd, h⟩ := List.exists_of_findSome?_eq_some h
  refine ⟨nd, hnd, ?_⟩
  split at h
  · rename_i s e e'
    exact ⟨s, e, e', h⟩
  · cases h

theorem trig_folds (env : String → ℂ) :
    FoldsIn trigDomain (fun _ _ => True) (withVars env trigVal) (fun J _ => J = ⟨none, none⟩) where
  interval := by
    intro o Js vs J _ _ h
    cases h
    rfl
  join := by
    intro a b c v ha hb h
    subst ha hb
    simp only [mergeInterval, maxLow, minHigh, Interval.new, Option.some.injEq] at h
    exact h.symm
  const := by
    intro c v t h
    cases h
  varTerms := by
    intro x t ht
    cases ht
  custom := by
    intro nodes val i hval t ht
    have fc : ∀ x : Rat, Tm.fold (withVars env trigVal) (TrigOp.constant x) = x := by
      intro x
      simp only [TrigOp.constant, Tm.fold, Tm.foldL, withVars, Lang.toVar, trig_constant]
    have cv : ∀ {j x}, TrigOp.extractConstant (nodes j) = some x → val j = x := by
      intro j x h
      obtain ⟨nd, hnd, s, e1, e2, e3⟩ := extractConstant_some h
      have := hval j nd hnd
      rw [e1, e2] at this
      simpa only [withVars, Lang.toVar, List.map_nil, trigVal, e3, Option.getD_some] using this
    have key : ∀ v, (nodes i).findSome? (TrigOp.foldNode nodes) = some v → val i = v := by
      intro v h
      obtain ⟨nd, hnd, h⟩ := List.exists_of_findSome?_eq_some h
      have vi := hval i nd hnd
      unfold TrigOp.foldNode at h
      split at h
      · rename_i j e1 e2
        obtain ⟨x, hx, rfl⟩ := Option.map_eq_some_iff.1 h
        rw [vi, e1, e2]
        simp only [withVars, Lang.toVar, List.map_cons, List.map_nil, trigVal, cv hx, Rat.cast_neg]
      · rename_i j k e1 e2
        obtain ⟨x, hx, h⟩ := Option.bind_eq_some_iff.1 h
        obtain ⟨y, hy, rfl⟩ := Option.map_eq_some_iff.1 h
        rw [vi, e1, e2]
        simp only [withVars, Lang.toVar, List.map_cons, List.map_nil, trigVal, cv hx, cv hy, Rat.cast_add]
      · rename_i j k e1 e2
        obtain ⟨x, hx, h⟩ := Option.bind_eq_some_iff.1 h
        obtain ⟨y, hy, rfl⟩ := Option.map_eq_some_iff.1 h
        rw [vi, e1, e2]
        simp only [withVars, Lang.toVar, List.map_cons, List.map_nil, trigVal, cv hx, cv hy, Rat.cast_sub]
      · rename_i j k e1 e2
        obtain ⟨x, hx, h⟩ := Option.bind_eq_some_iff.1 h
        obtain ⟨y, hy, rfl⟩ := Option.map_eq_some_iff.1 h
        rw [vi, e1, e2]
        simp only [withVars, Lang.toVar, List.map_cons, List.map_nil, trigVal, cv hx, cv hy, Rat.cast_mul]
      · rename_i j k e1 e2
        obtain ⟨x, hx, h⟩ := Option.bind_eq_some_iff.1 h
        obtain ⟨y, hy, h⟩ := Option.bind_eq_some_iff.1 h
        split at h
        · cases h
        cases h
        rw [vi, e1, e2]
        simp only [withVars, Lang.toVar, List.map_cons, List.map_nil, trigVal, cv hx, cv hy, Rat.cast_div]
      · cases h
    refine ⟨TmOk.any _, ?_⟩
    simp only [trigDomain, TrigOp.custom] at ht
    split at ht
    · cases ht
    split at ht
    · cases ht
    rename_i v hv
    rw [ratOfText_ratText, List.mem_append] at ht
    have vi := key v hv
    rcases ht with ht | ht
    · simp only at ht
      split at ht
      · rw [List.mem_singleton] at ht
        subst ht
        simp only [Tm.fold, Tm.foldL, fc, vi, withVars, Lang.toVar, trigVal, Rat.cast_neg, neg_neg]
      · cases ht
    · rw [List.mem_singleton] at ht
      rw [ht, fc, vi]

end Ruler
