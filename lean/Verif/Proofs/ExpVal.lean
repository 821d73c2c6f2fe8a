import Verif.Proofs.Exp
import Verif.Spec.Exp
import Mathlib.Tactic.FieldSimp
import Mathlib.Tactic.Ring
import Mathlib.Tactic.Linarith
/-!
# The arithmetic rules of the exponential domain hold for real numbers
-/
set_option linter.unusedTactic false
set_option linter.unreachableTactic false
set_option linter.unusedSimpArgs false

namespace Ruler
open Spec

/-- The arithmetic operators have their usual meaning. -/
structure Arith (I : ExpOp → List ℝ → ℝ) : Prop where
  neg : ∀ a, I .neg [a] = -a
  add : ∀ a b, I .add [a, b] = a + b
  sub : ∀ a b, I .sub [a, b] = a - b
  mul : ∀ a b, I .mul [a, b] = a * b
  div : ∀ a b, I .div [a, b] = a / b
  abs : ∀ a, I .abs [a] = |a|
  num : ∀ q, I (.num q) [] = q

/-- Unfold both sides and name the values of the variables. -/
macro "exp_unfold" h:ident a:ident b:ident c:ident : tactic => `(tactic| (
  intro ρ
  simp only [patVal, patValL, ($h).neg, ($h).add, ($h).sub, ($h).mul, ($h).div, ($h).abs, ($h).num]
  generalize ρ "?a" = $a
  generalize ρ "?b" = $b
  generalize ρ "?c" = $c
  push_cast))

/-- Equations between quotients of one variable and its absolute value. -/
macro "exp_sign" a:ident : tactic => `(tactic| (
  rcases lt_trichotomy $a 0 with ha | ha | ha
  · have ha' := ha.ne
    simp only [abs_of_neg ha, abs_neg]
    first | done | (field_simp; done) | (field_simp; ring1)
  · subst ha; simp; done
  · have ha' := ha.ne'
    simp only [abs_of_pos ha]
    first | done | (field_simp; done) | (field_simp; ring1)))

theorem expSides0_holds {I : ExpOp → List ℝ → ℝ} (h : Arith I) :
    ∀ p ∈ expSides0, ∀ ρ, patVal ρ I p.1 = patVal ρ I p.2 := by
  simp only [expSides0, List.forall_mem_cons]
  refine ⟨?_, ?_, ?_, ?_, ?_, ?_, ?_, ?_, ?_, ?_, ?_, ?_, by simp⟩ <;> exp_unfold h a b c
  all_goals first
    | ring1
    | exp_sign a
    | (by_cases ha : a = 0 <;> [(subst ha; simp; done); (field_simp; done)])
    | (by_cases ha : a = 0 <;> [(subst ha; simp; done); (field_simp; ring1)])
    | exact abs_sub_comm _ _
    | exact abs_mul_self a
    | exact (abs_mul_self a).symm
    | (rw [zero_div, sub_zero, ← abs_mul_abs_self a, mul_self_div_self]; done)
    | exact abs_of_nonneg (by cases abs_cases a <;> cases abs_cases b <;> linarith)
    | exact (abs_of_nonneg (by cases abs_cases a <;> cases abs_cases b <;> linarith)).symm
    | (rw [← neg_sub b a, neg_div_neg_eq]; done)
    | (rw [← neg_sub b a, div_neg, neg_div]; done)
    | (rw [← two_mul, ← two_mul, abs_mul, abs_two])
    | (simp only [abs_div, abs_mul, abs_abs, Nat.abs_ofNat, abs_sub_comm a b]; first | done | ring1)
    | (by_cases ha : a = 0 <;> [(subst ha; simp; done); (rw [div_self ha]; simp; done)])
    | (by_cases ha : a = 0 <;> [(subst ha; simp; done); (simp [abs_mul, abs_div, ha]; done)])

theorem expSides1_holds {I : ExpOp → List ℝ → ℝ} (h : Arith I) :
    ∀ p ∈ expSides1, ∀ ρ, patVal ρ I p.1 = patVal ρ I p.2 := by
  simp only [expSides1, List.forall_mem_cons]
  refine ⟨?_, ?_, ?_, ?_, ?_, ?_, ?_, ?_, ?_, ?_, ?_, ?_, by simp⟩ <;> exp_unfold h a b c
  all_goals first
    | ring1
    | exp_sign a
    | (by_cases ha : a = 0 <;> [(subst ha; simp; done); (field_simp; done)])
    | (by_cases ha : a = 0 <;> [(subst ha; simp; done); (field_simp; ring1)])
    | exact abs_sub_comm _ _
    | exact abs_mul_self a
    | exact (abs_mul_self a).symm
    | (rw [zero_div, sub_zero, ← abs_mul_abs_self a, mul_self_div_self]; done)
    | exact abs_of_nonneg (by cases abs_cases a <;> cases abs_cases b <;> linarith)
    | exact (abs_of_nonneg (by cases abs_cases a <;> cases abs_cases b <;> linarith)).symm
    | (rw [← neg_sub b a, neg_div_neg_eq]; done)
    | (rw [← neg_sub b a, div_neg, neg_div]; done)
    | (rw [← two_mul, ← two_mul, abs_mul, abs_two])
    | (simp only [abs_div, abs_mul, abs_abs, Nat.abs_ofNat, abs_sub_comm a b]; first | done | ring1)
    | (by_cases ha : a = 0 <;> [(subst ha; simp; done); (rw [div_self ha]; simp; done)])
    | (by_cases ha : a = 0 <;> [(subst ha; simp; done); (simp [abs_mul, abs_div, ha]; done)])

theorem expSides2_holds {I : ExpOp → List ℝ → ℝ} (h : Arith I) :
    ∀ p ∈ expSides2, ∀ ρ, patVal ρ I p.1 = patVal ρ I p.2 := by
  simp only [expSides2, List.forall_mem_cons]
  refine ⟨?_, ?_, ?_, ?_, ?_, ?_, ?_, ?_, ?_, ?_, ?_, ?_, by simp⟩ <;> exp_unfold h a b c
  all_goals first
    | ring1
    | exp_sign a
    | (by_cases ha : a = 0 <;> [(subst ha; simp; done); (field_simp; done)])
    | (by_cases ha : a = 0 <;> [(subst ha; simp; done); (field_simp; ring1)])
    | exact abs_sub_comm _ _
    | exact abs_mul_self a
    | exact (abs_mul_self a).symm
    | (rw [zero_div, sub_zero, ← abs_mul_abs_self a, mul_self_div_self]; done)
    | exact abs_of_nonneg (by cases abs_cases a <;> cases abs_cases b <;> linarith)
    | exact (abs_of_nonneg (by cases abs_cases a <;> cases abs_cases b <;> linarith)).symm
    | (rw [← neg_sub b a, neg_div_neg_eq]; done)
    | (rw [← neg_sub b a, div_neg, neg_div]; done)
    | (rw [← two_mul, ← two_mul, abs_mul, abs_two])
    | (simp only [abs_div, abs_mul, abs_abs, Nat.abs_ofNat, abs_sub_comm a b]; first | done | ring1)
    | (by_cases ha : a = 0 <;> [(subst ha; simp; done); (rw [div_self ha]; simp; done)])
    | (by_cases ha : a = 0 <;> [(subst ha; simp; done); (simp [abs_mul, abs_div, ha]; done)])

theorem expSides3_holds {I : ExpOp → List ℝ → ℝ} (h : Arith I) :
    ∀ p ∈ expSides3, ∀ ρ, patVal ρ I p.1 = patVal ρ I p.2 := by
  simp only [expSides3, List.forall_mem_cons]
  refine ⟨?_, ?_, ?_, ?_, ?_, ?_, ?_, ?_, ?_, ?_, ?_, ?_, by simp⟩ <;> exp_unfold h a b c
  all_goals first
    | ring1
    | exp_sign a
    | (by_cases ha : a = 0 <;> [(subst ha; simp; done); (field_simp; done)])
    | (by_cases ha : a = 0 <;> [(subst ha; simp; done); (field_simp; ring1)])
    | exact abs_sub_comm _ _
    | exact abs_mul_self a
    | exact (abs_mul_self a).symm
    | (rw [zero_div, sub_zero, ← abs_mul_abs_self a, mul_self_div_self]; done)
    | exact abs_of_nonneg (by cases abs_cases a <;> cases abs_cases b <;> linarith)
    | exact (abs_of_nonneg (by cases abs_cases a <;> cases abs_cases b <;> linarith)).symm
    | (rw [← neg_sub b a, neg_div_neg_eq]; done)
    | (rw [← neg_sub b a, div_neg, neg_div]; done)
    | (rw [← two_mul, ← two_mul, abs_mul, abs_two])
    | (simp only [abs_div, abs_mul, abs_abs, Nat.abs_ofNat, abs_sub_comm a b]; first | done | ring1)
    | (by_cases ha : a = 0 <;> [(subst ha; simp; done); (rw [div_self ha]; simp; done)])
    | (by_cases ha : a = 0 <;> [(subst ha; simp; done); (simp [abs_mul, abs_div, ha]; done)])

theorem expSides4_holds {I : ExpOp → List ℝ → ℝ} (h : Arith I) :
    ∀ p ∈ expSides4, ∀ ρ, patVal ρ I p.1 = patVal ρ I p.2 := by
  simp only [expSides4, List.forall_mem_cons]
  refine ⟨?_, ?_, ?_, ?_, ?_, ?_, ?_, ?_, ?_, ?_, ?_, ?_, by simp⟩ <;> exp_unfold h a b c
  all_goals first
    | ring1
    | exp_sign a
    | (by_cases ha : a = 0 <;> [(subst ha; simp; done); (field_simp; done)])
    | (by_cases ha : a = 0 <;> [(subst ha; simp; done); (field_simp; ring1)])
    | exact abs_sub_comm _ _
    | exact abs_mul_self a
    | exact (abs_mul_self a).symm
    | (rw [zero_div, sub_zero, ← abs_mul_abs_self a, mul_self_div_self]; done)
    | exact abs_of_nonneg (by cases abs_cases a <;> cases abs_cases b <;> linarith)
    | exact (abs_of_nonneg (by cases abs_cases a <;> cases abs_cases b <;> linarith)).symm
    | (rw [← neg_sub b a, neg_div_neg_eq]; done)
    | (rw [← neg_sub b a, div_neg, neg_div]; done)
    | (rw [← two_mul, ← two_mul, abs_mul, abs_two])
    | (simp only [abs_div, abs_mul, abs_abs, Nat.abs_ofNat, abs_sub_comm a b]; first | done | ring1)
    | (by_cases ha : a = 0 <;> [(subst ha; simp; done); (rw [div_self ha]; simp; done)])
    | (by_cases ha : a = 0 <;> [(subst ha; simp; done); (simp [abs_mul, abs_div, ha]; done)])

theorem expSides5_holds {I : ExpOp → List ℝ → ℝ} (h : Arith I) :
    ∀ p ∈ expSides5, ∀ ρ, patVal ρ I p.1 = patVal ρ I p.2 := by
  simp only [expSides5, List.forall_mem_cons]
  refine ⟨?_, ?_, ?_, ?_, ?_, ?_, ?_, ?_, ?_, ?_, ?_, ?_, by simp⟩ <;> exp_unfold h a b c
  all_goals first
    | ring1
    | exp_sign a
    | (by_cases ha : a = 0 <;> [(subst ha; simp; done); (field_simp; done)])
    | (by_cases ha : a = 0 <;> [(subst ha; simp; done); (field_simp; ring1)])
    | exact abs_sub_comm _ _
    | exact abs_mul_self a
    | exact (abs_mul_self a).symm
    | (rw [zero_div, sub_zero, ← abs_mul_abs_self a, mul_self_div_self]; done)
    | exact abs_of_nonneg (by cases abs_cases a <;> cases abs_cases b <;> linarith)
    | exact (abs_of_nonneg (by cases abs_cases a <;> cases abs_cases b <;> linarith)).symm
    | (rw [← neg_sub b a, neg_div_neg_eq]; done)
    | (rw [← neg_sub b a, div_neg, neg_div]; done)
    | (rw [← two_mul, ← two_mul, abs_mul, abs_two])
    | (simp only [abs_div, abs_mul, abs_abs, Nat.abs_ofNat, abs_sub_comm a b]; first | done | ring1)
    | (by_cases ha : a = 0 <;> [(subst ha; simp; done); (rw [div_self ha]; simp; done)])
    | (by_cases ha : a = 0 <;> [(subst ha; simp; done); (simp [abs_mul, abs_div, ha]; done)])

theorem expSides6_holds {I : ExpOp → List ℝ → ℝ} (h : Arith I) :
    ∀ p ∈ expSides6, ∀ ρ, patVal ρ I p.1 = patVal ρ I p.2 := by
  simp only [expSides6, List.forall_mem_cons]
  refine ⟨?_, ?_, ?_, ?_, ?_, ?_, ?_, ?_, ?_, ?_, ?_, ?_, by simp⟩ <;> exp_unfold h a b c
  all_goals first
    | ring1
    | exp_sign a
    | (by_cases ha : a = 0 <;> [(subst ha; simp; done); (field_simp; done)])
    | (by_cases ha : a = 0 <;> [(subst ha; simp; done); (field_simp; ring1)])
    | exact abs_sub_comm _ _
    | exact abs_mul_self a
    | exact (abs_mul_self a).symm
    | (rw [zero_div, sub_zero, ← abs_mul_abs_self a, mul_self_div_self]; done)
    | exact abs_of_nonneg (by cases abs_cases a <;> cases abs_cases b <;> linarith)
    | exact (abs_of_nonneg (by cases abs_cases a <;> cases abs_cases b <;> linarith)).symm
    | (rw [← neg_sub b a, neg_div_neg_eq]; done)
    | (rw [← neg_sub b a, div_neg, neg_div]; done)
    | (rw [← two_mul, ← two_mul, abs_mul, abs_two])
    | (simp only [abs_div, abs_mul, abs_abs, Nat.abs_ofNat, abs_sub_comm a b]; first | done | ring1)
    | (by_cases ha : a = 0 <;> [(subst ha; simp; done); (rw [div_self ha]; simp; done)])
    | (by_cases ha : a = 0 <;> [(subst ha; simp; done); (simp [abs_mul, abs_div, ha]; done)])

theorem expSides7_holds {I : ExpOp → List ℝ → ℝ} (h : Arith I) :
    ∀ p ∈ expSides7, ∀ ρ, patVal ρ I p.1 = patVal ρ I p.2 := by
  simp only [expSides7, List.forall_mem_cons]
  refine ⟨?_, ?_, ?_, ?_, ?_, ?_, ?_, ?_, ?_, ?_, ?_, ?_, by simp⟩ <;> exp_unfold h a b c
  all_goals first
    | ring1
    | exp_sign a
    | (by_cases ha : a = 0 <;> [(subst ha; simp; done); (field_simp; done)])
    | (by_cases ha : a = 0 <;> [(subst ha; simp; done); (field_simp; ring1)])
    | exact abs_sub_comm _ _
    | exact abs_mul_self a
    | exact (abs_mul_self a).symm
    | (rw [zero_div, sub_zero, ← abs_mul_abs_self a, mul_self_div_self]; done)
    | exact abs_of_nonneg (by cases abs_cases a <;> cases abs_cases b <;> linarith)
    | exact (abs_of_nonneg (by cases abs_cases a <;> cases abs_cases b <;> linarith)).symm
    | (rw [← neg_sub b a, neg_div_neg_eq]; done)
    | (rw [← neg_sub b a, div_neg, neg_div]; done)
    | (rw [← two_mul, ← two_mul, abs_mul, abs_two])
    | (simp only [abs_div, abs_mul, abs_abs, Nat.abs_ofNat, abs_sub_comm a b]; first | done | ring1)
    | (by_cases ha : a = 0 <;> [(subst ha; simp; done); (rw [div_self ha]; simp; done)])
    | (by_cases ha : a = 0 <;> [(subst ha; simp; done); (simp [abs_mul, abs_div, ha]; done)])

theorem expSides8_holds {I : ExpOp → List ℝ → ℝ} (h : Arith I) :
    ∀ p ∈ expSides8, ∀ ρ, patVal ρ I p.1 = patVal ρ I p.2 := by
  simp only [expSides8, List.forall_mem_cons]
  refine ⟨?_, ?_, ?_, ?_, ?_, ?_, ?_, ?_, ?_, ?_, ?_, ?_, by simp⟩ <;> exp_unfold h a b c
  all_goals first
    | ring1
    | exp_sign a
    | (by_cases ha : a = 0 <;> [(subst ha; simp; done); (field_simp; done)])
    | (by_cases ha : a = 0 <;> [(subst ha; simp; done); (field_simp; ring1)])
    | exact abs_sub_comm _ _
    | exact abs_mul_self a
    | exact (abs_mul_self a).symm
    | (rw [zero_div, sub_zero, ← abs_mul_abs_self a, mul_self_div_self]; done)
    | exact abs_of_nonneg (by cases abs_cases a <;> cases abs_cases b <;> linarith)
    | exact (abs_of_nonneg (by cases abs_cases a <;> cases abs_cases b <;> linarith)).symm
    | (rw [← neg_sub b a, neg_div_neg_eq]; done)
    | (rw [← neg_sub b a, div_neg, neg_div]; done)
    | (rw [← two_mul, ← two_mul, abs_mul, abs_two])
    | (simp only [abs_div, abs_mul, abs_abs, Nat.abs_ofNat, abs_sub_comm a b]; first | done | ring1)
    | (by_cases ha : a = 0 <;> [(subst ha; simp; done); (rw [div_self ha]; simp; done)])
    | (by_cases ha : a = 0 <;> [(subst ha; simp; done); (simp [abs_mul, abs_div, ha]; done)])

theorem expSides9_holds {I : ExpOp → List ℝ → ℝ} (h : Arith I) :
    ∀ p ∈ expSides9, ∀ ρ, patVal ρ I p.1 = patVal ρ I p.2 := by
  simp only [expSides9, List.forall_mem_cons]
  refine ⟨?_, ?_, ?_, ?_, ?_, ?_, ?_, ?_, ?_, ?_, ?_, ?_, by simp⟩ <;> exp_unfold h a b c
  all_goals first
    | ring1
    | exp_sign a
    | (by_cases ha : a = 0 <;> [(subst ha; simp; done); (field_simp; done)])
    | (by_cases ha : a = 0 <;> [(subst ha; simp; done); (field_simp; ring1)])
    | exact abs_sub_comm _ _
    | exact abs_mul_self a
    | exact (abs_mul_self a).symm
    | (rw [zero_div, sub_zero, ← abs_mul_abs_self a, mul_self_div_self]; done)
    | exact abs_of_nonneg (by cases abs_cases a <;> cases abs_cases b <;> linarith)
    | exact (abs_of_nonneg (by cases abs_cases a <;> cases abs_cases b <;> linarith)).symm
    | (rw [← neg_sub b a, neg_div_neg_eq]; done)
    | (rw [← neg_sub b a, div_neg, neg_div]; done)
    | (rw [← two_mul, ← two_mul, abs_mul, abs_two])
    | (simp only [abs_div, abs_mul, abs_abs, Nat.abs_ofNat, abs_sub_comm a b]; first | done | ring1)
    | (by_cases ha : a = 0 <;> [(subst ha; simp; done); (rw [div_self ha]; simp; done)])
    | (by_cases ha : a = 0 <;> [(subst ha; simp; done); (simp [abs_mul, abs_div, ha]; done)])

theorem expSides10_holds {I : ExpOp → List ℝ → ℝ} (h : Arith I) :
    ∀ p ∈ expSides10, ∀ ρ, patVal ρ I p.1 = patVal ρ I p.2 := by
  simp only [expSides10, List.forall_mem_cons]
  refine ⟨?_, ?_, ?_, ?_, ?_, ?_, ?_, ?_, ?_, ?_, ?_, ?_, by simp⟩ <;> exp_unfold h a b c
  all_goals first
    | ring1
    | exp_sign a
    | (by_cases ha : a = 0 <;> [(subst ha; simp; done); (field_simp; done)])
    | (by_cases ha : a = 0 <;> [(subst ha; simp; done); (field_simp; ring1)])
    | exact abs_sub_comm _ _
    | exact abs_mul_self a
    | exact (abs_mul_self a).symm
    | (rw [zero_div, sub_zero, ← abs_mul_abs_self a, mul_self_div_self]; done)
    | exact abs_of_nonneg (by cases abs_cases a <;> cases abs_cases b <;> linarith)
    | exact (abs_of_nonneg (by cases abs_cases a <;> cases abs_cases b <;> linarith)).symm
    | (rw [← neg_sub b a, neg_div_neg_eq]; done)
    | (rw [← neg_sub b a, div_neg, neg_div]; done)
    | (rw [← two_mul, ← two_mul, abs_mul, abs_two])
    | (simp only [abs_div, abs_mul, abs_abs, Nat.abs_ofNat, abs_sub_comm a b]; first | done | ring1)
    | (by_cases ha : a = 0 <;> [(subst ha; simp; done); (rw [div_self ha]; simp; done)])
    | (by_cases ha : a = 0 <;> [(subst ha; simp; done); (simp [abs_mul, abs_div, ha]; done)])

theorem expSides11_holds {I : ExpOp → List ℝ → ℝ} (h : Arith I) :
    ∀ p ∈ expSides11, ∀ ρ, patVal ρ I p.1 = patVal ρ I p.2 := by
  simp only [expSides11, List.forall_mem_cons]
  refine ⟨?_, ?_, ?_, ?_, ?_, ?_, ?_, ?_, ?_, by simp⟩ <;> exp_unfold h a b c
  all_goals first
    | ring1
    | exp_sign a
    | (by_cases ha : a = 0 <;> [(subst ha; simp; done); (field_simp; done)])
    | (by_cases ha : a = 0 <;> [(subst ha; simp; done); (field_simp; ring1)])
    | exact abs_sub_comm _ _
    | exact abs_mul_self a
    | exact (abs_mul_self a).symm
    | (rw [zero_div, sub_zero, ← abs_mul_abs_self a, mul_self_div_self]; done)
    | exact abs_of_nonneg (by cases abs_cases a <;> cases abs_cases b <;> linarith)
    | exact (abs_of_nonneg (by cases abs_cases a <;> cases abs_cases b <;> linarith)).symm
    | (rw [← neg_sub b a, neg_div_neg_eq]; done)
    | (rw [← neg_sub b a, div_neg, neg_div]; done)
    | (rw [← two_mul, ← two_mul, abs_mul, abs_two])
    | (simp only [abs_div, abs_mul, abs_abs, Nat.abs_ofNat, abs_sub_comm a b]; first | done | ring1)
    | (by_cases ha : a = 0 <;> [(subst ha; simp; done); (rw [div_self ha]; simp; done)])
    | (by_cases ha : a = 0 <;> [(subst ha; simp; done); (simp [abs_mul, abs_div, ha]; done)])

theorem expRational_holds {I : ExpOp → List ℝ → ℝ} (h : Arith I) :
    ∀ p ∈ expRationalSides, ∀ ρ, patVal ρ I p.1 = patVal ρ I p.2 := by
  simp only [expRationalSides, List.forall_mem_append]
  exact ⟨expSides0_holds h, expSides1_holds h, expSides2_holds h, expSides3_holds h, expSides4_holds h, expSides5_holds h, expSides6_holds h, expSides7_holds h, expSides8_holds h, expSides9_holds h, expSides10_holds h, expSides11_holds h⟩

theorem expVal_arith : Arith expVal := ⟨fun _ => rfl, fun _ _ => rfl, fun _ _ => rfl, fun _ _ => rfl, fun _ _ => rfl, fun _ => rfl, fun _ => rfl⟩

theorem expTotal_arith : Arith expTotal :=
  ⟨fun _ => rfl, fun _ _ => rfl, fun _ _ => rfl, fun _ _ => rfl, fun _ _ => rfl, fun _ => rfl, fun _ => rfl⟩

/-! ## Exponentials and logarithms -/

theorem expStarting_total : ∀ p ∈ expStartingGood, ∀ ρ, patVal ρ expTotal p.1 = patVal ρ expTotal p.2 := by
  simp only [expStartingGood, List.forall_mem_cons]
  refine ⟨?_, ?_, ?_, ?_, ?_, ?_, by simp⟩ <;> intro ρ <;> simp only [patVal, patValL, expTotal, expVal] <;> push_cast
  · exact Real.exp_add _ _
  · rw [Real.exp_neg, one_div]
  · exact (Real.exp_add _ _).symm
  · rw [Real.exp_neg, one_div]
  · exact Real.exp_zero
  · exact Real.log_exp _

theorem expStarting_real : ∀ p ∈ expStartingGood, ∀ ρ, patVal ρ expVal p.1 = patVal ρ expVal p.2 := by
  simp only [expStartingGood, List.forall_mem_cons]
  refine ⟨?_, ?_, ?_, ?_, ?_, ?_, by simp⟩ <;> intro ρ <;> simp only [patVal, patValL, expVal] <;> push_cast
  · exact Real.exp_add _ _
  · rw [Real.exp_neg, one_div]
  · exact (Real.exp_add _ _).symm
  · rw [Real.exp_neg, one_div]
  · exact Real.exp_zero
  · exact Real.log_exp _

theorem expExploratory_total : ∀ p ∈ expExploratorySides, ∀ ρ, patVal ρ expTotal p.1 = patVal ρ expTotal p.2 := by
  simp only [expExploratorySides, List.forall_mem_cons]
  refine ⟨?_, ?_, ?_, ?_, ?_, ?_, by simp⟩ <;> intro ρ <;> simp only [patVal, patValL, expTotal, expVal] <;> push_cast <;> rfl

theorem definedAt_arg {I : ExpOp → List ℝ → ℝ} {ok : ExpOp → List ℝ → Prop} {ρ : String → ℝ} {o : ExpOp} {args : List (Pat ExpOp)}
    (h : DefinedAt I ok ρ (.node o args)) : ok o (patValL ρ I args) ∧ ∀ p ∈ args, DefinedAt I ok ρ p := by
  cases h with
  | node h1 h2 => exact ⟨h1, h2⟩

theorem cbrt_pos {a : ℝ} (h : 0 < a) : expVal .cbrt [a] = a ^ (1 / 3 : ℝ) := by
  simp only [expVal, if_pos h.le]

theorem expExploratory_real : ∀ p ∈ expExploratorySides, ∀ ρ, DefinedAt expVal expOk ρ p.1 → DefinedAt expVal expOk ρ p.2 →
    patVal ρ expVal p.1 = patVal ρ expVal p.2 := by
  simp only [expExploratorySides, List.forall_mem_cons]
  refine ⟨?_, ?_, ?_, ?_, ?_, ?_, by simp⟩ <;> intro ρ h1 h2
  · have h := (definedAt_arg h1).1
    simp only [patVal, patValL, expOk, expVal] at h ⊢
    rw [Real.rpow_def_of_pos h, mul_comm]
  · simp only [patVal, patValL, expVal]
    rw [Real.sqrt_eq_rpow]
    norm_num
  · have h := (definedAt_arg h2).1
    simp only [patVal, patValL, expOk] at h ⊢
    rw [cbrt_pos h]
    simp only [expVal]
    norm_num
  · have h := (definedAt_arg h2).1
    simp only [patVal, patValL, expOk, expVal] at h ⊢
    rw [Real.rpow_def_of_pos h, mul_comm]
  · simp only [patVal, patValL, expVal]
    rw [Real.sqrt_eq_rpow]
    norm_num
  · have h := (definedAt_arg h1).1
    simp only [patVal, patValL, expOk] at h ⊢
    rw [cbrt_pos h]
    simp only [expVal]
    norm_num

theorem expLog_real (ρ : String → ℝ) (h : DefinedAt expVal expOk ρ expLogSides.1) :
    patVal ρ expVal expLogSides.1 = patVal ρ expVal expLogSides.2 := by
  have h := (definedAt_arg ((definedAt_arg h).2 (.node .log [.var "?a"]) (by simp))).1
  simp only [patVal, patValL, expOk] at h
  simp only [expLogSides, patVal, patValL, expVal]
  exact Real.exp_log h

end Ruler
