import Verif.Spec.DomBool
import Verif.Proofs.Init
import Verif.Proofs.Halide
/-! Helper lemmas: the evaluators of the domains at one position. -/
namespace Ruler
open Spec

/-- `eval` at one position. -/
def boolPoint : BoolOp → List (Option Bool) → Option Bool
  | .not, [x] => x.bind fun x => some (!x)
  | .and, [x, y] => x.bind fun x => y.bind fun y => some (x && y)
  | .or, [x, y] => x.bind fun x => y.bind fun y => some (x || y)
  | .xor, [x, y] => x.bind fun x => y.bind fun y => some (Bool.xor x y)
  | .implies, [x, y] => x.bind fun x => y.bind fun y => some (!x || y)
  | .lit c, [] => some c
  | _, _ => none

theorem bool_lifts (len : Nat) :
    Lifts BoolOp.arity len (fun o => (Lang.toVar o).isSome) (BoolOp.eval len) boolPoint := by
  intro o args hv ha hl
  cases o with
  | var x => exact absurd rfl hv
  | lit n =>
    have := list_len0 ha; subst this
    exact ⟨by simp [BoolOp.eval], fun i hi => by simp [BoolOp.eval, boolPoint, hi]⟩
  | not =>
    obtain ⟨a, rfl⟩ := list_len1 ha
    have h1 := hl a (by simp)
    exact ⟨by simp [BoolOp.eval, cmap1_length, h1], fun i hi => by rw [BoolOp.eval, cmap1_get _ h1 hi]; rfl⟩
  | and | or | xor | implies =>
    obtain ⟨a, b, rfl⟩ := list_len2 ha
    have h1 := hl a (by simp)
    have h2 := hl b (by simp)
    exact ⟨by simp [BoolOp.eval, cmap2_length _ h1 h2], fun i hi => by
      rw [BoolOp.eval, cmap2_get _ h1 h2 hi]; rfl⟩

theorem bool_point_total (o : BoolOp) (args : List Bool) (_ : True) (hv : Lang.toVar o = none)
    (ha : args.length = o.arity) : boolPoint o (args.map some) = some (boolOpVal o args) := by
  cases o with
  | var x => cases hv
  | lit c => have := list_len0 ha; subst this; rfl
  | not => obtain ⟨a, rfl⟩ := list_len1 ha; rfl
  | and | or => obtain ⟨a, b, rfl⟩ := list_len2 ha; rfl
  | xor | implies => obtain ⟨a, b, rfl⟩ := list_len2 ha; cases a <;> cases b <;> rfl

/-- `eval` of the natural numbers at one position. -/
def natPoint : NatOp → List (Option Int) → Option Int
  | .z, [] => some 0
  | .s, [x] => x.bind fun x => some (x + 1)
  | .add, [x, y] => x.bind fun x => y.bind fun y => some (x + y)
  | .mul, [x, y] => x.bind fun x => y.bind fun y => some (x * y)
  | _, _ => none

theorem nat_lifts (len : Nat) :
    Lifts NatOp.arity len (fun o => (Lang.toVar o).isSome) (NatOp.eval len) natPoint := by
  intro o args hv ha hl
  cases o with
  | var x => exact absurd rfl hv
  | z =>
    have := list_len0 ha; subst this
    exact ⟨by simp [NatOp.eval], fun i hi => by simp [NatOp.eval, natPoint, hi]⟩
  | s =>
    obtain ⟨a, rfl⟩ := list_len1 ha
    have h1 := hl a (by simp)
    exact ⟨by simp [NatOp.eval, cmap1_length, h1], fun i hi => by rw [NatOp.eval, cmap1_get _ h1 hi]; rfl⟩
  | add | mul =>
    obtain ⟨a, b, rfl⟩ := list_len2 ha
    have h1 := hl a (by simp)
    have h2 := hl b (by simp)
    exact ⟨by simp [NatOp.eval, cmap2_length _ h1 h2], fun i hi => by
      rw [NatOp.eval, cmap2_get _ h1 h2 hi]; rfl⟩

theorem nat_point_total : ∀ o (args : List Int), True → Lang.toVar o = none → args.length = o.arity →
    natPoint o (args.map some) = some (natOpInt o args) := by
  intro o args _ hv ha
  cases o with
  | var x => cases hv
  | z => have := list_len0 ha; subst this; rfl
  | s => obtain ⟨a, rfl⟩ := list_len1 ha; rfl
  | add | mul => obtain ⟨a, b, rfl⟩ := list_len2 ha; rfl

theorem pred_point_val {o : PredOp} {wsv : List Int} {v : Int} (hnv : ∀ x, o ≠ .var x) (hwl : wsv.length = o.arity)
    (f2 : o.point wsv = some (some v)) : v = evalOpVal o wsv := by
  have hchk : ∀ i r, PredOp.checked i = some r → i = r := by
    intro i r hr
    rw [PredOp.checked] at hr
    split at hr
    · exact Option.some.inj hr
    · cases hr
  cases o with
  | var x => exact absurd rfl (hnv x)
  | lit c => have := list_len0 hwl; subst this; cases f2; rfl
  | not =>
    obtain ⟨a, rfl⟩ := list_len1 hwl
    simp only [PredOp.point, PredOp.ofBool, Option.some.injEq] at f2
    subst f2
    simp [evalOpVal, predOpVal]
  | neg =>
    obtain ⟨a, rfl⟩ := list_len1 hwl
    simp only [PredOp.point] at f2
    split at f2
    · cases f2; rfl
    · cases f2
  | select =>
    obtain ⟨a, b, c, rfl⟩ := list_len3 hwl
    simp only [PredOp.point, Option.some.injEq] at f2
    subst f2
    simp [evalOpVal, predOpVal]
  | min =>
    obtain ⟨a, b, rfl⟩ := list_len2 hwl
    simp only [PredOp.point, Option.some.injEq] at f2
    subst f2
    simp [evalOpVal, predOpVal, min_def]
  | max =>
    obtain ⟨a, b, rfl⟩ := list_len2 hwl
    simp only [PredOp.point, Option.some.injEq] at f2
    subst f2
    simp only [evalOpVal, predOpVal]
    rw [max_comm, max_def]
  | add | sub | mul =>
    obtain ⟨a, b, rfl⟩ := list_len2 hwl
    simp only [PredOp.point, Option.some.injEq] at f2
    rw [← hchk _ _ f2]; rfl
  | div =>
    obtain ⟨a, b, rfl⟩ := list_len2 hwl
    simp only [PredOp.point, Option.some.injEq] at f2
    simp only [evalOpVal]
    split at f2
    · rename_i h0; rw [if_pos h0]; cases f2; rfl
    · rename_i h0; rw [if_neg h0, ← hchk _ _ f2]
  | xor =>
    obtain ⟨a, b, rfl⟩ := list_len2 hwl
    simp only [PredOp.point, PredOp.ofBool, Option.some.injEq] at f2
    subst f2
    by_cases h1 : a = 0 <;> by_cases h2 : b = 0 <;> simp [evalOpVal, predOpVal, h1, h2]
  | _ =>
    obtain ⟨a, b, rfl⟩ := list_len2 hwl
    simp only [PredOp.point, PredOp.ofBool, Option.some.injEq] at f2
    subst f2
    simp [evalOpVal, predOpVal]

end Ruler
