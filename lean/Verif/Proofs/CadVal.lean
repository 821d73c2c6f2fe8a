import Verif.Proofs.Cad
import Verif.Spec.Cad
import Mathlib.Tactic.FieldSimp
import Mathlib.Tactic.Ring
import Mathlib.SetTheory.Cardinal.Arithmetic
import Mathlib.Algebra.Order.Archimedean.Real.Basic
/-!
# An algebra of functions on space that satisfies the tables of the domain of solids

Vectors and operator symbols are coded as constant functions, so that there is a single sort.
-/
namespace Ruler
open Spec

/-- A code of triples. -/
structure TripleCode where
  enc : Point → Option ℝ
  dec : Option ℝ → Point
  dec_enc : ∀ p, dec (enc p) = p

theorem tripleCode : Nonempty TripleCode := by
  have h : Cardinal.mk Point ≤ Cardinal.mk (Option ℝ) := by
    have : Infinite (Option ℝ) :=
      Infinite.of_injective (fun n : ℕ => some (n : ℝ)) fun _ _ h => Nat.cast_injective (Option.some.inj h)
    have inf : Cardinal.aleph0 ≤ Cardinal.mk (Option ℝ) := Cardinal.aleph0_le_mk _
    rw [Cardinal.mk_prod, Cardinal.mk_prod, Cardinal.lift_id, Cardinal.lift_id, Cardinal.mul_eq_self inf, Cardinal.mul_eq_self inf]
  obtain ⟨f⟩ := Cardinal.le_def _ _ |>.1 h
  exact ⟨⟨f, Function.invFun f, Function.leftInverse_invFun f.injective⟩⟩

open Classical in
/-- The operator of a code. -/
noncomputable def opOf (v : Option ℝ) : Option ℝ → Option ℝ → Option ℝ :=
  if v = some 0 then CadArith.add.fn else if v = some 1 then CadArith.sub.fn else if v = some 2 then CadArith.mul.fn
  else if v = some 3 then CadArith.div.fn else if v = some 4 then CadArith.max.fn else CadArith.min.fn

/-- The code of an operator. -/
def opCode : CadArith → ℝ
  | .add => 0 | .sub => 1 | .mul => 2 | .div => 3 | .max => 4 | .min => 5

theorem opOf_code (o : CadArith) : opOf (some (opCode o)) = o.fn := by
  cases o <;> simp only [opOf, opCode, Option.some.injEq] <;> norm_num

/-- The algebra. -/
noncomputable def cadVal (T : TripleCode) : CadOp → List SpaceFn → SpaceFn
  | .add, [] => fun _ => some (opCode .add)
  | .sub, [] => fun _ => some (opCode .sub)
  | .mul, [] => fun _ => some (opCode .mul)
  | .div, [] => fun _ => some (opCode .div)
  | .max, [] => fun _ => some (opCode .max)
  | .min, [] => fun _ => some (opCode .min)
  | .dimX, [] => fun p => p.1
  | .dimY, [] => fun p => p.2.1
  | .dimZ, [] => fun p => p.2.2
  | .num n, [] => fun _ => some n
  | .lit, [f] => fun _ => f origin
  | .scalar, [f] => fun _ => f origin
  | .op, [o, f, g] => fun p => opOf (o origin) (f p) (g p)
  | .subst, [f, g, h, k] => fun p => k (f p, g p, h p)
  | .vec3, [f, g, h] => fun _ => T.enc (f origin, g origin, h origin)
  | .trans, [v, k] => fun p => k (CadArith.sub.fn p.1 (T.dec (v origin)).1, CadArith.sub.fn p.2.1 (T.dec (v origin)).2.1,
      CadArith.sub.fn p.2.2 (T.dec (v origin)).2.2)
  | .scale, [v, k] => fun p => k (CadArith.div.fn p.1 (T.dec (v origin)).1, CadArith.div.fn p.2.1 (T.dec (v origin)).2.1,
      CadArith.div.fn p.2.2 (T.dec (v origin)).2.2)
  | .cube, [v, _] => cubeField (T.dec (v origin)).1 (T.dec (v origin)).2.1 (T.dec (v origin)).2.2
  | .cylinder, [v, _, _] => cylinderField (T.dec (v origin)).1 (T.dec (v origin)).2.1
  | .sphere, [f, _] => sphereField (f origin)
  | .union, [f, g] => fun p => CadArith.max.fn (f p) (g p)
  | .inter, [f, g] => fun p => CadArith.min.fn (f p) (g p)
  | _, _ => fun _ => none

/-- The values of the variables, `?op` being an operator. -/
noncomputable def cadEnv (ω : CadArith) (ρ : String → SpaceFn) (x : String) : SpaceFn :=
  if x = "?op" then fun _ => some (opCode ω) else ρ x

theorem FRep.val (T : TripleCode) {ω : CadArith} {ρ : String → SpaceFn} {p : Pat CadOp} {f : SpaceFn} (h : FRep ω ρ p f) :
    patVal (cadEnv ω ρ) (cadVal T) p = f := by
  induction h with
  | var x hx => simp only [patVal, cadEnv, if_neg hx]
  | dimX | dimY | dimZ | num n => rfl
  | lit _ ih | scalar _ ih => simp only [patVal, patValL, cadVal, ih]
  | op o _ _ ih1 ih2 =>
    have : cadVal T o.symbol [] = fun _ => some (opCode o) := by cases o <;> rfl
    simp only [patVal, patValL, ih1, ih2]
    show (fun p => opOf (cadVal T o.symbol [] origin) _ _) = _
    simp only [this, opOf_code]
  | opVar _ _ ih1 ih2 =>
    have : cadEnv ω ρ "?op" = fun _ => some (opCode ω) := if_pos rfl
    simp only [patVal, patValL, this, ih1, ih2, cadVal, opOf_code]
  | subst _ _ _ _ h1 h2 h3 h4 | trans _ _ _ _ h1 h2 h3 h4 | scale _ _ _ _ h1 h2 h3 h4 =>
    simp only [patVal, patValL, cadVal, h1, h2, h3, h4, T.dec_enc]
  | cube _ _ _ h1 h2 h3 => simp only [patVal, patValL, cadVal, h1, h2, h3, T.dec_enc]
  | cylinder params _ _ h1 h2 => simp only [patVal, patValL, cadVal, h1, h2, T.dec_enc]
  | sphere params _ h1 => simp only [patVal, patValL, cadVal, h1]
  | union _ _ h1 h2 | inter _ _ h1 h2 => simp only [patVal, patValL, cadVal, h1, h2]

theorem fn_div_one (a : Option ℝ) : CadArith.div.fn a (some 1) = a := by cases a <;> simp [CadArith.fn]

theorem fn_sub_zero (a : Option ℝ) : CadArith.sub.fn a (some 0) = a := by cases a <;> simp [CadArith.fn]

theorem fn_div_div (a b c : Option ℝ) :
    CadArith.div.fn (CadArith.div.fn a b) c = CadArith.div.fn a (CadArith.mul.fn b c) := by
  rcases a with _ | a <;> rcases b with _ | b <;> rcases c with _ | c <;> try rfl
  all_goals by_cases hb : b = 0 <;> simp [CadArith.fn, hb]
  by_cases hc : c = 0 <;> simp [hc, div_div]

theorem fn_sub_sub (a b c : Option ℝ) :
    CadArith.sub.fn (CadArith.sub.fn a b) c = CadArith.sub.fn a (CadArith.add.fn b c) := by
  rcases a with _ | a <;> rcases b with _ | b <;> rcases c with _ | c <;> try rfl
  simp [CadArith.fn, sub_sub]

theorem fn_div_sub (a b c : Option ℝ) : CadArith.sub.fn (CadArith.div.fn a c) b =
    CadArith.div.fn (CadArith.sub.fn a (CadArith.mul.fn b c)) c := by
  rcases a with _ | a <;> rcases b with _ | b <;> rcases c with _ | c <;> try rfl
  all_goals by_cases hc : c = 0 <;> simp [CadArith.fn, hc]
  field_simp

theorem fn_sub_div (a b c : Option ℝ) : CadArith.sub.fn (CadArith.div.fn a c) (CadArith.div.fn b c) =
    CadArith.div.fn (CadArith.sub.fn a b) c := by
  rcases a with _ | a <;> rcases b with _ | b <;> rcases c with _ | c <;> try rfl
  all_goals by_cases hc : c = 0 <;> simp [CadArith.fn, hc, sub_div]

theorem cadFrep_holds (T : TripleCode) : ∀ p ∈ cadFrepSides, ∀ ρ, patVal ρ (cadVal T) p.1 = patVal ρ (cadVal T) p.2 := by
  have e1 : opOf (some (opCode .add)) = CadArith.add.fn := opOf_code _
  have e2 : opOf (some (opCode .sub)) = CadArith.sub.fn := opOf_code _
  have e3 : opOf (some (opCode .mul)) = CadArith.mul.fn := opOf_code _
  have e4 : opOf (some (opCode .div)) = CadArith.div.fn := opOf_code _
  simp only [cadFrepSides, List.forall_mem_cons]
  refine ⟨?_, ?_, ?_, ?_, ?_, ?_, by simp⟩ <;> intro ρ <;> simp only [patVal, patValL, cadVal, e1, e2, e3, e4] <;> funext p <;>
    first
      | exact fn_div_sub _ _ _
      | simp only [Int.cast_one, Int.cast_zero, fn_div_one, fn_sub_zero, fn_sub_div, fn_div_div, fn_sub_sub]

theorem cadSubst_holds (T : TripleCode) : ∀ p ∈ cadSubstSides, ∀ ρ, patVal ρ (cadVal T) p.1 = patVal ρ (cadVal T) p.2 := by
  simp only [cadSubstSides, List.forall_mem_cons]
  refine ⟨?_, ?_, ?_, ?_, ?_, ?_, ?_, ?_, ?_, by simp⟩ <;> intro ρ <;> rfl

theorem cadLifting_holds (T : TripleCode) : ∀ p ∈ cadLiftingSides, ∀ ρ, patVal ρ (cadVal T) p.1 = patVal ρ (cadVal T) p.2 := by
  have e1 : opOf (some (opCode .add)) = CadArith.add.fn := opOf_code _
  have e2 : opOf (some (opCode .sub)) = CadArith.sub.fn := opOf_code _
  have e3 : opOf (some (opCode .mul)) = CadArith.mul.fn := opOf_code _
  have e4 : opOf (some (opCode .div)) = CadArith.div.fn := opOf_code _
  have e5 : opOf (some (opCode .min)) = CadArith.min.fn := opOf_code _
  have half : CadArith.div.fn (some 1) (some ((2 : Int) : ℝ)) = some (1 / 2) := by simp [CadArith.fn]
  simp only [cadLiftingSides, List.forall_mem_cons]
  refine ⟨?_, ?_, ?_, ?_, ?_, by simp⟩ <;> intro ρ <;>
    simp only [patVal, patValL, cadVal, e1, e2, e3, e4, e5, T.dec_enc, half, Int.cast_one] <;> rfl

theorem cadExpected_holds (T : TripleCode) : ∀ p ∈ cadExpectedSides, ∀ ρ, patVal ρ (cadVal T) p.1 = patVal ρ (cadVal T) p.2 := by
  have e1 : opOf (some (opCode .add)) = CadArith.add.fn := opOf_code _
  have e3 : opOf (some (opCode .mul)) = CadArith.mul.fn := opOf_code _
  have e4 : opOf (some (opCode .div)) = CadArith.div.fn := opOf_code _
  simp only [cadExpectedSides, List.forall_mem_cons]
  refine ⟨?_, ?_, ?_, ?_, ?_, ?_, ?_, ?_, ?_, ?_, ?_, ?_, ?_, ?_, ?_, ?_, ?_, ?_, by simp⟩ <;> intro ρ <;>
    simp only [patVal, patValL, cadVal, e1, e3, e4, T.dec_enc, Int.cast_one, Int.cast_zero, fn_div_one, fn_sub_zero, fn_div_div,
      fn_sub_sub] <;>
    first
      | rfl
      | (funext p; simp only [cubeField, cylinderField, fn_div_one, fn_div_div])
      | simp only [fn_sub_div]
      | simp only [fn_div_sub]

end Ruler
