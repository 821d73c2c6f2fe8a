import Verif.Spec.BV
import Verif.Proofs.Domain
/-! Helper lemmas about bit-vectors. -/
namespace Ruler
open Spec
namespace BV
variable {N : Nat}

theorem allOnes_toNat (h : N ≤ 128) : (allOnes (N := N)).val.toNat = 2 ^ N - 1 := by
  have e : (2 : Nat) ^ 128 = 2 ^ N * 2 ^ (128 - N) := by rw [← Nat.pow_add]; congr 1; omega
  have hz : ((0 : BitVec 128)).toNat = 0 := rfl
  simp only [allOnes, BitVec.toNat_ushiftRight, BitVec.toNat_not, hz, Nat.sub_zero, Nat.shiftRight_eq_div_pow]
  rw [e]
  have hp : 0 < 2 ^ (128 - N) := Nat.two_pow_pos _
  have hq : 0 < 2 ^ N := Nat.two_pow_pos _
  generalize 2 ^ (128 - N) = b at *
  generalize 2 ^ N = a at *
  obtain ⟨k, rfl⟩ : ∃ k, a = k + 1 := ⟨a - 1, by omega⟩
  rw [show (k + 1) * b - 1 = k * b + (b - 1) by rw [Nat.succ_mul]; omega]
  rw [Nat.mul_comm, Nat.mul_add_div hp, Nat.div_eq_of_lt (by omega)]
  omega

theorem new_toNat (h : N ≤ 128) (x : BitVec 128) : (new (N := N) x).val.toNat = x.toNat % 2 ^ N := by
  rw [new, BitVec.toNat_and, allOnes_toNat h, Nat.and_two_pow_sub_one_eq_mod]

theorem new_proper (h : N ≤ 128) (x : BitVec 128) : Proper (new (N := N) x) := by
  rw [Proper, new_toNat h]; exact Nat.mod_lt _ (Nat.two_pow_pos _)

theorem bits_toNat (x : BV N) : (bits x).toNat = x.val.toNat % 2 ^ N := by simp [bits]

theorem bits_new (h : N ≤ 128) (x : BitVec 128) : bits (new (N := N) x) = BitVec.ofNat N x.toNat := by
  apply BitVec.eq_of_toNat_eq
  rw [bits_toNat, new_toNat h]
  simp

theorem bits_inj {x y : BV N} (hx : Proper x) (hy : Proper y) (h : bits x = bits y) : x = y := by
  have := congrArg BitVec.toNat h
  rw [bits_toNat, bits_toNat, Nat.mod_eq_of_lt hx, Nat.mod_eq_of_lt hy] at this
  cases x; cases y
  congr 1
  exact BitVec.eq_of_toNat_eq this

theorem dvd128 (h : N ≤ 128) : 2 ^ N ∣ 2 ^ 128 := Nat.pow_dvd_pow 2 h

theorem toNat_proper {x : BV N} (hx : Proper x) : (bits x).toNat = x.val.toNat := by
  rw [bits_toNat, Nat.mod_eq_of_lt hx]

theorem ofNat_add (h : N ≤ 128) (a b : BV N) : bits (wrappingAdd a b) = bits a + bits b := by
  rw [wrappingAdd, bits_new h]
  apply BitVec.eq_of_toNat_eq
  rw [BitVec.toNat_ofNat, BitVec.toNat_add, BitVec.toNat_add, bits_toNat, bits_toNat,
    Nat.mod_mod_of_dvd _ (dvd128 h), ← Nat.add_mod]

theorem ofNat_mul (h : N ≤ 128) (a b : BV N) : bits (wrappingMul a b) = bits a * bits b := by
  rw [wrappingMul, bits_new h]
  apply BitVec.eq_of_toNat_eq
  rw [BitVec.toNat_ofNat, BitVec.toNat_mul, BitVec.toNat_mul, bits_toNat, bits_toNat,
    Nat.mod_mod_of_dvd _ (dvd128 h), ← Nat.mul_mod]

theorem bits_eq_setWidth (x : BV N) : bits x = x.val.setWidth N := by
  apply BitVec.eq_of_toNat_eq
  rw [bits_toNat, BitVec.toNat_setWidth]

theorem ofNat_eq_setWidth (x : BitVec 128) : BitVec.ofNat N x.toNat = x.setWidth N := by
  apply BitVec.eq_of_toNat_eq
  rw [BitVec.toNat_ofNat, BitVec.toNat_setWidth]

theorem ofNat_neg (h : N ≤ 128) (a : BV N) : bits (wrappingNeg a) = - bits a := by
  rw [wrappingNeg, bits_new h, ofNat_eq_setWidth, bits_eq_setWidth, BitVec.setWidth_neg_of_le h]

theorem ofNat_sub (h : N ≤ 128) (a b : BV N) : bits (wrappingSub a b) = bits a - bits b := by
  rw [wrappingSub, bits_new h, ofNat_eq_setWidth, bits_eq_setWidth, bits_eq_setWidth]
  rw [BitVec.sub_eq_add_neg, BitVec.sub_eq_add_neg, BitVec.setWidth_add _ _ h, BitVec.setWidth_neg_of_le h]

theorem ofNat_not (h : N ≤ 128) (a : BV N) : bits (not a) = ~~~ bits a := by
  rw [not, bits_new h, ofNat_eq_setWidth, bits_eq_setWidth, BitVec.setWidth_not h]

theorem ofNat_and (h : N ≤ 128) (a b : BV N) : bits (and a b) = bits a &&& bits b := by
  rw [and, bits_new h, ofNat_eq_setWidth, bits_eq_setWidth, bits_eq_setWidth, BitVec.setWidth_and]

theorem ofNat_or (h : N ≤ 128) (a b : BV N) : bits (or a b) = bits a ||| bits b := by
  rw [or, bits_new h, ofNat_eq_setWidth, bits_eq_setWidth, bits_eq_setWidth, BitVec.setWidth_or]

theorem ofNat_xor (h : N ≤ 128) (a b : BV N) : bits (xor a b) = bits a ^^^ bits b := by
  rw [xor, bits_new h, ofNat_eq_setWidth, bits_eq_setWidth, bits_eq_setWidth, BitVec.setWidth_xor]

theorem zero_bits : bits (zero : BV N) = 0 := by simp [bits, zero]

theorem ofNat_shl (h : N ≤ 128) (a b : BV N) (hb : Proper b) : bits (shl a b) = bits a <<< bits b := by
  rw [BitVec.shiftLeft_eq', toNat_proper hb, shl]
  split
  · rename_i hge
    rw [zero_bits, BitVec.shiftLeft_eq_zero (by omega)]
    rfl
  · rename_i hlt
    rw [bits_new h]
    apply BitVec.eq_of_toNat_eq
    rw [BitVec.toNat_ofNat, BitVec.toNat_shiftLeft, BitVec.toNat_shiftLeft, bits_toNat, Nat.shiftLeft_eq,
      Nat.shiftLeft_eq, Nat.mod_mod_of_dvd _ (dvd128 h), Nat.mod_mul_mod]

theorem ofNat_shr (h : N ≤ 128) (a b : BV N) (ha : Proper a) (hb : Proper b) :
    bits (shr a b) = bits a >>> bits b := by
  rw [BitVec.ushiftRight_eq', toNat_proper hb, shr]
  split
  · rename_i hge
    rw [zero_bits, BitVec.ushiftRight_eq_zero (by omega)]
    rfl
  · rename_i hlt
    rw [bits_new h]
    apply BitVec.eq_of_toNat_eq
    rw [BitVec.toNat_ofNat, BitVec.toNat_ushiftRight, BitVec.toNat_ushiftRight, toNat_proper ha,
      Nat.mod_eq_of_lt]
    rw [Nat.shiftRight_eq_div_pow]
    exact Nat.lt_of_le_of_lt (Nat.div_le_self _ _) ha

theorem shift_proper (h : N ≤ 128) : (∀ a b : BV N, Proper (a.shl b)) ∧ (∀ a b : BV N, Proper (a.shr b)) := by
  have hz : Proper (BV.zero : BV N) := by simp [Proper, BV.zero, Nat.two_pow_pos]
  constructor
  · intro a b
    rw [BV.shl]; split
    · exact hz
    · exact BV.new_proper h _
  · intro a b
    rw [BV.shr]; split
    · exact hz
    · exact BV.new_proper h _

end BV
end Ruler

namespace Ruler
open Spec
variable {N : Nat}

/-- `eval` at one position. -/
def BvOp.point : BvOp N → List (Option (BV N)) → Option (BV N)
  | .neg, [a] => a.map BV.wrappingNeg
  | .not, [a] => a.map BV.not
  | .add, [a, b] => a.bind fun a => b.map fun b => a.wrappingAdd b
  | .sub, [a, b] => a.bind fun a => b.map fun b => a.wrappingSub b
  | .mul, [a, b] => a.bind fun a => b.map fun b => a.wrappingMul b
  | .shl, [a, b] => a.bind fun a => b.map fun b => a.shl b
  | .shr, [a, b] => a.bind fun a => b.map fun b => a.shr b
  | .and, [a, b] => a.bind fun a => b.map fun b => a.and b
  | .or, [a, b] => a.bind fun a => b.map fun b => a.or b
  | .xor, [a, b] => a.bind fun a => b.map fun b => a.xor b
  | .lit n, [] => some n
  | _, _ => none

theorem BvOp.lifts (len : Nat) :
    Lifts BvOp.arity len (fun o => (Lang.toVar o).isSome) (BvOp.eval (N := N) len) BvOp.point := by
  intro o args hv ha hl
  have pt2 : ∀ (f : BV N → BV N → BV N) (x y : Option (BV N)),
      (x.bind fun x => y.bind fun y => some (f x y)) = x.bind fun x => y.map fun y => f x y := by
    intro f x y; cases x <;> cases y <;> rfl
  have pt1 : ∀ (f : BV N → BV N) (x : Option (BV N)), (x.bind fun x => some (f x)) = x.map f := by
    intro f x; cases x <;> rfl
  cases o with
  | var x => exact absurd rfl hv
  | lit n =>
    have := list_len0 ha; subst this
    refine ⟨by simp [BvOp.eval], fun i hi => ?_⟩
    simp [BvOp.eval, BvOp.point, hi]
  | neg | not =>
    obtain ⟨a, rfl⟩ := list_len1 ha
    have h1 := hl a (by simp)
    refine ⟨by simp [BvOp.eval, cmap1_length, h1], fun i hi => ?_⟩
    rw [BvOp.eval, cmap1_get _ h1 hi, pt1]; rfl
  | add | sub | mul | shl | shr | and | or | xor =>
    obtain ⟨a, b, rfl⟩ := list_len2 ha
    have h1 := hl a (by simp)
    have h2 := hl b (by simp)
    refine ⟨by simp [BvOp.eval, cmap2_length _ h1 h2], fun i hi => ?_⟩
    rw [BvOp.eval, cmap2_get _ h1 h2 hi, pt2]; rfl

/-- One sample of a term is its value. -/
theorem bv_sampleVal (h : N ≤ 128) (σ : String → BV N) {t : Tm (BvOp N)}
    (ws : WellSorted BvOp.arity LitProper t) (hσ : ∀ x, HasVar x t → Proper (σ x))
    (τ : String → Option (BV N)) (hτ : ∀ x, HasVar x t → τ x = some (σ x)) :
    ∃ v, sampleVal BvOp.point τ t = some v ∧ Proper v ∧ bits v = bvVal (fun x => bits (σ x)) t := by
  induction t using Tm.ind with
  | hn o l ih =>
    cases ws with
    | node ha hp hargs =>
    have ih' : ∀ a ∈ l, ∃ v, sampleVal BvOp.point τ a = some v ∧ Proper v ∧ bits v = bvVal (fun x => bits (σ x)) a :=
      fun a ha => ih a ha (hargs a ha) (fun x hx => hσ x (.there ha hx)) (fun x hx => hτ x (.there ha hx))
    have hval : ∀ (o : BvOp N) l, (∀ x, o ≠ .var x) → bvVal (fun x => bits (σ x)) (.node o l) =
        bvOpVal o (l.map (bvVal fun x => bits (σ x))) := by
      intro o l hv
      unfold bvVal
      rw [Tm.fold_node]
      cases o with
      | var x => exact absurd rfl (hv x)
      | _ => rfl
    have prop := BV.shift_proper (N := N) h
    cases o with
    | var x =>
      have hx : HasVar x (Tm.node (.var x) l) := .here rfl
      exact ⟨σ x, (sampleVal_var _ _ rfl _).trans (hτ x hx), hσ x hx, rfl⟩
    | lit n =>
      have := list_len0 ha; subst this
      exact ⟨n, rfl, hp, rfl⟩
    | neg =>
      obtain ⟨a, rfl⟩ := list_len1 ha
      obtain ⟨v, h1, h2, h3⟩ := ih' a (by simp)
      refine ⟨v.wrappingNeg, ?_, BV.new_proper h _, ?_⟩
      · rw [sampleVal_node _ _ rfl]; simp only [List.map_cons, List.map_nil, h1]; rfl
      · rw [hval _ _ (by intro x hx; cases hx)]; simp only [List.map_cons, List.map_nil, bvOpVal, ← h3, BV.ofNat_neg h]
    | not =>
      obtain ⟨a, rfl⟩ := list_len1 ha
      obtain ⟨v, h1, h2, h3⟩ := ih' a (by simp)
      refine ⟨v.not, ?_, BV.new_proper h _, ?_⟩
      · rw [sampleVal_node _ _ rfl]; simp only [List.map_cons, List.map_nil, h1]; rfl
      · rw [hval _ _ (by intro x hx; cases hx)]; simp only [List.map_cons, List.map_nil, bvOpVal, ← h3, BV.ofNat_not h]
    | add =>
      obtain ⟨a, b, rfl⟩ := list_len2 ha
      obtain ⟨v, h1, h2, h3⟩ := ih' a (by simp)
      obtain ⟨w, k1, k2, k3⟩ := ih' b (by simp)
      refine ⟨v.wrappingAdd w, ?_, BV.new_proper h _, ?_⟩
      · rw [sampleVal_node _ _ rfl]; simp only [List.map_cons, List.map_nil, h1, k1]; rfl
      · rw [hval _ _ (by intro x hx; cases hx)]; simp only [List.map_cons, List.map_nil, bvOpVal, ← h3, ← k3, BV.ofNat_add h]
    | sub =>
      obtain ⟨a, b, rfl⟩ := list_len2 ha
      obtain ⟨v, h1, h2, h3⟩ := ih' a (by simp)
      obtain ⟨w, k1, k2, k3⟩ := ih' b (by simp)
      refine ⟨v.wrappingSub w, ?_, BV.new_proper h _, ?_⟩
      · rw [sampleVal_node _ _ rfl]; simp only [List.map_cons, List.map_nil, h1, k1]; rfl
      · rw [hval _ _ (by intro x hx; cases hx)]; simp only [List.map_cons, List.map_nil, bvOpVal, ← h3, ← k3, BV.ofNat_sub h]
    | mul =>
      obtain ⟨a, b, rfl⟩ := list_len2 ha
      obtain ⟨v, h1, h2, h3⟩ := ih' a (by simp)
      obtain ⟨w, k1, k2, k3⟩ := ih' b (by simp)
      refine ⟨v.wrappingMul w, ?_, BV.new_proper h _, ?_⟩
      · rw [sampleVal_node _ _ rfl]; simp only [List.map_cons, List.map_nil, h1, k1]; rfl
      · rw [hval _ _ (by intro x hx; cases hx)]; simp only [List.map_cons, List.map_nil, bvOpVal, ← h3, ← k3, BV.ofNat_mul h]
    | shl =>
      obtain ⟨a, b, rfl⟩ := list_len2 ha
      obtain ⟨v, h1, h2, h3⟩ := ih' a (by simp)
      obtain ⟨w, k1, k2, k3⟩ := ih' b (by simp)
      refine ⟨v.shl w, ?_, prop.1 _ _, ?_⟩
      · rw [sampleVal_node _ _ rfl]; simp only [List.map_cons, List.map_nil, h1, k1]; rfl
      · rw [hval _ _ (by intro x hx; cases hx)]; simp only [List.map_cons, List.map_nil, bvOpVal, ← h3, ← k3, BV.ofNat_shl h _ _ k2]
    | shr =>
      obtain ⟨a, b, rfl⟩ := list_len2 ha
      obtain ⟨v, h1, h2, h3⟩ := ih' a (by simp)
      obtain ⟨w, k1, k2, k3⟩ := ih' b (by simp)
      refine ⟨v.shr w, ?_, prop.2 _ _, ?_⟩
      · rw [sampleVal_node _ _ rfl]; simp only [List.map_cons, List.map_nil, h1, k1]; rfl
      · rw [hval _ _ (by intro x hx; cases hx)]; simp only [List.map_cons, List.map_nil, bvOpVal, ← h3, ← k3, BV.ofNat_shr h _ _ h2 k2]
    | and =>
      obtain ⟨a, b, rfl⟩ := list_len2 ha
      obtain ⟨v, h1, h2, h3⟩ := ih' a (by simp)
      obtain ⟨w, k1, k2, k3⟩ := ih' b (by simp)
      refine ⟨v.and w, ?_, BV.new_proper h _, ?_⟩
      · rw [sampleVal_node _ _ rfl]; simp only [List.map_cons, List.map_nil, h1, k1]; rfl
      · rw [hval _ _ (by intro x hx; cases hx)]; simp only [List.map_cons, List.map_nil, bvOpVal, ← h3, ← k3, BV.ofNat_and h]
    | or =>
      obtain ⟨a, b, rfl⟩ := list_len2 ha
      obtain ⟨v, h1, h2, h3⟩ := ih' a (by simp)
      obtain ⟨w, k1, k2, k3⟩ := ih' b (by simp)
      refine ⟨v.or w, ?_, BV.new_proper h _, ?_⟩
      · rw [sampleVal_node _ _ rfl]; simp only [List.map_cons, List.map_nil, h1, k1]; rfl
      · rw [hval _ _ (by intro x hx; cases hx)]; simp only [List.map_cons, List.map_nil, bvOpVal, ← h3, ← k3, BV.ofNat_or h]
    | xor =>
      obtain ⟨a, b, rfl⟩ := list_len2 ha
      obtain ⟨v, h1, h2, h3⟩ := ih' a (by simp)
      obtain ⟨w, k1, k2, k3⟩ := ih' b (by simp)
      refine ⟨v.xor w, ?_, BV.new_proper h _, ?_⟩
      · rw [sampleVal_node _ _ rfl]; simp only [List.map_cons, List.map_nil, h1, k1]; rfl
      · rw [hval _ _ (by intro x hx; cases hx)]; simp only [List.map_cons, List.map_nil, bvOpVal, ← h3, ← k3, BV.ofNat_xor h]

/-- One step of the translation to SMT has the meaning of the operator, for widths up to 64. -/
theorem bv_toSmt_val (h : N ≤ 64) (env : String → BitVec N) (o : BvOp N) (args : List SmtBV)
    (hv : ∀ x, o ≠ .var x) (ha : args.length = o.arity) :
    smtVal N env (o.toSmt args) = bvOpVal o (args.map (smtVal N env)) := by
  cases o with
  | var x => exact absurd rfl (hv x)
  | lit n =>
    have := list_len0 ha; subst this
    simp only [BvOp.toSmt, smtVal, bvOpVal, List.map_nil]
    apply BitVec.eq_of_toNat_eq
    rw [BV.bits_toNat, BitVec.toNat_ofNat, Nat.mod_mod_of_dvd _ (Nat.pow_dvd_pow 2 h)]
  | neg | not =>
    obtain ⟨a, rfl⟩ := list_len1 ha
    rfl
  | add | sub | mul | shl | shr | and | or | xor =>
    obtain ⟨a, b, rfl⟩ := list_len2 ha
    rfl

theorem bv_fold_toSmt (h : N ≤ 64) (env : String → BitVec N) (a : Tm (BvOp N))
    (ws : WellSorted BvOp.arity (fun _ => True) a) : smtVal N env (Tm.fold BvOp.toSmt a) = bvVal env a := by
  induction a using Tm.ind with
  | hn o l ih =>
    cases ws with
    | node ha _ hargs =>
    by_cases hv : ∃ x, o = .var x
    · obtain ⟨x, rfl⟩ := hv
      have := list_len0 ha; subst this
      rfl
    · have hv' : ∀ x, o ≠ .var x := fun x hx => hv ⟨x, hx⟩
      rw [Tm.fold_node, bv_toSmt_val h env o _ hv' (by simpa using ha), bvVal, Tm.fold_node, List.map_map]
      have : l.map (smtVal N env ∘ Tm.fold BvOp.toSmt) = l.map (bvVal env) :=
        List.map_congr_left fun a ha => ih a ha (hargs a ha)
      rw [this]
      cases o with
      | var x => exact absurd rfl (hv' x)
      | _ => rfl

end Ruler
