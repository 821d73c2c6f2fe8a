import Verif.Spec.Saturation
import Verif.Spec.DomRational
import Verif.Spec.BV
import Verif.Model.Domains
import Verif.Props.DomBool
import Verif.Props.DomInt
import Verif.Props.Rational
import Verif.Proofs.Analysis
import Verif.Proofs.EGraphData
/-! Constant folding is correct in the domains of the repository. -/
namespace Ruler
open Spec

theorem mergeInterval_eq {C : Type} [LinearOrder C] {a b c : Interval C} (h : mergeInterval a b = some c) :
    c = ⟨maxLow a.low b.low, minHigh a.high b.high⟩ := by
  unfold mergeInterval Interval.new at h
  split at h
  · split at h
    · simpa using h.symm
    · cases h
  · simpa using h.symm

theorem bool_folds (env : String → Bool) :
    FoldsIn boolDomain (fun o k => k = o.arity) (withVars env boolOpVal) (fun J v => Spec.Bounded J ∧ InInterval J v) where
  interval := by
    intro o Js vs J har hm hJ
    cases ho : Lang.toVar o with
    | some x =>
      cases o with
      | var y =>
        cases List.eq_nil_of_length_eq_zero har
        cases hm
        simp only [boolDomain, BoolOp.mkInterval, Interval.new] at hJ
        cases hJ
        refine ⟨⟨rfl, rfl⟩, ?_, ?_⟩
        · rintro a ⟨⟩; exact Bool.false_le _
        · rintro a ⟨⟩; exact Bool.le_true _
      | _ => cases ho
    | none =>
      obtain ⟨J', h1, h2, h3⟩ := C46_bool_node o ho Js (by rw [hm.length_eq, har])
        (fun I hI => by
          obtain ⟨i, hi, rfl⟩ := List.getElem_of_mem hI
          exact (hm.get hi (by rw [← hm.length_eq]; exact hi)).1)
        ⟨vs, hm.imp fun _ _ h => h.2⟩
      have : J' = J := by
        have hJ' : o.mkInterval Js = some J := hJ
        rw [h1] at hJ'
        exact Option.some.inj hJ'
      subst this
      refine ⟨h2, ?_⟩
      rw [withVars, ho]
      exact h3 vs (hm.imp fun _ _ h => h.2)
  join := by
    intro a b c v ha hb h
    refine ⟨?_, (mergeInterval_some a b c h v).2 ⟨ha.2, hb.2⟩⟩
    rw [mergeInterval_eq h]
    obtain ⟨⟨al, ah⟩, _⟩ := ha
    obtain ⟨⟨bl, bh⟩, _⟩ := hb
    rw [Option.isSome_iff_exists] at al ah bl bh
    obtain ⟨a1, h1⟩ := al; obtain ⟨a2, h2⟩ := ah; obtain ⟨b1, h3⟩ := bl; obtain ⟨b2, h4⟩ := bh
    rw [h1, h2, h3, h4]
    exact ⟨rfl, rfl⟩
  const := by
    intro c v t hm ht
    simp only [boolDomain, Option.some.injEq] at ht
    subst ht
    refine ⟨.node rfl (by simp), ?_⟩
    rw [Tm.fold_node]
    exact le_antisymm (hm.2.1 c rfl) (hm.2.2 c rfl)
  custom := by intro nodes val i _ t h; cases h
  varTerms := by intro x t h; cases h

theorem nat_folds (rnd : Nat → Nat → Nat) (env : String → Nat) :
    FoldsIn (natDomain rnd) (fun o k => k = o.arity) (withVars env natOpVal)
      (fun J (v : Nat) => NonNeg J ∧ InInterval J (v : Int)) where
  interval := by
    intro o Js vs J har hm hJ
    cases ho : Lang.toVar o with
    | some x =>
      cases o with
      | var y =>
        cases List.eq_nil_of_length_eq_zero har
        cases hm
        simp only [natDomain, NatOp.mkInterval, Interval.new] at hJ
        cases hJ
        refine ⟨⟨0, rfl, le_refl _⟩, ?_, ?_⟩
        · rintro a ⟨⟩; exact Int.natCast_nonneg _
        · rintro a ⟨⟩
      | _ => cases ho
    | none =>
      obtain ⟨J', h1, h2, h3⟩ := C46_nat_node o ho Js (by rw [hm.length_eq, har])
        (fun I hI => by
          obtain ⟨i, hi, rfl⟩ := List.getElem_of_mem hI
          exact (hm.get hi (by rw [← hm.length_eq]; exact hi)).1)
        ⟨vs, hm.imp fun _ _ h => h.2⟩
      have : J' = J := by
        have hJ' : o.mkInterval Js = some J := hJ
        rw [h1] at hJ'
        exact Option.some.inj hJ'
      subst this
      refine ⟨h2, ?_⟩
      rw [withVars, ho]
      exact h3 vs (hm.imp fun _ _ h => h.2)
  join := by
    intro a b c v ha hb h
    refine ⟨?_, (mergeInterval_some a b c h v).2 ⟨ha.2, hb.2⟩⟩
    rw [mergeInterval_eq h]
    obtain ⟨⟨a1, h1, h1'⟩, _⟩ := ha
    obtain ⟨⟨b1, h2, h2'⟩, _⟩ := hb
    rw [h1, h2]
    exact ⟨max a1 b1, rfl, le_max_of_le_left h1'⟩
  const := by
    intro c v t hm ht
    obtain ⟨⟨l, hl, hl'⟩, h1, h2⟩ := hm
    cases hl
    have hc : c = (v : Int) := le_antisymm (h1 c rfl) (h2 c rfl)
    subst hc
    have ht' : some (NatOp.const v) = some t := by
      rw [← ht]
      simp [natDomain, NatOp.mkConstant]
    cases ht'
    clear ht h1 h2 hl'
    induction v with
    | zero => exact ⟨.node rfl (by simp), rfl⟩
    | succ v ih =>
      refine ⟨.node rfl (by simpa [NatOp.const] using ih.1), ?_⟩
      rw [NatOp.const, Tm.fold_node, List.map_cons, List.map_nil, ih.2]
      rfl
  custom := by intro nodes val i _ t h; cases h
  varTerms := by intro x t h; cases h

/-- An interval that is unbounded or a single constant with the value `v`. -/
def ConstOf {C V : Type} (emb : C → V) (J : Interval C) (v : V) : Prop :=
  J = ⟨none, none⟩ ∨ ∃ c, J = ⟨some c, some c⟩ ∧ v = emb c

theorem ConstOf.join {C V : Type} [LinearOrder C] {emb : C → V} (a b c : Interval C) (v : V)
    (ha : ConstOf emb a v) (hb : ConstOf emb b v) (h : mergeInterval a b = some c) : ConstOf emb c v := by
  rcases ha with rfl | ⟨x, rfl, hx⟩ <;> rcases hb with rfl | ⟨y, rfl, hy⟩
  · left; simpa [maxLow, minHigh] using mergeInterval_eq h
  · right; exact ⟨y, by simpa [maxLow, minHigh] using mergeInterval_eq h, hy⟩
  · right; exact ⟨x, by simpa [maxLow, minHigh] using mergeInterval_eq h, hx⟩
  · right
    have := mergeInterval_eq h
    simp only [maxLow, minHigh] at this
    have hxy : x = y := by
      unfold mergeInterval Interval.new at h
      simp only [maxLow, minHigh] at h
      split at h
      · rename_i h'
        exact le_antisymm (le_trans (le_max_left x y) (le_trans (by simpa using h') (min_le_right x y)))
          (le_trans (le_max_right x y) (le_trans (by simpa using h') (min_le_left x y)))
      · cases h
    subst hxy
    exact ⟨x, by simpa using this, hx⟩

theorem bv_folds (N : Nat) (env : String → BitVec N) :
    FoldsIn (bvDomain N) (fun o k => k = o.arity) (withVars env bvOpVal) (ConstOf bits) where
  interval := by
    intro o Js vs J har hm hJ
    cases o with
    | lit c =>
      cases List.eq_nil_of_length_eq_zero har
      right
      simp only [bvDomain, BvOp.mkInterval, Interval.new, le_refl, if_true, Option.some.injEq] at hJ
      exact ⟨c, hJ.symm, rfl⟩
    | _ => left; simp only [bvDomain, BvOp.mkInterval, Option.some.injEq] at hJ; exact hJ.symm
  join := ConstOf.join
  const := by
    intro c v t hm ht
    simp only [bvDomain, Option.some.injEq] at ht
    subst ht
    refine ⟨.node rfl (by simp), ?_⟩
    rcases hm with hm | ⟨c', hm, rfl⟩
    · cases hm
    · cases hm; rfl
  custom := by intro nodes val i _ t h; cases h
  varTerms := by intro x t h; cases h

theorem getConst_of {K : Type} {emb : Rat → K} {J : Interval Rat} {v : K} {c : Rat} (h : ConstOf emb J v)
    (hc : MathOp.getConst J = some c) : v = emb c := by
  rcases h with rfl | ⟨c', rfl, rfl⟩
  · cases hc
  · simp only [MathOp.getConst, if_true, Option.some.injEq] at hc
    rw [hc]

section
variable {K : Type} [Field K] [LinearOrder K] [IsStrictOrderedRing K]

theorem rational_folds (ck : Checked) (hck : ExactOrNone ck) (env : String → Option K) :
    FoldsIn (rationalDomain ck) (fun o k => k = o.arity) (withVars env mathOpVal)
      (ConstOf fun c : Rat => some (c : K)) where
  interval := by
    intro o Js vs J har hm hJ
    simp only [rationalDomain, MathOp.mkInterval, Option.bind_eq_some_iff] at hJ
    obtain ⟨r, hr, hJ⟩ := hJ
    cases r with
    | none => left; simpa using hJ.symm
    | some c =>
      right
      simp only [Interval.new, le_refl, if_true, Option.some.injEq] at hJ
      refine ⟨c, hJ.symm, ?_⟩
      clear hJ
      have two : ∀ (a b : Interval Rat) (u v : Option K) (op : Rat → Rat → Option Rat),
          ConstOf (fun c : Rat => some (c : K)) a u → ConstOf (fun c : Rat => some (c : K)) b v →
          ((MathOp.getConst a).bind fun x => (MathOp.getConst b).bind fun y => op x y) = some c →
          ∃ x y : Rat, u = some (x : K) ∧ v = some (y : K) ∧ op x y = some c := by
        intro a b u v op ha hb h
        rw [Option.bind_eq_some_iff] at h
        obtain ⟨x, hx, h⟩ := h
        rw [Option.bind_eq_some_iff] at h
        obtain ⟨y, hy, h⟩ := h
        exact ⟨x, y, getConst_of ha hx, getConst_of hb hy, h⟩
      cases o with
      | var x =>
        cases List.eq_nil_of_length_eq_zero har
        cases hm
        simp [MathOp.foldConst] at hr
      | lit n =>
        cases List.eq_nil_of_length_eq_zero har
        cases hm
        simp only [MathOp.foldConst, Option.some.injEq] at hr
        subst hr
        rfl
      | neg =>
        obtain ⟨v, rfl⟩ := list_len1 har
        cases hm with
        | cons ha hm =>
        cases hm
        simp only [MathOp.foldConst] at hr
        split at hr
        · rename_i x hx
          rw [Option.map_eq_some_iff] at hr
          obtain ⟨y, hy, hr⟩ := hr
          cases hr
          rw [getConst_of ha hx, hck.neg _ _ hy]
          simp [withVars, Lang.toVar, mathOpVal]
        · cases hr
      | abs =>
        obtain ⟨v, rfl⟩ := list_len1 har
        cases hm with
        | cons ha hm =>
        cases hm
        simp only [MathOp.foldConst] at hr
        split at hr
        · rename_i x hx
          rw [Option.map_eq_some_iff] at hr
          obtain ⟨y, hy, hr⟩ := hr
          cases hr
          rw [getConst_of ha hx, hck.abs _ _ hy]
          simp [withVars, Lang.toVar, mathOpVal]
        · cases hr
      | add =>
        obtain ⟨u, v, rfl⟩ := list_len2 har
        cases hm with
        | cons ha hm =>
        cases hm with
        | cons hb hm =>
        cases hm
        simp only [MathOp.foldConst, Option.some.injEq] at hr
        obtain ⟨x, y, rfl, rfl, h⟩ := two _ _ _ _ _ ha hb hr
        rw [hck.add _ _ _ h]
        simp [withVars, Lang.toVar, mathOpVal]
      | sub =>
        obtain ⟨u, v, rfl⟩ := list_len2 har
        cases hm with
        | cons ha hm =>
        cases hm with
        | cons hb hm =>
        cases hm
        simp only [MathOp.foldConst, Option.some.injEq] at hr
        obtain ⟨x, y, rfl, rfl, h⟩ := two _ _ _ _ _ ha hb hr
        rw [hck.sub _ _ _ h]
        simp [withVars, Lang.toVar, mathOpVal]
      | mul =>
        obtain ⟨u, v, rfl⟩ := list_len2 har
        cases hm with
        | cons ha hm =>
        cases hm with
        | cons hb hm =>
        cases hm
        simp only [MathOp.foldConst, Option.some.injEq] at hr
        obtain ⟨x, y, rfl, rfl, h⟩ := two _ _ _ _ _ ha hb hr
        rw [hck.mul _ _ _ h]
        simp [withVars, Lang.toVar, mathOpVal]
      | div =>
        obtain ⟨u, v, rfl⟩ := list_len2 har
        cases hm with
        | cons ha hm =>
        cases hm with
        | cons hb hm =>
        cases hm
        simp only [MathOp.foldConst, Option.some.injEq] at hr
        obtain ⟨x, y, rfl, rfl, h⟩ := two _ _ _ _ _ ha hb hr
        obtain ⟨h1, h2⟩ := hck.div _ _ _ h
        rw [h2]
        simp [withVars, Lang.toVar, mathOpVal, h1]
      | ite =>
        obtain ⟨u, v, w, rfl⟩ := list_len3 har
        cases hm with
        | cons ha hm =>
        cases hm with
        | cons hb hm =>
        cases hm with
        | cons hc hm =>
        cases hm
        simp only [MathOp.foldConst, Option.some.injEq] at hr
        rw [Option.bind_eq_some_iff] at hr
        obtain ⟨x, hx, hr⟩ := hr
        rw [getConst_of ha hx]
        split at hr
        · rename_i h0
          rw [getConst_of hb hr]
          simp [withVars, Lang.toVar, mathOpVal, h0]
        · rename_i h0
          rw [getConst_of hc hr]
          have : x = 0 := by simpa using h0
          simp [withVars, Lang.toVar, mathOpVal, this]
  join := ConstOf.join
  const := by
    intro c v t hm ht
    simp only [rationalDomain, Option.some.injEq] at ht
    subst ht
    refine ⟨.node rfl (by simp), ?_⟩
    rcases hm with hm | ⟨c', hm, rfl⟩
    · cases hm
    · cases hm; rfl
  custom := by intro nodes val i _ t h; cases h
  varTerms := by intro x t h; cases h

end

theorem halide_noFold : NoFold halideDomain :=
  ⟨by intro o Js J h; cases h; rfl, fun _ _ => rfl, fun _ => rfl⟩

end Ruler
