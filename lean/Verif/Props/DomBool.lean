import Verif.Proofs.DomPoint
/-!
# C45, C46: the Boolean domain
-/
namespace Ruler
open Spec

/-- C45: the sample vector at the position of an assignment is the value of the formula; there is a position for every
assignment of the variables. -/
theorem C45_samples (vars : List String) (hn : vars.Nodup) (len : Nat) (tbl : List (String × CVec Bool))
    (h : initProduct boolSamples vars = some (len, tbl)) (t : Tm BoolOp)
    (ws : WellSorted BoolOp.arity (fun _ => True) t) (hvars : ∀ x, HasVar x t → x ∈ vars) :
    (termCvec (BoolOp.eval len) (varCvec tbl) t).length = len ∧
    (∀ env : String → Bool, ∃ j, j < len ∧ (∀ x ∈ vars, (varCvec tbl x)[j]? = some (some (env x))) ∧
      (termCvec (BoolOp.eval len) (varCvec tbl) t)[j]? = some (some (boolVal env t))) ∧
    (∀ j, j < len → ∃ env : String → Bool, (∀ x ∈ vars, (varCvec tbl x)[j]? = some (some (env x))) ∧
      (termCvec (BoolOp.eval len) (varCvec tbl) t)[j]? = some (some (boolVal env t))) := by
  obtain ⟨_, _, hlen, _⟩ := initProduct_spec _ vars hn h
  have hg := termCvec_get (bool_lifts len) (varCvec tbl) ws fun x hx => hlen x (hvars x hx)
  have key : ∀ j, j < len → ∀ env : String → Bool, (∀ x ∈ vars, (varCvec tbl x)[j]? = some (some (env x))) →
      (termCvec (BoolOp.eval len) (varCvec tbl) t)[j]? = some (some (boolVal env t)) := by
    intro j hj env he
    rw [hg.2 j hj, sampleVal_total bool_point_total ws (env := env)]
    · rfl
    · intro x hx
      rw [he x (hvars x hx)]
      rfl
  refine ⟨hg.1, ?_, ?_⟩
  · intro env
    obtain ⟨j, hj, hw⟩ := initProduct_position _ vars hn h (fun x => some (env x)) (by
      intro x _
      cases env x <;> simp [boolSamples])
    exact ⟨j, hj, hw, key j hj env hw⟩
  · intro j hj
    have : ∀ x, ∃ b : Bool, x ∈ vars → (varCvec tbl x)[j]? = some (some b) := by
      intro x
      by_cases hx : x ∈ vars
      · obtain ⟨c, hc, e⟩ := initProduct_sample _ vars hn h j hj x hx
        simp only [boolSamples, List.mem_cons, List.not_mem_nil, or_false] at hc
        rcases hc with rfl | rfl
        · exact ⟨true, fun _ => e⟩
        · exact ⟨false, fun _ => e⟩
      · exact ⟨true, fun h => absurd h hx⟩
    choose env henv using this
    exact ⟨env, henv, key j hj env henv⟩

/-- C45: two formulas over the variables of the workload have the same sample vector exactly when they are
equivalent. -/
theorem C45_iff (vars : List String) (hn : vars.Nodup) (len : Nat) (tbl : List (String × CVec Bool))
    (h : initProduct boolSamples vars = some (len, tbl)) (t u : Tm BoolOp)
    (wt : WellSorted BoolOp.arity (fun _ => True) t) (wu : WellSorted BoolOp.arity (fun _ => True) u)
    (ht : ∀ x, HasVar x t → x ∈ vars) (hu : ∀ x, HasVar x u → x ∈ vars) :
    termCvec (BoolOp.eval len) (varCvec tbl) t = termCvec (BoolOp.eval len) (varCvec tbl) u ↔
      ∀ env : String → Bool, boolVal env t = boolVal env u := by
  obtain ⟨t1, t2, t3⟩ := C45_samples vars hn len tbl h t wt ht
  obtain ⟨u1, u2, u3⟩ := C45_samples vars hn len tbl h u wu hu
  constructor
  · intro e env
    obtain ⟨j, hj, hw, hv⟩ := t2 env
    obtain ⟨env', hw', hv'⟩ := u3 j hj
    rw [e, hv'] at hv
    simp only [Option.some.injEq] at hv
    rw [← hv]
    unfold boolVal
    apply tmVal_congr
    intro x hx
    have := hw' x (hu x hx)
    rw [hw x (hu x hx)] at this
    simpa using this.symm
  · intro e
    apply List.ext_getElem?
    intro j
    by_cases hj : j < len
    · obtain ⟨env, hw, hv⟩ := t3 j hj
      obtain ⟨env', hw', hv'⟩ := u3 j hj
      rw [hv, hv', e env]
      congr 2
      unfold boolVal
      apply tmVal_congr
      intro x hx
      have := hw' x (hu x hx)
      rw [hw x (hu x hx)] at this
      simpa using this
    · rw [List.getElem?_eq_none (by omega), List.getElem?_eq_none (by omega)]

example : ∃ len tbl, initProduct boolSamples ["a", "b"] = some (len, tbl) ∧
    ["a", "b"].Nodup ∧ WellSorted BoolOp.arity (fun _ => True) (.node .and [.node (.var "a") [], .node (.var "b") []]) := by
  refine ⟨_, _, rfl, by decide, .node rfl trivial ?_⟩
  intro a ha
  simp only [List.mem_cons, List.not_mem_nil, or_false] at ha
  rcases ha with rfl | rfl <;> exact .node rfl trivial (by simp)

/-- C46 (Bool), one node: from intervals that contain the values of the children, `mk_interval` computes, without
panic, an interval that contains the value of the node. -/
theorem C46_bool_node (o : BoolOp) (ho : Lang.toVar o = none) (Is : List (Interval Bool)) (hl : Is.length = o.arity)
    (hb : ∀ I ∈ Is, Bounded I) (hne : ∃ vs, List.Forall₂ InInterval Is vs) :
    ∃ I, o.mkInterval Is = some I ∧ Bounded I ∧ ∀ vs, List.Forall₂ InInterval Is vs → InInterval I (boolOpVal o vs) := by
  have cases1 : ∀ I : Interval Bool, Bounded I → (∃ v, InInterval I v) →
      I = ⟨some false, some false⟩ ∨ I = ⟨some false, some true⟩ ∨ I = ⟨some true, some true⟩ := by
    rintro ⟨l, h⟩ ⟨hl, hh⟩ ⟨v, hv1, hv2⟩
    cases l with
    | none => cases hl
    | some l =>
      cases h with
      | none => cases hh
      | some h =>
        have a := hv1 l rfl
        have b := hv2 h rfl
        revert a b
        cases l <;> cases h <;> cases v <;> decide
  cases o with
  | var x => cases ho
  | lit c =>
    have := list_len0 hl; subst this
    refine ⟨⟨some c, some c⟩, by simp [BoolOp.mkInterval, Interval.new], ⟨rfl, rfl⟩, ?_⟩
    intro vs hvs
    cases hvs
    exact ⟨by intro a ha; cases ha; exact le_refl _, by intro a ha; cases ha; exact le_refl _⟩
  | not =>
    obtain ⟨I, rfl⟩ := list_len1 hl
    obtain ⟨vs, hvs⟩ := hne
    cases hvs with
    | cons h1 h0 =>
    rcases cases1 I (hb I (by simp)) ⟨_, h1⟩ with rfl | rfl | rfl
    all_goals
      refine ⟨_, rfl, ⟨rfl, rfl⟩, ?_⟩
      intro vs hvs
      cases hvs with
      | cons k1 k0 =>
      cases k0
      revert k1
      rename_i v
      cases v <;> simp [InInterval, boolOpVal]
  | and | or | xor | implies =>
    obtain ⟨I, J, rfl⟩ := list_len2 hl
    obtain ⟨vs, hvs⟩ := hne
    cases hvs with
    | cons h1 h0 =>
    cases h0 with
    | cons h2 h0 =>
    rcases cases1 I (hb I (by simp)) ⟨_, h1⟩ with rfl | rfl | rfl <;>
    rcases cases1 J (hb J (by simp)) ⟨_, h2⟩ with rfl | rfl | rfl
    all_goals
      refine ⟨_, rfl, ⟨rfl, rfl⟩, ?_⟩
      intro vs hvs
      cases hvs with
      | cons k1 k0 =>
      cases k0 with
      | cons k2 k0 =>
      cases k0
      revert k1 k2
      rename_i v w
      cases v <;> cases w <;> simp [InInterval, boolOpVal]

/-- C46 (Bool), one node: the interval is exact. A value is in it iff the node takes it on values in the intervals of the children. -/
theorem C46_bool_exact (o : BoolOp) (ho : Lang.toVar o = none) (Is : List (Interval Bool)) (hl : Is.length = o.arity)
    (hb : ∀ I ∈ Is, Bounded I) (hne : ∃ vs, List.Forall₂ InInterval Is vs) :
    ∃ I, o.mkInterval Is = some I ∧ ∀ v, InInterval I v ↔ ∃ vs, List.Forall₂ InInterval Is vs ∧ boolOpVal o vs = v := by
  obtain ⟨I, h1, hbI, h2⟩ := C46_bool_node o ho Is hl hb hne
  refine ⟨I, h1, fun v => ⟨fun hv => ?_, fun ⟨vs, k1, k2⟩ => k2 ▸ h2 vs k1⟩⟩
  have cases1 : ∀ I : Interval Bool, Bounded I → (∃ v, InInterval I v) →
      I = ⟨some false, some false⟩ ∨ I = ⟨some false, some true⟩ ∨ I = ⟨some true, some true⟩ := by
    rintro ⟨l, h⟩ ⟨hl, hh⟩ ⟨v, hv1, hv2⟩
    cases l with
    | none => cases hl
    | some l =>
      cases h with
      | none => cases hh
      | some h =>
        have a := hv1 l rfl
        have b := hv2 h rfl
        revert a b
        cases l <;> cases h <;> cases v <;> decide
  have inI : ∀ l h v : Bool, InInterval ⟨some l, some h⟩ v ↔ l ≤ v ∧ v ≤ h := fun l h v =>
    ⟨fun hv => ⟨hv.1 l rfl, hv.2 h rfl⟩, fun hv => ⟨by rintro _ ⟨⟩; exact hv.1, by rintro _ ⟨⟩; exact hv.2⟩⟩
  cases o with
  | var x => cases ho
  | lit c =>
    have := list_len0 hl; subst this
    simp only [BoolOp.mkInterval, Interval.new, le_refl, if_true, Option.some.injEq] at h1
    refine ⟨[], .nil, ?_⟩
    subst h1
    revert hv
    rw [inI]
    cases c <;> cases v <;> decide
  | not =>
    obtain ⟨J, rfl⟩ := list_len1 hl
    obtain ⟨vs, hvs⟩ := hne
    cases hvs with
    | cons h1' h0 =>
    refine ⟨[!v], .cons ?_ .nil, by simp [boolOpVal]⟩
    rcases cases1 J (hb J (by simp)) ⟨_, h1'⟩ with rfl | rfl | rfl <;> cases h1 <;>
      (revert hv; rw [inI, inI]; cases v <;> decide)
  | and | or | xor | implies =>
    obtain ⟨J, K, rfl⟩ := list_len2 hl
    obtain ⟨vs, hvs⟩ := hne
    cases hvs with
    | cons h1' h0 =>
    cases h0 with
    | cons h2' h0 =>
    suffices h : ∃ a b, (InInterval J a ∧ InInterval K b) ∧ boolOpVal _ [a, b] = v by
      obtain ⟨a, b, ⟨ha, hb⟩, e⟩ := h
      exact ⟨[a, b], .cons ha (.cons hb .nil), e⟩
    rcases cases1 J (hb J (by simp)) ⟨_, h1'⟩ with rfl | rfl | rfl <;>
    rcases cases1 K (hb K (by simp)) ⟨_, h2'⟩ with rfl | rfl | rfl <;> cases h1 <;>
      (revert hv; simp only [inI]; cases v <;> decide)

example : ∃ I, BoolOp.or.mkInterval [⟨some false, some true⟩, ⟨some true, some true⟩] = some I ∧ ¬ InInterval I false :=
  ⟨⟨some true, some true⟩, rfl, fun h => absurd (h.1 true rfl) (by decide)⟩

/-- C46 (Bool): the interval of a formula is computed without panic and contains its value for every assignment. -/
theorem C46_bool (t : Tm BoolOp) (ws : WellSorted BoolOp.arity (fun _ => True) t) :
    ∃ I, termInterval BoolOp.mkInterval t = some I ∧ Bounded I ∧ ∀ env, InInterval I (boolVal env t) := by
  exact termInterval_sound (f := boolOpVal) (mk := BoolOp.mkInterval) (Good := Bounded) (mem := InInterval) ⟨true⟩
    (fun o Is _ hv hl hg hne => C46_bool_node o hv Is hl hg hne)
    (by
      intro o x hv _
      cases o with
      | var y =>
        refine ⟨⟨some false, some true⟩, rfl, ⟨rfl, rfl⟩, fun v => ⟨?_, ?_⟩⟩
        · intro a ha; cases ha; exact Bool.false_le _
        · intro a ha; cases ha; exact Bool.le_true _
      | _ => cases hv)
    (by
      intro o x hv
      cases o with
      | var y => rfl
      | _ => cases hv) ws

example : termInterval BoolOp.mkInterval (.node .and [.node (.var "a") [], .node (.lit false) []]) =
    some ⟨some false, some false⟩ := by rfl

end Ruler
