import Verif.Proofs.ProgressRun
import Verif.Proofs.SynthesisDomains
/-! The analysis of the domains does not fail. -/
namespace Ruler
open Spec EGraph

/-! ## Boolean formulas -/

theorem bool_safe : SafeDomain boolDomain (fun o k => k = o.arity) boolOpVal (fun J v => Spec.Bounded J ∧ InInterval J v)
    (fun e b => e = some b) where
  folds := bool_folds
  plain := bool_plain
  vars := bool_varOps
  leaf := by
    rintro o k rfl h
    cases o <;> first | rfl | cases h
  computes := bool_computes
  total :=
    { eval := by
        intro n o args har hl
        refine ⟨_, rfl, fun ho => ?_⟩
        exact (bool_lifts n o args (by simp [ho]) har hl).1
      interval := by
        intro o Js vs har hm
        cases ho : Lang.toVar o with
        | some x =>
          obtain ⟨rfl, -⟩ := bool_varOps.2 o x ho
          cases List.eq_nil_of_length_eq_zero har
          cases hm
          exact ⟨_, rfl⟩
        | none =>
          obtain ⟨J, h, -⟩ := C46_bool_node o ho Js (by rw [hm.length_eq, har])
            (fun I hI => by
              obtain ⟨i, hi, rfl⟩ := List.getElem_of_mem hI
              exact (hm.get hi (by rw [← hm.length_eq]; exact hi)).1)
            ⟨vs, hm.imp fun _ _ h => h.2⟩
          exact ⟨J, h⟩
      join := fun a b v ha hb => Option.isSome_iff_exists.1 (mergeInterval_isSome ha.2 hb.2)
      const := fun c v _ => ⟨_, rfl⟩
      args := by
        intro c o args h _ a ha
        cases h
        cases ha
      same := by
        intro c c' t t' h h' _ _ he
        cases h
        cases h'
        have : c = c' := he fun _ => true
        rw [this]
      sample := by
        intro a b v ha hb
        exact Option.some.inj (ha.trans hb.symm) }

/-! ## Natural numbers -/

theorem nat_const_val (env : String → Nat) (k : Nat) : tmVal env natOpVal (NatOp.const k) = k := by
  unfold tmVal
  induction k with
  | zero => rfl
  | succ k ih =>
    rw [NatOp.const, Tm.fold_node, List.map_cons, List.map_nil, ih]
    rfl

theorem nat_safe (rnd : Nat → Nat → Nat) : SafeDomain (natDomain rnd) (fun o k => k = o.arity) natOpVal
    (fun J (v : Nat) => NonNeg J ∧ InInterval J (v : Int)) (fun e (v : Nat) => e = some (v : Int)) where
  folds := nat_folds rnd
  plain := nat_plain rnd
  vars := nat_varOps
  leaf := by
    rintro o k rfl h
    cases o <;> first | rfl | cases h
  computes := nat_computes rnd
  total :=
    { eval := by
        intro n o args har hl
        refine ⟨_, rfl, fun ho => ?_⟩
        exact (nat_lifts n o args (by simp [ho]) har hl).1
      interval := by
        intro o Js vs har hm
        cases ho : Lang.toVar o with
        | some x =>
          obtain ⟨rfl, -⟩ := nat_varOps.2 o x ho
          cases List.eq_nil_of_length_eq_zero har
          cases hm
          exact ⟨_, rfl⟩
        | none =>
          obtain ⟨J, h, -⟩ := C46_nat_node o ho Js (by rw [hm.length_eq, har])
            (fun I hI => by
              obtain ⟨i, hi, rfl⟩ := List.getElem_of_mem hI
              exact (hm.get hi (by rw [← hm.length_eq]; exact hi)).1)
            ⟨vs, hm.imp fun _ _ h => h.2⟩
          exact ⟨J, h⟩
      join := fun a b v ha hb => Option.isSome_iff_exists.1 (mergeInterval_isSome ha.2 hb.2)
      const := by
        intro c v hm
        obtain ⟨⟨l, hl, hl'⟩, -⟩ := hm
        cases hl
        exact ⟨NatOp.const c.toNat, by simp [natDomain, NatOp.mkConstant, not_lt.2 hl']⟩
      args := by
        intro c o args h _ a ha
        simp only [natDomain, NatOp.mkConstant] at h
        split at h
        · cases h
        · simp only [Option.some.injEq] at h
          cases hk : c.toNat with
          | zero =>
            rw [hk, NatOp.const] at h
            cases h
            cases ha
          | succ k =>
            rw [hk, NatOp.const] at h
            cases h
            obtain rfl : a = NatOp.const k := by simpa using ha
            exact ⟨k, by simp [natDomain, NatOp.mkConstant]⟩
      same := by
        intro c c' t t' h h' _ _ he
        simp only [natDomain, NatOp.mkConstant] at h h'
        split at h
        · cases h
        split at h'
        · cases h'
        cases h
        cases h'
        have := he fun _ => 0
        rw [nat_const_val, nat_const_val] at this
        rw [this]
      sample := by
        intro a b v ha hb
        exact Option.some.inj (ha.trans hb.symm) }

/-! ## Bit vectors -/

theorem bv_safe {N : Nat} (hN : N ≤ 128) : SafeDomain (bvDomain N) (fun o k => k = o.arity ∧ LitProper o) bvOpVal
    (fun J v => ConstOf bits J v ∧ ∀ c, J.low = some c → Proper c) (fun e v => ∃ w, e = some w ∧ Proper w ∧ bits w = v) where
  folds := bv_folds_proper
  plain := bv_plain
  vars := bv_varOps
  leaf := by
    rintro o k ⟨rfl, -⟩ h
    cases o <;> first | rfl | cases h
  computes := bv_computes hN
  total :=
    { eval := by
        intro n o args har hl
        refine ⟨_, rfl, fun ho => ?_⟩
        exact (BvOp.lifts n o args (by simp [ho]) har.1 hl).1
      interval := by
        intro o Js vs har hm
        cases o with
        | lit c => exact ⟨⟨some c, some c⟩, by simp [bvDomain, BvOp.mkInterval, Interval.new]⟩
        | _ => exact ⟨_, rfl⟩
      join := fun a b v ha hb => Option.isSome_iff_exists.1 (ConstOf.isSome ha.1 hb.1 fun c c' h1 h2 he =>
        BV.bits_inj (ha.2 c h1) (hb.2 c' h2) he)
      const := fun c v _ => ⟨_, rfl⟩
      args := by
        intro c o args h _ a ha
        cases h
        cases ha
      same := by
        intro c c' t t' h h' ht ht' he
        cases h
        cases h'
        cases ht with
        | node h1 _ =>
        cases ht' with
        | node h2 _ =>
        have : bits c = bits c' := he fun _ => 0
        rw [BV.bits_inj h1.2 h2.2 this]
      sample := by
        rintro a b v ⟨w, e, h1, h2⟩ ⟨u, e', h3, h4⟩
        cases e
        cases e'
        exact BV.bits_inj h1 h3 (h2.trans h4.symm) }

/-! ## Halide -/

theorem mapM_total {α β : Type} {f : α → Option β} (l : List α) (h : ∀ a ∈ l, ∃ b, f a = some b) :
    ∃ bs, l.mapM f = some bs := by
  induction l with
  | nil => exact ⟨[], rfl⟩
  | cons a l ih =>
    obtain ⟨b, hb⟩ := h a (by simp)
    obtain ⟨bs, hbs⟩ := ih fun x hx => h x (by simp [hx])
    exact ⟨b :: bs, by simp [List.mapM_cons, hb, hbs]⟩

/-- Operators whose evaluation neither fails nor differs from the solver's. -/
theorem point_total {o : PredOp} (hn : o ≠ .neg) {xs : List Int} (hv : ∀ x, o ≠ .var x) (h : xs.length = o.arity) :
    ∃ r, o.point xs = some r := by
  cases o with
  | lit c => cases list_len0 h; exact ⟨_, rfl⟩
  | var x => exact absurd rfl (hv x)
  | neg => exact absurd rfl hn
  | not => obtain ⟨x, rfl⟩ := list_len1 h; exact ⟨_, rfl⟩
  | select => obtain ⟨x, y, z, rfl⟩ := list_len3 h; exact ⟨_, rfl⟩
  | _ => obtain ⟨x, y, rfl⟩ := list_len2 h; exact ⟨_, rfl⟩

theorem halide_eval_total (n : Nat) {o : PredOp} (hn : o ≠ .neg) (args : List (CVec Int)) (h : args.length = o.arity) :
    ∃ cv, o.eval n args = some cv := by
  have one : ∀ (o : PredOp), o ≠ .neg → (∀ x, o ≠ .var x) → o.arity = 1 → ∀ x, ∃ cv,
      cmapP1 (fun x => o.point [x]) x = some cv := by
    intro o hn hv ha x
    refine mapM_total x fun e _ => ?_
    cases e with
    | none => exact ⟨_, rfl⟩
    | some x => exact point_total hn hv (by rw [ha]; rfl)
  have two : ∀ (o : PredOp), o ≠ .neg → (∀ x, o ≠ .var x) → o.arity = 2 → ∀ x y, ∃ cv,
      cmapP2 (fun x y => o.point [x, y]) x y = some cv := by
    intro o hn hv ha x y
    refine mapM_total _ fun e _ => ?_
    obtain ⟨a, b⟩ := e
    cases a with
    | none => exact ⟨_, rfl⟩
    | some x =>
      cases b with
      | none => exact ⟨_, rfl⟩
      | some y => exact point_total hn hv (by rw [ha]; rfl)
  have three : ∀ (o : PredOp), o ≠ .neg → (∀ x, o ≠ .var x) → o.arity = 3 → ∀ x y z, ∃ cv,
      cmapP3 (fun x y z => o.point [x, y, z]) x y z = some cv := by
    intro o hn hv ha x y z
    refine mapM_total _ fun e _ => ?_
    obtain ⟨⟨a, b⟩, c⟩ := e
    cases a with
    | none => exact ⟨_, rfl⟩
    | some x =>
      cases b with
      | none => exact ⟨_, rfl⟩
      | some y =>
        cases c with
        | none => exact ⟨_, rfl⟩
        | some z => exact point_total hn hv (by rw [ha]; rfl)
  cases o with
  | lit c => cases list_len0 h; exact ⟨_, rfl⟩
  | var x => cases list_len0 h; exact ⟨_, rfl⟩
  | neg => exact absurd rfl hn
  | not => obtain ⟨x, rfl⟩ := list_len1 h; exact one .not hn (by simp) rfl x
  | select => obtain ⟨x, y, z, rfl⟩ := list_len3 h; exact three .select hn (by simp) rfl x y z
  | lt => obtain ⟨x, y, rfl⟩ := list_len2 h; exact two .lt hn (by simp) rfl x y
  | leq => obtain ⟨x, y, rfl⟩ := list_len2 h; exact two .leq hn (by simp) rfl x y
  | eq => obtain ⟨x, y, rfl⟩ := list_len2 h; exact two .eq hn (by simp) rfl x y
  | neq => obtain ⟨x, y, rfl⟩ := list_len2 h; exact two .neq hn (by simp) rfl x y
  | implies => obtain ⟨x, y, rfl⟩ := list_len2 h; exact two .implies hn (by simp) rfl x y
  | and => obtain ⟨x, y, rfl⟩ := list_len2 h; exact two .and hn (by simp) rfl x y
  | or => obtain ⟨x, y, rfl⟩ := list_len2 h; exact two .or hn (by simp) rfl x y
  | xor => obtain ⟨x, y, rfl⟩ := list_len2 h; exact two .xor hn (by simp) rfl x y
  | add => obtain ⟨x, y, rfl⟩ := list_len2 h; exact two .add hn (by simp) rfl x y
  | sub => obtain ⟨x, y, rfl⟩ := list_len2 h; exact two .sub hn (by simp) rfl x y
  | mul => obtain ⟨x, y, rfl⟩ := list_len2 h; exact two .mul hn (by simp) rfl x y
  | div => obtain ⟨x, y, rfl⟩ := list_len2 h; exact two .div hn (by simp) rfl x y
  | min => obtain ⟨x, y, rfl⟩ := list_len2 h; exact two .min hn (by simp) rfl x y
  | max => obtain ⟨x, y, rfl⟩ := list_len2 h; exact two .max hn (by simp) rfl x y

theorem halide_safe : SafeDomain halideDomain
    (fun o k => (k = o.arity ∧ PredLitFits o) ∧ o ≠ .neg ∧ o ≠ .div) predOpVal (fun J _ => J = ⟨none, none⟩)
    (fun e (v : Int) => ∀ q, e = some q → v = q) where
  folds := fun env =>
    { interval := by
        intro o Js vs J _ _ h
        exact (Option.some.inj h).symm
      join := by
        rintro a b c v rfl rfl h
        exact mergeInterval_eq h
      const := by
        intro c v t h
        cases h
      custom := by intro nodes val i _ t h; cases h
      varTerms := by intro x t h; cases h }
  plain := ⟨fun _ _ => rfl, fun _ => rfl, halide_plain.const, halide_plain.varInterval⟩
  vars := by
    refine ⟨fun s => ⟨rfl, ⟨rfl, trivial⟩, by simp [Lang.mkVar], by simp [Lang.mkVar]⟩, ?_⟩
    intro o x h
    cases o <;> cases h
    exact ⟨rfl, fun k hk => hk.1.1⟩
  leaf := by
    rintro o k ⟨⟨rfl, -⟩, -⟩ h
    cases o <;> first | rfl | cases h
  computes :=
    { node := by
        intro n j o args vs cv hj ho har hf h
        have := halide_computes.node n j o args vs cv hj ho har.1.1 hf h
        have e : evalOpVal o vs = predOpVal o vs := by
          unfold evalOpVal
          split
          · exact absurd rfl har.2.2
          · rfl
        rwa [e] at this
      var := halide_computes.var }
  total :=
    { eval := by
        intro n o args har hl
        obtain ⟨cv, h⟩ := halide_eval_total n har.2.1 args har.1.1
        refine ⟨cv, h, fun ho => ?_⟩
        exact (pred_eval_get n o args cv (by rintro x rfl; cases ho) har.1.1 hl h).1
      interval := fun o Js vs _ _ => ⟨_, rfl⟩
      join := by
        rintro a b v rfl rfl
        exact ⟨_, rfl⟩
      const := fun c v _ => ⟨_, rfl⟩
      args := by
        intro c o args h _ a ha
        cases h
        cases ha
      same := by
        intro c c' t t' h h' _ _ he
        cases h
        cases h'
        have : c = c' := he fun _ => 0
        rw [this]
      sample := by
        intro a b v ha hb
        exact (ha a rfl).symm.trans (hb b rfl) }

end Ruler
