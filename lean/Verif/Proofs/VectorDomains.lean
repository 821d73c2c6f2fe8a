import Verif.Spec.BV
import Verif.Proofs.BV
import Verif.Proofs.Folds
import Verif.Proofs.DomPoint
import Verif.Proofs.Vectors
/-! Vectors are computed position by position in the domains of the repository. -/
namespace Ruler
open Spec

section
variable {O C V : Type} [Lang O] [LinearOrder C]

omit [LinearOrder C] in
/-- Two vectors with the samples of position `j`. -/
theorem entries_get {n j : Nat} {fits : Option C → V → Prop} {args : List (CVec C)} {vs : List V}
    (h : List.Forall₂ (EntryFits n j fits) args vs) :
    (∀ a ∈ args, a.length = n) ∧ List.Forall₂ fits (args.map fun a => (a[j]?).join) vs := by
  induction h with
  | nil => exact ⟨by simp, .nil⟩
  | cons h _ ih =>
    obtain ⟨h1, e, h2, h3⟩ := h
    refine ⟨?_, .cons ?_ ih.2⟩
    · intro a ha
      rcases List.mem_cons.1 ha with rfl | ha
      · exact h1
      · exact ih.1 a ha
    · show fits ((_ : Option (Option C)).join) _
      rw [h2]; exact h3

omit [LinearOrder C] in
/-- A domain whose evaluator lifts a function on samples. -/
theorem computes_of_lifts {D : Domain O C} {arity : O → Nat} {P : O → Prop} {I : O → List V → V}
    {fits : Option C → V → Prop} {ev : Nat → O → List (CVec C) → CVec C} {p : O → List (Option C) → Option C}
    (hD : ∀ n o args, D.eval n o args = some (ev n o args))
    (hl : ∀ n, Lifts arity n (fun o => (Lang.toVar o).isSome) (ev n) p)
    (hvar : ∀ n o args, (Lang.toVar o).isSome → ev n o args = [])
    (hp : ∀ (o : O) es (vs : List V), Lang.toVar o = none → vs.length = arity o → P o → List.Forall₂ fits es vs →
      fits (p o es) (I o vs)) : Computes D (fun o k => k = arity o ∧ P o) I fits where
  node := by
    intro n j o args vs cv hj ho har hf hcv
    rw [hD] at hcv
    cases hcv
    obtain ⟨h1, h2⟩ := entries_get hf
    obtain ⟨h3, h4⟩ := hl n o args (by simp [ho]) (by rw [hf.length_eq, har.1]) h1
    exact ⟨h3, _, h4 j hj, hp o _ vs ho har.1 har.2 h2⟩
  var := by
    intro n o args cv ho h
    rw [hD] at h
    cases h
    exact hvar n o args ho

omit [LinearOrder C] in
theorem Spec.Computes.mono {D : Domain O C} {ar ar' : O → Nat → Prop} {I : O → List V → V} {fits : Option C → V → Prop}
    (h : Computes D ar I fits) (hs : ∀ o k, ar' o k → ar o k) : Computes D ar' I fits :=
  ⟨fun n j o args vs cv hj ho har => h.node n j o args vs cv hj ho (hs _ _ har), h.var⟩

omit [Lang O] [LinearOrder C] in
theorem lookup_mem_nodup (tbl : List (String × CVec C)) (hn : (tbl.map Prod.fst).Nodup) (p : String × CVec C)
    (hp : p ∈ tbl) : varCvec tbl p.1 = p.2 := by
  induction tbl with
  | nil => cases hp
  | cons q tbl ih =>
    rw [List.map_cons, List.nodup_cons] at hn
    unfold varCvec at *
    rw [List.lookup_cons]
    rcases List.mem_cons.1 hp with rfl | hp
    · simp
    · have : (p.1 == q.1) = false := by
        rw [beq_eq_false_iff_ne]
        intro e
        exact hn.1 (e ▸ List.mem_map_of_mem hp)
      rw [this]
      exact ih hn.2 hp

omit [Lang O] [LinearOrder C] in
theorem initProduct_names (consts : List (Option C)) (vars : List String) {len : Nat} {tbl : List (String × CVec C)}
    (h : initProduct consts vars = some (len, tbl)) : tbl.map Prod.fst = vars := by
  rw [initProduct, Option.map_eq_some_iff] at h
  obtain ⟨c, -, e⟩ := h
  cases e
  rw [List.map_fst_zip]
  rw [selfProduct_length]

omit [Lang O] [LinearOrder C] in
theorem initProduct_ok {D : Domain O C} {consts : List (Option C)} (hD : D.initVars = initProduct consts) : InitOk D := by
  intro vars n tbl hn h
  rw [hD] at h
  have hnames := initProduct_names consts vars h
  obtain ⟨-, -, hlen, -⟩ := initProduct_spec consts vars hn h
  refine ⟨hnames, fun p hp => ?_⟩
  rw [← hlen p.1 (hnames ▸ List.mem_map_of_mem hp), lookup_mem_nodup tbl (hnames.symm ▸ hn) p hp]

omit [Lang O] [LinearOrder C] in
/-- With a product of samples every assignment of samples is at some position. -/
theorem initProduct_sampleAt {fits : Option C → V → Prop} {consts : List (Option C)} {vars : List String} (hn : vars.Nodup)
    {n : Nat} {tbl : List (String × CVec C)} (h : initProduct consts vars = some (n, tbl)) (env : String → V)
    (he : ∀ x ∈ vars, ∃ c ∈ consts, fits c (env x)) : ∃ j, j < n ∧ SampleAt fits tbl j env := by
  classical
  have : ∀ x, ∃ c, x ∈ vars → c ∈ consts ∧ fits c (env x) := by
    intro x
    by_cases hx : x ∈ vars
    · obtain ⟨c, h1, h2⟩ := he x hx
      exact ⟨c, fun _ => ⟨h1, h2⟩⟩
    · exact ⟨none, fun h => absurd h hx⟩
  choose w hw using this
  have hnames := initProduct_names consts vars h
  obtain ⟨j, hj, hp⟩ := initProduct_position consts vars hn h w fun x hx => (hw x hx).1
  refine ⟨j, hj, fun p hm => ?_⟩
  have hx : p.1 ∈ vars := hnames ▸ List.mem_map_of_mem hm
  exact ⟨w p.1, by rw [← lookup_mem_nodup tbl (hnames.symm ▸ hn) p hm, hp _ hx], (hw _ hx).2⟩

omit [Lang O] [LinearOrder C] in
/-- Every position is an assignment of samples. -/
theorem initProduct_envAt {fits : Option C → V → Prop} {consts : List (Option C)} {vars : List String} (hn : vars.Nodup)
    {n : Nat} {tbl : List (String × CVec C)} (h : initProduct consts vars = some (n, tbl)) {j : Nat} (hj : j < n)
    (he : ∀ c ∈ consts, ∃ v, fits c v) [Nonempty V] : ∃ env : String → V, SampleAt fits tbl j env := by
  classical
  have hnames := initProduct_names consts vars h
  have : ∀ x, ∃ v : V, x ∈ vars → ∃ c, (varCvec tbl x)[j]? = some c ∧ fits c v := by
    intro x
    by_cases hx : x ∈ vars
    · obtain ⟨c, hc, e⟩ := initProduct_sample consts vars hn h j hj x hx
      obtain ⟨v, hv⟩ := he c hc
      exact ⟨v, fun _ => ⟨c, e, hv⟩⟩
    · exact ⟨Classical.choice inferInstance, fun h => absurd h hx⟩
  choose env henv using this
  refine ⟨env, fun p hm => ?_⟩
  have hx : p.1 ∈ vars := hnames ▸ List.mem_map_of_mem hm
  obtain ⟨c, h1, h2⟩ := henv _ hx
  exact ⟨c, by rw [← lookup_mem_nodup tbl (hnames.symm ▸ hn) p hm, h1], h2⟩

omit [Lang O] [LinearOrder C] in
theorem initProduct_positions {fits : Option C → V → Prop} {consts : List (Option C)} {vars : List String}
    (hn : vars.Nodup) {n : Nat} {tbl : List (String × CVec C)} (h : initProduct consts vars = some (n, tbl))
    (hne : consts ≠ []) (he : ∀ c ∈ consts, ∃ v, fits c v) [Nonempty V] :
    0 < n ∧ ∀ j, j < n → ∃ env : String → V, SampleAt fits tbl j env := by
  refine ⟨?_, fun j hj => initProduct_envAt hn h hj he⟩
  obtain ⟨h1, -⟩ := initProduct_spec consts vars hn h
  rw [h1]
  exact Nat.pow_pos (List.length_pos_iff.2 hne)

omit [Lang O] in
theorem mergeInterval_isSome {a b : Interval C} {v : C} (ha : InInterval a v) (hb : InInterval b v) :
    (mergeInterval a b).isSome := by
  unfold mergeInterval
  have hl : ∀ x, maxLow a.low b.low = some x → x ≤ v := by
    intro x hx
    cases h1 : a.low <;> cases h2 : b.low <;> rw [h1, h2] at hx <;> simp only [maxLow] at hx
    · cases hx
    · cases hx; exact hb.1 _ h2
    · cases hx; exact ha.1 _ h1
    · cases hx; exact max_le (ha.1 _ h1) (hb.1 _ h2)
  have hh : ∀ x, minHigh a.high b.high = some x → v ≤ x := by
    intro x hx
    cases h1 : a.high <;> cases h2 : b.high <;> rw [h1, h2] at hx <;> simp only [minHigh] at hx
    · cases hx
    · cases hx; exact hb.2 _ h2
    · cases hx; exact ha.2 _ h1
    · cases hx; exact le_min (ha.2 _ h1) (hb.2 _ h2)
  generalize maxLow a.low b.low = l at hl ⊢
  generalize minHigh a.high b.high = u at hh ⊢
  unfold Interval.new
  cases l with
  | none => rfl
  | some l =>
    cases u with
    | none => rfl
    | some u => simp [le_trans (hl l rfl) (hh u rfl)]

omit [Lang O] in
theorem ConstOf.isSome {emb : C → V} {a b : Interval C} {v : V} (ha : ConstOf emb a v) (hb : ConstOf emb b v)
    (hi : ∀ c c', a.low = some c → b.low = some c' → emb c = emb c' → c = c') : (mergeInterval a b).isSome := by
  rcases ha with rfl | ⟨c, rfl, h1⟩ <;> rcases hb with rfl | ⟨c', rfl, h2⟩
  · rfl
  · simp [mergeInterval, maxLow, minHigh, Interval.new]
  · simp [mergeInterval, maxLow, minHigh, Interval.new]
  · have := hi c c' rfl rfl (h1.symm.trans h2)
    subst this
    simp [mergeInterval, maxLow, minHigh, Interval.new]

end

/-! ## Booleans -/

theorem bool_varOps : VarOps (O := BoolOp) fun o k => k = o.arity := by
  refine ⟨fun s => ⟨rfl, rfl⟩, ?_⟩
  intro o x h
  cases o <;> cases h
  exact ⟨rfl, fun k hk => hk⟩

theorem bool_plain : PlainFolding boolDomain fun o k => k = o.arity where
  custom _ _ := rfl
  varTerms _ := rfl
  const := by
    intro c t h x hx
    cases h
    cases hx with
    | here h => cases h
    | there h => cases h
  varInterval := by
    intro x J c h e
    simp only [boolDomain, Lang.mkVar, BoolOp.mkInterval, Interval.new] at h
    subst e
    revert h
    cases c <;> decide

theorem bool_computes : Computes boolDomain (fun o k => k = o.arity) boolOpVal fun e b => e = some b := by
  refine (computes_of_lifts (D := boolDomain) (P := fun _ => True) (fun _ _ _ => rfl) bool_lifts ?_ ?_).mono fun o k h => ⟨h, trivial⟩
  · intro n o args h
    cases o with
    | var x => unfold BoolOp.eval; cases args <;> rfl
    | _ => cases h
  · intro o es vs ho hl _ hf
    have : es = vs.map some := by
      clear hl
      induction hf with
      | nil => rfl
      | cons h _ ih => rw [h, ih]; rfl
    rw [this]
    exact bool_point_total o vs trivial ho hl

theorem bool_initOk : InitOk boolDomain := initProduct_ok rfl

/-! ## Natural numbers -/

theorem nat_varOps : VarOps (O := NatOp) fun o k => k = o.arity := by
  refine ⟨fun s => ⟨rfl, rfl⟩, ?_⟩
  intro o x h
  cases o <;> cases h
  exact ⟨rfl, fun k hk => hk⟩

theorem nat_plain (rnd : Nat → Nat → Nat) : PlainFolding (natDomain rnd) fun o k => k = o.arity where
  custom _ _ := rfl
  varTerms _ := rfl
  const := by
    intro c t h x hx
    simp only [natDomain, NatOp.mkConstant] at h
    split at h
    · cases h
    · cases h
      generalize c.toNat = n at hx
      induction n with
      | zero =>
        cases hx with
        | here h => cases h
        | there h => cases h
      | succ n ih =>
        cases hx with
        | here h => cases h
        | there h hx =>
          rw [List.mem_singleton] at h
          exact ih (h ▸ hx)
  varInterval := by
    intro x J c h e
    simp only [natDomain, Lang.mkVar, NatOp.mkInterval, Interval.new] at h
    subst e
    simp at h

theorem nat_computes (rnd : Nat → Nat → Nat) :
    Computes (natDomain rnd) (fun o k => k = o.arity) natOpVal fun e (v : Nat) => e = some (v : Int) := by
  refine (computes_of_lifts (D := natDomain rnd) (P := fun _ => True) (fun _ _ _ => rfl) nat_lifts ?_ ?_).mono fun o k h => ⟨h, trivial⟩
  · intro n o args h
    cases o with
    | var x => unfold NatOp.eval; cases args <;> rfl
    | _ => cases h
  · intro o es vs ho hl _ hf
    have : es = (vs.map fun v : Nat => (v : Int)).map some := by
      clear hl
      induction hf with
      | nil => rfl
      | cons h _ ih => rw [h, ih]; rfl
    rw [this, nat_point_total o _ trivial ho (by simpa using hl), ← natOp_cast o vs hl]

theorem nat_initOk (rnd : Nat → Nat → Nat) : InitOk (natDomain rnd) := by
  intro vars n tbl _ h
  simp only [natDomain, Option.some.injEq, Prod.mk.injEq] at h
  obtain ⟨rfl, rfl⟩ := h
  refine ⟨?_, ?_⟩
  · rw [List.map_map]
    show (vars.zip (List.range vars.length)).map Prod.fst = vars
    rw [List.map_fst_zip (by simp)]
  · intro p hp
    obtain ⟨q, -, rfl⟩ := List.mem_map.1 hp
    simp

/-! ## Bit vectors -/

section
variable {N : Nat}

theorem bv_varOps : VarOps (O := BvOp N) fun o k => k = o.arity ∧ LitProper o := by
  refine ⟨fun s => ⟨rfl, rfl, trivial⟩, ?_⟩
  intro o x h
  cases o <;> cases h
  exact ⟨rfl, fun k hk => hk.1⟩

theorem bv_plain : PlainFolding (bvDomain N) fun o k => k = o.arity ∧ LitProper o where
  custom _ _ := rfl
  varTerms _ := rfl
  const := by
    intro c t h x hx
    cases h
    cases hx with
    | here h => cases h
    | there h => cases h
  varInterval := by
    intro x J c h e
    simp only [bvDomain, Lang.mkVar, BvOp.mkInterval] at h
    subst e
    simp at h

theorem bv_computes (h : N ≤ 128) : Computes (bvDomain N) (fun o k => k = o.arity ∧ LitProper o) bvOpVal
    fun e v => ∃ w, e = some w ∧ Proper w ∧ bits w = v := by
  refine computes_of_lifts (fun _ _ _ => rfl) BvOp.lifts ?_ ?_
  · intro n o args h
    cases o with
    | var x => unfold BvOp.eval; cases args <;> rfl
    | _ => cases h
  · intro o es vs ho hl hP hf
    have prop := BV.shift_proper (N := N) h
    have one : ∀ o : BvOp N, vs.length = 1 → ∃ w, es = [some w] ∧ Proper w ∧ vs = [bits w] := by
      intro o hl
      obtain ⟨v, rfl⟩ := list_len1 hl
      cases hf with
      | cons h hf =>
      cases hf
      obtain ⟨w, rfl, h1, rfl⟩ := h
      exact ⟨w, rfl, h1, rfl⟩
    have two : ∀ o : BvOp N, vs.length = 2 → ∃ w u, es = [some w, some u] ∧ Proper w ∧ Proper u ∧ vs = [bits w, bits u] := by
      intro o hl
      obtain ⟨v, v', rfl⟩ := list_len2 hl
      cases hf with
      | cons h hf =>
      cases hf with
      | cons h' hf =>
      cases hf
      obtain ⟨w, rfl, h1, rfl⟩ := h
      obtain ⟨u, rfl, h2, rfl⟩ := h'
      exact ⟨w, u, rfl, h1, h2, rfl⟩
    cases o with
    | var x => cases ho
    | lit c =>
      cases list_len0 hl
      cases hf
      exact ⟨c, rfl, hP, rfl⟩
    | neg =>
      obtain ⟨w, rfl, h1, rfl⟩ := one .neg hl
      exact ⟨_, rfl, BV.new_proper h _, BV.ofNat_neg h _⟩
    | not =>
      obtain ⟨w, rfl, h1, rfl⟩ := one .not hl
      exact ⟨_, rfl, BV.new_proper h _, BV.ofNat_not h _⟩
    | add =>
      obtain ⟨w, u, rfl, h1, h2, rfl⟩ := two .add hl
      exact ⟨_, rfl, BV.new_proper h _, BV.ofNat_add h _ _⟩
    | sub =>
      obtain ⟨w, u, rfl, h1, h2, rfl⟩ := two .add hl
      exact ⟨_, rfl, BV.new_proper h _, BV.ofNat_sub h _ _⟩
    | mul =>
      obtain ⟨w, u, rfl, h1, h2, rfl⟩ := two .add hl
      exact ⟨_, rfl, BV.new_proper h _, BV.ofNat_mul h _ _⟩
    | shl =>
      obtain ⟨w, u, rfl, h1, h2, rfl⟩ := two .add hl
      exact ⟨_, rfl, prop.1 _ _, BV.ofNat_shl h _ _ h2⟩
    | shr =>
      obtain ⟨w, u, rfl, h1, h2, rfl⟩ := two .add hl
      exact ⟨_, rfl, prop.2 _ _, BV.ofNat_shr h _ _ h1 h2⟩
    | and =>
      obtain ⟨w, u, rfl, h1, h2, rfl⟩ := two .add hl
      exact ⟨_, rfl, BV.new_proper h _, BV.ofNat_and h _ _⟩
    | or =>
      obtain ⟨w, u, rfl, h1, h2, rfl⟩ := two .add hl
      exact ⟨_, rfl, BV.new_proper h _, BV.ofNat_or h _ _⟩
    | xor =>
      obtain ⟨w, u, rfl, h1, h2, rfl⟩ := two .add hl
      exact ⟨_, rfl, BV.new_proper h _, BV.ofNat_xor h _ _⟩

/-- Constant folding never makes an improper literal. -/
theorem bv_folds_proper (env : String → BitVec N) :
    FoldsIn (bvDomain N) (fun o k => k = o.arity ∧ LitProper o) (withVars env bvOpVal)
      (fun J v => ConstOf bits J v ∧ ∀ c, J.low = some c → Proper c) where
  interval := by
    intro o Js vs J har hm hJ
    refine ⟨(bv_folds N env).interval o Js vs J har.1 (hm.imp fun _ _ h => h.1) hJ, ?_⟩
    intro c hc
    simp only [bvDomain] at hJ
    cases o with
    | lit c' =>
      simp only [BvOp.mkInterval, Interval.new, le_refl, if_true, Option.some.injEq] at hJ
      subst hJ
      cases hc
      exact har.2
    | _ =>
      simp only [BvOp.mkInterval, Option.some.injEq] at hJ
      subst hJ
      cases hc
  join := by
    intro a b c v ha hb h
    refine ⟨ConstOf.join a b c v ha.1 hb.1 h, fun x hx => ?_⟩
    rw [mergeInterval_eq h] at hx
    simp only at hx
    cases hal : a.low with
    | none =>
      cases hbl : b.low with
      | none => rw [hal, hbl] at hx; cases hx
      | some y => rw [hal, hbl] at hx; cases hx; exact hb.2 _ hbl
    | some y =>
      cases hbl : b.low with
      | none => rw [hal, hbl] at hx; cases hx; exact ha.2 _ hal
      | some z =>
        rw [hal, hbl] at hx
        simp only [maxLow, Option.some.injEq] at hx
        subst hx
        rcases max_choice y z with e | e <;> rw [e]
        · exact ha.2 _ hal
        · exact hb.2 _ hbl
  const := by
    intro c v t hm ht
    obtain ⟨h1, h2⟩ := (bv_folds N env).const c v t hm.1 ht
    simp only [bvDomain, Option.some.injEq] at ht
    subst ht
    exact ⟨.node ⟨rfl, hm.2 c rfl⟩ (by simp), h2⟩
  custom := by intro nodes val i _ t h; cases h
  varTerms := by intro x t h; cases h

theorem bvSamples_ne (N : Nat) : bvSamples N ≠ [] := by
  intro h
  have : (BV.min.wrappingAdd (BV.new (BitVec.ofNat 128 0)) : BV N) ∈ bvSamples N := by
    unfold bvSamples
    rw [List.mem_eraseDups, List.mem_mergeSort]
    simp
  rw [h] at this
  cases this

theorem bvSamples_proper (h : N ≤ 128) (w : BV N) (hw : w ∈ bvSamples N) : Proper w := by
  unfold bvSamples at hw
  rw [List.mem_eraseDups, List.mem_mergeSort] at hw
  simp only [List.flatMap_cons, List.flatMap_nil, List.append_nil, List.mem_append, List.mem_cons, List.not_mem_nil,
    or_false] at hw
  rcases hw with (rfl | rfl | rfl | rfl) | rfl | rfl | rfl | rfl <;> exact BV.new_proper h _

theorem bv_initOk : InitOk (bvDomain N) := initProduct_ok rfl

end

/-! ## Rational numbers -/

section
variable {K : Type} [Field K] [LinearOrder K] [IsStrictOrderedRing K]

theorem rational_varOps : VarOps (O := MathOp) fun o k => k = o.arity := by
  refine ⟨fun s => ⟨rfl, rfl⟩, ?_⟩
  intro o x h
  cases o <;> cases h
  exact ⟨rfl, fun k hk => hk⟩

theorem rational_plain (ck : Checked) : PlainFolding (rationalDomain ck) fun o k => k = o.arity where
  custom _ _ := rfl
  varTerms _ := rfl
  const := by
    intro c t h x hx
    cases h
    cases hx with
    | here h => cases h
    | there h => cases h
  varInterval := by
    intro x J c h e
    simp only [rationalDomain, Lang.mkVar, MathOp.mkInterval, MathOp.foldConst, Option.bind_some] at h
    subst e
    simp at h

theorem rational_computes (ck : Checked) (hck : ExactOrNone ck) :
    Computes (rationalDomain ck) (fun o k => k = o.arity) mathOpVal
      fun (e : Option Rat) (v : Option K) => ∀ q, e = some q → v = some (q : K) where
  node := by
    intro n j o args vs cv hj ho har hf h
    have hlen : ∀ {c : CVec Rat}, c.length = n → (∀ q, c[j]? = some (some q) → mathOpVal o vs = some (q : K)) →
        EntryFits n j (fun (e : Option Rat) (v : Option K) => ∀ q, e = some q → v = some (q : K)) c (mathOpVal o vs) := by
      intro c h1 h2
      refine ⟨h1, c[j]'(by omega), List.getElem?_eq_getElem _, fun q hq => h2 q ?_⟩
      rw [List.getElem?_eq_getElem (by omega), hq]
    have get : ∀ {a : CVec Rat} {v : Option K},
        EntryFits n j (fun (e : Option Rat) (v : Option K) => ∀ q, e = some q → v = some (q : K)) a v →
        ∀ x, a[j]? = some (some x) → v = some (x : K) := by
      rintro a v ⟨_, e, h1, h2⟩ x hx
      rw [h1, Option.some.injEq] at hx
      exact h2 x hx
    simp only [rationalDomain] at h
    cases o with
    | var x => cases ho
    | lit c =>
      cases list_len0 har
      cases hf
      simp only [MathOp.eval, Option.some.injEq] at h
      subst h
      refine hlen (by simp) fun q hq => ?_
      rw [List.getElem?_replicate, if_pos hj] at hq
      cases hq
      rfl
    | neg | abs =>
      obtain ⟨v, rfl⟩ := list_len1 har
      cases hf with
      | cons ha hf =>
      cases hf
      simp only [MathOp.eval] at h
      obtain ⟨h1, h2⟩ := cmapP1_get h ha.1
      refine hlen h1 fun q hq => ?_
      obtain ⟨x, e1, e2⟩ := h2 j q hq
      simp only [Option.map_eq_some_iff, Option.some.injEq, exists_eq_right] at e2
      rw [get ha x e1, mathOpVal]
      first
        | rw [hck.neg _ _ e2]; push_cast; rfl
        | rw [hck.abs _ _ e2]; push_cast; rfl
    | add | sub | mul | div =>
      obtain ⟨v, w, rfl⟩ := list_len2 har
      cases hf with
      | cons ha hf =>
      cases hf with
      | cons hb hf =>
      cases hf
      simp only [MathOp.eval, Option.some.injEq] at h
      subst h
      refine hlen (cmap2_length _ ha.1 hb.1) fun q hq => ?_
      rw [cmap2_get _ ha.1 hb.1 hj] at hq
      simp only [Option.some.injEq, Option.bind_eq_some_iff, Option.join_eq_some_iff] at hq
      obtain ⟨x, e1, y, e2, e3⟩ := hq
      rw [get ha x e1, get hb y e2, mathOpVal]
      first
        | rw [hck.add _ _ _ e3]; push_cast; rfl
        | rw [hck.sub _ _ _ e3]; push_cast; rfl
        | rw [hck.mul _ _ _ e3]; push_cast; rfl
        | (obtain ⟨h1, h2⟩ := hck.div _ _ _ e3
           have : (y : K) ≠ 0 := by exact_mod_cast h1
           rw [if_neg this, h2]; push_cast; rfl)
    | ite =>
      obtain ⟨v, w, u, rfl⟩ := list_len3 har
      cases hf with
      | cons ha hf =>
      cases hf with
      | cons hb hf =>
      cases hf with
      | cons hc hf =>
      cases hf
      simp only [MathOp.eval, Option.some.injEq] at h
      subst h
      refine hlen (by simp [ha.1, hb.1, hc.1]) fun q hq => ?_
      rw [List.getElem?_map, Option.map_eq_some_iff] at hq
      obtain ⟨⟨⟨x, y⟩, z⟩, hz, hq⟩ := hq
      rw [List.getElem?_zip_eq_some, List.getElem?_zip_eq_some] at hz
      obtain ⟨⟨hx, hy⟩, hz⟩ := hz
      simp only at hx hy hz hq
      cases x with
      | none => cases hq
      | some x =>
        rw [get ha x hx, mathOpVal]
        simp only at hq
        split at hq
        · rename_i h0
          rw [if_neg (by exact_mod_cast h0)]
          exact get hb q (hq ▸ hy)
        · rename_i h0
          have h0 : x = 0 := not_not.1 h0
          rw [if_pos (by exact_mod_cast h0)]
          exact get hc q (hq ▸ hz)
  var := by
    intro n o args cv ho h
    cases o with
    | var x =>
      simp only [rationalDomain] at h
      unfold MathOp.eval at h
      cases h
      rfl
    | _ => cases ho

theorem rational_initOk (ck : Checked) : InitOk (rationalDomain ck) := initProduct_ok rfl

end

/-! ## Halide -/

theorem halide_varOps : VarOps (O := PredOp) fun o k => k = o.arity := by
  refine ⟨fun s => ⟨rfl, rfl⟩, ?_⟩
  intro o x h
  cases o <;> cases h
  exact ⟨rfl, fun k hk => hk⟩

theorem halide_plain : PlainFolding halideDomain fun o k => k = o.arity where
  custom _ _ := rfl
  varTerms _ := rfl
  const := by
    intro c t h x hx
    cases h
    cases hx with
    | here h => cases h
    | there h => cases h
  varInterval := by
    intro x J c h e
    simp only [halideDomain] at h
    subst e
    simp at h

theorem halide_computes : Computes halideDomain (fun o k => k = o.arity) evalOpVal
    fun e (v : Int) => ∀ q, e = some q → v = q where
  node := by
    intro n j o args vs cv hj ho har hf h
    have hnv : ∀ x, o ≠ .var x := by rintro x rfl; cases ho
    obtain ⟨h1, h2⟩ := pred_eval_get n o args cv hnv (by rw [hf.length_eq, har]) (entries_get hf).1 h
    refine ⟨h1, cv[j]'(by omega), List.getElem?_eq_getElem _, fun q hq => ?_⟩
    obtain ⟨ws, h3, h4⟩ := h2 j q (by rw [List.getElem?_eq_getElem (by omega), hq])
    have : ws = vs := by
      clear hq h h2 h4 har
      induction hf generalizing ws with
      | nil => cases h3; rfl
      | cons ha _ ih =>
        cases h3 with
        | cons hb h3 =>
        obtain ⟨_, e, e1, e2⟩ := ha
        rw [hb, Option.some.injEq] at e1
        rw [e2 _ e1.symm, ih _ h3]
    subst this
    exact (pred_point_val hnv har h4).symm
  var := by
    intro n o args cv ho h
    cases o with
    | var x =>
      simp only [halideDomain] at h
      unfold PredOp.eval at h
      cases h
      rfl
    | _ => cases ho

theorem halide_initOk : InitOk halideDomain := initProduct_ok rfl

end Ruler
