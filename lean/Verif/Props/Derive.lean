import Verif.Proofs.Reach
import Verif.Proofs.Folds
import Verif.Proofs.Ruleset
import Verif.Props.Ruleset
import Verif.Spec.SampleEGraph
/-!
# Derivability: C32, C33, C34
-/
namespace Ruler
open Spec EGraph
variable {O C V : Type} [Lang O] [LinearOrder C] {D : Domain O C} {ar : O → Nat → Prop}

/-! ## C32 -/

theorem deriveStart_reach {R : Rule O → Prop} {E : Egg} {ty : DeriveType} {l r : Tm O} (hl : TmOk ar l) (hr : TmOk ar r)
    {g : EGraph O C} (h : deriveStart D E ty l r = some g) : Reach D ar R g := by
  cases ty with
  | lhs =>
    rw [deriveStart, Option.map_eq_some_iff] at h
    obtain ⟨⟨g1, i⟩, h1, rfl⟩ := h
    exact .addTm .empty hl h1
  | lhsAndRhs =>
    rw [deriveStart, Option.bind_eq_some_iff] at h
    obtain ⟨⟨g1, i⟩, h1, h⟩ := h
    rw [Option.map_eq_some_iff] at h
    obtain ⟨⟨g2, j⟩, h2, rfl⟩ := h
    exact .addTm (.addTm .empty hl h1) hr h2

/-- **C32.** If `can_derive` answers yes — for either derive type, any limits and any choices of egg — then the rule holds
in every algebra `I` in which the rules of the set hold (and in which the domain's constant folding is correct). -/
theorem C32_sound {I : O → List V → V} {mem : Interval C → V → Prop} (hF : ∀ env, FoldsIn D ar (withVars env I) mem)
    (hv : VarsOk (O := O) ar) {rs : Ruleset O} (hR : ∀ q ∈ Ruleset.iter rs, GoodRule ar q ∧ Holds I q)
    {r : Rule O} (hr : GoodRule ar r) {E : Egg} {isSat : Rule O → Bool} {ty : DeriveType} {limits : Limits}
    {t : SchedTrace} (h : Ruleset.canDerive D E isSat ty limits t rs r = some true) : Holds I r := by
  refine holds_of_instantiate hv hr.2.1 hr.2.2 fun env => ?_
  unfold Ruleset.canDerive at h
  rw [Option.bind_eq_some_iff] at h
  obtain ⟨g, hg, h⟩ := h
  rw [Option.bind_eq_some_iff] at h
  obtain ⟨out, ho, h⟩ := h
  rw [Option.map_eq_some_iff] at h
  obtain ⟨i, hi, h⟩ := h
  cases hj : out.lookupTm r.rhs.instantiate with
  | none => rw [hj] at h; cases h
  | some j =>
    rw [hj] at h
    simp only [decide_eq_true_eq] at h
    subst h
    have hreach : Reach D ar (fun q => GoodRule ar q ∧ Holds I q) out :=
      .run (deriveStart_reach (TmOk.instantiate hv hr.1.1) (TmOk.instantiate hv hr.1.2) hg) hR ho
    have : Nonempty V := ⟨env ""⟩
    have hR' : ∀ q, GoodRule ar q ∧ Holds I q → RuleOk ar q ∧ Holds (withVars env I) q :=
      fun q hq => ⟨hq.1.1, Holds.withVars hq.1.2.1 hq.1.2.2 hq.2 env⟩
    obtain ⟨val, hI⟩ := Reach.inv (foldInv (hF env)) (fun _ _ _ h => h) hR' hreach
    have h1 := lookupTm_rep hI _ _ hi
    have h2 := lookupTm_rep hI _ _ hj
    rw [← Rep.val hI _ _ (Rep.lt hI h1.1) h1.1, ← Rep.val hI _ _ (Rep.lt hI h2.1) h2.1]

/-- **C32**, domains without constant folding: an equational consequence, with no assumption about the domain. -/
theorem C32_consequence (hD : NoFold D) (hv : VarsOk (O := O) ar) {rs : Ruleset O}
    (hR : ∀ q ∈ Ruleset.iter rs, GoodRule ar q) {r : Rule O} (hr : GoodRule ar r) {E : Egg} {isSat : Rule O → Bool}
    {ty : DeriveType} {limits : Limits} {t : SchedTrace}
    (h : Ruleset.canDerive D E isSat ty limits t rs r = some true) :
    ∀ (V : Type) (I : O → List V → V), (∀ q ∈ Ruleset.iter rs, Holds I q) → Holds I r :=
  fun _ _ hI => C32_sound (fun _ => NoFold.foldsIn hD ar _) hv (fun q hq => ⟨hR q hq, hI q hq⟩) hr h

/-- **C32**, bit-vectors: a rule derivable from valid rules is valid. -/
theorem C32_bv (N : Nat) {rs : Ruleset (BvOp N)}
    (hR : ∀ q ∈ Ruleset.iter rs, GoodRule (fun o k => k = o.arity) q ∧ Holds bvOpVal q) {r : Rule (BvOp N)}
    (hr : GoodRule (fun o k => k = o.arity) r) {E : Egg} {isSat : Rule (BvOp N) → Bool} {ty : DeriveType}
    {limits : Limits} {t : SchedTrace}
    (h : Ruleset.canDerive (bvDomain N) E isSat ty limits t rs r = some true) : Holds bvOpVal r :=
  C32_sound (bv_folds N) (fun _ => ⟨rfl, rfl⟩) hR hr h

/-- **C32**, Boolean formulas. -/
theorem C32_bool {rs : Ruleset BoolOp}
    (hR : ∀ q ∈ Ruleset.iter rs, GoodRule (fun o k => k = o.arity) q ∧ Holds boolOpVal q) {r : Rule BoolOp}
    (hr : GoodRule (fun o k => k = o.arity) r) {E : Egg} {isSat : Rule BoolOp → Bool} {ty : DeriveType}
    {limits : Limits} {t : SchedTrace}
    (h : Ruleset.canDerive boolDomain E isSat ty limits t rs r = some true) : Holds boolOpVal r :=
  C32_sound bool_folds (fun _ => ⟨rfl, rfl⟩) hR hr h

/-- **C32**, natural numbers. -/
theorem C32_nat (rnd : Nat → Nat → Nat) {rs : Ruleset NatOp}
    (hR : ∀ q ∈ Ruleset.iter rs, GoodRule (fun o k => k = o.arity) q ∧ Holds natOpVal q) {r : Rule NatOp}
    (hr : GoodRule (fun o k => k = o.arity) r) {E : Egg} {isSat : Rule NatOp → Bool} {ty : DeriveType}
    {limits : Limits} {t : SchedTrace}
    (h : Ruleset.canDerive (natDomain rnd) E isSat ty limits t rs r = some true) : Holds natOpVal r :=
  C32_sound (nat_folds rnd) (fun _ => ⟨rfl, rfl⟩) hR hr h

namespace Sample
/-- `(+ (+ ?a ?b) ?c) ==> (+ (+ ?b ?a) ?c)` -/
def commIn : Rule NatOp :=
  ⟨[], .node .add [.node .add [.var "?a", .var "?b"], .var "?c"], .node .add [.node .add [.var "?b", .var "?a"], .var "?c"]⟩
/-- A trace that applies all matches. -/
def trace2 : SchedTrace := { trace with rounds := fun _ => (⟨[], []⟩, ⟨[], [⟨[[0, 1, 2, 3]], [.congr 4]⟩]⟩) }
-- Commutativity derives commutativity under a sum, but not `x + y = x`.
example : Ruleset.canDerive natDom egg (fun _ => false) .lhsAndRhs limits trace2 commRules commIn = some true ∧
    Ruleset.canDerive natDom egg (fun _ => false) .lhs limits trace commRules addComm = some true ∧
    Ruleset.canDerive natDom egg (fun _ => false) .lhsAndRhs limits trace commRules
      ⟨[], .node .add [.var "?a", .var "?b"], .var "?a"⟩ = some false := by decide +kernel
end Sample

/-! ## C33 -/

theorem filter_length_add {α : Type} (f : α → Bool) (l : List α) :
    (l.filter f).length + (l.filter fun x => !f x).length = l.length := by
  induction l with
  | nil => rfl
  | cons e l ih => by_cases hf : f e <;> simp [hf] <;> omega

/-- **C33.** `derive` puts every rule into exactly one of the two sets: into the first if it is derivable, otherwise into
the second; nothing is lost or invented, whatever the order of the parallel evaluation. -/
theorem C33_partition {isSat : Rule O → Bool} {ty : DeriveType} {limits : Limits} {split : Ruleset.Split}
    {eg : Rule O → Egg} {tr : Rule O → SchedTrace} {rs against yes no : Ruleset O} (hw : WellFormed against)
    (h : Ruleset.derive D isSat ty limits split eg tr rs against = some (yes, no)) :
    (∀ r ∈ Ruleset.iter against,
      (r ∈ Ruleset.iter yes ∧ r ∉ Ruleset.iter no ∧ Ruleset.canDerive D (eg r) isSat ty limits (tr r) rs r = some true) ∨
      (r ∉ Ruleset.iter yes ∧ r ∈ Ruleset.iter no ∧ Ruleset.canDerive D (eg r) isSat ty limits (tr r) rs r = some false)) ∧
    (∀ r, r ∈ Ruleset.iter yes ∨ r ∈ Ruleset.iter no → r ∈ Ruleset.iter against) ∧
    yes.length + no.length = against.length := by
  unfold Ruleset.derive at h
  split at h
  · rename_i hall
    rw [List.all_eq_true] at hall
    cases h' : Ruleset.partition split
      (fun r => (Ruleset.canDerive D (eg r) isSat ty limits (tr r) rs r).getD false) against with
    | mk a b =>
    rw [h'] at h
    cases h
    refine ⟨fun r hr => ?_, fun r hr => ?_, ?_⟩
    · have h1 := C17_exactly_one split
        (fun r => (Ruleset.canDerive D (eg r) isSat ty limits (tr r) rs r).getD false) against hw r hr
      rw [h'] at h1
      have h2 := hall r hr
      rw [Option.isSome_iff_exists] at h2
      obtain ⟨b, hb⟩ := h2
      rw [hb] at h1 ⊢
      simpa using h1
    · refine mem_partition split
        (fun r => (Ruleset.canDerive D (eg r) isSat ty limits (tr r) rs r).getD false) against r ?_
      rw [h']
      exact hr
    · rw [C17_partition _ _ _ hw, Prod.mk.injEq] at h'
      rw [← h'.1, ← h'.2]
      exact filter_length_add (fun e : List Char × Rule O =>
        (Ruleset.canDerive D (eg e.2) isSat ty limits (tr e.2) rs e.2).getD false) against
  · cases h

-- One derivable and one underivable rule (told apart by the lengths of their names).
example : (Ruleset.derive Sample.natDom (fun _ => false) .lhsAndRhs Sample.limits (.fork 1 .leaf .leaf)
    (fun _ => Sample.egg) (fun _ => Sample.trace) Sample.commRules
    [("comm".toList, Sample.addComm), ("fst".toList, ⟨"fst".toList, .node .add [.var "?a", .var "?b"], .var "?a"⟩)]).map
      (fun p => (p.1.map fun e => e.1.length, p.2.map fun e => e.1.length)) = some ([4], [3]) := by decide +kernel

/-! ## C34 -/

theorem insertSides_spec {R : Rule O → Prop} (hv : VarsOk (O := O) ar) {E : Egg} (rs : List (Rule O))
    (hr : ∀ r ∈ rs, RuleOk ar r) {g g' : EGraph O C} {l : List (Nat × Nat × Rule O)} (hg : Reach D ar R g)
    (h : insertSides D E rs g = some (g', l)) : Reach D ar R g' ∧ l.map (fun x => x.2.2) = rs := by
  induction rs generalizing g l with
  | nil => cases h; exact ⟨hg, rfl⟩
  | cons r rs ih =>
    rw [insertSides, Option.bind_eq_some_iff] at h
    obtain ⟨⟨g1, i⟩, h1, h⟩ := h
    rw [Option.bind_eq_some_iff] at h
    obtain ⟨⟨g2, j⟩, h2, h⟩ := h
    rw [Option.map_eq_some_iff] at h
    obtain ⟨⟨g3, l'⟩, h3, h⟩ := h
    cases h
    have ho := hr r (by simp)
    obtain ⟨k1, k2⟩ := ih (fun q hq => hr q (by simp [hq]))
      (.addTm (.addTm hg (TmOk.instantiate hv ho.1) h1) (TmOk.instantiate hv ho.2) h2) h3
    exact ⟨k1, by simp [k2]⟩

theorem insertSides_rep {I : O → List V → V} {ok : Signature O C → V → Prop} (hD : DataInv D ar I ok)
    (hv : VarsOk (O := O) ar) {E : Egg} (rs : List (Rule O)) (hr : ∀ r ∈ rs, RuleOk ar r) {g g' : EGraph O C}
    {val : Nat → V} {l : List (Nat × Nat × Rule O)} (hg : Inv ar I ok g val)
    (h : insertSides D E rs g = some (g', l)) :
    ∃ val', Inv ar I ok g' val' ∧ Ext g val g' val' ∧ ∀ x ∈ l, x.1 < g'.n ∧ x.2.1 < g'.n ∧
      val' x.1 = Tm.fold I x.2.2.lhs.instantiate ∧ val' x.2.1 = Tm.fold I x.2.2.rhs.instantiate := by
  induction rs generalizing g val l with
  | nil => cases h; exact ⟨val, hg, Ext.refl _ _, by simp⟩
  | cons r rs ih =>
    rw [insertSides, Option.bind_eq_some_iff] at h
    obtain ⟨⟨g1, i⟩, h1, h⟩ := h
    rw [Option.bind_eq_some_iff] at h
    obtain ⟨⟨g2, j⟩, h2, h⟩ := h
    rw [Option.map_eq_some_iff] at h
    obtain ⟨⟨g3, l'⟩, h3, h⟩ := h
    cases h
    have ho := hr r (by simp)
    obtain ⟨v1, I1, E1, l1, _, e1, _⟩ := addTm_ok hD (TmOk.instantiate hv ho.1) hg h1
    obtain ⟨v2, I2, E2, l2, _, e2, _⟩ := addTm_ok hD (TmOk.instantiate hv ho.2) I1 h2
    obtain ⟨v3, I3, E3, h4⟩ := ih (fun q hq => hr q (by simp [hq])) I2 h3
    refine ⟨v3, I3, Ext.trans hg I1 E1 (Ext.trans I1 I2 E2 E3), ?_⟩
    intro x hx
    rcases List.mem_cons.1 hx with rfl | hx
    · have l1' := Nat.lt_of_lt_of_le l1 E2.n_le
      exact ⟨Nat.lt_of_lt_of_le l1' E3.n_le, Nat.lt_of_lt_of_le l2 E3.n_le,
        by rw [E3.val_eq _ l1', E2.val_eq _ l1, e1], by rw [E3.val_eq _ l2, e2]⟩
    · exact h4 x hx

omit [LinearOrder C] [Lang O] in
theorem foldl_add_filter (f : Nat × Nat × Rule O → Prop) [DecidablePred f] (l : List (Nat × Nat × Rule O))
    (rs : Ruleset O) :
    l.foldl (fun rs x => if f x then rs else Ruleset.add rs x.2.2) rs =
      Ruleset.addAll rs ((l.filter fun x => !decide (f x)).map fun x => x.2.2) := by
  induction l generalizing rs with
  | nil => rfl
  | cons x l ih =>
    rw [List.foldl_cons, ih]
    by_cases h : f x <;> simp [h, Ruleset.addAll]

/-- **C34.** What `shrink` keeps was a candidate, and what it removes holds in every algebra in which the chosen rules hold
(and in which the domain's constant folding is correct) — for every scheduler, limits and choices of egg. -/
theorem C34_sound {I : O → List V → V} {mem : Interval C → V → Prop} (hF : ∀ env, FoldsIn D ar (withVars env I) mem)
    (hv : VarsOk (O := O) ar) {cands chosen rest : Ruleset O} (hw : WellFormed cands)
    (hc : ∀ r ∈ Ruleset.iter cands, GoodRule ar r) (hR : ∀ q ∈ Ruleset.iter chosen, GoodRule ar q ∧ Holds I q)
    {E : Egg} {isSat : Rule O → Bool} {s : Scheduler} {t : SchedTrace}
    (h : Ruleset.shrink D E isSat s t cands chosen = some rest) :
    (∀ r ∈ Ruleset.iter rest, r ∈ Ruleset.iter cands) ∧
    ∀ r ∈ Ruleset.iter cands, r ∉ Ruleset.iter rest → Holds I r := by
  unfold Ruleset.shrink at h
  rw [Option.bind_eq_some_iff] at h
  obtain ⟨⟨g, l⟩, hg, h⟩ := h
  rw [Option.map_eq_some_iff] at h
  obtain ⟨g', hg', h⟩ := h
  simp only at h hg'
  rw [foldl_add_filter (fun x => g'.find x.1 = g'.find x.2.1)] at h
  have hl := (insertSides_spec (R := fun _ => True) hv _ (fun r hr => (hc r hr).1) .empty hg).2
  refine ⟨fun r hr => ?_, fun r hr hn => ?_⟩
  · rw [← h] at hr
    rcases mem_iter_addAll _ _ _ hr with hr | hr
    · simp [Ruleset.iter] at hr
    · obtain ⟨x, hx, rfl⟩ := List.mem_map.1 hr
      rw [← hl]
      exact List.mem_map_of_mem (List.mem_filter.1 hx).1
  · refine holds_of_instantiate hv (hc r hr).2.1 (hc r hr).2.2 fun env => ?_
    obtain ⟨x, hx, rfl⟩ := List.mem_map.1 (hl ▸ hr)
    have heq : g'.find x.1 = g'.find x.2.1 := by
      by_contra hne
      apply hn
      rw [← h, Ruleset.addAll_nodup]
      · simp only [Ruleset.iter, List.nil_append, List.map_map, List.mem_map, Function.comp_apply]
        exact ⟨x, List.mem_filter.2 ⟨hx, by simpa using hne⟩, rfl⟩
      · refine List.Nodup.sublist ((List.filter_sublist.map _).map _) ?_
        rw [hl]
        exact wf_names hw
      · simp
    have hR' : RulesOk ar (withVars env I) (Ruleset.iter chosen) :=
      fun q hq => ⟨(hR q hq).1.1, Holds.withVars (hR q hq).1.2.1 (hR q hq).1.2.2 (hR q hq).2 env⟩
    obtain ⟨v1, I1, _, h1⟩ := insertSides_rep (foldInv (hF env)) hv _ (fun r hr => (hc r hr).1)
      (Inv.empty _ _ _ fun _ => env "") hg
    obtain ⟨⟨v2, I2, E2⟩, _⟩ := run_ok (foldInv (hF env)) hR' I1 hg'
    obtain ⟨l1, l2, e1, e2⟩ := h1 x hx
    have k1 := Nat.lt_of_lt_of_le l1 E2.n_le
    have k2 := Nat.lt_of_lt_of_le l2 E2.n_le
    rw [← e1, ← e2, ← E2.val_eq _ l1, ← E2.val_eq _ l2, ← I2.val_find _ k1, ← I2.val_find _ k2, heq]

/-- **C34**, domains without constant folding: what is removed is an equational consequence of the chosen rules. -/
theorem C34_consequence (hD : NoFold D) (hv : VarsOk (O := O) ar) {cands chosen rest : Ruleset O}
    (hw : WellFormed cands) (hc : ∀ r ∈ Ruleset.iter cands, GoodRule ar r)
    (hR : ∀ q ∈ Ruleset.iter chosen, GoodRule ar q) {E : Egg} {isSat : Rule O → Bool} {s : Scheduler} {t : SchedTrace}
    (h : Ruleset.shrink D E isSat s t cands chosen = some rest) (r : Rule O) (hr : r ∈ Ruleset.iter cands)
    (hn : r ∉ Ruleset.iter rest) :
    ∀ (V : Type) (I : O → List V → V), (∀ q ∈ Ruleset.iter chosen, Holds I q) → Holds I r :=
  fun _ _ hI => (C34_sound (fun _ => NoFold.foldsIn hD ar _) hv hw hc (fun q hq => ⟨hR q hq, hI q hq⟩) h).2 r hr hn

-- Commutativity removes itself and keeps `x + y = x`.
example : (Ruleset.shrink Sample.natDom Sample.egg (fun _ => false) (.simple Sample.limits) Sample.trace
    [("comm".toList, Sample.addComm), ("fst".toList, ⟨"fst".toList, .node .add [.var "?a", .var "?b"], .var "?a"⟩)]
    Sample.commRules).map (fun p => p.map fun e => e.1.length) = some [3] := by decide +kernel

end Ruler
