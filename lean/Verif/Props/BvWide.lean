import Verif.Props.BvCompare
import Verif.Spec.BvWide
/-!
# C42, C77 for widths above 64: literals reach the solver cut to 64 bits

`egg_to_z3` of src/bv.rs:253 passes `c.0 as u64`. What is accepted at such a width, and what tests/bv128.rs reports.
-/
namespace Ruler
open Spec

theorem bv_toSmt_cut {N : Nat} (env : String → BitVec N) (o : BvOp N) (args : List SmtBV)
    (hv : ∀ x, o ≠ .var x) (ha : args.length = o.arity) :
    smtVal N env (o.toSmt args) = cutOpVal o (args.map (smtVal N env)) := by
  cases o with
  | var x => exact absurd rfl (hv x)
  | lit n => have := list_len0 ha; subst this; rfl
  | neg | not =>
    obtain ⟨a, rfl⟩ := list_len1 ha
    rfl
  | add | sub | mul | shl | shr | and | or | xor =>
    obtain ⟨a, b, rfl⟩ := list_len2 ha
    rfl

theorem cutOpVal_narrow {N : Nat} {o : BvOp N} (h : LitNarrow o) (args : List (BitVec N)) : cutOpVal o args = bvOpVal o args := by
  cases o with
  | lit n =>
    cases args with
    | nil => simp only [cutOpVal, bvOpVal, bits]; rw [Nat.mod_eq_of_lt h]
    | cons => rfl
  | _ => rfl

theorem patVal_narrow {N : Nat} {p : Pat (BvOp N)} (h : OnlyOps LitNarrow p) (ρ : String → BitVec N) :
    patVal ρ cutOpVal p = patVal ρ bvOpVal p := by
  induction h with
  | var v => rfl
  | node ho _ ih =>
    rw [patVal_node, patVal_node, cutOpVal_narrow ho]
    congr 1
    exact List.map_congr_left fun a ha => ih a ha

/-- **C42.** At every width: with a solver that is right when it says unsatisfiable, the validator accepts a rule only if the rule holds
for all words once its literals are reduced to their low 64 bits; with a solver that finds out all such equalities, it accepts every such rule.
In particular an accepted rule without literals of `2 ^ 64` or more holds. -/
theorem C42_cut {N : Nat} (check : SmtBV → SmtBV → SatResult) (lhs rhs : PatternAst (BvOp N)) (lp rp : Pat (BvOp N))
    (hl : FlatOf lhs lp) (hr : FlatOf rhs rp) (ls : PatSorted BvOp.arity (fun o => ∀ x, o ≠ .var x) lp)
    (rs : PatSorted BvOp.arity (fun o => ∀ x, o ≠ .var x) rp) {l r : RecExpr (BvOp N)} (hli : lhs.instantiate = some l)
    (hri : rhs.instantiate = some r) :
    (SolverSoundBV N check → bvValidate check lhs rhs = some .valid →
      (∀ ρ : String → BitVec N, patVal ρ cutOpVal lp = patVal ρ cutOpVal rp) ∧
      (OnlyOps LitNarrow lp → OnlyOps LitNarrow rp → ∀ ρ : String → BitVec N, patVal ρ bvOpVal lp = patVal ρ bvOpVal rp)) ∧
    ((∀ a b, (∀ env, smtVal N env a = smtVal N env b) → check a b = .unsat) →
      (∀ ρ : String → BitVec N, patVal ρ cutOpVal lp = patVal ρ cutOpVal rp) → bvValidate check lhs rhs = some .valid) := by
  have e : bvValidate check lhs rhs =
      some (check (Tm.fold BvOp.toSmt lp.instantiate) (Tm.fold BvOp.toSmt rp.instantiate)).toValidation := by
    unfold bvValidate
    rw [hli, hri]
    simp only [Option.bind_some, bvToZ3, run_instantiate _ hl hli, run_instantiate _ hr hri, Option.map_some]
  have v : ∀ (env : String → BitVec N) {p : Pat (BvOp N)}, PatSorted BvOp.arity (fun o => ∀ x, o ≠ .var x) p →
      ∀ ρ : String → BitVec N, (∀ x, env x = ρ ("?" ++ x)) → smtVal N env (Tm.fold BvOp.toSmt p.instantiate) = patVal ρ cutOpVal p :=
    fun env p hp ρ he => fold_instantiate (val := smtVal N env) (env := env) (fun _ => rfl) (fun o args => bv_toSmt_cut _ o args) hp he
  rw [e]
  refine ⟨fun hc hv => ?_, fun hc heq => ?_⟩
  · have hun : check (Tm.fold BvOp.toSmt lp.instantiate) (Tm.fold BvOp.toSmt rp.instantiate) = .unsat := by
      cases hch : check (Tm.fold BvOp.toSmt lp.instantiate) (Tm.fold BvOp.toSmt rp.instantiate) <;> rw [hch] at hv <;>
        first | rfl | cases hv
    have key : ∀ ρ : String → BitVec N, patVal ρ cutOpVal lp = patVal ρ cutOpVal rp := fun ρ => by
      have := hc _ _ hun fun x => ρ ("?" ++ x)
      rwa [v _ ls ρ fun _ => rfl, v _ rs ρ fun _ => rfl] at this
    exact ⟨key, fun h1 h2 ρ => by rw [← patVal_narrow h1, ← patVal_narrow h2]; exact key ρ⟩
  · rw [hc _ _ fun env => ?_]
    · rfl
    · have hx : ∀ x, env x = (fun y : String => env (String.ofList (y.toList.drop 1))) ("?" ++ x) := fun x => by simp
      rw [v env ls (fun y : String => env (String.ofList (y.toList.drop 1))) hx, v env rs (fun y : String => env (String.ofList (y.toList.drop 1))) hx]
      exact heq _

-- An accepted rule with a literal at width 128: `(+ ?a 0) ==> ?a`.
example (check : SmtBV → SmtBV → SatResult) (hc : ∀ a b, (∀ env, smtVal 128 env a = smtVal 128 env b) → check a b = .unsat) :
    bvValidate (N := 128) check [⟨.var "?a", []⟩, ⟨.op (.lit ⟨0⟩), []⟩, ⟨.op .add, [0, 1]⟩] [⟨.var "?a", []⟩] = some .valid :=
  (C42_cut check _ _ (.node .add [.var "?a", .node (.lit ⟨0⟩) []]) (.var "?a") ⟨rfl, by simp⟩ ⟨rfl, by simp⟩
    (.node rfl (by intro x hx; cases hx) fun a ha => by
      rcases List.mem_cons.1 ha with rfl | ha
      · exact .var rfl
      · rw [List.mem_singleton.1 ha]; exact .node rfl (by intro x hx; cases hx) (by simp))
    (.var rfl) rfl rfl).2 hc fun ρ => by simp [patVal, patValL, cutOpVal, bvOpVal]

/-- **C42.** At width 128 rules that hold are rejected: `(& ?a 340282366920938463463374607431768211455) ==> ?a`, all of whose instances hold, is
accepted with no solver that is right. (The literal has all bits set; it is the constant that `(~ 0)` folds to.) -/
theorem C42_wide_rejected (check : SmtBV → SmtBV → SatResult) (hc : SolverSoundBV 128 check) :
    bvValidate (N := 128) check [⟨.var "?a", []⟩, ⟨.op (.lit BV.allOnes), []⟩, ⟨.op .and, [0, 1]⟩] [⟨.var "?a", []⟩] ≠ some .valid ∧
    ∀ ρ : String → BitVec 128, patVal ρ bvOpVal (.node .and [.var "?a", .node (.lit BV.allOnes) []]) = patVal ρ bvOpVal (.var "?a") := by
  refine ⟨fun hv => ?_, fun ρ => ?_⟩
  · have := ((C42_cut check _ _ (.node .and [.var "?a", .node (.lit BV.allOnes) []]) (.var "?a") ⟨rfl, by simp⟩ ⟨rfl, by simp⟩
      (.node rfl (by intro x hx; cases hx) fun a ha => by
        rcases List.mem_cons.1 ha with rfl | ha
        · exact .var rfl
        · rw [List.mem_singleton.1 ha]; exact .node rfl (by intro x hx; cases hx) (by simp))
      (.var rfl) rfl rfl).1 hc hv).1 fun _ => BitVec.ofNat 128 (2 ^ 64)
    revert this
    simp only [patVal, patValL, cutOpVal, bvOpVal]
    decide +kernel
  · simp only [patVal, patValL, bvOpVal]
    have : bits (BV.allOnes : BV 128) = BitVec.allOnes 128 := by decide +kernel
    rw [this, BitVec.and_allOnes]

theorem bv_accepted_cut {N : Nat} {valid : List (Rule (BvOp N)) → Rule (BvOp N) → Bool}
    (ha : AnswersFrom (SolverSoundBV N) bvValidate valid) {q : Rule (BvOp N)}
    (hq : GoodRule (fun o k => k = o.arity ∧ LitProper o) q) {asked : List (Rule (BvOp N))}
    (h : Answered valid asked true q) : Holds cutOpVal q ∧ (RuleUses LitNarrow q → Holds bvOpVal q) := by
  obtain ⟨before, -, hb⟩ := h
  obtain ⟨check, l, r, hc, hl, hr, hv⟩ := ha before q hb
  have key : ∀ o : BvOp N, Lang.toVar o = none → ∀ x, o ≠ .var x := by rintro o h x rfl; cases h
  have hv' := hv
  unfold bvValidate at hv'
  obtain ⟨l', hl', hv'⟩ := Option.bind_eq_some_iff.1 hv'
  obtain ⟨r', hr', -⟩ := Option.bind_eq_some_iff.1 hv'
  have := (C42_cut check l r _ _ hl hr (Schematic.patSorted (fun _ _ h => h.1) key hq.1.1 hq.2.1)
    (Schematic.patSorted (fun _ _ h => h.1) key hq.1.2 hq.2.2) hl' hr').1 hc hv
  exact ⟨this.1, fun h => this.2 h.1 h.2⟩

theorem bv_typed_wide {N : Nat} (hN : N ≤ 128) : Typed (bvDomain N) (fun o k => k = o.arity ∧ LitProper o) (· ≠ BvOp.xor) where
  folds := bv_foldsSorted
  into := ⟨fun c t h => by cases h; exact .node (.inl (by simp)) (by simp), fun _ _ _ h => (by cases h), fun _ _ h => (by cases h)⟩
  vars := bv_varOps.1
  parses := bv_parsesSorted hN
  readable := bv_opsReadable hN

/-- **C77.** The search of tests/bv128.rs, for every width up to 128: every rule that it finds holds once its literals are reduced to 64 bits; so
those without larger literals hold. -/
theorem C77_gen_wide {N m : Nat} (hN : N ≤ 128) {E : Nat → RunEnv (BvOp N) (BV N)} (hE : ∀ k, RunOk (bvDomain N) (E k))
    (ha : ∀ k, AnswersFrom (SolverSoundBV N) bvValidate (E k).min.valid) {out : Ruleset (BvOp N)} (h : bvGenFirst m E = some out) :
    AllRules (fun o k => k = o.arity ∧ LitProper o)
      (fun q => (Holds cutOpVal q ∧ (RuleUses LitNarrow q → Holds bvOpVal q)) ∧ RuleUses (· ≠ .xor) q) out := by
  simp only [bvGenFirst, Option.bind_eq_bind, Option.bind_eq_some_iff, Option.pure_def, Option.some.injEq] at h
  obtain ⟨r5, h5, rfl⟩ := h
  exact AllRules.extend AllRules.nil (AllRules.recursive (bv_typed_wide hN) hE (langCheck_ok (by decide +kernel))
    (langUses_noXor (by decide +kernel) (by decide +kernel)) AllRules.nil h5 fun _ _ h1 _ ⟨k, _, h3⟩ => bv_accepted_cut (ha k) h1 h3)

theorem narrow_widen {M N : Nat} (hM : M ≤ 64) {p : Pat (BvOp M)} (hp : PatOk (fun o k => k = o.arity ∧ LitProper o) p) :
    OnlyOps LitNarrow (patMap (widen (N := N)) p) := by
  induction hp with
  | var => exact .var _
  | @node o args ho _ ih =>
    rw [patMap, patMapL_eq]
    refine .node ?_ fun a ha => ?_
    · cases o with
      | lit n =>
        have h1 : n.val.toNat < 2 ^ M := ho.2
        exact Nat.lt_of_lt_of_le h1 (Nat.pow_le_pow_right (by decide) hM)
      | _ => trivial
    · obtain ⟨b, hb, rfl⟩ := List.mem_map.1 ha; exact ih b hb

/-- **C77.** The comparison of tests/bv128.rs, for every width from 4 to 128: as `C77_compare`, except that of the generated rules only those
without literals of `2 ^ 64` or more are known to hold. The ported rules all do. -/
theorem C77_compare_wide {N m n m' : Nat} (h4 : 4 ≤ N) (hN : N ≤ 128) (hn : 1 ≤ n)
    {E4 : Nat → Nat → RunEnv (BvOp 4) (BV 4)} (hE4 : ∀ i k, RunOk (bvDomain 4) (E4 i k))
    (ha4 : ∀ i k, AnswersFrom (SolverSoundBV 4) bvValidate (E4 i k).min.valid)
    {EN : Nat → RunEnv (BvOp N) (BV N)} (hEN : ∀ k, RunOk (bvDomain N) (EN k))
    (haN : ∀ k, AnswersFrom (SolverSoundBV N) bvValidate (EN k).min.valid)
    {E : DeriveType → DeriveEnv (BvOp N)} (hE : ∀ ty, Numeral (E ty).time)
    {valid : Rule (BvOp N) → Bool} (hv : AnswersFrom (SolverSoundBV N) bvValidate fun _ => valid)
    {split : Ruleset.Split} {vtime domain genTime : List Char} (hvt : Numeral vtime)
    (hgt : Numeral genTime) {f f' : LogFile} {rows : List Json} (hf : Logged f rows) (hr : ∀ r ∈ rows, RowOk r)
    (h : bvCompareFirst m n m' E4 EN E valid split vtime domain genTime f = some f') :
    ∃ row actual gen sound, Logged f' (rows ++ [row]) ∧
      bv4FancySized m n E4 = some actual ∧ bvGenFirst m' EN = some gen ∧
      HasText row ["domain"] domain ∧
      HasTexts row ["from_bv4", "rules"] ((Ruleset.iter sound).map Rule.name) ∧
      HasTexts row ["direct_gen", "rules"] ((Ruleset.iter gen).map Rule.name) ∧
      Ruleset.iter sound = ((Ruleset.iter actual).map widenRule).filter valid ∧
      (∀ r ∈ Ruleset.iter sound, Holds bvOpVal r) ∧ (∀ r ∈ Ruleset.iter gen, RuleUses LitNarrow r → Holds bvOpVal r) ∧
      Reports row ["derivability", "lhs"] gen ((E .lhs).found (bvDomain N) .lhs sound) ∧
      Reports row ["derivability", "lhs_rhs"] gen ((E .lhsAndRhs).found (bvDomain N) .lhsAndRhs sound) := by
  simp only [bvCompareFirst, Option.bind_eq_some_iff] at h
  obtain ⟨actual, h1, ported, h2, gen, h3, h⟩ := h
  have hact := C67_bv4_fancy hn hE4 ha4 h1
  obtain ⟨out, ho, hit, hall⟩ := C77_port h4 hN hact
  rw [h2, Option.some.injEq] at ho
  subst ho
  have hgen := C77_gen_wide hN hEN haN h3
  obtain ⟨row, sound, k1, -, k2, k3, -, k4, k5, -, k6, -, k7, k8⟩ := C76_bv hf hr hgen.named hall.named hvt hgt hE h
  refine ⟨row, actual, gen, sound, k1, h1, h3, k4, k6, k5, by rw [k3, hit], fun r hr => ?_, fun r hr => (hgen.hold r hr).1.2, k7, k8⟩
  rw [k3, List.mem_filter] at hr
  obtain ⟨r4, hr4, rfl⟩ := hall.hold r hr.1
  exact (bv_accepted_cut hv (hall.sorted _ hr.1) (asked := [widenRule r4]) ⟨[], by simp, hr.2⟩).2
    ⟨narrow_widen (by decide) (hact.sorted r4 hr4).1.1, narrow_widen (by decide) (hact.sorted r4 hr4).1.2⟩

end Ruler
