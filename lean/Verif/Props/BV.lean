import Verif.Proofs.BV
import Verif.Proofs.BVText
/-!
# C40-C43: bit-vectors
-/
namespace Ruler
open Spec
variable {N : Nat}

/-- C40: the arithmetic and bitwise operations are the operations on `N`-bit values, for every width up to 128. -/
theorem C40_operations (h : N ≤ 128) (a b : BV N) :
    bits (a.wrappingAdd b) = bits a + bits b ∧ bits (a.wrappingSub b) = bits a - bits b ∧
    bits (a.wrappingMul b) = bits a * bits b ∧ bits a.wrappingNeg = - bits a ∧ bits a.not = ~~~ bits a ∧
    bits (a.and b) = bits a &&& bits b ∧ bits (a.or b) = bits a ||| bits b ∧ bits (a.xor b) = bits a ^^^ bits b :=
  ⟨BV.ofNat_add h a b, BV.ofNat_sub h a b, BV.ofNat_mul h a b, BV.ofNat_neg h a, BV.ofNat_not h a,
    BV.ofNat_and h a b, BV.ofNat_or h a b, BV.ofNat_xor h a b⟩

/-- C40: every result fits in `N` bits. -/
theorem C40_proper (h : N ≤ 128) (a b : BV N) :
    Proper (a.wrappingAdd b) ∧ Proper (a.wrappingSub b) ∧ Proper (a.wrappingMul b) ∧ Proper a.wrappingNeg ∧
    Proper a.not ∧ Proper (a.and b) ∧ Proper (a.or b) ∧ Proper (a.xor b) ∧ Proper (a.shl b) ∧ Proper (a.shr b) := by
  exact ⟨BV.new_proper h _, BV.new_proper h _, BV.new_proper h _, BV.new_proper h _, BV.new_proper h _,
    BV.new_proper h _, BV.new_proper h _, BV.new_proper h _, (BV.shift_proper h).1 _ _, (BV.shift_proper h).2 _ _⟩

/-- C40: a proper value is determined by its bits, and every bit pattern is represented; so the two previous theorems
determine the operations completely. -/
theorem C40_representation (h : N ≤ 128) (v : BitVec N) :
    ∃ a : BV N, (Proper a ∧ bits a = v) ∧ ∀ b : BV N, Proper b → bits b = v → b = a := by
  have hv : v.toNat < 2 ^ 128 := Nat.lt_of_lt_of_le v.isLt (Nat.pow_le_pow_right (by omega) h)
  have hp : Proper (⟨BitVec.ofNat 128 v.toNat⟩ : BV N) := by
    rw [Proper, BitVec.toNat_ofNat, Nat.mod_eq_of_lt hv]; exact v.isLt
  have hb : bits (⟨BitVec.ofNat 128 v.toNat⟩ : BV N) = v := by
    apply BitVec.eq_of_toNat_eq
    rw [BV.toNat_proper hp, BitVec.toNat_ofNat, Nat.mod_eq_of_lt hv]
  exact ⟨_, ⟨hp, hb⟩, fun b hb1 hb2 => BV.bits_inj hb1 hp (hb2.trans hb.symm)⟩

/-- C40: the named constants. `MIN` and `MAX` are the least and greatest signed values. -/
theorem C40_constants (h1 : 1 ≤ N) (h : N ≤ 128) :
    bits (BV.zero : BV N) = 0 ∧ bits (BV.allOnes : BV N) = BitVec.allOnes N ∧
    bits (BV.min : BV N) = BitVec.intMin N ∧ bits (BV.max : BV N) = BitVec.intMax N ∧
    Proper (BV.zero : BV N) ∧ Proper (BV.allOnes : BV N) ∧ Proper (BV.min : BV N) ∧ Proper (BV.max : BV N) := by
  have hpow : 2 ^ N = 2 * 2 ^ (N - 1) := by rw [← Nat.pow_succ']; congr 1; omega
  have hpp : 0 < 2 ^ (N - 1) := Nat.two_pow_pos _
  have hle : 2 ^ N ≤ 2 ^ 128 := Nat.pow_le_pow_right (by omega) h
  have hmin : (BV.min : BV N).val.toNat = 2 ^ (N - 1) := by
    rw [BV.min, BitVec.toNat_shiftLeft, Nat.shiftLeft_eq]
    have : (1 : BitVec 128).toNat = 1 := rfl
    rw [this, Nat.one_mul, Nat.mod_eq_of_lt (by omega)]
  have hmax : (BV.max : BV N).val.toNat = 2 ^ (N - 1) - 1 := by
    rw [BV.max, BitVec.toNat_ushiftRight, BV.allOnes_toNat h, Nat.shiftRight_eq_div_pow]
    omega
  have pall : Proper (BV.allOnes : BV N) := by rw [Proper, BV.allOnes_toNat h]; omega
  have pmin : Proper (BV.min : BV N) := by rw [Proper, hmin]; omega
  have pmax : Proper (BV.max : BV N) := by rw [Proper, hmax]; omega
  refine ⟨BV.zero_bits, ?_, ?_, ?_, ?_, pall, pmin, pmax⟩
  · apply BitVec.eq_of_toNat_eq
    rw [BV.toNat_proper pall, BV.allOnes_toNat h, BitVec.toNat_allOnes]
  · apply BitVec.eq_of_toNat_eq
    rw [BV.toNat_proper pmin, hmin, BitVec.toNat_intMin]
    rw [Nat.mod_eq_of_lt (by omega)]
  · apply BitVec.eq_of_toNat_eq
    rw [BV.toNat_proper pmax, hmax, BitVec.toNat_intMax]
  · simp [Proper, BV.zero, Nat.two_pow_pos]

example : ((⟨15⟩ : BV 4).wrappingAdd ⟨2⟩) = ⟨1⟩ ∧ ((⟨3⟩ : BV 4).wrappingSub ⟨5⟩) = ⟨14⟩ := by decide

/-- C41: shifts are SMT-LIB's, also for amounts of `N` and more. -/
theorem C41_shifts (h : N ≤ 128) (a b : BV N) (ha : Proper a) (hb : Proper b) :
    bits (a.shl b) = bits a <<< bits b ∧ bits (a.shr b) = bits a >>> bits b :=
  ⟨BV.ofNat_shl h a b hb, BV.ofNat_shr h a b ha hb⟩

/-- C41: in numbers: a left shift multiplies modulo `2 ^ N`, a right shift divides, and both give zero when the amount
is `N` or more. -/
theorem C41_numbers (h : N ≤ 128) (a b : BV N) (ha : Proper a) :
    (a.shl b).val.toNat = a.val.toNat * 2 ^ b.val.toNat % 2 ^ N ∧
    (a.shr b).val.toNat = a.val.toNat / 2 ^ b.val.toNat ∧
    (N ≤ b.val.toNat → (a.shl b).val.toNat = 0 ∧ (a.shr b).val.toNat = 0) := by
  have hz : (BV.zero : BV N).val.toNat = 0 := rfl
  refine ⟨?_, ?_, ?_⟩
  · rw [BV.shl]
    split
    · rename_i hge
      have : 2 ^ b.val.toNat = 2 ^ N * 2 ^ (b.val.toNat - N) := by rw [← Nat.pow_add]; congr 1; omega
      rw [hz, this, Nat.mul_left_comm, Nat.mul_mod_right]
    · rw [BV.new_toNat h, BitVec.toNat_shiftLeft, Nat.shiftLeft_eq, Nat.mod_mod_of_dvd _ (BV.dvd128 h)]
  · rw [BV.shr]
    split
    · rename_i hge
      rw [hz, Nat.div_eq_of_lt]
      exact Nat.lt_of_lt_of_le ha (Nat.pow_le_pow_right (by omega) hge)
    · rw [BV.new_toNat h, BitVec.toNat_ushiftRight, Nat.shiftRight_eq_div_pow, Nat.mod_eq_of_lt]
      exact Nat.lt_of_le_of_lt (Nat.div_le_self _ _) ha
  · intro hge
    rw [BV.shl, BV.shr, if_pos hge, if_pos hge]
    exact ⟨rfl, rfl⟩

example : ((⟨9⟩ : BV 4).shl ⟨1⟩) = ⟨2⟩ ∧ ((⟨9⟩ : BV 4).shr ⟨4⟩) = ⟨0⟩ := by decide

/-- C42: the evaluator. At every sample position, the vector computed for an expression holds the value of the
expression (in the `N`-bit semantics) under the assignment of that position. -/
theorem C42_eval (h : N ≤ 128) (t : Tm (BvOp N)) (ws : WellSorted BvOp.arity LitProper t)
    (vars : String → CVec (BV N)) (len : Nat) (σ : Nat → String → BV N)
    (hlen : ∀ x, HasVar x t → (vars x).length = len)
    (hσ : ∀ x, HasVar x t → ∀ i, i < len → (vars x)[i]? = some (some (σ i x)) ∧ Proper (σ i x)) :
    (termCvec (BvOp.eval len) vars t).length = len ∧
    ∀ i, i < len → ∃ v, (termCvec (BvOp.eval len) vars t)[i]? = some (some v) ∧ Proper v ∧
      bits v = bvVal (fun x => bits (σ i x)) t := by
  have hg := termCvec_get (BvOp.lifts len) vars ws hlen
  refine ⟨hg.1, fun i hi => ?_⟩
  obtain ⟨v, h1, h2, h3⟩ := bv_sampleVal h (σ i) ws (fun x hx => (hσ x hx i hi).2)
    (fun x => ((vars x)[i]?).join) (fun x hx => by rw [(hσ x hx i hi).1]; rfl)
  exact ⟨v, by rw [hg.2 i hi, h1], h2, h3⟩

/-- C42: the translation to SMT computes the value of the expression, for widths up to 64. -/
theorem C42_translation (h : N ≤ 64) (e : RecExpr (BvOp N)) (t : Tm (BvOp N)) (he : e.tree = some t)
    (ws : WellSorted BvOp.arity (fun _ => True) t) :
    ∃ s, bvToZ3 e = some s ∧ ∀ env, smtVal N env s = bvVal env t := by
  exact ⟨Tm.fold BvOp.toSmt t, by rw [bvToZ3, RecExpr.run_eq_tree, he]; rfl, fun env => bv_fold_toSmt h env t ws⟩

/-- C42: with a sound solver, a rule the validator accepts holds for all values of its variables, for widths up to
64. Patterns contain no program variables (rules are generalised before they are validated). -/
theorem C42_valid (h : N ≤ 64) (check : SmtBV → SmtBV → SatResult) (hc : SolverSoundBV N check)
    (lhs rhs : PatternAst (BvOp N)) (lp rp : Pat (BvOp N)) (hl : FlatOf lhs lp) (hr : FlatOf rhs rp)
    (ls : PatSorted BvOp.arity (fun o => ∀ x, o ≠ .var x) lp) (rs : PatSorted BvOp.arity (fun o => ∀ x, o ≠ .var x) rp)
    (hv : bvValidate check lhs rhs = some .valid) (ρ : String → BitVec N) :
    patVal ρ bvOpVal lp = patVal ρ bvOpVal rp := by
  unfold bvValidate at hv
  cases hli : lhs.instantiate with
  | none => rw [hli] at hv; cases hv
  | some l =>
  cases hri : rhs.instantiate with
  | none => rw [hli, hri] at hv; cases hv
  | some r =>
  rw [hli, hri] at hv
  simp only [Option.bind_some, bvToZ3, run_instantiate _ hl hli, run_instantiate _ hr hri, Option.map_some,
    Option.some.injEq] at hv
  have hun : check (Tm.fold BvOp.toSmt lp.instantiate) (Tm.fold BvOp.toSmt rp.instantiate) = .unsat := by
    cases hch : check (Tm.fold BvOp.toSmt lp.instantiate) (Tm.fold BvOp.toSmt rp.instantiate) <;> rw [hch] at hv <;>
      first | rfl | cases hv
  have := hc _ _ hun fun x => ρ ("?" ++ x)
  rwa [fold_instantiate (val := smtVal N fun x => ρ ("?" ++ x)) (env := fun x => ρ ("?" ++ x))
      (fun _ => rfl) (fun o args => bv_toSmt_val h _ o args) ls (fun _ => rfl),
    fold_instantiate (val := smtVal N fun x => ρ ("?" ++ x)) (env := fun x => ρ ("?" ++ x))
      (fun _ => rfl) (fun o args => bv_toSmt_val h _ o args) rs (fun _ => rfl)] at this

/-- C42 fails for widths above 64: literals are cut to 64 bits, so a solver that answers correctly makes the validator
accept the rule `18446744073709551616 ==> 0` at width 128. -/
theorem C42_wide_literals (check : SmtBV → SmtBV → SatResult)
    (hc : ∀ a b, (∀ env, smtVal 128 env a = smtVal 128 env b) → check a b = .unsat) :
    bvValidate (N := 128) check [⟨.op (.lit ⟨18446744073709551616⟩), []⟩] [⟨.op (.lit ⟨0⟩), []⟩] = some .valid ∧
    ∀ ρ : String → BitVec 128, patVal ρ bvOpVal (.node (.lit ⟨18446744073709551616⟩) []) ≠
      patVal ρ bvOpVal (.node (.lit ⟨0⟩) []) := by
  refine ⟨?_, fun ρ => by simp only [patVal, patValL, bvOpVal, bits]; decide⟩
  have := hc (.num 0) (.num 0) fun _ => rfl
  have e : bvValidate (N := 128) check [⟨.op (.lit ⟨18446744073709551616⟩), []⟩] [⟨.op (.lit ⟨0⟩), []⟩] =
      some (check (.num 0) (.num 0)).toValidation := by rfl
  rw [e, this]
  rfl

/-- `(+ ?a ?b)` and `(+ ?b ?a)` as flat patterns. -/
example : FlatOf (O := BvOp 8) [⟨.var "?a", []⟩, ⟨.var "?b", []⟩, ⟨.op .add, [0, 1]⟩]
    (.node .add [.var "?a", .var "?b"]) ∧
    PatSorted BvOp.arity (fun o => ∀ x, o ≠ .var x) (.node (.add : BvOp 8) [.var "?a", .var "?b"]) := by
  refine ⟨⟨rfl, by simp⟩, .node rfl (by intro x hx; cases hx) ?_⟩
  intro a ha
  rcases List.mem_cons.1 ha with rfl | ha
  · exact .var rfl
  · rw [List.mem_singleton.1 ha]; exact .var rfl

/-- C43: printing and reading gives the same value. -/
theorem C43_roundtrip (h : N ≤ 128) (x : BV N) (hx : Proper x) : BV.parse (N := N) x.display = some (some x) := by
  obtain ⟨ds, h1, h2, h3⟩ := BV.decimal_digits x.val.toNat
  have hp := BV.parseNat_digits 10 (by omega) _ ds h1 h2
  rw [h3, if_pos x.val.isLt] at hp
  have hnew : BV.new (N := N) (BitVec.ofNat 128 x.val.toNat) = x := by
    apply BV.bits_inj (BV.new_proper h _) hx
    rw [BV.bits_new h, BitVec.toNat_ofNat, Nat.mod_eq_of_lt x.val.isLt]
    rfl
  rw [BV.display, BV.parse]
  · rw [hp, Option.map_some, hnew]
  · intro rest hrest
    rw [hrest] at h1
    cases ds with
    | nil => cases h1
    | cons d ds => exact (BV.digit_not_plus (List.cons.inj h1).1).2 rfl

/-- C43: reading a decimal numeral gives its value modulo `2 ^ N`, or an error if the value needs more than 128
bits. -/
theorem C43_decimal (h : N ≤ 128) (cs : List Char) (ds : List Nat) (hne : ds ≠ [])
    (hcs : cs.map (BV.digitVal 10) = ds.map some) :
    (∀ v, v = ds.foldl (fun a d => a * 10 + d) 0 → v < 2 ^ 128 →
      ∃ x : BV N, BV.parse cs = some (some x) ∧ x.val.toNat = v % 2 ^ N) ∧
    (2 ^ 128 ≤ ds.foldl (fun a d => a * 10 + d) 0 → BV.parse (N := N) cs = some none) := by
  have hp := BV.parseNat_digits 10 (by omega) _ ds hcs hne
  have hparse : BV.parse (N := N) cs = some ((BV.parseNat 10 cs).map fun i => BV.new (BitVec.ofNat 128 i)) := by
    rw [BV.parse]
    intro rest hrest
    rw [hrest] at hcs
    cases ds with
    | nil => cases hcs
    | cons d ds => exact (BV.digit_not_plus (List.cons.inj hcs).1).2 rfl
  constructor
  · rintro v rfl hv
    rw [if_pos hv] at hp
    refine ⟨_, by rw [hparse, hp]; rfl, ?_⟩
    rw [BV.new_toNat h, BitVec.toNat_ofNat, Nat.mod_eq_of_lt hv]
  · intro hv
    rw [hparse, hp, if_neg (by omega)]
    rfl

/-- C43: reading a binary numeral gives its value modulo `2 ^ N`; a numeral that needs more than 128 bits, or with a
character that is neither a binary digit nor a leading plus sign, is a panic rather than an error. -/
theorem C43_binary (h : N ≤ 128) (cs : List Char) :
    (∀ ds : List Nat, ds ≠ [] → cs.map (BV.digitVal 2) = ds.map some →
      ds.foldl (fun a d => a * 2 + d) 0 < 2 ^ 128 →
      ∃ x : BV N, BV.parse ('#' :: 'b' :: cs) = some (some x) ∧
        x.val.toNat = ds.foldl (fun a d => a * 2 + d) 0 % 2 ^ N) ∧
    (∀ ds : List Nat, ds ≠ [] → cs.map (BV.digitVal 2) = ds.map some →
      2 ^ 128 ≤ ds.foldl (fun a d => a * 2 + d) 0 → BV.parse (N := N) ('#' :: 'b' :: cs) = none) ∧
    (cs.head? ≠ some '+' → (∃ c ∈ cs, BV.digitVal 2 c = none) → BV.parse (N := N) ('#' :: 'b' :: cs) = none) := by
  refine ⟨?_, ?_, ?_⟩
  · intro ds hne hcs hv
    have hp := BV.parseNat_digits 2 (by omega) _ ds hcs hne
    rw [if_pos hv] at hp
    refine ⟨_, by rw [BV.parse, hp]; rfl, ?_⟩
    rw [BV.new_toNat h, BitVec.toNat_ofNat, Nat.mod_eq_of_lt hv]
  · intro ds hne hcs hv
    have hp := BV.parseNat_digits 2 (by omega) _ ds hcs hne
    rw [BV.parse, hp, if_neg (by omega)]
    rfl
  · intro hplus hbad
    have hd := BV.digitsVal_bad 2 cs 0 hbad
    cases cs with
    | nil => rfl
    | cons c cs =>
      have hc : c ≠ '+' := fun e => hplus (by rw [e]; rfl)
      rw [BV.parse, BV.parseNat_cons 2 hc, hd]
      rfl

example : BV.parse (N := 4) "19".toList = some (some ⟨3⟩) ∧ BV.parse (N := 4) "#b101".toList = some (some ⟨5⟩) ∧
    BV.parse (N := 4) "#bxyz".toList = none := by
  refine ⟨by rfl, by rfl, by rfl⟩

end Ruler
