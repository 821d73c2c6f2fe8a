import Verif.Props.Vectors
/-!
# C63: which values the variables take in the samples of Halide and bit-vectors
-/
namespace Ruler
open Spec EGraph

/-- **C63 (Halide).** Every assignment of the numbers -10, -1, 0, 1, 2, 5 and 100 to the variables is one of the samples, at the same
position in all vectors. -/
theorem C63_halide_samples {R : Rule PredOp → Prop} {E : Egg}
    (hR : ∀ r, R r → GoodRule (fun o k => k = o.arity) r ∧ Holds evalOpVal r) {ts : List (Tm PredOp)}
    (hts : ∀ t ∈ ts, TmOk (fun o k => k = o.arity) t) {g0 : EGraph PredOp Int}
    (h0 : termsToEGraph halideDomain E ts = some g0) :
    ∃ X, VarsOf ts X ∧ ∀ env : String → Int,
      (∀ x ∈ X, env x = -10 ∨ env x = -1 ∨ env x = 0 ∨ env x = 1 ∨ env x = 2 ∨ env x = 5 ∨ env x = 100) →
      ∃ j, ∀ g, Grows halideDomain (fun o k => k = o.arity) R X g0 g → ∀ i t, Rep g t i →
        j < (g.cvecOf i).length ∧ ∀ q, (g.cvecOf i)[j]? = some (some q) → tmVal env evalOpVal t = q := by
  obtain ⟨X, n, tbl, h1, h2, h3⟩ := C63_halide hR hts h0
  refine ⟨X, h1, fun env he => ?_⟩
  obtain ⟨j, hj, hs⟩ := initProduct_sampleAt (fits := fun e (v : Int) => e = some v) h1.1 h2 env (by
    intro x hx
    rcases he x hx with h | h | h | h | h | h | h <;> rw [h] <;> exact ⟨_, by simp [halideSamples], rfl⟩)
  refine ⟨j, fun g hg i t ht => ?_⟩
  obtain ⟨k1, k2⟩ := h3 g hg i t ht j env hj fun p hp => by
    obtain ⟨e, he, rfl⟩ := hs p hp
    exact ⟨_, he, fun q hq => Option.some.inj hq⟩
  exact ⟨by omega, k2⟩

theorem bits_min {N : Nat} (h0 : 0 < N) (hN : N ≤ 128) : bits (BV.min : BV N) = BitVec.intMin N := by
  apply BitVec.eq_of_toNat_eq
  have h2 : 2 ^ (N - 1) < 2 ^ 128 := Nat.pow_lt_pow_right (by omega) (by omega)
  have h3 : 2 ^ (N - 1) < 2 ^ N := Nat.pow_lt_pow_right (by omega) (by omega)
  have e : (BV.min : BV N).val.toNat = 2 ^ (N - 1) := by
    show ((1 : BitVec 128) <<< (N - 1)).toNat = _
    rw [BitVec.toNat_shiftLeft, Nat.shiftLeft_eq]
    show 1 * 2 ^ (N - 1) % 2 ^ 128 = _
    rw [one_mul, Nat.mod_eq_of_lt h2]
  rw [BV.bits_toNat, e, BitVec.toNat_intMin, Nat.mod_eq_of_lt h3]

theorem bits_max {N : Nat} (h0 : 0 < N) (hN : N ≤ 128) : bits (BV.max : BV N) = BitVec.intMax N := by
  apply BitVec.eq_of_toNat_eq
  have h3 : 2 ^ N = 2 * 2 ^ (N - 1) := by rw [← Nat.pow_succ']; congr 1; omega
  have hp : 0 < 2 ^ (N - 1) := Nat.pow_pos (by omega)
  have e : (BV.max : BV N).val.toNat = 2 ^ (N - 1) - 1 := by
    show ((BV.allOnes (N := N)).val >>> 1).toNat = _
    rw [BitVec.toNat_ushiftRight, BV.allOnes_toNat hN, Nat.shiftRight_eq_div_pow]
    omega
  rw [BV.bits_toNat, e, BitVec.toNat_intMax, Nat.mod_eq_of_lt (by omega)]

/-- **C63 (bit-vectors).** Every assignment of 0, 1, -1, the least number and its successor, the greatest number and its predecessor to the
variables is one of the samples. In particular terms with equal vectors are equal under all these assignments. -/
theorem C63_bv_samples {N : Nat} (hN0 : 0 < N) (hN : N ≤ 128) {R : Rule (BvOp N) → Prop} {E : Egg}
    (hR : ∀ r, R r → GoodRule (fun o k => k = o.arity ∧ LitProper o) r ∧ Holds bvOpVal r) {ts : List (Tm (BvOp N))}
    (hts : ∀ t ∈ ts, TmOk (fun o k => k = o.arity ∧ LitProper o) t) {g0 : EGraph (BvOp N) (BV N)}
    (h0 : termsToEGraph (bvDomain N) E ts = some g0) :
    ∃ X, VarsOf ts X ∧ ∀ env : String → BitVec N, (∀ x ∈ X, env x = 0 ∨ env x = 1 ∨ env x = -1 ∨ env x = BitVec.intMin N ∨
        env x = BitVec.intMin N + 1 ∨ env x = BitVec.intMax N ∨ env x = BitVec.intMax N - 1) →
      ∃ j : Nat, ∀ g, Grows (bvDomain N) (fun o k => k = o.arity ∧ LitProper o) R X g0 g → ∀ i t, Rep g t i →
        ∃ w, (g.cvecOf i)[j]? = some (some w) ∧ Proper w ∧ bits w = tmVal env bvOpVal t := by
  obtain ⟨X, n, tbl, h1, h2, h3⟩ := C63_bv hN hR hts h0
  refine ⟨X, h1, fun env he => ?_⟩
  have z : bits (BV.new (BitVec.ofNat 128 0) : BV N) = 0 := by rw [BV.bits_new hN]; rfl
  have o : bits (BV.new (BitVec.ofNat 128 1) : BV N) = 1 := by rw [BV.bits_new hN]; rfl
  have mem : ∀ w : BV N, w ∈ ([0, 1].flatMap fun i : Nat =>
      [BV.min.wrappingAdd (.new (BitVec.ofNat 128 i)), BV.max.wrappingSub (.new (BitVec.ofNat 128 i)), .new (BitVec.ofNat 128 i),
        (BV.new (BitVec.ofNat 128 i)).wrappingNeg] : List (BV N)) → w ∈ bvSamples N := fun w hw => by
    unfold bvSamples
    rw [List.mem_eraseDups, List.mem_mergeSort]
    exact hw
  obtain ⟨j, hj, hs⟩ := initProduct_sampleAt (fits := fun e (v : BitVec N) => ∃ w, e = some w ∧ Proper w ∧ bits w = v) h1.1 h2 env (by
    intro x hx
    have key : ∀ w : BV N, w ∈ bvSamples N → bits w = env x → ∃ c ∈ (bvSamples N).map some, ∃ w, c = some w ∧ Proper w ∧ bits w = env x :=
      fun w hw h => ⟨some w, List.mem_map_of_mem hw, w, rfl, bvSamples_proper hN w hw, h⟩
    rcases he x hx with h | h | h | h | h | h | h
    · exact key _ (mem (.new (BitVec.ofNat 128 0)) (by simp)) (z.trans h.symm)
    · exact key _ (mem (.new (BitVec.ofNat 128 1)) (by simp)) (o.trans h.symm)
    · exact key _ (mem (BV.new (BitVec.ofNat 128 1)).wrappingNeg (by simp)) (by rw [BV.ofNat_neg hN, o, h])
    · exact key _ (mem (BV.min.wrappingAdd (.new (BitVec.ofNat 128 0))) (by simp))
        (by rw [BV.ofNat_add hN, bits_min hN0 hN, z, h]; simp)
    · exact key _ (mem (BV.min.wrappingAdd (.new (BitVec.ofNat 128 1))) (by simp)) (by rw [BV.ofNat_add hN, bits_min hN0 hN, o, h])
    · exact key _ (mem (BV.max.wrappingSub (.new (BitVec.ofNat 128 0))) (by simp))
        (by rw [BV.ofNat_sub hN, bits_max hN0 hN, z, h]; simp)
    · exact key _ (mem (BV.max.wrappingSub (.new (BitVec.ofNat 128 1))) (by simp)) (by rw [BV.ofNat_sub hN, bits_max hN0 hN, o, h]))
  refine ⟨j, fun g hg i t ht => ?_⟩
  obtain ⟨k1, w, k2⟩ := h3 g hg i t ht j env hj fun p hp => by
    obtain ⟨e, he, w, rfl, hw⟩ := hs p hp
    exact ⟨w, he, hw⟩
  exact ⟨w, k2⟩

-- A workload of one sum: its vector holds 5 + -10 where x is 5 and y is -10.
example : ∃ g0, termsToEGraph halideDomain Sample.egg [.node PredOp.add [.node (.var "x") [], .node (.var "y") []]] = some g0 ∧
    ∃ j : Nat, (g0.cvecOf 2)[j]? = some (some (-5)) := by
  have h : ((termsToEGraph halideDomain Sample.egg [.node PredOp.add [.node (.var "x") [], .node (.var "y") []]]).map fun g =>
      (g.cvecOf 2).contains (some (-5))) = some true := by decide +kernel
  obtain ⟨g0, h0, h⟩ := Option.map_eq_some_iff.1 h
  refine ⟨g0, h0, ?_⟩
  have := List.contains_iff_mem.1 h
  obtain ⟨j, hj, e⟩ := List.mem_iff_getElem.1 this
  exact ⟨j, by rw [List.getElem?_eq_getElem hj, e]⟩

-- The hypotheses of `C63_halide_samples` hold for this workload; the e-graph may be extended by further terms.
example : ∃ g0 : EGraph PredOp Int, ∃ X, termsToEGraph halideDomain Sample.egg [.node PredOp.add [.node (.var "x") [], .node (.var "y") []]] = some g0 ∧
    ∃ j : Nat, ∀ g, Grows halideDomain (fun o k => k = o.arity) (fun _ => False) X g0 g → ∀ i t, Rep g t i →
      ∀ q, (g.cvecOf i)[j]? = some (some q) → tmVal (fun x => if x = "x" then 5 else -10) evalOpVal t = q := by
  obtain ⟨g0, h0⟩ := Option.isSome_iff_exists.1 (show (termsToEGraph halideDomain Sample.egg
    [.node PredOp.add [.node (.var "x") [], .node (.var "y") []]]).isSome = true by decide +kernel)
  obtain ⟨X, -, h⟩ := C63_halide_samples (R := fun _ => False) (fun _ h => h.elim) (fun t ht => by
    rw [List.mem_singleton.1 ht]
    refine .node rfl fun a ha => ?_
    simp only [List.mem_cons, List.not_mem_nil, or_false] at ha
    rcases ha with rfl | rfl <;> exact .node rfl fun a ha => by cases ha) h0
  obtain ⟨j, hj⟩ := h (fun x => if x = "x" then 5 else -10) fun x _ => by split <;> simp
  exact ⟨g0, X, h0, j, fun g hg i t hr => (hj g hg i t hr).2⟩

end Ruler
