import Verif.Spec.Vectors
import Verif.Proofs.VectorDomains
import Verif.Spec.SampleEGraph
import Verif.Model.Candidates
import Verif.Props.Saturation
/-!
# C63: the characteristic vectors in an e-graph are right
-/
namespace Ruler
open Spec

section
variable {O C V : Type} [Lang O] [LinearOrder C]
variable {D : Domain O C} {ar : O → Nat → Prop} {I : O → List V → V} {mem : Interval C → V → Prop}
variable {fits : Option C → V → Prop} {R : Rule O → Prop} {E : Egg}

/-- **C63.** Let an e-graph be made from terms and then grow by adding terms over the same variables, rebuilding, and
running rules that hold in the algebra, under any scheduler. In every class, position `j` of the class's vector fits the
value of every term of the class, in every environment whose values fit position `j` of the vectors that
`initialize_vars` assigned. -/
theorem C63_vectors [Nonempty V] (hF : ∀ env, FoldsIn D ar (withVars env I) mem) (hP : PlainFolding D ar)
    (hv : VarOps (O := O) ar) (hC : Computes D ar I fits) (hI : InitOk D)
    (hR : ∀ r, R r → GoodRule ar r ∧ Holds I r) {ts : List (Tm O)} (hts : ∀ t ∈ ts, TmOk ar t) {g0 : EGraph O C}
    (h0 : termsToEGraph D E ts = some g0) :
    ∃ X n tbl, VarsOf ts X ∧ D.initVars X = some (n, tbl) ∧ tbl.map Prod.fst = X ∧
      ∀ g, Grows D ar R X g0 g → ∀ i t, Rep g t i → ∀ j env, j < n → SampleAt fits tbl j env →
        EntryFits n j fits (g.cvecOf i) (tmVal env I t) := by
  have h := h0
  rw [termsToEGraph, Option.bind_eq_some_iff] at h
  obtain ⟨g1, h1, -⟩ := h
  rw [initializeVars, Option.bind_eq_some_iff] at h1
  obtain ⟨⟨n, tbl⟩, hinit, -⟩ := h1
  refine ⟨collectVars ts, n, tbl, collectVars_spec ts, hinit, (hI _ n tbl (collectVars_nodup ts) hinit).1, ?_⟩
  intro g hg i t hr j env hj hs
  obtain ⟨val, hInv⟩ := termsToEGraph_vec (hF env) hP hv hC hts hinit hI hj hs h0
  obtain ⟨val', hInv'⟩ := Grows.vec (hF env) hP hv hC hj hR hInv hg
  have hi := Rep.lt hInv' hr
  have := (hInv'.data_ok i hi).2
  rw [Rep.val hInv' t i hi hr] at this
  exact this

/-- **C63.** In such an e-graph, merging the data of two classes with equal terms fails neither at the assertion that the
vectors agree nor because the intervals exclude each other — provided a defined sample and an interval determine the value
they stand for as far as `fits` and `mem` say. -/
theorem C63_merge [Nonempty V] (hF : ∀ env, FoldsIn D ar (withVars env I) mem) (hP : PlainFolding D ar)
    (hv : VarOps (O := O) ar) (hC : Computes D ar I fits) (hI : InitOk D)
    (hfun : ∀ a b v, fits (some a) v → fits (some b) v → a = b)
    (hjoin : ∀ a b v, mem a v → mem b v → (mergeInterval a b).isSome)
    (hpos : ∀ X n tbl, X.Nodup → D.initVars X = some (n, tbl) → 0 < n ∧ ∀ j, j < n → ∃ env, SampleAt fits tbl j env)
    (hR : ∀ r, R r → GoodRule ar r ∧ Holds I r) {ts : List (Tm O)} (hts : ∀ t ∈ ts, TmOk ar t) {g0 : EGraph O C}
    (h0 : termsToEGraph D E ts = some g0) :
    ∃ X, VarsOf ts X ∧ ∀ g, Grows D ar R X g0 g → ∀ i k t u, Rep g t i → Rep g u k →
      (∀ env, tmVal env I t = tmVal env I u) →
      (mergeCvec (g.cvecOf i) (g.cvecOf k)).isSome ∧
        (mergeInterval (g.dataOf i).interval (g.dataOf k).interval).isSome := by
  have h := h0
  rw [termsToEGraph, Option.bind_eq_some_iff] at h
  obtain ⟨g1, h1, -⟩ := h
  rw [initializeVars, Option.bind_eq_some_iff] at h1
  obtain ⟨⟨n, tbl⟩, hinit, -⟩ := h1
  refine ⟨collectVars ts, collectVars_spec ts, fun g hg i k t u ht hu heq => ?_⟩
  obtain ⟨hn, hs⟩ := hpos _ _ _ (collectVars_nodup ts) hinit
  have key : ∀ j env, j < n → SampleAt fits tbl j env → ∃ v, VecOk mem n j fits (g.dataOf i) v ∧
      VecOk mem n j fits (g.dataOf k) v := by
    intro j env hj hs
    obtain ⟨val, hInv⟩ := termsToEGraph_vec (hF env) hP hv hC hts hinit hI hj hs h0
    obtain ⟨val', hInv'⟩ := Grows.vec (hF env) hP hv hC hj hR hInv hg
    have hi := Rep.lt hInv' ht
    have hk := Rep.lt hInv' hu
    have d1 := hInv'.data_ok i hi
    have d2 := hInv'.data_ok k hk
    rw [Rep.val hInv' t i hi ht] at d1
    rw [Rep.val hInv' u k hk hu] at d2
    refine ⟨_, d1, ?_⟩
    have := heq env
    rw [← tmVal_eq_fold, ← tmVal_eq_fold] at this
    rw [this]
    exact d2
  constructor
  · rw [Option.isSome_iff_exists]
    obtain ⟨env, he⟩ := hs 0 hn
    obtain ⟨v, h1, h2⟩ := key 0 env hn he
    refine mergeCvec_succeeds (h1.2.1.trans h2.2.1.symm) fun j x y hx hy => ?_
    have hj : j < n := by
      rw [← h1.2.1]
      exact (List.getElem?_eq_some_iff.1 hx).1
    obtain ⟨env, he⟩ := hs j hj
    obtain ⟨v, ⟨-, -, e1, k1, k2⟩, -, -, e2, k3, k4⟩ := key j env hj he
    have hx' : (g.dataOf i).cvec[j]? = some (some x) := hx
    have hy' : (g.dataOf k).cvec[j]? = some (some y) := hy
    rw [k1, Option.some.injEq] at hx'
    rw [k3, Option.some.injEq] at hy'
    exact hfun x y v (hx' ▸ k2) (hy' ▸ k4)
  · obtain ⟨env, he⟩ := hs 0 hn
    obtain ⟨v, h1, h2⟩ := key 0 env hn he
    exact hjoin _ _ v h1.1 h2.1

end

/-- **C63 (Bool).** Every entry of a class's vector is defined and is the value of every formula of the class under the
assignment of that position. -/
theorem C63_bool {R : Rule BoolOp → Prop} {E : Egg}
    (hR : ∀ r, R r → GoodRule (fun o k => k = o.arity) r ∧ Holds boolOpVal r) {ts : List (Tm BoolOp)}
    (hts : ∀ t ∈ ts, TmOk (fun o k => k = o.arity) t) {g0 : EGraph BoolOp Bool}
    (h0 : termsToEGraph boolDomain E ts = some g0) :
    ∃ X n tbl, VarsOf ts X ∧ initProduct boolSamples X = some (n, tbl) ∧
      ∀ g, Grows boolDomain (fun o k => k = o.arity) R X g0 g → ∀ i t, Rep g t i → ∀ j env, j < n →
        (∀ p ∈ tbl, p.2[j]? = some (some (env p.1))) →
        (g.cvecOf i).length = n ∧ (g.cvecOf i)[j]? = some (some (boolVal env t)) := by
  obtain ⟨X, n, tbl, h1, h2, -, h3⟩ := C63_vectors bool_folds bool_plain bool_varOps bool_computes bool_initOk hR hts h0
  refine ⟨X, n, tbl, h1, h2, fun g hg i t hr j env hj hs => ?_⟩
  obtain ⟨k1, e, k2, rfl⟩ := h3 g hg i t hr j env hj fun p hp => ⟨_, hs p hp, rfl⟩
  exact ⟨k1, k2⟩

/-- **C63 (Bool).** Two classes have the same vector exactly when their formulas are equivalent — however the e-graph was
obtained from the workload. -/
theorem C63_bool_iff {R : Rule BoolOp → Prop} {E : Egg}
    (hR : ∀ r, R r → GoodRule (fun o k => k = o.arity) r ∧ Holds boolOpVal r) {ts : List (Tm BoolOp)}
    (hts : ∀ t ∈ ts, TmOk (fun o k => k = o.arity) t) {g0 : EGraph BoolOp Bool}
    (h0 : termsToEGraph boolDomain E ts = some g0) :
    ∃ X, VarsOf ts X ∧ ∀ g, Grows boolDomain (fun o k => k = o.arity) R X g0 g → ∀ i k t u, Rep g t i → Rep g u k →
      (g.cvecOf i = g.cvecOf k ↔ ∀ env : String → Bool, boolVal env t = boolVal env u) := by
  have h := h0
  rw [termsToEGraph, Option.bind_eq_some_iff] at h
  obtain ⟨g1, h1, -⟩ := h
  rw [initializeVars, Option.bind_eq_some_iff] at h1
  obtain ⟨⟨n, tbl⟩, hinit, -⟩ := h1
  have hn := collectVars_nodup ts
  have key : ∀ {g}, Grows boolDomain (fun o k => k = o.arity) R (collectVars ts) g0 g → ∀ {i t}, Rep g t i →
      ∀ {j} {env : String → Bool}, j < n → SampleAt (fun e b => e = some b) tbl j env →
      (g.cvecOf i).length = n ∧ (g.cvecOf i)[j]? = some (some (boolVal env t)) := by
    intro g hg i t hr j env hj hs
    obtain ⟨val, hInv⟩ := termsToEGraph_vec (bool_folds env) bool_plain bool_varOps bool_computes hts hinit bool_initOk
      hj hs h0
    obtain ⟨val', hInv'⟩ := Grows.vec (bool_folds env) bool_plain bool_varOps bool_computes hj hR hInv hg
    have hi := Rep.lt hInv' hr
    have := (hInv'.data_ok i hi).2
    rw [Rep.val hInv' t i hi hr] at this
    obtain ⟨k1, e, k2, rfl⟩ := this
    exact ⟨k1, k2⟩
  refine ⟨collectVars ts, collectVars_spec ts, fun g hg i k t u ht hu => ⟨fun e env => ?_, fun e => ?_⟩⟩
  · obtain ⟨j, hj, hs⟩ := initProduct_sampleAt (fits := fun e b => e = some b) hn hinit env (by
      intro x _
      cases env x <;> simp [boolSamples])
    have h1 := (key hg ht hj hs).2
    have h2 := (key hg hu hj hs).2
    rw [e, h2] at h1
    simpa using h1.symm
  · have hpos : 0 < n := by
      obtain ⟨j, hj, -⟩ := initProduct_sampleAt (fits := fun e b => e = some b) hn hinit (fun _ => true) (by
        simp [boolSamples])
      omega
    have env0 : ∀ j, j < n → ∃ env : String → Bool, SampleAt (fun e b => e = some b) tbl j env := fun j hj =>
      initProduct_envAt hn hinit hj (by simp [boolSamples])
    obtain ⟨env, hs⟩ := env0 0 hpos
    have l1 := (key hg ht hpos hs).1
    have l2 := (key hg hu hpos hs).1
    apply List.ext_getElem?
    intro j
    by_cases hj : j < n
    · obtain ⟨env, hs⟩ := env0 j hj
      rw [(key hg ht hj hs).2, (key hg hu hj hs).2, e env]
    · rw [List.getElem?_eq_none (by omega), List.getElem?_eq_none (by omega)]

/-- **C63 (natural numbers).** Every entry of a class's vector is the value of every term of the class on the random
numbers of that position. -/
theorem C63_nat {rnd : Nat → Nat → Nat} {R : Rule NatOp → Prop} {E : Egg}
    (hR : ∀ r, R r → GoodRule (fun o k => k = o.arity) r ∧ Holds natOpVal r) {ts : List (Tm NatOp)}
    (hts : ∀ t ∈ ts, TmOk (fun o k => k = o.arity) t) {g0 : EGraph NatOp Int}
    (h0 : termsToEGraph (natDomain rnd) E ts = some g0) :
    ∃ X tbl, VarsOf ts X ∧ (natDomain rnd).initVars X = some (10, tbl) ∧
      ∀ g, Grows (natDomain rnd) (fun o k => k = o.arity) R X g0 g → ∀ i t, Rep g t i → ∀ j (env : String → Nat), j < 10 →
        (∀ p ∈ tbl, p.2[j]? = some (some (env p.1 : Int))) →
        (g.cvecOf i).length = 10 ∧ (g.cvecOf i)[j]? = some (some (natVal env t : Int)) := by
  obtain ⟨X, n, tbl, h1, h2, -, h3⟩ := C63_vectors (nat_folds rnd) (nat_plain rnd) nat_varOps (nat_computes rnd)
    (nat_initOk rnd) hR hts h0
  have hn : n = 10 := by
    simp only [natDomain, Option.some.injEq, Prod.mk.injEq] at h2
    exact h2.1.symm
  subst hn
  refine ⟨X, tbl, h1, h2, fun g hg i t hr j env hj hs => ?_⟩
  obtain ⟨k1, e, k2, rfl⟩ := h3 g hg i t hr j env hj fun p hp => ⟨_, hs p hp, rfl⟩
  exact ⟨k1, k2⟩

/-- **C63 (bit vectors).** Every entry of a class's vector is defined, fits the width, and is the value of every term of the
class on the samples of that position. -/
theorem C63_bv {N : Nat} (hN : N ≤ 128) {R : Rule (BvOp N) → Prop} {E : Egg}
    (hR : ∀ r, R r → GoodRule (fun o k => k = o.arity ∧ LitProper o) r ∧ Holds bvOpVal r) {ts : List (Tm (BvOp N))}
    (hts : ∀ t ∈ ts, TmOk (fun o k => k = o.arity ∧ LitProper o) t) {g0 : EGraph (BvOp N) (BV N)}
    (h0 : termsToEGraph (bvDomain N) E ts = some g0) :
    ∃ X n tbl, VarsOf ts X ∧ (bvDomain N).initVars X = some (n, tbl) ∧
      ∀ g, Grows (bvDomain N) (fun o k => k = o.arity ∧ LitProper o) R X g0 g → ∀ i t, Rep g t i →
        ∀ j (env : String → BitVec N), j < n →
        (∀ p ∈ tbl, ∃ w, p.2[j]? = some (some w) ∧ Proper w ∧ bits w = env p.1) →
        (g.cvecOf i).length = n ∧ ∃ w, (g.cvecOf i)[j]? = some (some w) ∧ Proper w ∧ bits w = tmVal env bvOpVal t := by
  obtain ⟨X, n, tbl, h1, h2, -, h3⟩ := C63_vectors bv_folds_proper bv_plain bv_varOps (bv_computes hN) bv_initOk hR hts h0
  refine ⟨X, n, tbl, h1, h2, fun g hg i t hr j env hj hs => ?_⟩
  obtain ⟨k1, e, k2, w, rfl, k3, k4⟩ := h3 g hg i t hr j env hj fun p hp => by
    obtain ⟨w, e1, e2, e3⟩ := hs p hp
    exact ⟨_, e1, w, rfl, e2, e3⟩
  exact ⟨k1, w, k2, k3, k4⟩

/-- **C63 (rational numbers).** Where a class's vector is defined it holds the value of every term of the class on the
samples of that position; in particular all these terms are defined there. -/
theorem C63_rational {ck : Checked} (hck : ExactOrNone ck) {R : Rule MathOp → Prop} {E : Egg}
    (hR : ∀ r, R r → GoodRule (fun o k => k = o.arity) r ∧ Holds (mathOpVal (K := Rat)) r) {ts : List (Tm MathOp)}
    (hts : ∀ t ∈ ts, TmOk (fun o k => k = o.arity) t) {g0 : EGraph MathOp Rat}
    (h0 : termsToEGraph (rationalDomain ck) E ts = some g0) :
    ∃ X n tbl, VarsOf ts X ∧ (rationalDomain ck).initVars X = some (n, tbl) ∧
      ∀ g, Grows (rationalDomain ck) (fun o k => k = o.arity) R X g0 g → ∀ i t, Rep g t i →
        ∀ j (env : String → Option Rat), j < n → (∀ p ∈ tbl, p.2[j]? = some (env p.1)) →
        (g.cvecOf i).length = n ∧ ∀ q, (g.cvecOf i)[j]? = some (some q) → tmVal env mathOpVal t = some q := by
  obtain ⟨X, n, tbl, h1, h2, -, h3⟩ := C63_vectors (V := Option Rat) (rational_folds ck hck) (rational_plain ck)
    rational_varOps (rational_computes ck hck) (rational_initOk ck) hR hts h0
  refine ⟨X, n, tbl, h1, h2, fun g hg i t hr j env hj hs => ?_⟩
  obtain ⟨k1, e, k2, k3⟩ := h3 g hg i t hr j env hj fun p hp => ⟨_, hs p hp, fun q hq => by rw [hq]; simp⟩
  refine ⟨k1, fun q hq => ?_⟩
  rw [k2, Option.some.injEq] at hq
  simpa using k3 q hq

/-- **C63 (rational numbers).** Every assignment of the numbers -1, 0, 1, 2 and -3 to the variables is one of the samples, at the same
position in all vectors. -/
theorem C63_rational_samples {ck : Checked} (hck : ExactOrNone ck) {R : Rule MathOp → Prop} {E : Egg}
    (hR : ∀ r, R r → GoodRule (fun o k => k = o.arity) r ∧ Holds (mathOpVal (K := Rat)) r) {ts : List (Tm MathOp)}
    (hts : ∀ t ∈ ts, TmOk (fun o k => k = o.arity) t) {g0 : EGraph MathOp Rat}
    (h0 : termsToEGraph (rationalDomain ck) E ts = some g0) :
    ∃ X, VarsOf ts X ∧ ∀ env : String → Rat, (∀ x ∈ X, env x = -1 ∨ env x = 0 ∨ env x = 1 ∨ env x = 2 ∨ env x = -3) →
      ∃ j, ∀ g, Grows (rationalDomain ck) (fun o k => k = o.arity) R X g0 g → ∀ i t, Rep g t i →
        j < (g.cvecOf i).length ∧ ∀ q, (g.cvecOf i)[j]? = some (some q) → tmVal (fun x => some (env x)) mathOpVal t = some q := by
  obtain ⟨X, n, tbl, h1, h2, h3⟩ := C63_rational hck hR hts h0
  refine ⟨X, h1, fun env he => ?_⟩
  obtain ⟨j, hj, hs⟩ := initProduct_sampleAt (fits := fun e (v : Rat) => e = some v) h1.1 h2 env (by
    intro x hx
    rcases he x hx with h | h | h | h | h <;> rw [h] <;> exact ⟨_, by simp [rationalSamples], rfl⟩)
  refine ⟨j, fun g hg i t ht => ?_⟩
  obtain ⟨k1, k2⟩ := h3 g hg i t ht j (fun x => some (env x)) hj fun p hp => by
    obtain ⟨e, he, rfl⟩ := hs p hp
    exact he
  exact ⟨by omega, k2⟩

/-- **C63 (Halide).** Where a class's vector is defined it holds the value of every term of the class on the samples of that
position, with division truncating towards zero. -/
theorem C63_halide {R : Rule PredOp → Prop} {E : Egg}
    (hR : ∀ r, R r → GoodRule (fun o k => k = o.arity) r ∧ Holds evalOpVal r) {ts : List (Tm PredOp)}
    (hts : ∀ t ∈ ts, TmOk (fun o k => k = o.arity) t) {g0 : EGraph PredOp Int}
    (h0 : termsToEGraph halideDomain E ts = some g0) :
    ∃ X n tbl, VarsOf ts X ∧ halideDomain.initVars X = some (n, tbl) ∧
      ∀ g, Grows halideDomain (fun o k => k = o.arity) R X g0 g → ∀ i t, Rep g t i →
        ∀ j (env : String → Int), j < n → (∀ p ∈ tbl, ∃ e, p.2[j]? = some e ∧ ∀ q, e = some q → env p.1 = q) →
        (g.cvecOf i).length = n ∧ ∀ q, (g.cvecOf i)[j]? = some (some q) → tmVal env evalOpVal t = q := by
  obtain ⟨X, n, tbl, h1, h2, -, h3⟩ := C63_vectors (fun env => NoFold.foldsIn halide_noFold _ _) halide_plain
    halide_varOps halide_computes halide_initOk hR hts h0
  refine ⟨X, n, tbl, h1, h2, fun g hg i t hr j env hj hs => ?_⟩
  obtain ⟨k1, e, k2, k3⟩ := h3 g hg i t hr j env hj hs
  refine ⟨k1, fun q hq => ?_⟩
  rw [k2, Option.some.injEq] at hq
  exact k3 q hq

/-- **C63 (Bool).** With sound rules, classes of equivalent formulas can be merged. -/
theorem C63_bool_merge {R : Rule BoolOp → Prop} {E : Egg}
    (hR : ∀ r, R r → GoodRule (fun o k => k = o.arity) r ∧ Holds boolOpVal r) {ts : List (Tm BoolOp)}
    (hts : ∀ t ∈ ts, TmOk (fun o k => k = o.arity) t) {g0 : EGraph BoolOp Bool}
    (h0 : termsToEGraph boolDomain E ts = some g0) :
    ∃ X, VarsOf ts X ∧ ∀ g, Grows boolDomain (fun o k => k = o.arity) R X g0 g → ∀ i k t u, Rep g t i → Rep g u k →
      (∀ env, boolVal env t = boolVal env u) → (mergeCvec (g.cvecOf i) (g.cvecOf k)).isSome ∧
        (mergeInterval (g.dataOf i).interval (g.dataOf k).interval).isSome := by
  refine C63_merge bool_folds bool_plain bool_varOps bool_computes bool_initOk ?_ ?_ ?_ hR hts h0
  · intro a b v h1 h2; exact Option.some.inj (h1.trans h2.symm)
  · intro a b v h1 h2; exact mergeInterval_isSome h1.2 h2.2
  · intro X n tbl hX hi
    exact initProduct_positions hX hi (by simp [boolSamples]) (by simp [boolSamples])

/-- **C63 (natural numbers).** With sound rules, classes of equal terms can be merged. -/
theorem C63_nat_merge {rnd : Nat → Nat → Nat} {R : Rule NatOp → Prop} {E : Egg}
    (hR : ∀ r, R r → GoodRule (fun o k => k = o.arity) r ∧ Holds natOpVal r) {ts : List (Tm NatOp)}
    (hts : ∀ t ∈ ts, TmOk (fun o k => k = o.arity) t) {g0 : EGraph NatOp Int}
    (h0 : termsToEGraph (natDomain rnd) E ts = some g0) :
    ∃ X, VarsOf ts X ∧ ∀ g, Grows (natDomain rnd) (fun o k => k = o.arity) R X g0 g → ∀ i k t u, Rep g t i → Rep g u k →
      (∀ env, natVal env t = natVal env u) → (mergeCvec (g.cvecOf i) (g.cvecOf k)).isSome ∧
        (mergeInterval (g.dataOf i).interval (g.dataOf k).interval).isSome := by
  refine C63_merge (nat_folds rnd) (nat_plain rnd) nat_varOps (nat_computes rnd) (nat_initOk rnd) ?_ ?_ ?_ hR hts h0
  · intro a b v h1 h2; exact Option.some.inj (h1.trans h2.symm)
  · intro a b v h1 h2; exact mergeInterval_isSome h1.2 h2.2
  · intro X n tbl hX hi
    simp only [natDomain, Option.some.injEq, Prod.mk.injEq] at hi
    obtain ⟨rfl, rfl⟩ := hi
    refine ⟨by omega, fun j hj => ⟨fun x => rnd (X.idxOf x) j, ?_⟩⟩
    intro p hp
    obtain ⟨q, hq, rfl⟩ := List.mem_map.1 hp
    refine ⟨_, by simp [hj]; rfl, ?_⟩
    obtain ⟨m, hm⟩ := List.mem_iff_getElem?.1 hq
    rw [List.getElem?_zip_eq_some] at hm
    have h1 : m < X.length := (List.getElem?_eq_some_iff.1 hm.1).1
    have h2 : q.2 = m := by
      have := hm.2
      rw [List.getElem?_range h1] at this
      exact (Option.some.inj this).symm
    have h3 : X.idxOf q.1 = m := by
      have : X[m] = q.1 := (List.getElem?_eq_some_iff.1 hm.1).2
      rw [← this]
      exact hX.idxOf_getElem m h1
    show _ = some ((rnd (X.idxOf q.1) j : Nat) : Int)
    rw [h2, h3]

/-- **C63 (bit vectors).** With sound rules, classes of equal terms can be merged. -/
theorem C63_bv_merge {N : Nat} (hN : N ≤ 128) {R : Rule (BvOp N) → Prop} {E : Egg}
    (hR : ∀ r, R r → GoodRule (fun o k => k = o.arity ∧ LitProper o) r ∧ Holds bvOpVal r) {ts : List (Tm (BvOp N))}
    (hts : ∀ t ∈ ts, TmOk (fun o k => k = o.arity ∧ LitProper o) t) {g0 : EGraph (BvOp N) (BV N)}
    (h0 : termsToEGraph (bvDomain N) E ts = some g0) :
    ∃ X, VarsOf ts X ∧ ∀ g, Grows (bvDomain N) (fun o k => k = o.arity ∧ LitProper o) R X g0 g → ∀ i k t u, Rep g t i →
      Rep g u k → (∀ env, tmVal env bvOpVal t = tmVal env bvOpVal u) → (mergeCvec (g.cvecOf i) (g.cvecOf k)).isSome ∧
        (mergeInterval (g.dataOf i).interval (g.dataOf k).interval).isSome := by
  have := C63_merge bv_folds_proper bv_plain bv_varOps (bv_computes hN) bv_initOk ?_ ?_ ?_ hR hts h0
  · obtain ⟨X, h1, h2⟩ := this
    refine ⟨X, h1, fun g hg i k t u ht hu he => ?_⟩
    convert h2 g hg i k t u ht hu he
  · rintro a b v ⟨w, h1, h2, h3⟩ ⟨w', h1', h2', h3'⟩
    cases h1; cases h1'
    exact BV.bits_inj h2 h2' (h3.trans h3'.symm)
  · rintro a b v ⟨h1, h2⟩ ⟨h1', h2'⟩
    refine ConstOf.isSome h1 h1' fun c c' e1 e2 h => BV.bits_inj (h2 c e1) (h2' c' e2) h
  · intro X n tbl hX hi
    refine initProduct_positions hX hi (by simpa using bvSamples_ne N) ?_
    intro c hc
    obtain ⟨w, hw, rfl⟩ := List.mem_map.1 hc
    exact ⟨bits w, w, rfl, bvSamples_proper hN w hw, rfl⟩

/-- **C63 (rational numbers).** With rules that hold for partial values, classes of equal terms can be merged. -/
theorem C63_rational_merge {ck : Checked} (hck : ExactOrNone ck) {R : Rule MathOp → Prop} {E : Egg}
    (hR : ∀ r, R r → GoodRule (fun o k => k = o.arity) r ∧ Holds (mathOpVal (K := Rat)) r) {ts : List (Tm MathOp)}
    (hts : ∀ t ∈ ts, TmOk (fun o k => k = o.arity) t) {g0 : EGraph MathOp Rat}
    (h0 : termsToEGraph (rationalDomain ck) E ts = some g0) :
    ∃ X, VarsOf ts X ∧ ∀ g, Grows (rationalDomain ck) (fun o k => k = o.arity) R X g0 g → ∀ i k t u, Rep g t i →
      Rep g u k → (∀ env : String → Option Rat, tmVal env mathOpVal t = tmVal env mathOpVal u) →
      (mergeCvec (g.cvecOf i) (g.cvecOf k)).isSome ∧
        (mergeInterval (g.dataOf i).interval (g.dataOf k).interval).isSome := by
  refine C63_merge (V := Option Rat) (rational_folds ck hck) (rational_plain ck) rational_varOps (rational_computes ck hck)
    (rational_initOk ck) ?_ ?_ ?_ hR hts h0
  · intro a b v h1 h2
    have := (h1 a rfl).symm.trans (h2 b rfl)
    simpa using this
  · intro a b v h1 h2
    exact ConstOf.isSome h1 h2 fun c c' _ _ h => by simpa using h
  · intro X n tbl hX hi
    exact initProduct_positions hX hi (by simp [rationalSamples]) fun c _ => ⟨c, fun q hq => by simp [hq]⟩

/-- **C63 (Halide).** With rules that hold for the evaluator's division, classes of equal terms can be merged. -/
theorem C63_halide_merge {R : Rule PredOp → Prop} {E : Egg}
    (hR : ∀ r, R r → GoodRule (fun o k => k = o.arity) r ∧ Holds evalOpVal r) {ts : List (Tm PredOp)}
    (hts : ∀ t ∈ ts, TmOk (fun o k => k = o.arity) t) {g0 : EGraph PredOp Int}
    (h0 : termsToEGraph halideDomain E ts = some g0) :
    ∃ X, VarsOf ts X ∧ ∀ g, Grows halideDomain (fun o k => k = o.arity) R X g0 g → ∀ i k t u, Rep g t i →
      Rep g u k → (∀ env, tmVal env evalOpVal t = tmVal env evalOpVal u) →
      (mergeCvec (g.cvecOf i) (g.cvecOf k)).isSome ∧
        (mergeInterval (g.dataOf i).interval (g.dataOf k).interval).isSome := by
  refine C63_merge (fun env => NoFold.foldsIn halide_noFold _ _) halide_plain halide_varOps halide_computes halide_initOk
    ?_ ?_ ?_ hR hts h0
  · intro a b v h1 h2; rw [← h1 a rfl, ← h2 b rfl]
  · intro a b v h1 h2; rw [h1, h2]; rfl
  · intro X n tbl hX hi
    refine initProduct_positions hX hi (by simp [halideSamples]) fun c _ => ?_
    cases c with
    | none => exact ⟨0, fun q hq => by cases hq⟩
    | some c => exact ⟨c, fun q hq => Option.some.inj hq⟩

namespace Sample

-- The hypotheses of `C63_nat` hold for a workload that is then saturated with commutativity, under every scheduler; two
-- sums are in one class afterwards, whose vector holds the sums of the samples.
example : ∃ g0 g X tbl, termsToEGraph natDom egg [nxy, nyx] = some g0 ∧
    Grows natDom (fun o k => k = o.arity) (fun r => r = addComm) X g0 g ∧ natDom.initVars X = some (10, tbl) ∧
    Rep g nxy 3 ∧ Rep g nyx 3 ∧ (g.cvecOf 3).take 3 = [some 1, some 3, some 5] ∧
    ∀ j (env : String → Nat), j < 10 → (∀ p ∈ tbl, p.2[j]? = some (some (env p.1 : Int))) →
      (g.cvecOf 3)[j]? = some (some (natVal env nxy : Int)) ∧ (g.cvecOf 3)[j]? = some (some (natVal env nyx : Int)) := by
  have h : ((natOut (.simple limits)).map fun g => (g.lookupTm nxy, g.lookupTm nyx, (g.cvecOf 3).take 3)) =
      some (some 3, some 3, [some 1, some 3, some 5]) := by decide +kernel
  obtain ⟨g, hg, h⟩ := Option.map_eq_some_iff.1 h
  simp only [Prod.mk.injEq] at h
  unfold natOut at hg
  obtain ⟨g0, h0, hg⟩ := Option.bind_eq_some_iff.1 hg
  have hR : ∀ r, r = addComm → GoodRule (fun o k => k = NatOp.arity o) r ∧ Holds natOpVal r := by
    rintro r rfl; exact ⟨addComm_good, addComm_holds⟩
  have hr : Reach natDom (fun o k => k = o.arity) (fun r => r = addComm) g :=
    .run (reach_termsToEGraph natVarsOk terms_ok h0) (by simp [Ruleset.iter, commRules]) hg
  obtain ⟨val, hI⟩ := Reach.inv (foldInv (nat_folds (fun i j => i + j) fun _ => 0)) (fun _ _ _ h => h)
    (fun r hr => ⟨(hR r hr).1.1, Holds.withVars (hR r hr).1.2.1 (hR r hr).1.2.2 (hR r hr).2 _⟩) hr
  have r1 := (lookupTm_rep hI _ _ h.1).1
  have r2 := (lookupTm_rep hI _ _ h.2.1).1
  obtain ⟨X, tbl, h1, h2, h3⟩ := C63_nat hR terms_ok h0
  have hgr : Grows natDom (fun o k => k = o.arity) (fun r => r = addComm) X g0 g :=
    .run .refl (by simp [Ruleset.iter, commRules]) hg
  exact ⟨g0, g, X, tbl, h0, hgr, h2, r1, r2, h.2.2, fun j env hj hs =>
    ⟨(h3 g hgr 3 nxy r1 j env hj hs).2, (h3 g hgr 3 nyx r2 j env hj hs).2⟩⟩

/-- Samples of width four. -/
theorem bvSamples4 : bvSamples 4 = [⟨0⟩, ⟨1⟩, ⟨6⟩, ⟨7⟩, ⟨8⟩, ⟨9⟩, ⟨15⟩] := by
  simp [bvSamples, BV.min, BV.max, BV.new, BV.wrappingAdd, BV.wrappingSub, BV.wrappingNeg, List.mergeSort,
    List.MergeSort.Internal.splitInTwo, BV.allOnes]
  decide

-- Workloads to which the other instances apply, with vectors of some classes.
example : ((termsToEGraph boolDomain egg [foldRule.lhs.instantiate]).map fun g => (g.n, g.cvecOf 0)) =
    some (4, [some true, some false]) := by decide +kernel
example : ((termsToEGraph (bvDomain 4) egg [.node .add [.node (.var "x") [], .node (.lit ⟨3⟩) []]]).map fun g =>
    (g.n, g.cvecOf 2)) = some (3, [some ⟨3⟩, some ⟨4⟩, some ⟨9⟩, some ⟨10⟩, some ⟨11⟩, some ⟨12⟩, some ⟨2⟩]) := by
  have : bvDomain 4 = { bvDomain 4 with initVars := initProduct ([⟨0⟩, ⟨1⟩, ⟨6⟩, ⟨7⟩, ⟨8⟩, ⟨9⟩, ⟨15⟩].map some) } := by
    rw [← bvSamples4]; rfl
  rw [this]
  decide +kernel
example : ((termsToEGraph (rationalDomain exactRat) egg [divZero, ratZero]).map fun g => (g.n, (g.cvecOf 2).take 3)) =
    some (5, [some (-1), none, some 1]) := by decide +kernel
example : (predStart.map fun g => (g.n, (g.cvecOf 2).take 3)) = some (6, [some (-20), some (-11), some (-10)]) := by
  decide +kernel

end Sample

end Ruler
