import Verif.Proofs.SynthesisDomains
import Verif.Props.Synthesis
import Verif.Props.DomInt
import Verif.Props.Rational
import Verif.Spec.Conditional
/-!
# C65: synthesis runs of the domains with a solver
-/
namespace Ruler
open Spec EGraph
open scoped List
variable {O C V : Type} [Lang O] [LinearOrder C] {D : Domain O C} {ar : O → Nat → Prop}

/-- The compressed e-graph of a run, when constant folding adds well-sorted terms only. -/
theorem run_sorted (hF : FoldsSorted D ar) (hv : VarsOk (O := O) ar) (hps : ParsesSorted (O := O) ar)
    {R : RunEnv O C} (hR : RunOk D R) {w : Workload} {prior : Ruleset O} {pl : Limits}
    (hpr : ∀ r ∈ Ruleset.iter prior, GoodRule ar r) {g g' : EGraph O C} (hg : w.toEGraph D R.build = some g)
    (hg' : Scheduler.run D R.eg R.isSat (.compress pl) prior R.tr g = some g') :
    (R.order g').Perm g'.classes ∧ Extracts g' (R.best g') ∧ ∀ k ∈ g'.classes, TmOk ar (R.best g' k) := by
  obtain ⟨mem, hF⟩ := hF
  have hw : ∀ env : String → Unit, withVars env (fun (_ : O) (_ : List Unit) => ()) = fun _ _ => () :=
    fun _ => funext fun _ => funext fun _ => rfl
  exact (run_graph (I := fun _ _ => ()) (mem := mem) (fun env => by rw [hw]; exact hF) hv hps hR
    (fun r hr => ⟨hpr r hr, fun _ => rfl⟩) hg hg').2

/-- Well-sorted schematic patterns, for the validators. -/
theorem Schematic.patSorted {arity : O → Nat} {P : O → Prop} (h1 : ∀ o k, ar o k → k = arity o)
    (h2 : ∀ o, Lang.toVar o = none → P o) {p : Pat O} (hp : PatOk ar p) (hs : Schematic p) : PatSorted arity P p := by
  induction hs with
  | var h => exact .var h
  | node hn _ ih =>
    cases hp with
    | node ha hargs => exact .node (h1 _ _ ha) (h2 _ hn) fun a hm => ih a hm (hargs a hm)

/-- **C65.** Every rule that a run returns is well-sorted, is made of pattern variables and operators only, can be read back
from its text, was accepted by the validator, and is not named in the prior — for every domain whose parser checks the number
of children, whose operators can be read back, and whose constant folding makes well-sorted terms. -/
theorem C65_shape (hF : FoldsSorted D ar) (hv : VarsOk (O := O) ar) (hps : ParsesSorted (O := O) ar)
    (hor : OpsReadable (O := O) ar) {R : RunEnv O C} (hR : RunOk D R) {w : Workload} {prior out : Ruleset O}
    {pl ml : Limits} {fast allowEmpty : Bool} {asked : List (Rule O)} (hp : WellFormed prior)
    (hpr : ∀ r ∈ Ruleset.iter prior, GoodRule ar r)
    (h : runWorkloadInternal D R w prior pl ml fast allowEmpty = some (out, asked)) :
    ∀ q ∈ Ruleset.iter out, Rule.Textual q ∧ GoodRule ar q ∧ Answered R.min.valid asked true q ∧ ¬ Named prior q.name := by
  obtain ⟨g, g', cands, inv, hg, hg', hc, hm, -⟩ := runWorkloadInternal_some h
  obtain ⟨hord, -, hok⟩ := run_sorted hF hv hps hR hpr hg hg'
  have htc : ∀ q ∈ Ruleset.iter cands, Rule.Textual q ∧ GoodRule ar q := fun q hq => cands_textual hor hord hc hok hq
  intro q hq
  obtain ⟨ha, hcand, hn⟩ := (C22_validated (cands_wf hc).1 hp hm).2 q hq
  have hqc := isCandidate_mem (fun r hr => (htc r hr).1) hcand
  exact ⟨(htc q hqc).1, (htc q hqc).2, ha, hn⟩

/-- **C65.** The same for all levels of `recursive_rules`. -/
theorem C65_shape_recursive (hF : FoldsSorted D ar) (hv : VarsOk (O := O) ar) (hps : ParsesSorted (O := O) ar)
    (hor : OpsReadable (O := O) ar) {envs : Nat → RunEnv O C} (hR : ∀ k, RunOk D (envs k)) {metric : Metric}
    {lang : RecipeLang} {prior : Ruleset O} (hp : WellFormed prior) (hpr : ∀ r ∈ Ruleset.iter prior, GoodRule ar r)
    (n : Nat) {out : Ruleset O} {log : List (Nat × List (Rule O))}
    (h : recursiveRules D envs metric lang prior n = some (out, log)) :
    ∀ q ∈ Ruleset.iter out, q ∈ Ruleset.iter prior ∨ (Rule.Textual q ∧ GoodRule ar q ∧
      ∃ k asked, (k, asked) ∈ log ∧ Answered (envs k).min.valid asked true q) := by
  induction n generalizing out log with
  | zero => cases h; simp [Ruleset.iter]
  | succ n ih =>
    obtain ⟨rec, log', w, new, asked, h1, h2, rfl, rfl⟩ := recursiveRules_succ h
    have hw := (recursiveRules_ok hp n h1).1
    have hk : ∀ r ∈ Ruleset.iter (Ruleset.extend rec prior), GoodRule ar r := by
      intro r hr
      rcases mem_extend_rules hr with hr | hr
      · rcases ih h1 r hr with hr | hr
        · exact hpr r hr
        · exact hr.2.1
      · exact hpr r hr
    intro q hq
    rcases mem_extend_rules hq with hq | hq
    · obtain ⟨k1, k2, k3, -⟩ := C65_shape hF hv hps hor (hR _) (Ruleset.WellFormed.extend hw hp) hk h2 q hq
      exact .inr ⟨k1, k2, n + 1, asked, by simp, k3⟩
    · rcases mem_extend_rules hq with hq | hq
      · rcases ih h1 q hq with hq | ⟨k1, k2, k, as, k3, k4⟩
        · exact .inl hq
        · exact .inr ⟨k1, k2, k, as, List.mem_cons_of_mem _ k3, k4⟩
      · exact .inl hq

/-! ## What acceptance means in the domains -/

theorem nat_accepted {valid : List (Rule NatOp) → Rule NatOp → Bool}
    (ha : AnswersFrom SolverSoundInt (validateEq NatOp.toSmt) valid) {q : Rule NatOp}
    (hq : GoodRule (fun o k => k = o.arity) q) {asked : List (Rule NatOp)} (h : Answered valid asked true q) :
    Holds natOpVal q := by
  obtain ⟨before, -, hb⟩ := h
  obtain ⟨check, l, r, hc, hl, hr, hv⟩ := ha before q hb
  have key : ∀ o : NatOp, Lang.toVar o = none → ∀ x, o ≠ .var x := by rintro o h x rfl; cases h
  exact fun ρ => C47_valid check hc l r _ _ hl hr (Schematic.patSorted (fun _ _ h => h) key hq.1.1 hq.2.1)
    (Schematic.patSorted (fun _ _ h => h) key hq.1.2 hq.2.2) hv ρ

theorem bv_accepted {N : Nat} (hN : N ≤ 64) {valid : List (Rule (BvOp N)) → Rule (BvOp N) → Bool}
    (ha : AnswersFrom (SolverSoundBV N) bvValidate valid) {q : Rule (BvOp N)}
    (hq : GoodRule (fun o k => k = o.arity ∧ LitProper o) q) {asked : List (Rule (BvOp N))}
    (h : Answered valid asked true q) : Holds bvOpVal q := by
  obtain ⟨before, -, hb⟩ := h
  obtain ⟨check, l, r, hc, hl, hr, hv⟩ := ha before q hb
  have key : ∀ o : BvOp N, Lang.toVar o = none → ∀ x, o ≠ .var x := by rintro o h x rfl; cases h
  exact fun ρ => C42_valid hN check hc l r _ _ hl hr (Schematic.patSorted (fun _ _ h => h.1) key hq.1.1 hq.2.1)
    (Schematic.patSorted (fun _ _ h => h.1) key hq.1.2 hq.2.2) hv ρ

theorem halide_accepted {valid : List (Rule PredOp) → Rule PredOp → Bool}
    (ha : AnswersFrom SolverSoundInt halideValidate valid) {q : Rule PredOp}
    (hq : GoodRule (fun o k => k = o.arity ∧ PredLitFits o) q) {asked : List (Rule PredOp)}
    (h : Answered valid asked true q) : Holds predOpVal q := by
  obtain ⟨before, -, hb⟩ := h
  obtain ⟨check, l, r, hc, hl, hr, hv⟩ := ha before q hb
  have key : ∀ o : PredOp, Lang.toVar o = none → ∀ x, o ≠ .var x := by rintro o h x rfl; cases h
  exact fun ρ => C50_valid check hc l r _ _ hl hr (Schematic.patSorted (fun _ _ h => h.1) key hq.1.1 hq.2.1)
    (Schematic.patSorted (fun _ _ h => h.1) key hq.1.2 hq.2.2) hv ρ

theorem rational_accepted {K : Type} [Field K] [LinearOrder K] [IsStrictOrderedRing K]
    {valid : List (Rule MathOp) → Rule MathOp → Bool} (ha : AnswersFrom (SolverSoundReal K) ratValidate valid)
    {q : Rule MathOp} (hq : GoodRule (fun o k => k = o.arity ∧ MathLitFits o) q) {asked : List (Rule MathOp)}
    (h : Answered valid asked true q) : EqualWhereDefined K q.lhs q.rhs := by
  obtain ⟨before, -, hb⟩ := h
  obtain ⟨check, l, r, hc, hl, hr, hv⟩ := ha before q hb
  have key : ∀ o : MathOp, Lang.toVar o = none → ∀ x, o ≠ .var x := by rintro o h x rfl; cases h
  exact fun ρ a b h1 h2 => C49_equal check hc l r _ _ hl hr (Schematic.patSorted (fun _ _ h => h.1) key hq.1.1 hq.2.1)
    (Schematic.patSorted (fun _ _ h => h.1) key hq.1.2 hq.2.2) hv ρ a b h1 h2

/-! ## Soundness of runs -/

/-- **C65 (natural numbers).** If z3 is right when it says unsatisfiable, every rule a run returns is an identity of natural
numbers, whatever egg does and whatever well-sorted rules the prior contains. -/
theorem C65_nat {rnd : Nat → Nat → Nat} {R : RunEnv NatOp Int} (hR : RunOk (natDomain rnd) R)
    (ha : AnswersFrom SolverSoundInt (validateEq NatOp.toSmt) R.min.valid) {w : Workload} {prior out : Ruleset NatOp}
    {pl ml : Limits} {fast allowEmpty : Bool} {asked : List (Rule NatOp)} (hp : WellFormed prior)
    (hpr : ∀ r ∈ Ruleset.iter prior, GoodRule (fun o k => k = o.arity) r)
    (h : runWorkloadInternal (natDomain rnd) R w prior pl ml fast allowEmpty = some (out, asked)) :
    ∀ q ∈ Ruleset.iter out, Rule.Textual q ∧ GoodRule (fun o k => k = o.arity) q ∧ Holds natOpVal q := by
  intro q hq
  obtain ⟨h1, h2, h3, -⟩ := C65_shape (nat_foldsSorted rnd) nat_varOps.1 nat_parsesSorted nat_opsReadable hR hp hpr h q hq
  exact ⟨h1, h2, nat_accepted ha h2 h3⟩

/-- **C65 (bit vectors).** Likewise for words of up to 64 bits. -/
theorem C65_bv {N : Nat} (hN : N ≤ 64) {R : RunEnv (BvOp N) (BV N)} (hR : RunOk (bvDomain N) R)
    (ha : AnswersFrom (SolverSoundBV N) bvValidate R.min.valid) {w : Workload} {prior out : Ruleset (BvOp N)}
    {pl ml : Limits} {fast allowEmpty : Bool} {asked : List (Rule (BvOp N))} (hp : WellFormed prior)
    (hpr : ∀ r ∈ Ruleset.iter prior, GoodRule (fun o k => k = o.arity ∧ LitProper o) r)
    (h : runWorkloadInternal (bvDomain N) R w prior pl ml fast allowEmpty = some (out, asked)) :
    ∀ q ∈ Ruleset.iter out, Rule.Textual q ∧ GoodRule (fun o k => k = o.arity ∧ LitProper o) q ∧ Holds bvOpVal q := by
  intro q hq
  obtain ⟨h1, h2, h3, -⟩ := C65_shape bv_foldsSorted bv_varOps.1 (bv_parsesSorted (by omega)) (bv_opsReadable (by omega)) hR
    hp hpr h q hq
  exact ⟨h1, h2, bv_accepted hN ha h2 h3⟩

/-- **C65 (Halide).** Likewise for integers, with z3's division. -/
theorem C65_halide {R : RunEnv PredOp Int} (hR : RunOk halideDomain R)
    (ha : AnswersFrom SolverSoundInt halideValidate R.min.valid) {w : Workload} {prior out : Ruleset PredOp}
    {pl ml : Limits} {fast allowEmpty : Bool} {asked : List (Rule PredOp)} (hp : WellFormed prior)
    (hpr : ∀ r ∈ Ruleset.iter prior, GoodRule (fun o k => k = o.arity ∧ PredLitFits o) r)
    (h : runWorkloadInternal halideDomain R w prior pl ml fast allowEmpty = some (out, asked)) :
    ∀ q ∈ Ruleset.iter out, Rule.Textual q ∧ GoodRule (fun o k => k = o.arity ∧ PredLitFits o) q ∧ Holds predOpVal q := by
  intro q hq
  obtain ⟨h1, h2, h3, -⟩ := C65_shape halide_foldsSorted halide_litVarOps.1 halide_parsesSorted halide_opsReadable hR hp hpr
    h q hq
  exact ⟨h1, h2, halide_accepted ha h2 h3⟩

/-- **C65 (rational numbers).** Every rule a run returns is an equation between values wherever both sides are defined. -/
theorem C65_rational {K : Type} [Field K] [LinearOrder K] [IsStrictOrderedRing K] {ck : Checked} (hk : Results64 ck)
    {R : RunEnv MathOp Rat} (hR : RunOk (rationalDomain ck) R)
    (ha : AnswersFrom (SolverSoundReal K) ratValidate R.min.valid) {w : Workload} {prior out : Ruleset MathOp}
    {pl ml : Limits} {fast allowEmpty : Bool} {asked : List (Rule MathOp)} (hp : WellFormed prior)
    (hpr : ∀ r ∈ Ruleset.iter prior, GoodRule (fun o k => k = o.arity ∧ MathLitFits o) r)
    (h : runWorkloadInternal (rationalDomain ck) R w prior pl ml fast allowEmpty = some (out, asked)) :
    ∀ q ∈ Ruleset.iter out, Rule.Textual q ∧ GoodRule (fun o k => k = o.arity ∧ MathLitFits o) q ∧
      EqualWhereDefined K q.lhs q.rhs := by
  intro q hq
  obtain ⟨h1, h2, h3, -⟩ := C65_shape (rational_foldsSorted hk) rational_litVarOps.1 rational_parsesSorted
    rational_opsReadable hR hp hpr h q hq
  exact ⟨h1, h2, rational_accepted ha h2 h3⟩

/-! ## Completeness of runs -/

/-- Classes of terms that are equal for all values of the variables have the same vector, with a defined entry. -/
theorem equal_vectors [Nonempty V] {I : O → List V → V} {mem : Interval C → V → Prop} {fits : Option C → V → Prop}
    {R : Rule O → Prop} {E : Egg} (hF : ∀ env, FoldsIn D ar (withVars env I) mem) (hP : PlainFolding D ar)
    (hv : VarOps (O := O) ar) (hC : Computes D ar I fits) (hI : InitOk D)
    (hfun : ∀ a b v, fits a v → fits b v → a.isSome ∧ a = b)
    (hpos : ∀ X n tbl, X.Nodup → D.initVars X = some (n, tbl) → 0 < n ∧ ∀ j, j < n → ∃ env, SampleAt fits tbl j env)
    (hR : ∀ r, R r → GoodRule ar r ∧ Holds I r) {ts : List (Tm O)} (hts : ∀ t ∈ ts, TmOk ar t) {g0 : EGraph O C}
    (h0 : termsToEGraph D E ts = some g0) :
    ∃ X, ∀ g, Grows D ar R X g0 g → ∀ i k t u, Rep g t i → Rep g u k →
      (∀ env, tmVal env I t = tmVal env I u) → g.cvecOf i = g.cvecOf k ∧ HasSample (g.cvecOf i) := by
  obtain ⟨X, n, tbl, hX, hinit, -, key⟩ := C63_vectors hF hP hv hC hI hR hts h0
  refine ⟨X, fun g hg i k t u ht hu heq => ?_⟩
  obtain ⟨hn, hs⟩ := hpos _ _ _ hX.1 hinit
  have ent : ∀ j, j < n → (g.cvecOf i).length = n ∧ (g.cvecOf k).length = n ∧
      ∃ x, (g.cvecOf i)[j]? = some (some x) ∧ (g.cvecOf k)[j]? = some (some x) := by
    intro j hj
    obtain ⟨env, he⟩ := hs j hj
    obtain ⟨l1, e1, k1, k2⟩ := key g hg i t ht j env hj he
    obtain ⟨l2, e2, k3, k4⟩ := key g hg k u hu j env hj he
    rw [heq env] at k2
    obtain ⟨h1, rfl⟩ := hfun _ _ _ k2 k4
    obtain ⟨x, rfl⟩ := Option.isSome_iff_exists.1 h1
    exact ⟨l1, l2, x, k1, k3⟩
  obtain ⟨l1, l2, x, hx, -⟩ := ent 0 hn
  refine ⟨List.ext_getElem? fun j => ?_, 0, x, hx⟩
  by_cases hj : j < n
  · obtain ⟨-, -, x, e1, e2⟩ := ent j hj
    rw [e1, e2]
  · rw [List.getElem?_eq_none (by omega), List.getElem?_eq_none (by omega)]

/-- **C65 (completeness).** Let samples determine values, and let the validator accept every rule that holds in the domain.
Two terms that are equal for all values of the variables, in classes whose representatives have comparable variables, are
equal in every algebra in which the prior and the returned rules hold and constants are folded rightly. -/
theorem C65_complete {I : O → List V → V} {mem : Interval C → V → Prop} {fits : Option C → V → Prop} [Nonempty V]
    (hF : ∀ env, FoldsIn D ar (withVars env I) mem) (hP : PlainFolding D ar)
    (hv : VarOps (O := O) ar) (hC : Computes D ar I fits) (hI : InitOk D)
    (hfun : ∀ a b v, fits a v → fits b v → a.isSome ∧ a = b)
    (hpos : ∀ X n tbl, X.Nodup → D.initVars X = some (n, tbl) → 0 < n ∧ ∀ j, j < n → ∃ env, SampleAt fits tbl j env)
    (hps : ParsesSorted (O := O) ar) (hor : OpsReadable (O := O) ar) {R : RunEnv O C} (hR : RunOk D R)
    (hacc : ∀ before q, GoodRule ar q → Holds I q → R.min.valid before q = true) {w : Workload} {prior out : Ruleset O}
    {pl ml : Limits} {fast allowEmpty : Bool} {asked : List (Rule O)} (hp : WellFormed prior)
    (hpr : ∀ r ∈ Ruleset.iter prior, Rule.Textual r ∧ GoodRule ar r ∧ Holds I r)
    (h : runWorkloadInternal D R w prior pl ml fast allowEmpty = some (out, asked))
    {W : Type} {J : O → List W → W} {memJ : Interval C → W → Prop} (hFJ : ∀ env, FoldsIn D ar (withVars env J) memJ)
    (hJ : ∀ q, q ∈ Ruleset.iter prior ∨ q ∈ Ruleset.iter out → Holds J q) :
    ∃ g g', w.toEGraph D R.build = some g ∧ Scheduler.run D R.eg R.isSat (.compress pl) prior R.tr g = some g' ∧
      (∀ ss, w.force = some ss → ∀ s ∈ ss, ∀ t : Tm O, Tm.ofSexp s = some t → ∃ i ∈ g'.classes, Rep g' t i) ∧
      ∀ i ∈ g'.classes, ∀ j ∈ g'.classes, Covers (R.best g' i) (R.best g' j) ∨ Covers (R.best g' j) (R.best g' i) →
        ∀ t u, Rep g' t i → Rep g' u j → (∀ env, tmVal env I t = tmVal env I u) →
          ∀ env, tmVal env J t = tmVal env J u := by
  have hpr1 : ∀ r ∈ Ruleset.iter prior, Rule.Textual r ∧ GoodRule ar r := fun r hr => ⟨(hpr r hr).1, (hpr r hr).2.1⟩
  have hpr' : ∀ r, r ∈ Ruleset.iter prior → GoodRule ar r ∧ Holds I r := fun r hr => (hpr r hr).2
  obtain ⟨g, g', hg, hg', key⟩ := C51_complete hFJ hv.1 hps hor hR hp hpr1 h hJ
  obtain ⟨r1, hord, hbest, hok⟩ := run_graph hF hv.1 hps hR hpr' hg hg'
  refine ⟨g, g', hg, hg', fun ss hss s hs t ht => ?_, ?_⟩
  · exact toEGraph_rep hg (fun s => ⟨(hv.1 s).1, trivial⟩) hg' hss hs ht
  obtain ⟨ts, h0, hts, -⟩ := toEGraph_terms hps hg
  obtain ⟨X, heqv⟩ := equal_vectors (R := fun r => r ∈ Ruleset.iter prior) hF hP hv hC hI hfun hpos hpr' hts h0
  have hgr : Grows D ar (fun r => r ∈ Ruleset.iter prior) X g g' := .run .refl (fun _ hr => hr) hg'
  have one : ∀ {i j t u}, i ∈ g'.classes → j ∈ g'.classes → Covers (R.best g' i) (R.best g' j) → Rep g' t i → Rep g' u j →
      (∀ env, tmVal env I t = tmVal env I u) → ∀ env, tmVal env J t = tmVal env J u := by
    intro i j t u hi hj hcov ht hu heq
    have hm : VecsMatch fast (g'.cvecOf i) (g'.cvecOf j) := by
      obtain ⟨e, hs⟩ := heqv g' hgr i j t u ht hu heq
      refine ⟨hs, e ▸ hs, ?_⟩
      split
      · exact e
      · rw [e]
        intro k x y hx hy
        rw [hx] at hy
        simpa using hy
    rcases key i hi j hj hm hcov with ⟨q, hrel, hgood, before, -, hq⟩ | hk
    · exfalso
      have hholds : Holds I q := (Relates.holds_iff hrel).2 fun env =>
        (sound_vars hF hpr' r1 (hbest i hi) ht rfl env).trans
          ((heq env).trans (sound_vars hF hpr' r1 hu (hbest j hj) rfl env))
      rw [hacc before q hgood hholds] at hq
      cases hq
    · exact hk t u ht hu
  intro i hi j hj hcov t u ht hu heq env
  rcases hcov with hcov | hcov
  · exact one hi hj hcov ht hu heq env
  · exact (one hj hi hcov hu ht (fun env => (heq env).symm) env).symm

theorem nat_positions {rnd : Nat → Nat → Nat} {X : List String} {n : Nat} {tbl : List (String × CVec Int)} (hX : X.Nodup)
    (hi : (natDomain rnd).initVars X = some (n, tbl)) :
    0 < n ∧ ∀ j, j < n → ∃ env : String → Nat, SampleAt (fun e (v : Nat) => e = some (v : Int)) tbl j env := by
  simp only [natDomain, Option.some.injEq, Prod.mk.injEq] at hi
  obtain ⟨rfl, rfl⟩ := hi
  refine ⟨by omega, fun j hj => ⟨fun x => rnd (X.idxOf x) j, ?_⟩⟩
  intro p hp
  obtain ⟨q, hq, rfl⟩ := List.mem_map.1 hp
  refine ⟨_, by simp [hj]; rfl, ?_⟩
  obtain ⟨m, hm⟩ := List.mem_iff_getElem?.1 hq
  rw [List.getElem?_zip_eq_some] at hm
  have h1 : m < X.length := (List.getElem?_eq_some_iff.1 hm.1).1
  have h2 : q.2 = m := by
    have := hm.2
    rw [List.getElem?_range h1] at this
    exact (Option.some.inj this).symm
  have h3 : X.idxOf q.1 = m := by
    have : X[m] = q.1 := (List.getElem?_eq_some_iff.1 hm.1).2
    rw [← this]
    exact hX.idxOf_getElem m h1
  show _ = some ((rnd (X.idxOf q.1) j : Nat) : Int)
  rw [h2, h3]

/-- **C65 (natural numbers, completeness).** -/
theorem C65_nat_complete {rnd : Nat → Nat → Nat} {R : RunEnv NatOp Int} (hR : RunOk (natDomain rnd) R)
    (hacc : ∀ before q, GoodRule (fun o k => k = o.arity) q → Holds natOpVal q → R.min.valid before q = true)
    {w : Workload} {prior out : Ruleset NatOp} {pl ml : Limits} {fast allowEmpty : Bool} {asked : List (Rule NatOp)}
    (hp : WellFormed prior)
    (hpr : ∀ r ∈ Ruleset.iter prior, Rule.Textual r ∧ GoodRule (fun o k => k = o.arity) r ∧ Holds natOpVal r)
    (h : runWorkloadInternal (natDomain rnd) R w prior pl ml fast allowEmpty = some (out, asked))
    {W : Type} {J : NatOp → List W → W} {memJ : Interval Int → W → Prop}
    (hFJ : ∀ env, FoldsIn (natDomain rnd) (fun o k => k = o.arity) (withVars env J) memJ)
    (hJ : ∀ q, q ∈ Ruleset.iter prior ∨ q ∈ Ruleset.iter out → Holds J q) :
    ∃ g g', w.toEGraph (natDomain rnd) R.build = some g ∧
      Scheduler.run (natDomain rnd) R.eg R.isSat (.compress pl) prior R.tr g = some g' ∧
      (∀ ss, w.force = some ss → ∀ s ∈ ss, ∀ t : Tm NatOp, Tm.ofSexp s = some t → ∃ i ∈ g'.classes, Rep g' t i) ∧
      ∀ i ∈ g'.classes, ∀ j ∈ g'.classes, Covers (R.best g' i) (R.best g' j) ∨ Covers (R.best g' j) (R.best g' i) →
        ∀ t u, Rep g' t i → Rep g' u j → (∀ env, natVal env t = natVal env u) → ∀ env, tmVal env J t = tmVal env J u :=
  C65_complete (nat_folds rnd) (nat_plain rnd) nat_varOps (nat_computes rnd) (nat_initOk rnd)
    (by rintro a b v rfl rfl; exact ⟨rfl, rfl⟩) (fun _ _ _ hX hi => nat_positions hX hi) nat_parsesSorted nat_opsReadable hR
    hacc hp hpr h hFJ hJ

/-- **C65 (bit vectors, completeness).** -/
theorem C65_bv_complete {N : Nat} (hN : N ≤ 128) {R : RunEnv (BvOp N) (BV N)} (hR : RunOk (bvDomain N) R)
    (hacc : ∀ before q, GoodRule (fun o k => k = o.arity ∧ LitProper o) q → Holds bvOpVal q →
      R.min.valid before q = true)
    {w : Workload} {prior out : Ruleset (BvOp N)} {pl ml : Limits} {fast allowEmpty : Bool} {asked : List (Rule (BvOp N))}
    (hp : WellFormed prior)
    (hpr : ∀ r ∈ Ruleset.iter prior,
      Rule.Textual r ∧ GoodRule (fun o k => k = o.arity ∧ LitProper o) r ∧ Holds bvOpVal r)
    (h : runWorkloadInternal (bvDomain N) R w prior pl ml fast allowEmpty = some (out, asked))
    {W : Type} {J : BvOp N → List W → W} {memJ : Interval (BV N) → W → Prop}
    (hFJ : ∀ env, FoldsIn (bvDomain N) (fun o k => k = o.arity ∧ LitProper o) (withVars env J) memJ)
    (hJ : ∀ q, q ∈ Ruleset.iter prior ∨ q ∈ Ruleset.iter out → Holds J q) :
    ∃ g g', w.toEGraph (bvDomain N) R.build = some g ∧
      Scheduler.run (bvDomain N) R.eg R.isSat (.compress pl) prior R.tr g = some g' ∧
      (∀ ss, w.force = some ss → ∀ s ∈ ss, ∀ t : Tm (BvOp N), Tm.ofSexp s = some t → ∃ i ∈ g'.classes, Rep g' t i) ∧
      ∀ i ∈ g'.classes, ∀ j ∈ g'.classes, Covers (R.best g' i) (R.best g' j) ∨ Covers (R.best g' j) (R.best g' i) →
        ∀ t u, Rep g' t i → Rep g' u j → (∀ env, tmVal env bvOpVal t = tmVal env bvOpVal u) →
          ∀ env, tmVal env J t = tmVal env J u := by
  refine C65_complete bv_folds_proper bv_plain bv_varOps (bv_computes hN) bv_initOk ?_ ?_ (bv_parsesSorted hN)
    (bv_opsReadable hN) hR hacc hp hpr h hFJ hJ
  · rintro a b v ⟨w, rfl, h2, h3⟩ ⟨w', rfl, h2', h3'⟩
    exact ⟨rfl, congrArg some (BV.bits_inj h2 h2' (h3.trans h3'.symm))⟩
  · intro X n tbl hX hi
    refine initProduct_positions hX hi (by simpa using bvSamples_ne N) ?_
    intro c hc
    obtain ⟨w, hw, rfl⟩ := List.mem_map.1 hc
    exact ⟨bits w, w, rfl, bvSamples_proper hN w hw, rfl⟩

end Ruler
