import Verif.Props.Progress
/-!
# C69: Halide runs can panic
-/
namespace Ruler
open Spec EGraph

/-- **C69 (part).** A run over Halide terms without negation and division does not panic, if the prior rules hold and use
neither, and if z3 is right when it says unsatisfiable. Missing: negation and division, which can panic
(`C69_negation_panics`, `C69_division_panics`). -/
theorem C69_halide_partial {R : RunEnv PredOp Int} (hR : RunOk halideDomain R) (hd : RunEnv.Deep R)
    (ha : AnswersFrom SolverSoundInt halideValidate R.min.valid) {w : Workload} {prior : Ruleset PredOp}
    (hpr : ∀ r ∈ Ruleset.iter prior,
      SafeRule (fun o k => (k = o.arity ∧ PredLitFits o) ∧ o ≠ .neg ∧ o ≠ .div) predOpVal r) {ts : List (Tm PredOp)}
    (hts : TermsOf w ts) (hok : ∀ t ∈ ts, TmOk (fun o k => (k = o.arity ∧ PredLitFits o) ∧ o ≠ .neg ∧ o ≠ .div) t)
    (hfew : FewVars ts) (pl ml : Limits) (fast : Bool) : Completes halideDomain R w prior pl ml fast := by
  have mono : ∀ p : Pat PredOp, PatOk (fun o k => (k = o.arity ∧ PredLitFits o) ∧ o ≠ .neg ∧ o ≠ .div) p →
      PatOk (fun o k => k = o.arity ∧ PredLitFits o) p := by
    intro p hp
    induction hp with
    | var => exact .var
    | node h _ ih => exact .node h.1 ih
  refine C68_runWorkload halide_safe halide_initOk (fun o k h => halide_opsReadable o k h.1) hR hd hpr hts hok hfew
    (fun X hX hn => initProduct_total (consts := halideSamples) (by simp [halideSamples]) (fun c _ => ?_) hX hn)
    (fun before q hq hb => ?_) pl ml fast
  · cases c with
    | none => exact ⟨0, by simp⟩
    | some c => exact ⟨c, by simp⟩
  · exact halide_accepted ha ⟨⟨mono _ hq.1.1, mono _ hq.1.2⟩, hq.2⟩ (asked := q :: before) ⟨before, List.suffix_rfl, hb⟩

/-- The workload `(+ x (- -9223372036854775808))`. -/
def Sample.negWorkload : Workload := .set [.list [.atom "+", .atom "x", .list [.atom "-", .atom "-9223372036854775808"]]]

/-- The term. -/
def Sample.negTm : Tm PredOp := .node .add [.node (.var "x") [], .node .neg [.node (.lit (-9223372036854775808)) []]]

theorem Sample.negTerms : TermsOf (O := PredOp) Sample.negWorkload [Sample.negTm] := ⟨_, rfl, by decide +kernel⟩
theorem Sample.negVars : collectVars [Sample.negTm] = ["x"] := by decide +kernel
theorem Sample.neg_none : (Sample.negWorkload.toEGraph halideDomain Sample.egg).isNone = true := by decide +kernel

/-- **C69.** The e-graph of this workload cannot be built: the negation of the least number overflows. -/
theorem C69_negation_panics : ∃ (w : Workload) (ts : List (Tm PredOp)), TermsOf w ts ∧
    (∀ t ∈ ts, TmOk (fun o k => k = o.arity ∧ PredLitFits o) t) ∧ FewVars ts ∧
    ∃ E : Egg, 2 ≤ E.depth ∧ w.toEGraph halideDomain E = none := by
  refine ⟨_, _, Sample.negTerms, tmOk_sorted halide_parsesSorted Sample.negTerms,
    ⟨⟨_, List.mem_singleton_self _, "x", ?_⟩, ["x"], by simp, ?_⟩, Sample.egg, by decide,
    Option.isNone_iff_eq_none.1 Sample.neg_none⟩
  · exact varNames_hasVar _ (by decide +kernel)
  · rintro x ⟨t, ht, h⟩
    have := mem_collectVars ht h
    rwa [Sample.negVars] at this

/-- The workload `(< (- a (* 2 (/ a 2))) 0)`, `0`. -/
def Sample.divWorkload : Workload :=
  .set [.list [.atom "<", .list [.atom "-", .atom "a", .list [.atom "*", .atom "2", .list [.atom "/", .atom "a", .atom "2"]]],
    .atom "0"], .atom "0"]

/-- The two terms. -/
def Sample.divTm : Tm PredOp :=
  .node .lt [.node .sub [.node (.var "a") [], .node .mul [.node (.lit 2) [],
    .node .div [.node (.var "a") [], .node (.lit 2) []]]], .node (.lit 0) []]

/-- The rule `(< (- ?a (* 2 (/ ?a 2))) 0) ==> 0`: the remainder is not negative. -/
def Sample.divRule : Rule PredOp :=
  { name := ruleName (schema (fun _ => "?a") Sample.divTm) (schema (fun _ => "?a") (.node (.lit 0) []))
    lhs := schema (fun _ => "?a") Sample.divTm
    rhs := schema (fun _ => "?a") (.node (.lit 0) []) }

theorem VarIn.hasVar {O : Type} [Lang O] {x : String} {t : Tm O} (h : VarIn x t) : HasVar x t := by
  induction h with
  | here e => exact .here e
  | there _ hm _ ih => exact .there hm ih

theorem Sample.divVars : collectVars [Sample.divTm, .node (.lit 0) []] = ["a"] := by decide +kernel

theorem Sample.divRel : Relates Sample.divRule Sample.divTm (.node (.lit 0) []) := by
  refine ⟨fun _ => "?a", ?_, ?_, ?_, ?_⟩
  · have key : ∀ x, (VarIn x Sample.divTm ∨ VarIn x (.node (.lit 0) [] : Tm PredOp)) → x = "a" := by
      intro x hx
      have : x ∈ collectVars [Sample.divTm, .node (.lit 0) []] := by
        rcases hx with h | h
        · exact mem_collectVars (List.mem_cons_self ..) (Ruler.VarIn.hasVar h)
        · exact mem_collectVars (List.mem_cons_of_mem _ (List.mem_cons_self ..)) (Ruler.VarIn.hasVar h)
      rw [Sample.divVars] at this
      simpa using this
    intro x y hx hy _
    rw [key x hx, key y hy]
  · rw [Sample.divRule]
  · rw [Sample.divRule]
  · rw [Sample.divRule]

theorem Sample.divTerms : TermsOf (O := PredOp) Sample.divWorkload [Sample.divTm, .node (.lit 0) []] :=
  ⟨_, rfl, by decide +kernel⟩

/-- **C69.** Applying a rule that holds can panic: the samples are computed with truncating division, and z3's division
rounds down, so the two sides of an instance of the rule have different samples. -/
theorem C69_division_panics : ∃ (r : Rule PredOp) (w : Workload) (s t : Tm PredOp),
    SafeRule (fun o k => k = o.arity ∧ PredLitFits o) predOpVal r ∧ Relates r s t ∧ TermsOf w [s, t] ∧ FewVars [s, t] ∧
    ∃ (E : Egg) (g : EGraph PredOp Int) (i j : Nat), 2 ≤ E.depth ∧ w.toEGraph halideDomain E = some g ∧ Rep g s i ∧ Rep g t j ∧
      EGraph.union halideDomain E g i j = none := by
  have hok := tmOk_sorted halide_parsesSorted Sample.divTerms
  have ha : LetterVar "?a" := ⟨'a', by decide, by decide, rfl⟩
  refine ⟨Sample.divRule, Sample.divWorkload, _, _, ⟨⟨⟨?_, ?_⟩, ?_, ?_⟩, ?_, ?_⟩, Sample.divRel, Sample.divTerms,
    ⟨⟨_, List.mem_cons_self .., "a", ?_⟩, ["a"], by simp, ?_⟩, ?_⟩
  · exact (readable_schema halide_opsReadable (hok _ (List.mem_cons_self ..)) fun _ _ => ha).2.1
  · exact (readable_schema halide_opsReadable (hok _ (List.mem_cons_of_mem _ (List.mem_cons_self ..))) fun _ _ => ha).2.1
  · exact schema_schematic fun _ _ => by decide
  · exact schema_schematic fun _ _ => by decide
  · rw [Relates.holds_iff Sample.divRel]
    intro env
    show (if env "a" - 2 * (if (2 : Int) = 0 then 0 else env "a" / 2) < 0 then (1 : Int) else 0) = 0
    rw [if_neg (by decide : ¬ (2 : Int) = 0), if_neg (by omega)]
  · intro v hv
    rw [show Sample.divRule.rhs.vars = [] by decide +kernel] at hv
    cases hv
  · exact .there (List.mem_cons_self ..) (.there (List.mem_cons_self ..) (.here rfl))
  · rintro x ⟨t, ht, h⟩
    have := mem_collectVars ht h
    rw [Sample.divVars] at this
    simpa using this
  · obtain ⟨g, hg⟩ := Option.isSome_iff_exists.1
      (show (Sample.divWorkload.toEGraph halideDomain Sample.egg).isSome = true by decide +kernel)
    have key : ∀ {P : EGraph PredOp Int → Bool}, (Sample.divWorkload.toEGraph halideDomain Sample.egg).all P = true → P g = true := by
      intro P h
      rwa [hg] at h
    have hn : g.nodes = [(⟨.var "a", []⟩, 0), (⟨.lit 2, []⟩, 1), (⟨.div, [0, 1]⟩, 2), (⟨.mul, [1, 2]⟩, 3),
        (⟨.sub, [0, 3]⟩, 4), (⟨.lit 0, []⟩, 5), (⟨.lt, [4, 5]⟩, 6)] := by
      have := key (P := fun g => decide (g.nodes = [(⟨.var "a", []⟩, 0), (⟨.lit 2, []⟩, 1), (⟨.div, [0, 1]⟩, 2),
        (⟨.mul, [1, 2]⟩, 3), (⟨.sub, [0, 3]⟩, 4), (⟨.lit 0, []⟩, 5), (⟨.lt, [4, 5]⟩, 6)])) (by decide +kernel)
      exact of_decide_eq_true this
    have hu := key (P := fun g => (EGraph.union halideDomain Sample.egg g 6 5).isNone) (by decide +kernel)
    refine ⟨Sample.egg, g, 6, 5, by decide, hg, ?_, ?_, by simpa using hu⟩
    · simp [Sample.divTm, Rep, RepL, hn]
    · simp [Rep, RepL, hn]

end Ruler
