import Verif.Props.SynthesisRuns
import Verif.Props.ProgressHalide
/-!
# C68, C69: examples
-/
namespace Ruler
open Spec EGraph
variable {O C : Type} [Lang O] [LinearOrder C]

theorem Sample.commEnv_deep (D : Domain O C) (f : O) : RunEnv.Deep (Sample.commEnv D f) :=
  have h1 : 2 ≤ Sample.egg.depth := by decide
  have h2 : 2 ≤ Sample.quiet.clone.depth := by decide
  ⟨h1, h1, h2, fun _ => ⟨h1, h2⟩⟩

theorem Sample.boolEnv_deep : RunEnv.Deep Sample.boolEnv :=
  have h1 : 2 ≤ Sample.egg.depth := by decide
  have h2 : 2 ≤ Sample.quiet.clone.depth := by decide
  ⟨h1, h1, h2, fun _ => ⟨h1, h2⟩⟩

theorem Sample.few {ts : List (Tm O)} {x : String} {l : List String} (h : collectVars ts = x :: l) (hl : l.length ≤ 25) :
    FewVars ts := by
  obtain ⟨t, ht, hx⟩ := ((collectVars_spec ts).2 x).1 (by rw [h]; simp)
  refine ⟨⟨t, ht, x, hx⟩, x :: l, by simp; omega, fun y ⟨u, hu, hy⟩ => ?_⟩
  rw [← h]
  exact mem_collectVars hu hy

/-- `(+ ?a ?b) ==> (+ ?b ?a)` -/
def Sample.plusComm : Rule NatOp :=
  ⟨"(+ ?a ?b) ==> (+ ?b ?a)".toList, .node .add [.var "?a", .var "?b"], .node .add [.var "?b", .var "?a"]⟩

theorem Sample.plusComm_safe : SafeRule (fun o k => k = o.arity) natOpVal Sample.plusComm := by
  refine ⟨⟨⟨.node rfl ?_, .node rfl ?_⟩, .node rfl ?_, .node rfl ?_⟩, fun ρ => Nat.add_comm _ _, show ∀ v ∈ _, v ∈ _ by decide +kernel⟩
  all_goals
    intro a ha
    simp only [List.mem_cons, List.not_mem_nil, or_false] at ha
    rcases ha with rfl | rfl
  all_goals first | exact .var | exact .var rfl

/-- `(& ?a ?b) ==> (& ?b ?a)` -/
def Sample.andComm : Rule BoolOp :=
  ⟨"(& ?a ?b) ==> (& ?b ?a)".toList, .node .and [.var "?a", .var "?b"], .node .and [.var "?b", .var "?a"]⟩

theorem Sample.andComm_safe : SafeRule (fun o k => k = o.arity) boolOpVal Sample.andComm := by
  refine ⟨⟨⟨.node rfl ?_, .node rfl ?_⟩, .node rfl ?_, .node rfl ?_⟩, fun ρ => Bool.and_comm _ _, show ∀ v ∈ _, v ∈ _ by decide +kernel⟩
  all_goals
    intro a ha
    simp only [List.mem_cons, List.not_mem_nil, or_false] at ha
    rcases ha with rfl | rfl
  all_goals first | exact .var | exact .var rfl

theorem Sample.nat_answers : AnswersFrom SolverSoundInt (validateEq NatOp.toSmt) (Sample.commEnv Sample.natDom NatOp.add).min.valid := by
  refine Sample.answers Sample.intSolver_sound fun a b ha hb => ?_
  rcases ha with rfl | rfl <;> rcases hb with rfl | rfl
  all_goals
    show some (Sample.intSolver (.add (.const _) (.const _)) (.add (.const _) (.const _))).toValidation = _
    rw [Sample.intSolver, if_pos fun d0 env => by first | rfl | exact add_comm _ _]
    rfl

-- A run over Boolean formulas whose prior contains commutativity.
example (fast : Bool) : Completes boolDomain Sample.boolEnv Sample.conjs (Ruleset.add [] Sample.andComm) Sample.limits
    Sample.limits fast :=
  C68_bool Sample.boolEnv_ok Sample.boolEnv_deep (by simpa [Ruleset.iter, Ruleset.add, IndexMap.insert, IndexMap.containsKey] using Sample.andComm_safe)
    (ts := [Sample.conj "x" "y", Sample.conj "y" "x"]) ⟨_, rfl, by decide +kernel⟩
    (Sample.few (x := "x") (l := ["y"]) (by decide +kernel) (by simp)) _ _ fast

-- `recursive_rules`; the workload of each level is readable and has a variable.
example : ∃ envs' : Nat → RunEnv BoolOp Bool, (∀ k, RunEnv.Goes Sample.boolEnv (envs' k)) ∧
    ((∃ out log, recursiveRules boolDomain envs' .atoms ⟨[], [['x']], [[['~']], []]⟩ [] 3 = some (out, log)) ∨
      EmptyLevel boolDomain envs' .atoms ⟨[], [['x']], [[['~']], []]⟩ [] 3) := by
  refine C68_bool_recursive (envs := fun _ => Sample.boolEnv) (fun _ => Sample.boolEnv_ok) (fun _ => Sample.boolEnv_deep)
    (by simp [WellFormed]) (by simp [Ruleset.iter]) fun k h1 h3 => ?_
  have key : ∀ k < 4, 1 ≤ k → ((recursiveWorkload .atoms k ⟨[], [['x']], [[['~']], []]⟩).bind fun w => w.force.bind fun ss =>
      (ss.mapM (Tm.ofSexp (O := BoolOp))).map collectVars) = some ["x"] := by decide +kernel
  obtain ⟨w, hw, h⟩ := Option.bind_eq_some_iff.1 (key k (by omega) h1)
  obtain ⟨ss, hss, h⟩ := Option.bind_eq_some_iff.1 h
  obtain ⟨ts, hts, h⟩ := Option.map_eq_some_iff.1 h
  exact ⟨w, ts, hw, ⟨ss, hss, hts⟩, Sample.few h (by simp)⟩

-- A run over natural numbers whose prior contains commutativity.
example (fast : Bool) : Completes Sample.natDom (Sample.commEnv Sample.natDom NatOp.add) (Sample.bothWays "+")
    (Ruleset.add [] Sample.plusComm) Sample.limits Sample.limits fast :=
  C68_nat (Sample.commEnv_ok _ _) (Sample.commEnv_deep _ _) Sample.nat_answers
    (by simpa [Ruleset.iter, Ruleset.add, IndexMap.insert, IndexMap.containsKey] using Sample.plusComm_safe) (ts := [Sample.nxy, Sample.nyx])
    ⟨_, rfl, by decide +kernel⟩ (Sample.few (x := "x") (l := ["y"]) (by decide +kernel) (by simp)) _ _ fast

-- Runs over four-bit words and over Halide terms.
example (fast : Bool) : Completes (bvDomain 4) (Sample.commEnv (bvDomain 4) BvOp.and) (Sample.bothWays "&") [] Sample.limits
    Sample.limits fast :=
  C68_bv (by omega) (Sample.commEnv_ok _ _) (Sample.commEnv_deep _ _)
    (Sample.answers (Sample.bvSolver_sound 4) fun a b ha hb => by
      rcases ha with rfl | rfl <;> rcases hb with rfl | rfl
      all_goals
        show some (Sample.bvSolver 4 (.bvand (.const _) (.const _)) (.bvand (.const _) (.const _))).toValidation = _
        rw [Sample.bvSolver, if_pos fun env => by first | rfl | exact BitVec.and_comm _ _]
        rfl) (by simp [Ruleset.iter])
    (ts := [.node .and [.node (.var "x") [], .node (.var "y") []], .node .and [.node (.var "y") [], .node (.var "x") []]])
    ⟨_, rfl, by decide +kernel⟩ (Sample.few (x := "x") (l := ["y"]) (by decide +kernel) (by simp)) _ _ fast

example (fast : Bool) : Completes halideDomain (Sample.commEnv halideDomain PredOp.min) (Sample.bothWays "min") [] Sample.limits
    Sample.limits fast :=
  C69_halide_partial (Sample.commEnv_ok _ _) (Sample.commEnv_deep _ _)
    (Sample.answers Sample.intSolver_sound fun a b ha hb => by
      rcases ha with rfl | rfl <;> rcases hb with rfl | rfl
      all_goals
        show some (Sample.intSolver (PredOp.toSmt .min [.const _, .const _])
          (PredOp.toSmt .min [.const _, .const _])).toValidation = _
        rw [Sample.intSolver, if_pos fun d0 env => by exact Sample.minComm d0 env _ _]
        rfl) (by simp [Ruleset.iter])
    (ts := [.node .min [.node (.var "x") [], .node (.var "y") []], .node .min [.node (.var "y") [], .node (.var "x") []]])
    ⟨_, rfl, by decide +kernel⟩ (by
      intro t ht
      have leaf : ∀ x, TmOk (fun o k => (k = o.arity ∧ PredLitFits o) ∧ o ≠ .neg ∧ o ≠ .div) (.node (.var x) [] : Tm PredOp) :=
        fun x => .node ⟨⟨rfl, trivial⟩, by simp, by simp⟩ (by simp)
      simp only [List.mem_cons, List.not_mem_nil, or_false] at ht
      rcases ht with rfl | rfl <;>
      exact .node ⟨⟨rfl, trivial⟩, by simp, by simp⟩ (by simp [leaf]))
    (Sample.few (x := "x") (l := ["y"]) (by decide +kernel) (by simp)) _ _ fast

-- Deriving commutativity of addition from itself, asking whether it is saturating, and minimizing it.
example (t : SchedTrace) (ht : 2 ≤ t.clone.depth) (ty : DeriveType) (steps : List Repair) :
    (∃ t', SchedTrace.Goes t t' ∧ ∃ b, Ruleset.canDerive Sample.natDom Sample.egg (fun _ => false) ty Sample.limits t'
      (Ruleset.add [] Sample.plusComm) Sample.plusComm = some b) ∧
    (∃ more b, isSaturating Sample.natDom Sample.egg (steps ++ more) Sample.plusComm = some b) ∧
    ∃ tr' : Nat → SchedTrace, (∀ k, SchedTrace.Goes ((Sample.commEnv Sample.natDom NatOp.add).min.tr k) (tr' k)) ∧
      ∃ out inv asked, Ruleset.minimize Sample.natDom { (Sample.commEnv Sample.natDom NatOp.add).min with tr := tr' } 1
        (Ruleset.add [] Sample.plusComm) [] = .done out inv asked := by
  have hs : ∀ q ∈ Ruleset.iter (Ruleset.add [] Sample.plusComm), SafeRule (fun o k => k = o.arity) natOpVal q := by
    simpa [Ruleset.iter, Ruleset.add, IndexMap.insert, IndexMap.containsKey] using Sample.plusComm_safe
  refine ⟨C68_canDerive (nat_safe _) (by decide) hs Sample.plusComm_safe.1.1 _ ty _ t ht,
    C68_isSaturating (nat_safe _) (by decide) Sample.plusComm_safe.1 Sample.plusComm_safe.2.1 steps,
    C68_minimize (nat_safe _) _ (fun k => ((Sample.commEnv_deep Sample.natDom NatOp.add).2.2.2 k).1)
      (fun k => ((Sample.commEnv_deep Sample.natDom NatOp.add).2.2.2 k).2) ?_ (fun q hq => ⟨(hs q hq).1, (hs q hq).2.2⟩)
      (fun before q hq hb => ?_) (by simp [Ruleset.iter])⟩
  · exact Ruleset.WellFormed.add (by simp [WellFormed]) _
  · obtain ⟨a, b, -, -, e1, e2⟩ := Sample.isCommOf_sides hb
    intro ρ
    rw [e1, e2]
    exact Nat.add_comm _ _

-- Deriving a ruleset in parallel.
example (split : Ruleset.Split) (ty : DeriveType) : ∃ tr' : Rule NatOp → SchedTrace,
    (∀ q, SchedTrace.Goes Sample.quiet (tr' q)) ∧ ∃ out, Ruleset.derive Sample.natDom (fun _ => false) ty Sample.limits split
      (fun _ => Sample.egg) tr' (Ruleset.add [] Sample.plusComm) (Ruleset.add [] Sample.plusComm) = some out := by
  have hs : ∀ q ∈ Ruleset.iter (Ruleset.add [] Sample.plusComm), SafeRule (fun o k => k = o.arity) natOpVal q := by
    simpa [Ruleset.iter, Ruleset.add, IndexMap.insert, IndexMap.containsKey] using Sample.plusComm_safe
  exact C68_derive (nat_safe _) hs (fun q hq => (hs q hq).1.1) _ ty _ split _ (fun _ => by decide) (fun _ => Sample.quiet)
    fun _ => by decide

-- The e-graph of `(+ x y)`, `(+ y x)`: commutativity can be run on it, whatever was done before.
example : ∃ g X, (Sample.bothWays "+").toEGraph Sample.natDom Sample.egg = some g ∧ ∀ g',
    Grows Sample.natDom (fun o k => k = o.arity) (SafeRule (fun o k => k = o.arity) natOpVal) X g g' → ∀ s,
      ∃ t', SchedTrace.Goes Sample.quiet t' ∧
        ∃ r, Scheduler.run Sample.natDom Sample.egg (fun _ => false) s (Ruleset.add [] Sample.plusComm) t' g' = some r := by
  have hs : ∀ q ∈ Ruleset.iter (Ruleset.add [] Sample.plusComm), SafeRule (fun o k => k = o.arity) natOpVal q := by
    simpa [Ruleset.iter, Ruleset.add, IndexMap.insert, IndexMap.containsKey] using Sample.plusComm_safe
  have hts : TermsOf (Sample.bothWays "+") [Sample.nxy, Sample.nyx] := ⟨_, rfl, by decide +kernel⟩
  obtain ⟨g, X, h1, -, h2⟩ := C68_egraph (nat_safe fun i j => i + j) (nat_initOk _) (E := Sample.egg) (by decide) hts
    (tmOk_sorted nat_parsesSorted hts) ⟨Sample.nxy, by simp, "x", varNames_hasVar _ (by decide +kernel)⟩
    (fun _ _ hn => ⟨_, _, rfl, (nat_positions hn rfl).2⟩)
  exact ⟨g, X, h1, fun g' hg s => (h2 g' hg Sample.egg (by decide)).2.2 _ _ s _ hs (by decide)⟩

-- The e-graph of the formula `true` cannot be built.
example (E : Egg) : (Workload.set [.atom "true"]).toEGraph boolDomain E = none :=
  C68_no_variables rfl E (ts := [.node (.lit true) []]) ⟨_, rfl, by decide +kernel⟩ (by
    intro t ht x hx
    have := mem_collectVars ht hx
    rw [show collectVars [(.node (.lit true) [] : Tm BoolOp)] = [] by decide +kernel] at this
    cases this)

end Ruler
