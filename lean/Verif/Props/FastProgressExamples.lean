import Verif.Props.FastProgress
import Verif.Props.ProgressExamples
import Verif.Props.ExpRun
import Verif.Props.CadRun
import Verif.Props.MaxMinRun
/-!
# C85: examples
-/
namespace Ruler
open Spec EGraph
variable {O C : Type} [Lang O] [LinearOrder C]

theorem Sample.fast_deep {F : FastEnv O C} (h1 : F.build = Sample.egg) (h2 : F.egAllowed = Sample.egg) (h3 : F.egDenote = Sample.egg)
    (h4 : F.egFinal = Sample.egg) (h5 : ∀ k, F.min.eg k = Sample.egg) (k1 : F.trAllowed.clone = Sample.egg)
    (k2 : F.trDenote.clone = Sample.egg) (k3 : F.trFinal.clone = Sample.egg) (k4 : ∀ k, (F.min.tr k).clone = Sample.egg) :
    FastEnv.Deep F := by
  have h : 2 ≤ Sample.egg.depth := by decide
  unfold FastEnv.Deep
  rw [h1, h2, h3, h4, k1, k2, k3]
  exact ⟨h, ⟨h, h⟩, ⟨h, h⟩, ⟨h, h⟩, fun k => by rw [h5, k4]; exact ⟨h, h⟩⟩

theorem Sample.reads {w : Workload} {X : List String}
    (h : (w.force.bind fun ss => (ss.mapM (Tm.ofSexp (O := O))).map collectVars) = some X) : ReadsIn O X w := by
  obtain ⟨ss, hss, h⟩ := Option.bind_eq_some_iff.1 h
  obtain ⟨ts, hts, rfl⟩ := Option.map_eq_some_iff.1 h
  exact ⟨ts, ⟨ss, hss, hts⟩, fun t ht x hx => mem_collectVars ht hx⟩

theorem Sample.expEnv_fast : FastOk expDomain Sample.expEnv :=
  ⟨fun _ hg _ hi => Sample.extracted_ok extractableCost_laws hg hi, fun _ => List.Perm.refl _,
    Sample.fast_deep rfl rfl rfl rfl (fun _ => rfl) rfl rfl rfl fun _ => rfl⟩
theorem Sample.cadEnv_fast : FastOk cadDomain Sample.cadEnv :=
  ⟨fun _ hg _ hi => Sample.extracted_ok extractableCost_laws hg hi, fun _ => List.Perm.refl _,
    Sample.fast_deep rfl rfl rfl rfl (fun _ => rfl) rfl rfl rfl fun _ => rfl⟩
theorem Sample.maxEnv_fast : FastOk maxMinDomain Sample.maxEnv :=
  ⟨fun _ hg _ hi => Sample.extracted_ok extractableCost_laws hg hi, fun _ => List.Perm.refl _,
    Sample.fast_deep rfl rfl rfl rfl (fun _ => rfl) rfl rfl rfl fun _ => rfl⟩
theorem Sample.posEnv_fast : FastOk posDomain Sample.posEnv :=
  ⟨fun _ hg _ hi => Sample.extracted_ok extractableCost_laws hg hi, fun _ => List.Perm.refl _,
    Sample.fast_deep rfl rfl rfl rfl (fun _ => rfl) rfl rfl rfl fun _ => rfl⟩

-- The exponential recipe with all exploratory rules, from the given choices in all six runs.
example : ∃ expl, Ruleset.new (ExpOp.exploratoryTexts.map String.toList) = some expl ∧ ∃ F' : Nat → FastEnv ExpOp Rat,
    (∀ i, FastEnv.Goes Sample.expEnv (F' i)) ∧ ∃ out, expRules expl F' = some out := by
  obtain ⟨expl, he, -⟩ := table_new expExploratory_sides
  exact ⟨expl, he, C85_exp (fun _ h => h) he fun _ _ => Sample.expEnv_fast⟩

-- The lifting runs of the other languages, twice each.
example : ∃ steps', List.Forall₂ FastStep.Goes [Sample.cadStep, Sample.cadStep] steps' ∧
    ∃ out, fastRecipe cadDomain Sample.transRules steps' Sample.cadRules = some out := by
  obtain ⟨steps', h, out, h', -⟩ := C85_cad (explLines := Sample.transLines) (lines := Sample.cadLines)
    (by simp [Sample.transLines, CadOp.liftingTexts]) (by simp [Sample.cadLines, CadOp.priorTexts, CadOp.frepTexts, CadOp.substTexts])
    (expl := Sample.transRules) (prior := Sample.cadRules) (by decide +kernel) (by decide +kernel) (X := ["a"]) (by decide)
    (steps := [Sample.cadStep, Sample.cadStep]) (fun st hst => by
      obtain rfl : st = Sample.cadStep := by simpa using hst
      exact ⟨Sample.cadEnv_fast, Sample.reads (by decide +kernel)⟩)
  exact ⟨steps', h, out, h'⟩

example : ∃ expl nat, Ruleset.new (PosOp.exploratoryTexts.map String.toList) = some expl ∧
    Ruleset.new (PosOp.natTexts.map String.toList) = some nat ∧
    ∃ steps', List.Forall₂ FastStep.Goes [⟨Sample.posEnv, Sample.doubles, Sample.limits, Sample.limits⟩] steps' ∧
      ∃ out, fastRecipe posDomain expl steps' nat = some out := by
  obtain ⟨expl, he, -⟩ := table_new posExploratory_sides
  obtain ⟨nat, hn, -⟩ := table_new posNat_sides
  obtain ⟨steps', h, out, h', -⟩ := C85_pos (fun _ h => h) (fun _ h => h) he hn (X := ["a"]) (by decide)
    (steps := [⟨Sample.posEnv, Sample.doubles, Sample.limits, Sample.limits⟩]) (fun st hst => by
      obtain rfl := List.mem_singleton.1 hst
      exact ⟨Sample.posEnv_fast, Sample.reads (by decide +kernel)⟩)
  exact ⟨expl, nat, he, hn, steps', h, out, h'⟩

example : ∃ expl nat, Ruleset.new (MaxMinOp.exploratoryTexts.map String.toList) = some expl ∧
    Ruleset.new (MaxMinOp.natTexts.map String.toList) = some nat ∧
    ∃ steps', List.Forall₂ FastStep.Goes [Sample.maxStep] steps' ∧ ∃ out, fastRecipe maxMinDomain expl steps' nat = some out := by
  obtain ⟨expl, he, -⟩ := table_new maxMinExploratory_sides
  obtain ⟨nat, hn, -⟩ := table_new maxMinNat_sides
  obtain ⟨ts, h1, h2⟩ := Sample.reads (O := MaxMinOp) (w := Sample.maxSame) (X := ["a"]) (by decide +kernel)
  obtain ⟨steps', h, out, h', -⟩ := C85_maxmin (fun _ h => h) (fun _ h => h) he hn (X := ["a", "<", "&", "|", "!"]) (by decide)
    (by decide) (steps := [Sample.maxStep]) (fun st hst => by
      obtain rfl := List.mem_singleton.1 hst
      exact ⟨Sample.maxEnv_fast, ts, h1, fun t ht x hx => List.mem_append_left _ (h2 t ht x hx)⟩)
  exact ⟨expl, nat, he, hn, steps', h, out, h'⟩

theorem Sample.bvBoolEnv_fast : FastOk bvBoolDomain Sample.bvBoolEnv :=
  ⟨fun _ hg _ hi => Sample.extracted_ok extractableCost_laws hg hi, fun _ => List.Perm.refl _,
    Sample.fast_deep rfl rfl rfl rfl (fun _ => rfl) rfl rfl rfl fun _ => rfl⟩

-- Two-bit vectors with the rule that unites the Boolean constants: the hook gives `(bv true false)` a number.
example : ∃ expl, bvBoolExploratory = some expl ∧ ∃ steps',
    List.Forall₂ FastStep.Goes [⟨Sample.bvBoolEnv, .set [.list [.atom "and", .list [.atom "bv", .atom "true", .atom "false"], .atom "a"]],
      Sample.limits, Sample.limits⟩] steps' ∧
    ∃ out, fastRecipe bvBoolDomain expl steps' [("r".toList, ⟨"r".toList, .node (.lit true) [], .node (.lit false) []⟩)] = some out := by
  obtain ⟨expl, he, -⟩ := C58_tables
  obtain ⟨steps', h, out, h', -⟩ := C85_bvbool he (X := ["a"]) (by decide)
    (steps := [⟨Sample.bvBoolEnv, .set [.list [.atom "and", .list [.atom "bv", .atom "true", .atom "false"], .atom "a"]],
      Sample.limits, Sample.limits⟩]) (fun st hst => by
      obtain rfl := List.mem_singleton.1 hst
      exact ⟨Sample.bvBoolEnv_fast, Sample.reads (by decide +kernel)⟩)
    (prior := [("r".toList, ⟨"r".toList, .node (.lit true) [], .node (.lit false) []⟩)])
    (Ruleset.WellFormed.add Ruleset.WellFormed.nil (⟨"r".toList, .node (.lit true) [], .node (.lit false) []⟩ : Rule BvBoolOp)) (fun r hr => by
      obtain rfl : r = ⟨"r".toList, .node (.lit true) [], .node (.lit false) []⟩ := by simpa [Ruleset.iter] using hr
      exact ⟨⟨leafB_sound _ _ (by decide +kernel), leafB_sound _ _ (by decide +kernel)⟩, by unfold BoundRhs; decide +kernel⟩)
  exact ⟨expl, he, steps', h, out, h'⟩

-- A validator that accepts everything, over symbols nobody has given a meaning: deriving a false rule from a false rule.
example : ∃ tr' : Rule ExpOp → SchedTrace, (∀ q, SchedTrace.Goes Sample.quiet (tr' q)) ∧
    ∃ out, Ruleset.derive expDomain (fun _ => false) .lhs Sample.limits .leaf (fun _ => Sample.egg) tr'
      [("r".toList, ⟨"r".toList, .node .exp [.var "?a"], .var "?a"⟩)] [("s".toList, ⟨"s".toList, .var "?a", .node .log [.var "?a"]⟩)] =
        some out := by
  have hl : ∀ o : ExpOp, ((Lang.toVar o).isSome || Lang.isConst o) = false → LeafSort o 1 := fun o h h' => by simp [h] at h'
  refine C85_blind_derive exp_blind exp_varOps (fun q hq => ?_) (fun q hq => ?_) _ _ _ _ _ (fun _ => by decide) _ fun _ => by decide
  · obtain rfl : q = ⟨"r".toList, .node .exp [.var "?a"], .var "?a"⟩ := by simpa [Ruleset.iter] using hq
    exact ⟨⟨.node (hl _ rfl) (by simpa using PatOk.var), .var⟩, show ∀ v ∈ _, v ∈ _ by decide +kernel⟩
  · obtain rfl : q = ⟨"s".toList, .var "?a", .node .log [.var "?a"]⟩ := by simpa [Ruleset.iter] using hq
    exact ⟨.var, .node (hl _ rfl) (by simpa using PatOk.var)⟩

/-- Choices of a fast-forwarding run over natural numbers. -/
noncomputable def Sample.natFast : FastEnv NatOp Int := { Sample.ffEnv with best := Sample.extracted Sample.natDom extractableCost_laws }

-- Fast-forwarding over the natural numbers, whose analysis has samples and constants; commutativity is the exploratory rule.
example : ∃ F', FastEnv.Goes Sample.natFast F' ∧ ∃ out asked,
    runFastForwarding Sample.natDom F' Sample.sums [] (Ruleset.add [] Sample.plusComm) Sample.limits Sample.limits = some (out, asked) ∧
      WellFormed out ∧ ∀ q ∈ Ruleset.iter out, SafeRule (fun o k => k = o.arity) natOpVal q := by
  have hts : TermsOf Sample.sums [Sample.nxy, Sample.nyx] := ⟨_, rfl, by decide +kernel⟩
  exact C85_fast_forward (nat_safe _) (nat_initOk _)
    ⟨fun _ hg _ hi => Sample.extracted_ok extractableCost_laws hg hi, fun _ => List.Perm.refl _,
      Sample.fast_deep rfl rfl rfl rfl (fun _ => rfl) rfl rfl rfl fun _ => rfl⟩
    hts (tmOk_sorted nat_parsesSorted hts)
    (Sample.few (x := "x") (l := ["y"]) (by decide +kernel) (by simp)) (fun _ _ hn => ⟨_, _, rfl, (nat_positions hn rfl).2⟩)
    Ruleset.WellFormed.nil (by simp [Ruleset.iter])
    (by simpa [Ruleset.iter, Ruleset.add, IndexMap.insert, IndexMap.containsKey] using Sample.plusComm_safe) _ _

end Ruler
