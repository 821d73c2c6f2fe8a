import Verif.Props.BvBool
import Verif.Proofs.TrigVal
import Verif.Proofs.DecimalText
/-!
# C59: rule lifting for the trigonometric functions
-/
namespace Ruler
open Spec EGraph
open scoped List

theorem trigSides_sch (p : Pat TrigOp × Pat TrigOp) (h : p ∈ trigExploratorySides ∨ p ∈ trigPriorSides ∨ p ∈ trigComplexSides) :
    Schematic p.1 ∧ Schematic p.2 :=
  have := trigSides_schematic p (by simpa [List.mem_append, or_assoc] using h)
  ⟨schematicB_sound _ this.1, schematicB_sound _ this.2⟩

theorem trigComplex_where_defined : ∀ p ∈ trigComplexSides, ∀ ρ, DefinedAt trigVal trigOk ρ p.1 →
    DefinedAt trigVal trigOk ρ p.2 → patVal ρ trigVal p.1 = patVal ρ trigVal p.2 := by
  intro p hp ρ h1 h2
  rcases trigComplex_split p hp with h | h
  · exact trigComplexGood_holds p h ρ
  · exact trigBad_where_defined p h ρ h1 h2

/-- **C59** (tables). The exploratory rules, the rules of `prior_rules` and the rules of
scripts/oopsla21/trig/complex.rules are read without a panic. The exploratory rules and those of `prior_rules` hold for all
complex numbers (where a quotient by zero is taken to be zero); those of the file hold wherever both sides are defined. -/
theorem C59_tables : ∃ expl prior complex : Ruleset TrigOp,
    Ruleset.new (TrigOp.exploratoryTexts.map String.toList) = some expl ∧
    Ruleset.new (TrigOp.priorTexts.map String.toList) = some prior ∧
    Ruleset.new (TrigOp.complexTexts.map String.toList) = some complex ∧
    (∀ r ∈ Ruleset.iter expl, Holds trigVal r) ∧ (∀ r ∈ Ruleset.iter prior, Holds trigVal r) ∧
    ∀ r ∈ Ruleset.iter complex, HoldsWhereDefined trigVal trigOk r := by
  obtain ⟨expl, h1, -, h2⟩ := table_new trigExploratory_sides
  obtain ⟨prior, h3, -, h4⟩ := table_new trigPrior_sides
  obtain ⟨complex, h5, -, h6⟩ := table_new trigComplex_sides
  exact ⟨expl, prior, complex, h1, h3, h5, fun r hr => trigExploratory_holds _ (h2 r hr),
    fun r hr => trigPrior_holds _ (h4 r hr), fun r hr => trigComplex_where_defined _ (h6 r hr)⟩

/-- The texts of four rules of scripts/oopsla21/trig/complex.rules (lines 22-24 and 45). -/
def divisionTexts : List String := ["(/ (- (* ?a ?b) ?c) ?b) ==> (- ?a (/ ?c ?b))", "(- ?a (/ ?c ?b)) ==> (/ (- (* ?a ?b) ?c) ?b)",
  "(/ ?a (- (/ ?b ?c) ?a)) ==> (/ ?c (- (/ ?b ?a) ?c))", "(/ ?a ?a) ==> 1"]

/-- Which list the sides of a line are in. -/
def divisionCheck (t : String) : Bool :=
  match Rule.fromString (O := TrigOp) t.toList with
  | some (some (r, none)) => if t ∈ divisionTexts then decide ((r.lhs, r.rhs) ∈ trigBad) else decide ((r.lhs, r.rhs) ∈ trigComplexGood)
  | _ => false

set_option maxRecDepth 10000 in
theorem divisionCheck_true : TrigOp.complexTexts.all divisionCheck = true := by decide +kernel

theorem trigBad_fail : ∀ p ∈ trigBad, ∃ ρ, patVal ρ trigVal p.1 ≠ patVal ρ trigVal p.2 := by
  simp only [trigBad, List.forall_mem_cons]
  refine ⟨⟨fun x => if x = "?a" then 1 else 0, ?_⟩, ⟨fun x => if x = "?a" then 1 else 0, ?_⟩,
    ⟨fun x => if x = "?a" then 1 else 0, ?_⟩, ⟨fun _ => 0, ?_⟩, by simp⟩
  · simp [patVal, patValL, trigVal]
  · simp [patVal, patValL, trigVal]
  · simp [patVal, patValL, trigVal]
  · simp only [patVal, patValL, real_one]
    simp [trigVal]

/-- **C59** (division). Every line of scripts/oopsla21/trig/complex.rules is a single rule. It holds for all complex numbers,
with zero for quotients by zero, exactly if it is not one of four lines, of which `(/ ?a ?a) ==> 1` is one. -/
theorem C59_division : ∀ t ∈ TrigOp.complexTexts, ∃ r : Rule TrigOp, Rule.fromString t.toList = some (some (r, none)) ∧
    (Holds trigVal r ↔ t ∉ divisionTexts) := by
  intro t ht
  have h := List.all_eq_true.1 divisionCheck_true t ht
  unfold divisionCheck at h
  split at h
  · rename_i r e
    refine ⟨r, e, ?_⟩
    split at h
    · rename_i hd
      refine ⟨fun hh => ?_, fun hh => absurd hd hh⟩
      obtain ⟨ρ, hρ⟩ := trigBad_fail _ (of_decide_eq_true h)
      exact absurd (hh ρ) hρ
    · rename_i hd
      exact ⟨fun _ => hd, fun _ => trigComplexGood_holds _ (of_decide_eq_true h)⟩
  · cases h

/-- **C59** (the prior is contradictory). No algebra with two different values satisfies all lines of
scripts/oopsla21/trig/complex.rules: whatever the meaning of the operators, if all of them hold then any two values are
equal (`0 / 0` is both `0` and `1`). -/
theorem C59_inconsistent {V : Type} (I : TrigOp → List V → V)
    (h : ∀ t ∈ TrigOp.complexTexts, ∀ r, Rule.fromString t.toList = some (some (r, none)) → Holds I r) (x y : V) : x = y := by
  have hm : ∀ t ∈ ["(/ ?a ?a) ==> 1", "(/ 0 ?a) ==> 0", "(* ?a 1) ==> ?a", "(* ?a 0) ==> 0"], t ∈ TrigOp.complexTexts := by
    decide +kernel
  have use : ∀ (t : String) (r : Rule TrigOp), t ∈ TrigOp.complexTexts → Rule.fromString t.toList = some (some (r, none)) →
      ∀ v : V, patVal (fun _ => v) I r.lhs = patVal (fun _ => v) I r.rhs := fun t r ht hr v => h t ht r hr _
  have h1 := use "(/ ?a ?a) ==> 1" ⟨"(/ ?a ?a) ==> 1".toList, .node .div [.var "?a", .var "?a"], .node (.real "1") []⟩
    (hm _ (by simp)) (by decide +kernel)
  have h2 := use "(/ 0 ?a) ==> 0" ⟨"(/ 0 ?a) ==> 0".toList, .node .div [.node (.real "0") [], .var "?a"], .node (.real "0") []⟩
    (hm _ (by simp)) (by decide +kernel)
  have h3 := use "(* ?a 1) ==> ?a" ⟨"(* ?a 1) ==> ?a".toList, .node .mul [.var "?a", .node (.real "1") []], .var "?a"⟩
    (hm _ (by simp)) (by decide +kernel)
  have h4 := use "(* ?a 0) ==> 0" ⟨"(* ?a 0) ==> 0".toList, .node .mul [.var "?a", .node (.real "0") []], .node (.real "0") []⟩
    (hm _ (by simp)) (by decide +kernel)
  simp only [patVal, patValL] at h1 h2 h3 h4
  have e : I (.real "1") [] = I (.real "0") [] := (h1 (I (.real "0") [])).symm.trans (h2 _)
  have z : ∀ v, v = I (.real "0") [] := fun v => by rw [← h3 v, e, h4 v]
  rw [z x, z y]

/-- **C59** (constants). Whatever the classes stand for, what `custom_modify` adds to a class has the value of the class: sums,
differences, products, quotients and negations of constants are computed correctly. -/
theorem C59_folding {nodes : Nat → List (FNode TrigOp)} {val : Nat → ℂ} (i : Nat)
    (h : ∀ k, ∀ nd ∈ nodes k, val k = trigVal nd.op (nd.children.map val)) :
    ∀ t ∈ trigDomain.custom nodes i, Tm.fold trigVal t = val i := by
  intro t ht
  have e : withVars (fun _ => 0) trigVal = trigVal := by
    funext o vs
    unfold withVars
    cases o <;> cases vs <;> rfl
  have := (trig_folds (fun _ => 0)).custom nodes val i (by rwa [e]) t ht
  rw [e] at this
  exact this.2

/-- **C59** (which constants are added). If a class has no constant, and a node that can be computed from constants, the number
that is its value is added, and before it the negation of the opposite number unless the number is positive. Otherwise nothing is
added. -/
theorem C59_added {nodes : Nat → List (FNode TrigOp)} {val : Nat → ℂ} (i : Nat)
    (h : ∀ k, ∀ nd ∈ nodes k, val k = trigVal nd.op (nd.children.map val)) :
    ((∀ nd ∈ nodes i, ∀ s, nd.op ≠ .real s) → (∃ nd ∈ nodes i, Computable nodes nd) → ∃ x : ℚ, val i = x ∧
      trigDomain.custom nodes i = (if x ≤ 0 then [.node .neg [.node (.real (String.ofList (ratText (-x)))) []]] else []) ++
        [.node (.real (String.ofList (ratText x))) []]) ∧
    ((∃ nd ∈ nodes i, ∃ s, nd.op = .real s) ∨ (∀ nd ∈ nodes i, ¬ Computable nodes nd) → trigDomain.custom nodes i = []) := by
  have hasv : ∀ {k x}, HasNumber nodes k x → val k = x := by
    rintro k x ⟨s, hm, e⟩
    have := h k _ hm
    simpa only [List.map_nil, trigVal, e, Option.getD_some] using this
  have ext : ∀ {k x}, TrigOp.extractConstant (nodes k) = some x → HasNumber nodes k x := by
    intro k x hx
    obtain ⟨⟨o, c⟩, hnd, s, e1, e2, e3⟩ := extractConstant_some hx
    cases e1; cases e2
    exact ⟨s, hnd, e3⟩
  have ext' : ∀ {k x}, HasNumber nodes k x → TrigOp.extractConstant (nodes k) = some x := by
    intro k x hx
    cases he : TrigOp.extractConstant (nodes k) with
    | some y =>
      have := (hasv (ext he)).symm.trans (hasv hx)
      rw [Rat.cast_inj.1 this]
    | none =>
      obtain ⟨s, hm, e⟩ := hx
      have := List.findSome?_eq_none_iff.1 he _ hm
      simp only [e] at this
      cases this
  have fold : ∀ {nd}, TrigOp.foldNode nodes nd = none ↔ ¬ Computable nodes nd := by
    rintro ⟨o, cs⟩
    constructor
    · rintro h0 (⟨j, x, e, hx⟩ | ⟨o', j, k, x, y, e, hx, hy, ho⟩)
      · cases e
        simp [TrigOp.foldNode, ext' hx] at h0
      · cases e
        rcases ho with rfl | rfl | rfl | ⟨rfl, hy0⟩
        · simp [TrigOp.foldNode, ext' hx, ext' hy] at h0
        · simp [TrigOp.foldNode, ext' hx, ext' hy] at h0
        · simp [TrigOp.foldNode, ext' hx, ext' hy] at h0
        · simp [TrigOp.foldNode, ext' hx, ext' hy, hy0] at h0
    · intro hc
      cases hf : TrigOp.foldNode nodes ⟨o, cs⟩ with
      | none => rfl
      | some v =>
        refine (hc ?_).elim
        unfold TrigOp.foldNode at hf
        split at hf
        · rename_i j e1 e2
          obtain ⟨x, hx, -⟩ := Option.map_eq_some_iff.1 hf
          exact .inl ⟨j, x, by cases e1; cases e2; rfl, ext hx⟩
        · rename_i j k e1 e2
          obtain ⟨x, hx, hf⟩ := Option.bind_eq_some_iff.1 hf
          obtain ⟨y, hy, -⟩ := Option.map_eq_some_iff.1 hf
          exact .inr ⟨_, j, k, x, y, by cases e1; cases e2; rfl, ext hx, ext hy, .inl rfl⟩
        · rename_i j k e1 e2
          obtain ⟨x, hx, hf⟩ := Option.bind_eq_some_iff.1 hf
          obtain ⟨y, hy, -⟩ := Option.map_eq_some_iff.1 hf
          exact .inr ⟨_, j, k, x, y, by cases e1; cases e2; rfl, ext hx, ext hy, .inr (.inl rfl)⟩
        · rename_i j k e1 e2
          obtain ⟨x, hx, hf⟩ := Option.bind_eq_some_iff.1 hf
          obtain ⟨y, hy, -⟩ := Option.map_eq_some_iff.1 hf
          exact .inr ⟨_, j, k, x, y, by cases e1; cases e2; rfl, ext hx, ext hy, .inr (.inr (.inl rfl))⟩
        · rename_i j k e1 e2
          obtain ⟨x, hx, hf⟩ := Option.bind_eq_some_iff.1 hf
          obtain ⟨y, hy, hf⟩ := Option.bind_eq_some_iff.1 hf
          split at hf
          · cases hf
          · exact .inr ⟨_, j, k, x, y, by cases e1; cases e2; rfl, ext hx, ext hy, .inr (.inr (.inr ⟨rfl, by assumption⟩))⟩
        · cases hf
  have rest : (∀ nd ∈ nodes i, ∀ s, nd.op ≠ .real s) → trigDomain.custom nodes i =
      match (nodes i).findSome? (TrigOp.foldNode nodes) with
      | none => []
      | some x => (if x ≤ 0 then [.node .neg [.node (.real (String.ofList (ratText (-x)))) []]] else []) ++
        [.node (.real (String.ofList (ratText x))) []] := by
    intro hn
    simp only [trigDomain, TrigOp.custom]
    rw [if_neg]
    · cases (nodes i).findSome? (TrigOp.foldNode nodes) <;> simp only [ratOfText_ratText, TrigOp.constant]
    · rw [List.any_eq_true]
      rintro ⟨nd, hnd, e⟩
      split at e
      · exact hn nd hnd _ (by assumption)
      · cases e
  constructor
  · rintro hn ⟨nd, hnd, hc⟩
    have hval := C59_folding i h
    have key : ∃ x, trigDomain.custom nodes i = (if x ≤ 0 then [.node .neg [.node (.real (String.ofList (ratText (-x)))) []]] else []) ++
        [.node (.real (String.ofList (ratText x))) []] := by
      cases hf : (nodes i).findSome? (TrigOp.foldNode nodes) with
      | none => exact (fold.1 (List.findSome?_eq_none_iff.1 hf nd hnd) hc).elim
      | some v =>
        refine ⟨v, ?_⟩
        rw [rest hn, hf]
    obtain ⟨x, hx⟩ := key
    refine ⟨x, ?_, hx⟩
    have := hval (.node (.real (String.ofList (ratText x))) []) (by rw [hx]; simp)
    rw [← this]
    simp only [Tm.fold, Tm.foldL, trig_constant]
  · rintro (hr | hn)
    · simp only [trigDomain, TrigOp.custom]
      rw [if_pos]
      rw [List.any_eq_true]
      obtain ⟨nd, hnd, s, e⟩ := hr
      exact ⟨nd, hnd, by rw [e]⟩
    · have : (nodes i).findSome? (TrigOp.foldNode nodes) = none :=
        List.findSome?_eq_none_iff.2 fun nd hnd => fold.2 (hn nd hnd)
      simp only [trigDomain, TrigOp.custom, this, ite_self]

/-- **C59** (texts of constants). A fraction is read back from the text that is written for it. -/
theorem C59_text (x : Rat) : ratOfText (ratText x) = some x := ratOfText_ratText x

/-- **C59** (texts of integers). An integer is written as Lean's library writes it: decimal digits without leading zeros,
a minus sign exactly for negative numbers. -/
theorem C59_integers (i : Int) : String.ofList (showInt i) = toString i := by
  rw [showInt, decimal_lean]
  cases i with
  | ofNat m =>
    have : ¬ (Int.ofNat m < 0) := by simp
    rw [if_neg this]; rfl
  | negSucc m =>
    rw [if_pos (Int.negSucc_lt_zero m)]
    simp [toString, Int.repr, Nat.repr]

/-- **C59** (texts of fractions). Numerator and denominator in lowest terms, the denominator being left out if it is one. -/
theorem C59_fractions (x : Rat) :
    String.ofList (ratText x) = if x.den = 1 then toString x.num else toString x.num ++ "/" ++ toString x.den := by
  have h (i : Int) : showInt i = (toString i).toList := by rw [← C59_integers]; simp
  rw [ratText]
  split
  · exact C59_integers _
  · have e : (toString (x.den : Int)).toList = (toString x.den).toList := rfl
    rw [h, h, e, ← String.toList_inj]
    simp only [String.toList_ofList, String.toList_append, List.append_assoc]
    rfl

namespace Sample
/-- The classes of `(- 1 1)` and `1`. -/
def oneMinusOne : Nat → List (FNode TrigOp)
  | 0 => [⟨.sub, [1, 1]⟩]
  | 1 => [⟨.real "1", []⟩]
  | _ => []
end Sample

-- `(~ 0)` and `0` are added to the class of `(- 1 1)`; it meets the hypotheses of the theorems.
example : trigDomain.custom Sample.oneMinusOne 0 = [.node .neg [.node (.real "0") []], .node (.real "0") []] ∧
    trigDomain.custom Sample.oneMinusOne 1 = [] := ⟨by decide +kernel, by decide +kernel⟩
example : (∀ k, ∀ nd ∈ Sample.oneMinusOne k, (if k = 1 then 1 else 0 : ℂ) =
      trigVal nd.op (nd.children.map fun k => if k = 1 then 1 else 0)) ∧
    (∀ nd ∈ Sample.oneMinusOne 0, ∀ s, nd.op ≠ .real s) ∧ ∃ nd ∈ Sample.oneMinusOne 0, Computable Sample.oneMinusOne nd := by
  have one : HasNumber Sample.oneMinusOne 1 1 := ⟨"1", by simp [Sample.oneMinusOne], by decide +kernel⟩
  refine ⟨?_, by simp [Sample.oneMinusOne], _, List.mem_singleton_self _, .inr ⟨_, 1, 1, 1, 1, rfl, one, one, .inr (.inl rfl)⟩⟩
  rintro (_ | _ | k) nd hnd <;> simp only [Sample.oneMinusOne, List.mem_singleton, List.not_mem_nil] at hnd
  · subst hnd; simp [trigVal]
  · subst hnd
    rw [List.map_nil, real_one]
    rfl

/-- **C59** (rule lifting). Whatever chain of fast-forwarding runs is made with the exploratory rules of tests/trig.rs, from
any prior rules that hold for all complex numbers: all resulting rules hold for all complex numbers, and those not in the
prior do not mention `cis`, `I` and `sqr`.

Missing: the prior of tests/recipes/trig.rs does not satisfy the hypothesis (`C59_division`), and the conclusion fails for it
(`C59_unsound`). -/
theorem C59_lifting_partial {expl prior out : Ruleset TrigOp}
    (he : Ruleset.new (TrigOp.exploratoryTexts.map String.toList) = some expl)
    (hp : WellFormed prior) (hg : ∀ r ∈ Ruleset.iter prior, (Schematic r.lhs ∧ Schematic r.rhs) ∧ Holds trigVal r)
    {steps : List (FastStep TrigOp Rat)} (hs : ∀ st ∈ steps, StepOk trigDomain st)
    (h : fastRecipe trigDomain expl steps prior = some out) :
    ∀ q ∈ Ruleset.iter out, Holds trigVal q ∧ (q ∈ Ruleset.iter prior ∨
      OnlyOps (fun o => o ≠ .cis ∧ o ≠ .imag ∧ o ≠ .sqr) q.lhs ∧ OnlyOps (fun o => o ≠ .cis ∧ o ≠ .imag ∧ o ≠ .sqr) q.rhs) := by
  have k := (C57_recipe trig_folds (fun _ => ⟨rfl, trivial⟩)
    (fun r hr =>
      have := (table_sides trigExploratory_sides he).2 r hr
      ⟨trigSides_sch _ (.inl this), trigExploratory_holds _ this⟩) steps hs hp hg h).2
  have ha : ∀ o : TrigOp, Lang.allowed o = true → o ≠ .cis ∧ o ≠ .imag ∧ o ≠ .sqr := by
    rintro o h
    refine ⟨?_, ?_, ?_⟩ <;> rintro rfl <;> cases h
  exact fun q hq => ⟨(k q hq).1, (k q hq).2.imp_right fun a => ⟨a.1.ops ha, a.2.ops ha⟩⟩

-- A prior meeting the hypotheses of `C59_lifting_partial`: the rules of `prior_rules`.
example : ∃ prior : Ruleset TrigOp, Ruleset.new (TrigOp.priorTexts.map String.toList) = some prior ∧ WellFormed prior ∧
    ∀ r ∈ Ruleset.iter prior, (Schematic r.lhs ∧ Schematic r.rhs) ∧ Holds trigVal r := by
  obtain ⟨prior, h1, h2, h3⟩ := table_new trigPrior_sides
  exact ⟨prior, h1, h2, fun r hr => ⟨trigSides_sch _ (.inr (.inl (h3 r hr))), trigPrior_holds _ (h3 r hr)⟩⟩
-- The class of `(- 1 4)` gets the nodes `(~ 3)` and `-3`.
example : trigDomain.custom (fun i => if i = 0 then [⟨.sub, [1, 2]⟩] else if i = 1 then [⟨.real "1", []⟩] else
    [⟨.var "a", []⟩, ⟨.real "4", []⟩]) 0 = [.node .neg [.node (.real "3") []], .node (.real "-3") []] := by decide +kernel
example : ratText (-3 / 6) = "-1/2".toList ∧ ratOfText "4/-8".toList = some (-1 / 2) ∧ ratOfText "1/0".toList = none := by
  decide +kernel
example : String.ofList (showInt (-120)) = "-120" ∧ String.ofList (showInt 0) = "0" ∧ String.ofList (ratText (4 / 2)) = "2" := by
  decide +kernel
example : (TrigOp.complexTexts.filter fun t => t ∈ divisionTexts).length = 4 := by decide +kernel

end Ruler
