import Verif.Spec.Symbol
import Verif.Props.Derive
import Verif.Props.Minimize
/-!
# C84: `SymbolLang`
-/
namespace Ruler
open Spec EGraph

/-- The algebra `I` with the constant symbols in `X` interpreted by `env`. -/
noncomputable def withConsts {V : Type} (X : String → Prop) (env : String → V) (I : SymOp → List V → V) (o : SymOp) (vs : List V) : V :=
  open Classical in if vs = [] ∧ X o.name then env o.name else I o vs

theorem patVal_withConsts {V : Type} {X : String → Prop} (env : String → V) (I : SymOp → List V → V) (ρ : String → V) {p : Pat SymOp}
    (h : Avoids X p) : patVal ρ (withConsts X env I) p = patVal ρ I p := by
  induction p using Pat.ind with
  | hv v => rfl
  | hn o l ih =>
    rw [patVal_node, patVal_node]
    cases h with
    | const h => simp [withConsts, h]
    | node h =>
      rw [List.map_congr_left fun q hq => ih q hq (h q hq)]
      simp [withConsts]

theorem fold_withConsts {V : Type} {X : String → Prop} (env : String → V) (I : SymOp → List V → V) {p : Pat SymOp}
    (h : Avoids X p) (hv : ∀ v ∈ p.vars, X (dropQ v)) :
    Tm.fold (withConsts X env I) p.instantiate = patVal (fun v => env (dropQ v)) I p := by
  induction p using Pat.ind with
  | hv v =>
    have hx : X (dropQ v) := hv v (by simp [Pat.vars])
    show withConsts X env I ⟨dropQ v⟩ [] = env (dropQ v)
    simp [withConsts, hx]
  | hn o l ih =>
    have hl : ∀ q ∈ l, ∀ v ∈ q.vars, X (dropQ v) := fun q hq v hm => hv v (by
      rw [Pat.vars]
      clear ih h hv
      induction l with
      | nil => cases hq
      | cons a l ih =>
        rw [Pat.varsL, List.mem_append]
        rcases List.mem_cons.1 hq with rfl | hq
        · exact .inl hm
        · exact .inr (ih hq))
    rw [patVal_node, Pat.instantiate, Pat.instantiateL_eq, Tm.fold, Tm.foldL_eq, List.map_map]
    cases h with
    | const h => simp [withConsts, h]
    | node h =>
      rw [List.map_congr_left fun q hq => (show (Tm.fold (withConsts X env I) ∘ Pat.instantiate) q = _ from ih q hq (h q hq) (hl q hq))]
      simp [withConsts]

theorem patOk_any {O : Type} (p : Pat O) : PatOk (fun _ _ => True) p := by
  induction p using Pat.ind with
  | hv v => exact .var
  | hn o l ih => exact .node trivial ih

theorem tmOk_any {O : Type} (t : Tm O) : TmOk (fun _ _ => True) t := by
  induction t using Tm.ind with
  | hn o l ih => exact .node trivial ih

theorem symbol_noFold : NoFold symbolDomain :=
  ⟨fun _ _ _ h => by cases h; rfl, fun _ _ => rfl, fun _ => rfl⟩

/-- **C84 (partial).** If the constants of a rule and of the rules it is derived from are not named like the rule's variables, then a rule over
symbols that can be derived is an equational consequence: it holds in every interpretation of the symbols in which the rules hold. (The full
statement, without that condition, is refuted by `C84_derive_clash`.) -/
theorem C84_derive_partial {rs : Ruleset SymOp} {r : Rule SymOp} (hl : Schematic r.lhs) (hr : Schematic r.rhs)
    (hc : Avoids (VarOf r) r.lhs ∧ Avoids (VarOf r) r.rhs)
    (hrs : ∀ q ∈ Ruleset.iter rs, Avoids (VarOf r) q.lhs ∧ Avoids (VarOf r) q.rhs)
    {E : Egg} {isSat : Rule SymOp → Bool} {ty : DeriveType} {limits : Limits} {t : SchedTrace}
    (h : Ruleset.canDerive symbolDomain E isSat ty limits t rs r = some true) {V : Type} (I : SymOp → List V → V)
    (hI : ∀ q ∈ Ruleset.iter rs, Holds I q) : Holds I r := by
  intro ρ
  unfold Ruleset.canDerive at h
  rw [Option.bind_eq_some_iff] at h
  obtain ⟨g, hg, h⟩ := h
  rw [Option.bind_eq_some_iff] at h
  obtain ⟨out, ho, h⟩ := h
  rw [Option.map_eq_some_iff] at h
  obtain ⟨i, hi, h⟩ := h
  cases hj : out.lookupTm r.rhs.instantiate with
  | none => rw [hj] at h; cases h
  | some j =>
    rw [hj] at h
    simp only [decide_eq_true_eq] at h
    subst h
    have hvar : ∀ p : Pat SymOp, Schematic p → ∀ v ∈ p.vars, "?" ++ dropQ v = v := by
      intro p hp
      induction p using Pat.ind with
      | hv v =>
        intro w hw
        rw [List.mem_singleton.1 (show w ∈ [v] from hw)]
        cases hp with
        | var hq => exact dropQ_cons hq
      | hn o l ih =>
        intro w hw
        cases hp with
        | node _ h2 =>
          rw [Pat.vars] at hw
          induction l with
          | nil => cases hw
          | cons a l ihl =>
            rw [Pat.varsL, List.mem_append] at hw
            rcases hw with hw | hw
            · exact ih a (by simp) (h2 a (by simp)) w hw
            · exact ihl (fun q hq => ih q (List.mem_cons_of_mem _ hq)) hw fun q hq => h2 q (List.mem_cons_of_mem _ hq)
    let J := withConsts (VarOf r) (fun x => ρ ("?" ++ x)) I
    have hreach : Reach symbolDomain (fun _ _ => True) (fun q => q ∈ Ruleset.iter rs) out :=
      .run (deriveStart_reach (tmOk_any _) (tmOk_any _) hg) (fun q hq => hq) ho
    have : Nonempty V := ⟨ρ ""⟩
    obtain ⟨val, hInv⟩ := Reach.inv (foldInv (NoFold.foldsIn symbol_noFold (fun _ _ => True) J)) (fun _ _ _ h => h)
      (fun q hq => ⟨⟨patOk_any _, patOk_any _⟩, fun σ => by
        rw [patVal_withConsts _ I σ (hrs q hq).1, patVal_withConsts _ I σ (hrs q hq).2]
        exact hI q hq σ⟩) hreach
    have h1 := lookupTm_rep hInv _ _ hi
    have h2 := lookupTm_rep hInv _ _ hj
    have k : Tm.fold J r.lhs.instantiate = Tm.fold J r.rhs.instantiate := by
      rw [← Rep.val hInv _ _ (Rep.lt hInv h1.1) h1.1, ← Rep.val hInv _ _ (Rep.lt hInv h2.1) h2.1]
    rw [fold_withConsts _ I hc.1 fun v hv => .inl (by rw [hvar _ hl v hv]; exact hv),
      fold_withConsts _ I hc.2 fun v hv => .inr (by rw [hvar _ hr v hv]; exact hv),
      patVal_schematic ρ I hl, patVal_schematic ρ I hr] at k
    exact k

/-- In every language a rule whose sides become the same term when variables are put for the pattern variables is derived from any rules. -/
theorem canDerive_same {O C : Type} [Lang O] [LinearOrder C] {D : Domain O C} {r : Rule O} (e : r.rhs.instantiate = r.lhs.instantiate) {E : Egg}
    {isSat : Rule O → Bool} {ty : DeriveType} {limits : Limits} {t : SchedTrace} {rs : Ruleset O} {b : Bool}
    (h : Ruleset.canDerive D E isSat ty limits t rs r = some b) : b = true := by
  unfold Ruleset.canDerive at h
  rw [Option.bind_eq_some_iff] at h
  obtain ⟨g, hg, h⟩ := h
  rw [Option.bind_eq_some_iff] at h
  obtain ⟨out, ho, h⟩ := h
  rw [Option.map_eq_some_iff] at h
  obtain ⟨i, hi, h⟩ := h
  rw [e, hi] at h
  simpa using h.symm

/-- **C84.** The condition is needed: the rule that replaces any argument of `f` by the constant `a` is derived from no rules at all, because its
variable `?a` becomes the symbol `a`. -/
theorem C84_derive_clash : ∃ r : Rule SymOp, Rule.fromString "(f ?a) ==> (f a)".toList = some (some (r, none)) ∧
    (∀ (E : Egg) (isSat : Rule SymOp → Bool) (ty : DeriveType) (limits : Limits) (t : SchedTrace) (b : Bool),
      Ruleset.canDerive symbolDomain E isSat ty limits t [] r = some b → b = true) ∧
    (∃ (E : Egg) (t : SchedTrace), Ruleset.canDerive symbolDomain E (fun _ => false) .lhs Sample.limits t [] r = some true) ∧
    ∃ I : SymOp → List Nat → Nat, ¬ Holds I r := by
  refine ⟨⟨"(f ?a) ==> (f a)".toList, .node ⟨"f"⟩ [.var "?a"], .node ⟨"f"⟩ [.node ⟨"a"⟩ []]⟩, by decide +kernel, ?_, ?_, ?_⟩
  · intro E isSat ty limits t b h
    exact canDerive_same (by decide +kernel) h
  · exact ⟨Sample.egg, Sample.trace, by decide +kernel⟩
  · refine ⟨fun o vs => if o.name = "a" then 0 else vs.headD 0, fun h => ?_⟩
    have := h fun _ => 1
    simp [patVal, patValL] at this

/-- **C32.** That rules are schematic — contain no variables of the language — is needed in every domain: the Boolean rule that replaces the
argument of a negation by the variable `a` is derived from no rules at all. -/
theorem C32_needs_schematic : ∃ r : Rule BoolOp, Rule.fromString "(~ ?a) ==> (~ a)".toList = some (some (r, none)) ∧
    RuleOk (fun o k => k = o.arity) r ∧
    (∀ (E : Egg) (isSat : Rule BoolOp → Bool) (ty : DeriveType) (limits : Limits) (t : SchedTrace) (b : Bool),
      Ruleset.canDerive boolDomain E isSat ty limits t [] r = some b → b = true) ∧
    (∃ (E : Egg) (t : SchedTrace), Ruleset.canDerive boolDomain E (fun _ => false) .lhs Sample.limits t [] r = some true) ∧
    ∀ env : String → Bool, ¬ Holds (withVars env boolOpVal) r := by
  refine ⟨⟨"(~ ?a) ==> (~ a)".toList, .node .not [.var "?a"], .node .not [.node (.var "a") []]⟩, by decide +kernel, ?_, ?_, ?_, ?_⟩
  · refine ⟨.node rfl fun a ha => ?_, .node rfl fun a ha => ?_⟩
    · rw [List.mem_singleton.1 ha]; exact .var
    · rw [List.mem_singleton.1 ha]; exact .node rfl fun a ha => by cases ha
  · intro E isSat ty limits t b h
    exact canDerive_same (by decide +kernel) h
  · exact ⟨Sample.egg, Sample.trace, by decide +kernel⟩
  · intro env h
    have := h fun _ => !env "a"
    simp [patVal, patValL, withVars, boolOpVal, Lang.toVar] at this

/-- **C84.** No rule over symbols is ever learnt: minimization returns no rules, whatever the candidates. -/
theorem C84_no_rules {M : MinEnv SymOp} (hM : M.valid = symbolValid) {cands prior out inv : Ruleset SymOp} {asked : List (Rule SymOp)}
    {fuel : Nat} (hc : WellFormed cands) (hp : WellFormed prior)
    (h : Ruleset.minimize symbolDomain M fuel cands prior = .done out inv asked) : out = [] := by
  obtain ⟨-, h⟩ := C22_validated hc hp h
  cases out with
  | nil => rfl
  | cons e l =>
    obtain ⟨⟨before, -, ha⟩, -⟩ := h e.2 (by simp [Ruleset.iter])
    rw [hM] at ha
    cases ha

/-- **C84.** No workload over symbols can be made into an e-graph. -/
theorem C84_to_egraph (E : Egg) (w : Workload) : Workload.toEGraph symbolDomain E w = none := by
  unfold Workload.toEGraph
  cases w.force with
  | none => rfl
  | some ss =>
    cases h : (ss.mapM Tm.ofSexp : Option (List (Tm SymOp))) with
    | none => simp [h]
    | some ts => simp [h, termsToEGraph, initializeVars, symbolDomain]

namespace Sample
/-- `(f ?a b) ==> (f b ?a)` -/
def symSwap : Rule SymOp := ⟨"(f ?a b) ==> (f b ?a)".toList, .node ⟨"f"⟩ [.var "?a", .node ⟨"b"⟩ []], .node ⟨"f"⟩ [.node ⟨"b"⟩ [], .var "?a"]⟩
/-- `(f ?x ?y) ==> (f ?y ?x)` -/
def symComm : Rule SymOp := ⟨"(f ?x ?y) ==> (f ?y ?x)".toList, .node ⟨"f"⟩ [.var "?x", .var "?y"], .node ⟨"f"⟩ [.var "?y", .var "?x"]⟩
end Sample

-- An instance of commutativity at a constant is derived from commutativity; the hypotheses of `C84_derive_partial` hold.
example : ∃ (E : Egg) (t : SchedTrace),
    Ruleset.canDerive symbolDomain E (fun _ => false) .lhsAndRhs Sample.limits t [(Sample.symComm.name, Sample.symComm)] Sample.symSwap = some true ∧
    ∀ I : SymOp → List Int → Int, Holds I Sample.symComm → Holds I Sample.symSwap := by
  have h : Ruleset.canDerive symbolDomain Sample.egg (fun _ => false) .lhsAndRhs Sample.limits Sample.trace
      [(Sample.symComm.name, Sample.symComm)] Sample.symSwap = some true := by decide +kernel
  have nb : ¬ VarOf Sample.symSwap "b" := by
    rintro (h | h) <;> revert h <;> decide
  refine ⟨_, _, h, fun I hI => C84_derive_partial ?_ ?_ ⟨?_, ?_⟩ ?_ h I ?_⟩
  · refine .node rfl fun a ha => ?_
    simp only [List.mem_cons, List.not_mem_nil, or_false] at ha
    rcases ha with rfl | rfl
    · exact .var rfl
    · exact .node rfl fun a ha => by cases ha
  · refine .node rfl fun a ha => ?_
    simp only [List.mem_cons, List.not_mem_nil, or_false] at ha
    rcases ha with rfl | rfl
    · exact .node rfl fun a ha => by cases ha
    · exact .var rfl
  · refine .node fun a ha => ?_
    simp only [List.mem_cons, List.not_mem_nil, or_false] at ha
    rcases ha with rfl | rfl
    · exact .var
    · exact .const nb
  · refine .node fun a ha => ?_
    simp only [List.mem_cons, List.not_mem_nil, or_false] at ha
    rcases ha with rfl | rfl
    · exact .const nb
    · exact .var
  · intro q hq
    rw [List.mem_singleton.1 (show q ∈ [Sample.symComm] from hq)]
    constructor <;>
    · refine .node fun a ha => ?_
      simp only [List.mem_cons, List.not_mem_nil, or_false] at ha
      rcases ha with rfl | rfl <;> exact .var
  · intro q hq
    rw [List.mem_singleton.1 (show q ∈ [Sample.symComm] from hq)]
    exact hI

-- Minimization of a candidate comes to an end, with no rule.
example : ∃ (M : MinEnv SymOp) (inv : Ruleset SymOp) (asked : List (Rule SymOp)), M.valid = symbolValid ∧
    Ruleset.minimize symbolDomain M 5 [(Sample.symComm.name, Sample.symComm)] [] = .done [] inv asked :=
  ⟨⟨.simple Sample.limits, fun _ => false, fun _ => Sample.egg, fun _ => Sample.trace, fun _ => [0], symbolValid⟩,
    [(Sample.symComm.name, Sample.symComm), ("(f ?y ?x) ==> (f ?x ?y)".toList,
      ⟨"(f ?y ?x) ==> (f ?x ?y)".toList, Sample.symComm.rhs, Sample.symComm.lhs⟩)], [Sample.symComm], rfl, by rfl⟩

end Ruler
