import Verif.Proofs.Lifting
/-!
# C57: rule lifting
-/
namespace Ruler
open Spec EGraph
open scoped List
variable {O C V : Type} [Lang O] [LinearOrder C] {D : Domain O C} {ar : O → Nat → Prop}

/-- The extractors of a step pick represented terms (which egg's `Extractor` does, `C55_extractors`), and the step visits
every class. -/
def StepOk (D : Domain O C) (st : FastStep O C) : Prop :=
  ExtractorOk D st.env.best ∧ ∀ g, (st.env.ids g).Perm g.classes

/-- Sorts are not checked. -/
def AnySort : O → Nat → Prop := fun _ _ => True

theorem goodRule_any {r : Rule O} (h : Schematic r.lhs ∧ Schematic r.rhs) : GoodRule AnySort r :=
  ⟨⟨PatOk.any _, PatOk.any _⟩, h⟩

/-- The rules `run_fast_forwarding` returns are schematic. -/
theorem runFastForwarding_schematic {F : FastEnv O C} {w : Workload} {prior expl out : Ruleset O} {pl ml : Limits}
    {asked : List (Rule O)} (hp : WellFormed prior) (h : runFastForwarding D F w prior expl pl ml = some (out, asked)) :
    ∀ q ∈ Ruleset.iter out, Schematic q.lhs ∧ Schematic q.rhs := by
  obtain ⟨g0, g1, g2, g3, c1, c2, inv, h0, h1, h2, hc1, h3, hc2, hm⟩ := runFastForwarding_some h
  have key : ∀ c ∈ Ruleset.iter (Ruleset.extend c1 c2), Schematic c.lhs ∧ Schematic c.rhs := by
    intro c hc
    rcases mem_extend_rules hc with hc | hc
    · exact addPairs_schematic hc1 hc
    · exact addPairs_schematic hc2 hc
  intro q hq
  obtain ⟨-, hcand, -⟩ :=
    (C22_validated (Ruleset.WellFormed.extend (addPairs_wf hc1) (addPairs_wf hc2)) hp hm).2 q hq
  rcases hcand with hcand | ⟨-, c, hc, e1, e2, -⟩
  · exact key q hcand
  · exact e1 ▸ e2 ▸ ⟨(key c hc).2, (key c hc).1⟩

/-- **C57** (any domain). A recipe of fast-forwarding runs keeps the initial rules' names and adds only rules that use
allowed operators; and in every algebra in which the initial and the exploratory rules hold (and constant folding is
correct) all its rules hold, whatever the workloads, limits, number of steps and choices of the runs. -/
theorem C57_recipe {I : O → List V → V} {mem : Interval C → V → Prop} (hF : ∀ env, FoldsIn D AnySort (withVars env I) mem)
    (hv : VarsOk (O := O) AnySort) {expl : Ruleset O}
    (he : ∀ r ∈ Ruleset.iter expl, (Schematic r.lhs ∧ Schematic r.rhs) ∧ Holds I r)
    (steps : List (FastStep O C)) (hs : ∀ st ∈ steps, StepOk D st) {prior out : Ruleset O} (hp : WellFormed prior)
    (hg : ∀ r ∈ Ruleset.iter prior, (Schematic r.lhs ∧ Schematic r.rhs) ∧ Holds I r)
    (h : fastRecipe D expl steps prior = some out) :
    WellFormed out ∧ ∀ q ∈ Ruleset.iter out, Holds I q ∧ (q ∈ Ruleset.iter prior ∨ OnlyAllowed q.lhs ∧ OnlyAllowed q.rhs) := by
  induction steps generalizing prior with
  | nil =>
    cases h
    exact ⟨hp, fun q hq => ⟨(hg q hq).2, .inl hq⟩⟩
  | cons st steps ih =>
    obtain ⟨⟨rs, asked⟩, h1, h2⟩ := Option.bind_eq_some_iff.1 h
    obtain ⟨hb, hids⟩ := hs st (by simp)
    obtain ⟨hwf, hal⟩ := C53_allowed hv hb hids hp h1
    have hsch := runFastForwarding_schematic hp h1
    have hhold : ∀ q ∈ Ruleset.iter rs, Holds I q :=
      C53_follows hF hv hb hids (fun _ _ _ _ _ _ => TmOk.any _) hp
        (fun r hr => hr.elim (fun h => ⟨goodRule_any (hg r h).1, (hg r h).2⟩) fun h => ⟨goodRule_any (he r h).1, (he r h).2⟩) h1
    obtain ⟨k1, k2⟩ := ih (fun st' h => hs st' (by simp [h])) (Ruleset.WellFormed.extend hp hwf)
      (fun r hr => (mem_extend_rules hr).elim (hg r) fun h => ⟨hsch r h, hhold r h⟩) h2
    refine ⟨k1, fun q hq => ⟨(k2 q hq).1, ?_⟩⟩
    rcases (k2 q hq).2 with h | h
    · rcases mem_extend_rules h with h | h
      · exact .inl h
      · exact .inr ⟨(hal q h).1, (hal q h).2.1⟩
    · exact .inr h

theorem Spec.OnlyAllowed.ops {K : O → Prop} (hK : ∀ o, Lang.allowed o = true → K o) {p : Pat O} (h : OnlyAllowed p) : OnlyOps K p := by
  induction h with
  | var => exact .var _
  | node h _ ih => exact .node (hK _ h) ih

/-! ## Positive numbers -/

/-- Operators of positive binary numbers (and numbers as such). -/
def BinaryOp (o : PosOp) : Prop := o = .xh ∨ o = .xo ∨ o = .xi ∨ o = .add ∨ o = .mul ∨ ∃ x, o = .var x

theorem binaryOp_allowed (o : PosOp) (h : Lang.allowed o = true) : BinaryOp o := by
  cases o with
  | z | s => cases h
  | _ => simp [BinaryOp]

theorem posDomain_noFold : NoFold posDomain := ⟨fun _ _ _ h => by cases h; rfl, fun _ _ => rfl, fun _ => rfl⟩

theorem posVarsOk : VarsOk (O := PosOp) AnySort := fun _ => ⟨rfl, trivial⟩

/-- **C57** (tables). The exploratory rules and the rules for natural numbers of tests/pos.rs are read without a panic, and
every one of them holds for all natural numbers. -/
theorem C57_tables : ∃ expl nat : Ruleset PosOp,
    Ruleset.new (PosOp.exploratoryTexts.map String.toList) = some expl ∧
    Ruleset.new (PosOp.natTexts.map String.toList) = some nat ∧
    (∀ r ∈ Ruleset.iter expl, Holds posVal r) ∧ ∀ r ∈ Ruleset.iter nat, Holds posVal r := by
  obtain ⟨expl, h1, -, h2⟩ := table_new posExploratory_sides
  obtain ⟨nat, h3, -, h4⟩ := table_new posNat_sides
  exact ⟨expl, nat, h1, h3, fun r hr => (posExploratory_good _ (h2 r hr)).2, fun r hr => (posNat_good _ (h4 r hr)).2⟩

theorem const_val (fuel n : Nat) (h : n ≤ fuel) : Tm.fold posVal (PosOp.const fuel n) = n := by
  induction fuel generalizing n with
  | zero =>
    have : n = 0 := by omega
    subst this
    simp [PosOp.const, Tm.fold, Tm.foldL, posVal]
  | succ fuel ih =>
    match n with
    | 0 => simp [PosOp.const, Tm.fold, Tm.foldL, posVal]
    | 1 => simp [PosOp.const, Tm.fold, Tm.foldL, posVal]
    | n + 2 =>
      simp only [PosOp.const]
      split
      · rename_i he
        rw [Tm.fold, Tm.foldL, Tm.foldL, ih _ (by omega), posVal]
        omega
      · rename_i he
        rw [Tm.fold, Tm.foldL, Tm.foldL, ih _ (by omega), posVal]
        omega

/-- **C57** (constants). The term that `mk_constant` makes for a number has that number as its value. -/
theorem C57_constant (n : Nat) : ∃ t, posDomain.mkConst n = some t ∧ Tm.fold posVal t = n :=
  ⟨_, rfl, const_val n n le_rfl⟩

/-- **C57** (rule lifting). Whatever chain of fast-forwarding runs is made with the exploratory rules of tests/pos.rs, from
any prior rules that hold for all natural numbers: all resulting rules hold for all natural numbers, and those not in the
prior do not mention `Z` and `S`. -/
theorem C57_lifting {expl prior out : Ruleset PosOp} (he : Ruleset.new (PosOp.exploratoryTexts.map String.toList) = some expl)
    (hp : WellFormed prior) (hg : ∀ r ∈ Ruleset.iter prior, (Schematic r.lhs ∧ Schematic r.rhs) ∧ Holds posVal r)
    {steps : List (FastStep PosOp Nat)} (hs : ∀ st ∈ steps, StepOk posDomain st)
    (h : fastRecipe posDomain expl steps prior = some out) :
    ∀ q ∈ Ruleset.iter out, Holds posVal q ∧ (q ∈ Ruleset.iter prior ∨ OnlyOps BinaryOp q.lhs ∧ OnlyOps BinaryOp q.rhs) := by
  have k := (C57_recipe (fun _ => NoFold.foldsIn posDomain_noFold _ _) posVarsOk
    (fun r hr => posExploratory_good _ ((table_sides posExploratory_sides he).2 r hr)) steps hs hp hg h).2
  exact fun q hq => ⟨(k q hq).1, (k q hq).2.imp_right fun a => ⟨a.1.ops binaryOp_allowed, a.2.ops binaryOp_allowed⟩⟩

/-- **C57** (the recipe of tests/pos.rs). In particular with the rules for natural numbers as prior. -/
theorem C57_nat_rules {expl nat out : Ruleset PosOp}
    (he : Ruleset.new (PosOp.exploratoryTexts.map String.toList) = some expl)
    (hn : Ruleset.new (PosOp.natTexts.map String.toList) = some nat)
    {steps : List (FastStep PosOp Nat)} (hs : ∀ st ∈ steps, StepOk posDomain st)
    (h : fastRecipe posDomain expl steps nat = some out) :
    ∀ q ∈ Ruleset.iter out, Holds posVal q ∧ (q ∈ Ruleset.iter nat ∨ OnlyOps BinaryOp q.lhs ∧ OnlyOps BinaryOp q.rhs) := by
  obtain ⟨hw, hsides⟩ := table_sides posNat_sides hn
  exact C57_lifting he hw (fun r hr => posNat_good _ (hsides r hr)) hs h

namespace Sample

/-- The workload `(XO a)`, `(+ a a)`. -/
def doubles : Workload := .set [.list [.atom "XO", .atom "a"], .list [.atom "+", .atom "a", .atom "a"]]

/-- Choices of a fast-forwarding run: the third exploratory rule is applied to its first match. -/
noncomputable def posEnv : FastEnv PosOp Nat where
  build := egg
  split := .leaf
  isSat _ := false
  egAllowed := egg
  trAllowed := quiet
  egDenote := egg
  trDenote := { trace with simple := ⟨[], [⟨[[], [], [0]], [.congr 0]⟩]⟩ }
  egFinal := egg
  trFinal := quiet
  ids g := g.classes
  keys g h := (g.classes.map h.find).eraseDups
  best := extracted posDomain extractableCost_laws
  min := ⟨.simple limits, fun _ => false, fun _ => egg, fun _ => quiet, fun r => [(r.name.length : Int)], fun _ _ => true⟩

theorem posEnv_ok : StepOk posDomain ⟨posEnv, doubles, limits, limits⟩ :=
  ⟨fun _ hg _ hi => extracted_ok extractableCost_laws hg hi, fun _ => List.Perm.refl _⟩

end Sample

example : ((Ruleset.new (PosOp.exploratoryTexts.map String.toList)).bind fun expl =>
    (Ruleset.new (PosOp.natTexts.map String.toList)).bind fun nat =>
    (fastRecipe posDomain expl [⟨Sample.posEnv, Sample.doubles, Sample.limits, Sample.limits⟩] nat).map fun out =>
      (out.map fun e => String.ofList e.1).drop nat.length) = some ["(XO ?a) ==> (+ ?a ?a)", "(+ ?a ?a) ==> (XO ?a)"] := by
  decide +kernel
example : posDomain.mkConst 6 = some (.node .xo [.node .xi [.node .xh []]]) := by decide +kernel

end Ruler
