import Verif.Spec.Extract
import Verif.Proofs.Extract
import Verif.Props.Saturation
import Verif.Spec.Candidates
/-!
# C55: representatives are cheapest terms
-/
namespace Ruler
open Spec EGraph
variable {O C V : Type}

theorem sum_le_of_forall2 {cs ds : List Nat} (h : List.Forall₂ (· ≤ ·) cs ds) : cs.sum ≤ ds.sum := by
  induction h with
  | nil => exact Nat.le_refl _
  | cons h1 _ ih => simp only [List.sum_cons]; omega

theorem le_sum_of_mem {cs : List Nat} {c : Nat} (h : c ∈ cs) : c ≤ cs.sum := by
  induction cs with
  | nil => simp at h
  | cons a cs ih =>
    simp only [List.sum_cons]
    rcases List.mem_cons.1 h with rfl | h
    · omega
    · have := ih h; omega

theorem astCost_laws : CostLaws (astCost (O := O)) :=
  ⟨fun _ _ _ h => by have := sum_le_of_forall2 h; unfold astCost; omega,
    fun _ _ _ hc => Or.inl (by have := le_sum_of_mem hc; unfold astCost; omega)⟩

theorem foldl_satAdd (cs : List Nat) : ∀ a, a ≤ usizeMax → cs.foldl satAdd a = min (a + cs.sum) usizeMax := by
  induction cs with
  | nil => intro a h; simp [h]
  | cons c cs ih =>
    intro a h
    rw [List.foldl_cons, ih _ (by unfold satAdd; omega), List.sum_cons]
    unfold satAdd
    omega

theorem extractableCost_eq [Lang O] (o : O) (cs : List Nat) :
    extractableCost o cs = if Lang.allowed o then min (1 + cs.sum) usizeMax else usizeMax := by
  unfold extractableCost
  rw [foldl_satAdd cs 1 (by decide)]

theorem extractableCost_laws [Lang O] : CostLaws (extractableCost (O := O)) := by
  refine ⟨fun o cs ds h => ?_, fun o cs c hc => ?_⟩
  · have := sum_le_of_forall2 h
    rw [extractableCost_eq, extractableCost_eq]
    split <;> omega
  · have := le_sum_of_mem hc
    by_cases hlt : c < extractableCost o cs
    · exact Or.inl hlt
    · refine Or.inr fun o' cs' => ?_
      rw [extractableCost_eq] at hlt ⊢
      rw [extractableCost_eq]
      split <;> split <;> simp_all <;> omega

theorem fold_astCost (t : Tm O) : Tm.fold astCost t = tmSize t := by
  induction t using Tm.ind with
  | hn o l ih =>
    rw [Tm.fold_node, tmSize, astCost]
    have : (l.map (Tm.fold astCost)).sum = tmSizeL l := by
      clear o
      induction l with
      | nil => rfl
      | cons a l ih' =>
        rw [List.map_cons, List.sum_cons, tmSizeL, ih a (by simp), ih' fun b hb => ih b (by simp [hb])]
    omega

/-- The cost of a term is its size if all operators are allowed, and otherwise the maximum. -/
theorem fold_extractable [Lang O] (t : Tm O) :
    (AllAllowed t → Tm.fold extractableCost t = min (tmSize t) usizeMax) ∧
      (¬ AllAllowed t → Tm.fold extractableCost t = usizeMax) := by
  induction t using Tm.ind with
  | hn o l ih =>
    rw [Tm.fold_node, extractableCost_eq]
    constructor
    · intro h
      cases h with
      | node ho hl =>
        rw [if_pos ho, tmSize]
        have : min (l.map (Tm.fold extractableCost)).sum usizeMax = min (tmSizeL l) usizeMax := by
          clear ho
          induction l with
          | nil => rfl
          | cons a l ih' =>
            have h1 := (ih a (by simp)).1 (hl a (by simp))
            have h2 := ih' (fun b hb => ih b (by simp [hb])) (fun b hb => hl b (by simp [hb]))
            rw [List.map_cons, List.sum_cons, tmSizeL, h1]
            omega
        omega
    · intro h
      by_cases ho : Lang.allowed o = true
      · rw [if_pos ho]
        have : ∃ a ∈ l, ¬ AllAllowed a := by
          by_contra hc
          exact h (.node ho fun a ha => by by_contra hn; exact hc ⟨a, ha, hn⟩)
        obtain ⟨a, ha, hn⟩ := this
        have h1 := (ih a ha).2 hn
        have h2 : usizeMax ∈ l.map (Tm.fold extractableCost) := h1 ▸ List.mem_map_of_mem ha
        have := le_sum_of_mem h2
        omega
      · rw [if_neg ho]

theorem mem_classNodes {g : EGraph O C} {i : Nat} {nd : FNode O} :
    nd ∈ g.classNodes i ↔ ∃ e ∈ g.nodes, e.1 = nd ∧ g.find e.2 = g.find i := by
  unfold EGraph.classNodes
  simp only [List.mem_map, List.mem_filter, decide_eq_true_eq]
  constructor
  · rintro ⟨e, ⟨h1, h2⟩, h3⟩; exact ⟨e, h1, h3, h2⟩
  · rintro ⟨e, h1, h3, h2⟩; exact ⟨e, ⟨h1, h2⟩, h3⟩

variable [Lang O] [LinearOrder C] {D : Domain O C}

/-- Every id of an e-graph that arises in a run represents some term. -/
theorem AnyHistory.represents {g : EGraph O C} (h : AnyHistory D g) (i : Nat) (hi : i < g.n) : ∃ t, Rep g t i := by
  obtain ⟨_, _, hl⟩ := AnyHistory.live h
  exact live_rep (hl _ i hi)

omit [Lang O] [LinearOrder C] in
/-- **C55.** The computation of the costs comes to an end, for all orders in which classes and e-nodes are visited. -/
theorem C55_terminates (g : EGraph O C) (cost : O → List Nat → Nat) (nodes : Nat → List (FNode O)) (order : List Nat) :
    ∃ fuel b, findCosts g cost nodes order fuel (fun _ => none) = some b := by
  obtain ⟨fuel, h⟩ := findCosts_stops g cost nodes order fun _ => none
  exact ⟨fuel, Option.isSome_iff_exists.1 h⟩

/-- **C55.** In every e-graph that arises in a run, and for a cost function that is monotone and does not assign to a term
less than to its subterms: the extracted terms are represented by their classes, the stored costs are their costs, and no
term of the class costs less. -/
theorem C55_cheapest {g : EGraph O C} (hg : AnyHistory D g) {cost : O → List Nat → Nat} (hc : CostLaws cost)
    {nodes : Nat → List (FNode O)} (hn : ∀ i, (nodes i).Perm (g.classNodes i)) {order : List Nat}
    (ho : order.Perm g.classes) {fuel : Nat} {b : Costs O}
    (h : findCosts g cost nodes order fuel (fun _ => none) = some b) (i : Nat) (hi : i < g.n) :
    ∃ depth t nd, buildBest g b depth i = some t ∧ b (g.find i) = some (Tm.fold cost t, nd) ∧
      Least g (Tm.fold cost) i t := by
  obtain ⟨val, hI⟩ := AnyHistory.inv hg
  obtain ⟨⟨stamp, hinv⟩, hst⟩ := findCosts_inv hc fuel ⟨_, costInv_empty⟩ h
  have hdom : ∀ j, (b j).isSome → j ∈ order := by
    intro j hj
    exact (findCosts_dom fuel h j hj).resolve_left (by simp)
  have hcls : ∀ j, j ∈ order → j < g.n ∧ g.find j = j := by
    intro j hj
    have := (ho.mem_iff).1 hj
    simpa [EGraph.classes] using this
  obtain ⟨u, hu⟩ := AnyHistory.represents hg i hi
  have hmin := stable_minimal hc hst (fun e he => by
    refine ⟨(ho.mem_iff).2 ?_, (hn _).mem_iff.2 (mem_classNodes.2 ⟨e, he, rfl, (hI.idem _).symm⟩)⟩
    have := hI.find_lt e.2 (hI.nodes_lt e he).1
    simp [EGraph.classes, this, hI.idem])
  obtain ⟨c, hcst, -⟩ := hmin u i hu
  unfold costOf at hcst
  obtain ⟨⟨c', nd⟩, hb, hc'⟩ := Option.map_eq_some_iff.1 hcst
  simp only at hc'
  subst hc'
  -- the lists of e-nodes are used only at roots
  let nodes' : Nat → List (FNode O) := nodes
  have hnode : ∀ j nd', nd' ∈ nodes' j → j ∈ order → ∃ e ∈ g.nodes, e.1 = nd' ∧ g.find e.2 = j := by
    intro j nd' h1 h2
    obtain ⟨e, he, h3, h4⟩ := mem_classNodes.1 ((hn j).mem_iff.1 h1)
    exact ⟨e, he, h3, h4.trans (hcls j h2).2⟩
  obtain ⟨d, t, h1, h2, h3⟩ := buildBest_ok hinv hst hnode (fun j c nd hj => ⟨hdom j (by simp [hj]), (hcls j (hdom j (by simp [hj]))).2⟩) i c' nd hb
  refine ⟨d, t, nd, h1, by rw [hb, h3], h2, fun v hv => ?_⟩
  obtain ⟨c2, h4, h5⟩ := hmin v i hv
  simp only [costOf, hb, Option.map_some, Option.some.injEq] at h4
  omega

/-- **C55.** With `AstSize` the extracted term of a class is a smallest one. -/
theorem C55_smallest {g : EGraph O C} (hg : AnyHistory D g) {nodes : Nat → List (FNode O)}
    (hn : ∀ i, (nodes i).Perm (g.classNodes i)) {order : List Nat} (ho : order.Perm g.classes) {fuel : Nat} {b : Costs O}
    (h : findCosts g astCost nodes order fuel (fun _ => none) = some b) (i : Nat) (hi : i < g.n) :
    ∃ depth t nd, buildBest g b depth i = some t ∧ b (g.find i) = some (tmSize t, nd) ∧ Least g tmSize i t := by
  obtain ⟨d, t, nd, h1, h2, h3, h4⟩ := C55_cheapest hg astCost_laws hn ho h i hi
  rw [fold_astCost] at h2
  exact ⟨d, t, nd, h1, h2, h3, fun u hu => by simpa [fold_astCost] using h4 u hu⟩

/-- **C55.** With `ExtractableAstSize`: if the class has a term with only allowed operators (of a size below `usize::MAX`),
the extracted term has only allowed operators, and no other such term of the class is smaller; otherwise the cost is
`usize::MAX`. -/
theorem C55_allowed {g : EGraph O C} (hg : AnyHistory D g) {nodes : Nat → List (FNode O)}
    (hn : ∀ i, (nodes i).Perm (g.classNodes i)) {order : List Nat} (ho : order.Perm g.classes) {fuel : Nat} {b : Costs O}
    (h : findCosts g extractableCost nodes order fuel (fun _ => none) = some b) (i : Nat) (hi : i < g.n) :
    ∃ depth t c nd, buildBest g b depth i = some t ∧ b (g.find i) = some (c, nd) ∧ Rep g t i ∧
      (∀ u, Rep g u i → AllAllowed u → tmSize u < usizeMax → AllAllowed t ∧ c = tmSize t ∧ tmSize t ≤ tmSize u) ∧
      ((∀ u, Rep g u i → AllAllowed u → usizeMax ≤ tmSize u) → c = usizeMax) := by
  obtain ⟨d, t, nd, h1, h2, h3, h4⟩ := C55_cheapest hg extractableCost_laws hn ho h i hi
  refine ⟨d, t, _, nd, h1, h2, h3, fun u hu ha hs => ?_, fun hall => ?_⟩
  · have k1 := h4 u hu
    have k2 := (fold_extractable u).1 ha
    by_cases hat : AllAllowed t
    · have k3 := (fold_extractable t).1 hat
      exact ⟨hat, by omega, by omega⟩
    · have k3 := (fold_extractable t).2 hat
      omega
  · by_cases hat : AllAllowed t
    · have k3 := (fold_extractable t).1 hat
      have := hall t h3 hat
      omega
    · exact (fold_extractable t).2 hat

/-- What the extractor guarantees for the e-graphs that can arise. -/
def ExtractorOk (D : Domain O C) (best : EGraph O C → Nat → Nat × Tm O) : Prop :=
  ∀ g, AnyHistory D g → ExtractsCost g (best g)

/-- The cost and the term are what the extraction algorithm computes for the class. -/
def Computed (g : EGraph O C) (cost : O → List Nat → Nat) (i : Nat) (r : Nat × Tm O) : Prop :=
  ∃ fuel b depth nd, findCosts g cost g.classNodes g.classes fuel (fun _ => none) = some b ∧
    b (g.find i) = some (r.1, nd) ∧ buildBest g b depth i = some r.2

theorem computed_exists {cost : O → List Nat → Nat} (hc : CostLaws cost) (D : Domain O C) :
    ∃ best : EGraph O C → Nat → Nat × Tm O, ∀ g, AnyHistory D g → ∀ i ∈ g.classes,
      Computed g cost i (best g i) ∧ Rep g (best g i).2 i ∧ (best g i).1 = Tm.fold cost (best g i).2 := by
  classical
  have key : ∀ (g : EGraph O C) (i : Nat), ∃ p : Nat × Tm O, AnyHistory D g → i ∈ g.classes →
      Computed g cost i p ∧ Rep g p.2 i ∧ p.1 = Tm.fold cost p.2 := by
    intro g i
    by_cases h : AnyHistory D g ∧ i ∈ g.classes
    · have hi : i < g.n ∧ g.find i = i := by simpa [EGraph.classes] using h.2
      obtain ⟨fuel, b, hf⟩ := C55_terminates g cost g.classNodes g.classes
      obtain ⟨d, t, nd, h1, h2, h3, _⟩ := C55_cheapest h.1 hc (fun _ => List.Perm.refl _) (List.Perm.refl _) hf i hi.1
      exact ⟨(Tm.fold cost t, t), fun _ _ => ⟨⟨fuel, b, d, nd, hf, h2, h1⟩, h3, rfl⟩⟩
    · exact ⟨(0, .node (Lang.mkVar "") []), fun h1 h2 => absurd ⟨h1, h2⟩ h⟩
  choose best hbest using key
  exact ⟨best, fun g hg i hi => hbest g i hg hi⟩

/-- **C55.** What the theorems about candidate generation (C25, C26) and fast-forwarding (C36, C53) require of the extracted
terms is provided by the extraction algorithm. -/
theorem C55_extractors (D : Domain O C) :
    (∃ best : EGraph O C → Nat → Nat × Tm O, (∀ g, AnyHistory D g → Extracts g fun i => (best g i).2) ∧
      ∀ g, AnyHistory D g → ∀ i ∈ g.classes, Computed g astCost i (best g i)) ∧
    ∃ best : EGraph O C → Nat → Nat × Tm O, ExtractorOk D best ∧
      ∀ g, AnyHistory D g → ∀ i ∈ g.classes, Computed g extractableCost i (best g i) := by
  obtain ⟨b1, h1⟩ := computed_exists astCost_laws D
  obtain ⟨b2, h2⟩ := computed_exists extractableCost_laws D
  exact ⟨⟨b1, fun g hg i hi => (h1 g hg i hi).2.1, fun g hg i hi => (h1 g hg i hi).1⟩,
    b2, fun g hg i hi => (h2 g hg i hi).2, fun g hg i hi => (h2 g hg i hi).1⟩

namespace Sample

/-- The e-graph of the workload `(+ x y)`, `(+ y x)` after commutativity: the class of the sums has two e-nodes. -/
def exOut : Option (List (Option (Nat × Nat))) :=
  (natOut (.simple limits)).bind fun g =>
    (findCosts g astCost g.classNodes g.classes 3 (fun _ => none)).map fun b =>
      g.classes.map fun i => (b i).bind fun e => (buildBest g b 3 i).map fun t => (e.1, tmSize t)

-- Costs and sizes of the three classes; three passes are made, the last without a change.
example : exOut = some [some (1, 1), some (1, 1), some (3, 3)] := by decide +kernel

end Sample

example : ∃ g b, AnyHistory Sample.natDom g ∧ Sample.natOut (.simple Sample.limits) = some g ∧
    findCosts g astCost g.classNodes g.classes 3 (fun _ => none) = some b ∧ 3 < g.n ∧
    ∃ depth t nd, buildBest g b depth 3 = some t ∧ b (g.find 3) = some (tmSize t, nd) ∧ Least g tmSize 3 t := by
  have h : ((Sample.natOut (.simple Sample.limits)).bind fun g =>
      (findCosts g astCost g.classNodes g.classes 3 (fun _ => none)).map fun _ => decide (3 < g.n)) = some true := by
    decide +kernel
  obtain ⟨g, hg, h⟩ := Option.bind_eq_some_iff.1 h
  obtain ⟨b, hb, h⟩ := Option.map_eq_some_iff.1 h
  have hn : 3 < g.n := by simpa using h
  have hr : AnyHistory Sample.natDom g := by
    have := hg
    unfold Sample.natOut at this
    obtain ⟨g0, h0, h1⟩ := Option.bind_eq_some_iff.1 this
    have hr0 : Reach Sample.natDom (fun _ _ => True) (fun _ => True) g0 :=
      reach_termsToEGraph (fun s => ⟨(Sample.natVarsOk s).1, trivial⟩) (fun _ _ => TmOk.any _) h0
    exact .run hr0 (fun _ _ => trivial) h1
  exact ⟨g, b, hr, hg, hb, hn, C55_smallest hr (fun _ => List.Perm.refl _) (List.Perm.refl _) hb 3 hn⟩

end Ruler
