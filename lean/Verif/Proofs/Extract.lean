import Verif.Model.Extract
import Verif.Proofs.Reach
import Mathlib.Data.Prod.Lex
/-! The extraction algorithm. -/
namespace Ruler
open Spec EGraph
variable {O C V : Type}

/-! ## Every id of an e-graph represents a term -/

theorem live_rep {g : EGraph O C} {i : Nat} (h : Live g (fun _ => False) i) : ∃ t, Rep g t i := by
  induction h with
  | base h => exact h.elim
  | @node i e hm he _ ih =>
    have : ∃ l : List (Tm O), List.Forall₂ (Rep g) l e.1.children := by
      revert ih
      generalize e.1.children = cs
      intro ih
      induction cs with
      | nil => exact ⟨[], .nil⟩
      | cons c cs ih' =>
        obtain ⟨t, ht⟩ := ih c (by simp)
        obtain ⟨l, hl⟩ := ih' fun d hd => ih d (by simp [hd])
        exact ⟨t :: l, .cons ht hl⟩
    obtain ⟨l, hl⟩ := this
    exact ⟨.node e.1.op l, e, hm, rfl, he, (RepL_iff g l _).2 hl⟩

theorem AnyHistory.live [Lang O] [LinearOrder C] {D : Domain O C} {g : EGraph O C} (h : AnyHistory D g) :
    ∃ val : Nat → Unit, Inv (fun _ _ => True) (fun _ _ => ()) (fun _ _ => True) g val ∧
      ∀ P : Nat → Prop, ∀ i, i < g.n → Live g P i := by
  have hD := unitInv D
  induction h with
  | empty => exact ⟨fun _ => (), Inv.empty _ _ _ _, fun _ i hi => absurd hi (Nat.not_lt_zero _)⟩
  | setLen k _ ih =>
    obtain ⟨val, h1, h2⟩ := ih
    refine ⟨val, h1.setLen k, fun P i hi => ?_⟩
    exact Live.mono (by exact Nat.le_refl _) h1.nodes_lt (by exact fun _ _ _ _ h => h)
      (by exact fun e he => ⟨e, he, rfl, rfl, rfl⟩) (h2 P i hi) hi
  | addTm _ ht h ih =>
    obtain ⟨val, h1, h2⟩ := ih
    obtain ⟨val', h', hE, _⟩ := addTm_ok hD ht h1 h
    exact ⟨val', h', fun P => hE.live P (h2 P)⟩
  | setCvec i cv _ ih =>
    obtain ⟨val, h1, h2⟩ := ih
    refine ⟨val, h1.setCvec (fun _ _ _ _ => trivial) i cv, fun P i hi => ?_⟩
    exact Live.mono (by exact Nat.le_refl _) h1.nodes_lt (by exact fun _ _ _ _ h => h)
      (by exact fun e he => ⟨e, he, rfl, rfl, rfl⟩) (h2 P i hi) hi
  | initVar _ hp h ih =>
    obtain ⟨val, h1, h2⟩ := ih
    obtain ⟨val', h', hE⟩ := initVar_ok hD (fun _ _ _ _ => trivial) h1 hp h
    exact ⟨val', h', fun P => hE.live P (h2 P)⟩
  | rebuild _ h ih =>
    obtain ⟨val, h1, h2⟩ := ih
    obtain ⟨⟨val', h', hE⟩, _⟩ := rebuild_ok hD h1 h
    exact ⟨val', h', fun P => hE.live P (h2 P)⟩
  | run _ hr h ih =>
    obtain ⟨val, h1, h2⟩ := ih
    obtain ⟨⟨val', h', hE⟩, _⟩ := run_ok hD (fun r _ => ⟨⟨PatOk.any _, PatOk.any _⟩, fun _ => rfl⟩) h1 h
    exact ⟨val', h', fun P => hE.live P (h2 P)⟩

/-! ## The loop -/

/-- What is required of a cost function. -/
structure CostLaws (cost : O → List Nat → Nat) : Prop where
  mono : ∀ o cs ds, List.Forall₂ (· ≤ ·) cs ds → cost o cs ≤ cost o ds
  above : ∀ o cs, ∀ c ∈ cs, c < cost o cs ∨ ∀ o' cs', cost o' cs' ≤ cost o cs

variable {g : EGraph O C} {cost : O → List Nat → Nat} {nodes : Nat → List (FNode O)}

/-- The cost stored for a class. -/
def costOf (b : Costs O) (i : Nat) : Option Nat := (b i).map Prod.fst

theorem nodeCost_some {b : Costs O} {nd : FNode O} {c : Nat} (h : nodeCost g cost b nd = some c) :
    ∃ cs, List.Forall₂ (fun ch v => costOf b (g.find ch) = some v) nd.children cs ∧ c = cost nd.op cs := by
  unfold nodeCost at h
  obtain ⟨cs, h1, h2⟩ := Option.map_eq_some_iff.1 h
  refine ⟨cs, ?_, h2.symm⟩
  revert h1
  generalize nd.children = l
  intro h1
  clear h2 h
  induction l generalizing cs with
  | nil => simp at h1; subst h1; exact .nil
  | cons a l ih =>
    rw [List.mapM_cons] at h1
    obtain ⟨v, hv, h1⟩ := Option.bind_eq_some_iff.1 h1
    obtain ⟨vs, hvs, h1⟩ := Option.bind_eq_some_iff.1 h1
    cases h1
    exact .cons hv (ih vs hvs)

theorem nodeCost_of {b : Costs O} {nd : FNode O} {cs : List Nat}
    (h : List.Forall₂ (fun ch v => costOf b (g.find ch) = some v) nd.children cs) :
    nodeCost g cost b nd = some (cost nd.op cs) := by
  unfold nodeCost
  have : (nd.children.mapM fun c => (b (g.find c)).map Prod.fst) = some cs := by
    revert h
    generalize nd.children = l
    intro h
    induction h with
    | nil => rfl
    | cons h1 _ ih =>
      rw [List.mapM_cons]
      unfold costOf at h1
      rw [h1, ih]
      rfl
  rw [this]
  rfl

theorem cheapest_some {b : Costs O} {l : List (FNode O)} {e : Nat × FNode O} (h : cheapest g cost b l = some e) :
    e.2 ∈ l ∧ nodeCost g cost b e.2 = some e.1 ∧ ∀ nd ∈ l, ∀ c, nodeCost g cost b nd = some c → e.1 ≤ c := by
  induction l generalizing e with
  | nil => cases h
  | cons nd l ih =>
    rw [cheapest] at h
    cases h1 : nodeCost g cost b nd with
    | none =>
      rw [h1] at h
      obtain ⟨k1, k2, k3⟩ := ih h
      refine ⟨List.mem_cons_of_mem _ k1, k2, fun nd' hnd' c hc => ?_⟩
      rcases List.mem_cons.1 hnd' with rfl | hnd'
      · rw [h1] at hc; cases hc
      · exact k3 nd' hnd' c hc
    | some c0 =>
      rw [h1] at h
      cases h2 : cheapest g cost b l with
      | none =>
        rw [h2] at h
        cases h
        refine ⟨by simp, h1, fun nd' hnd' c hc => ?_⟩
        rcases List.mem_cons.1 hnd' with rfl | hnd'
        · rw [h1] at hc; cases hc; exact Nat.le_refl _
        · exfalso
          clear ih h1
          induction l with
          | nil => simp at hnd'
          | cons a l ih =>
            rw [cheapest] at h2
            rcases List.mem_cons.1 hnd' with rfl | hm
            · rw [hc] at h2
              split at h2 <;> simp_all
              split at h2 <;> simp_all
            · refine ih ?_ (by simp [hm]) hm
              split at h2 <;> simp_all
              split at h2 <;> simp_all
      | some e' =>
        rw [h2] at h
        obtain ⟨k1, k2, k3⟩ := ih h2
        obtain ⟨d, x⟩ := e'
        simp only at h
        split at h
        · rename_i hlt
          cases h
          refine ⟨List.mem_cons_of_mem _ k1, k2, fun nd' hnd' c hc => ?_⟩
          rcases List.mem_cons.1 hnd' with rfl | hnd'
          · rw [h1] at hc; cases hc; exact Nat.le_of_lt hlt
          · exact k3 nd' hnd' c hc
        · rename_i hlt
          cases h
          refine ⟨by simp, h1, fun nd' hnd' c hc => ?_⟩
          rcases List.mem_cons.1 hnd' with rfl | hnd'
          · rw [h1] at hc; cases hc; exact Nat.le_refl _
          · exact Nat.le_trans (Nat.le_of_not_lt hlt) (k3 nd' hnd' c hc)

theorem cheapest_none {b : Costs O} {l : List (FNode O)} (h : cheapest g cost b l = none) :
    ∀ nd ∈ l, nodeCost g cost b nd = none := by
  induction l with
  | nil => simp
  | cons a l ih =>
    rw [cheapest] at h
    cases h1 : nodeCost g cost b a with
    | none =>
      rw [h1] at h
      intro nd hnd
      rcases List.mem_cons.1 hnd with rfl | hnd
      · exact h1
      · exact ih h nd hnd
    | some c =>
      rw [h1] at h
      cases h2 : cheapest g cost b l with
      | none => rw [h2] at h; cases h
      | some e =>
        rw [h2] at h
        obtain ⟨d, x⟩ := e
        simp only at h
        split at h <;> cases h

/-- The entry comes with the e-node's cost, and it is better than what was there. -/
theorem improvement_some {b : Costs O} {i : Nat} {e : Nat × FNode O} (h : improvement g cost nodes b i = some e) :
    e.2 ∈ nodes i ∧ nodeCost g cost b e.2 = some e.1 ∧ ∀ v, costOf b i = some v → e.1 < v := by
  unfold improvement at h
  split at h
  · rename_i hb
    obtain ⟨h1, h2, _⟩ := cheapest_some h
    exact ⟨h1, h2, fun v hv => by simp [costOf, hb] at hv⟩
  · rename_i old new hb hc
    split at h
    · rename_i hlt
      cases h
      obtain ⟨h1, h2, _⟩ := cheapest_some hc
      exact ⟨h1, h2, fun v hv => by simp [costOf, hb] at hv; omega⟩
    · cases h
  · cases h

/-- If nothing improves, the stored cost is at most the cost of every e-node. -/
theorem improvement_none {b : Costs O} {i : Nat} (h : improvement g cost nodes b i = none) {nd : FNode O}
    (hnd : nd ∈ nodes i) {c : Nat} (hc : nodeCost g cost b nd = some c) : ∃ v, costOf b i = some v ∧ v ≤ c := by
  unfold improvement at h
  split at h
  · rw [cheapest_none h nd hnd] at hc
    cases hc
  · rename_i old new hb hch
    split at h
    · cases h
    · rename_i hlt
      obtain ⟨_, _, h3⟩ := cheapest_some hch
      exact ⟨old.1, by simp [costOf, hb], Nat.le_trans (Nat.le_of_not_lt hlt) (h3 nd hnd c hc)⟩
  · rename_i hch
    rw [cheapest_none hch nd hnd] at hc
    cases hc

/-- Invariant of the loop: stored e-nodes belong to their classes, their children have stored costs, the cost of the e-node
is at most the stored cost, and children come before parents in the order given by cost and time. -/
structure CostInv (g : EGraph O C) (cost : O → List Nat → Nat) (nodes : Nat → List (FNode O)) (b : Costs O)
    (stamp : Nat → Nat) : Prop where
  member : ∀ i c nd, b i = some (c, nd) → nd ∈ nodes i
  bound : ∀ i c nd, b i = some (c, nd) → ∃ c', nodeCost g cost b nd = some c' ∧ c' ≤ c
  value : ∀ i c nd, b i = some (c, nd) → ∃ o cs, c = cost o cs
  earlier : ∀ i c nd, b i = some (c, nd) → ∀ ch ∈ nd.children, ∀ v, costOf b (g.find ch) = some v →
    v < c ∨ v = c ∧ stamp (g.find ch) < stamp i

theorem forall2_value_mem {β : Type} {R : Nat → β → Prop} {l : List Nat} {m : List β} (h : List.Forall₂ R l m) {a : Nat}
    (ha : a ∈ l) : ∃ v ∈ m, R a v := by
  induction h with
  | nil => simp at ha
  | cons h1 _ ih =>
    rcases List.mem_cons.1 ha with rfl | ha
    · exact ⟨_, by simp, h1⟩
    · obtain ⟨v, hv, hr⟩ := ih ha
      exact ⟨v, by simp [hv], hr⟩

theorem CostInv.step (hc : CostLaws cost) {b : Costs O} {stamp : Nat → Nat} (h : CostInv g cost nodes b stamp)
    {i : Nat} {e : Nat × FNode O} (he : improvement g cost nodes b i = some e) :
    ∃ stamp', CostInv g cost nodes (fun j => if j = i then some e else b j) stamp' := by
  obtain ⟨hm, hn, hlt⟩ := improvement_some he
  obtain ⟨cs, hcs, hcost⟩ := nodeCost_some hn
  set b' : Costs O := fun j => if j = i then some e else b j with hb'
  -- stored costs only decrease
  have hval : ∀ j v, costOf b j = some v → ∃ v', costOf b' j = some v' ∧ v' ≤ v ∧ (j = i → v' < v) := by
    intro j v hv
    by_cases hj : j = i
    · subst hj
      exact ⟨e.1, by simp [costOf, hb'], Nat.le_of_lt (hlt v hv), fun _ => hlt v hv⟩
    · exact ⟨v, by simpa [costOf, hb', hj] using hv, Nat.le_refl _, fun h => absurd h hj⟩
  -- the cost of an e-node only decreases
  have hnode : ∀ nd c, nodeCost g cost b nd = some c → ∃ c', nodeCost g cost b' nd = some c' ∧ c' ≤ c := by
    intro nd c hc'
    obtain ⟨vs, hvs, rfl⟩ := nodeCost_some hc'
    have : ∀ (l : List Nat) vs, List.Forall₂ (fun ch v => costOf b (g.find ch) = some v) l vs →
        ∃ vs', List.Forall₂ (fun ch v => costOf b' (g.find ch) = some v) l vs' ∧ List.Forall₂ (· ≤ ·) vs' vs := by
      intro l vs hf
      induction hf with
      | nil => exact ⟨[], .nil, .nil⟩
      | cons h1 _ ih =>
        obtain ⟨vs', k1, k2⟩ := ih
        obtain ⟨v', a1, a2, _⟩ := hval _ _ h1
        exact ⟨v' :: vs', .cons a1 k1, .cons a2 k2⟩
    obtain ⟨vs', k1, k2⟩ := this _ _ hvs
    exact ⟨_, nodeCost_of k1, hc.mono _ _ _ k2⟩
  -- what is stored at `i` is not a child of the new e-node
  have hvb : ∀ ch ∈ e.2.children, ∃ v, costOf b (g.find ch) = some v ∧ v ≤ e.1 ∧
      (v < e.1 ∨ ∀ o' cs', cost o' cs' ≤ e.1) := by
    intro ch hch
    obtain ⟨v, hv, hr⟩ := forall2_value_mem hcs hch
    have ha := hc.above e.2.op cs v hv
    rw [← hcost] at ha
    refine ⟨v, hr, ?_, ha⟩
    rcases ha with ha | ha
    · exact Nat.le_of_lt ha
    · unfold costOf at hr
      obtain ⟨⟨c0, nd0⟩, h0, h0'⟩ := Option.map_eq_some_iff.1 hr
      obtain ⟨o, ds, h1⟩ := h.value _ _ _ h0
      simp only at h0'
      rw [← h0', h1]
      exact ha o ds
  have hself : ∀ ch ∈ e.2.children, g.find ch ≠ i := by
    intro ch hch heq
    obtain ⟨v, hv, hle, _⟩ := hvb ch hch
    rw [heq] at hv
    have := hlt v hv
    omega
  -- a stamp that is later than those of the children
  set m := (e.2.children.map fun ch => stamp (g.find ch)).foldr max 0 + 1 with hmdef
  have hmax : ∀ (l : List Nat), ∀ x ∈ l, x ≤ l.foldr max 0 := by
    intro l
    induction l with
    | nil => simp
    | cons a l ih =>
      intro x hx
      simp only [List.foldr_cons]
      rcases List.mem_cons.1 hx with rfl | hx
      · exact Nat.le_max_left _ _
      · exact Nat.le_trans (ih x hx) (Nat.le_max_right _ _)
  refine ⟨fun j => if j = i then m else stamp j, ?_, ?_, ?_, ?_⟩
  · intro j c nd hj
    by_cases hji : j = i
    · subst hji
      simp only [hb', if_true, Option.some.injEq] at hj
      rw [show nd = e.2 from by rw [hj]]
      exact hm
    · simp only [hb', hji, if_false] at hj
      exact h.member j c nd hj
  · intro j c nd hj
    by_cases hji : j = i
    · subst hji
      simp only [hb', if_true, Option.some.injEq] at hj
      obtain ⟨c', h1, h2⟩ := hnode _ _ hn
      subst hj
      exact ⟨c', h1, h2⟩
    · simp only [hb', hji, if_false] at hj
      obtain ⟨c', h1, h2⟩ := h.bound j c nd hj
      obtain ⟨c'', h3, h4⟩ := hnode _ _ h1
      exact ⟨c'', h3, Nat.le_trans h4 h2⟩
  · intro j c nd hj
    by_cases hji : j = i
    · subst hji
      simp only [hb', if_true, Option.some.injEq] at hj
      subst hj
      exact ⟨_, _, hcost⟩
    · simp only [hb', hji, if_false] at hj
      exact h.value j c nd hj
  · intro j c nd hj ch hch v hv
    by_cases hji : j = i
    · subst hji
      simp only [hb', if_true, Option.some.injEq] at hj
      subst hj
      have hne := hself ch hch
      obtain ⟨v0, hv0, hle, _⟩ := hvb ch hch
      simp only [costOf, hb', hne, if_false] at hv
      simp only [costOf] at hv0
      rw [hv0] at hv
      cases hv
      rcases Nat.lt_or_eq_of_le hle with h1 | h1
      · exact Or.inl h1
      · refine Or.inr ⟨h1, ?_⟩
        simp only [hne, if_false, if_true]
        exact Nat.lt_succ_of_le (hmax _ _ (List.mem_map.2 ⟨ch, hch, rfl⟩))
    · simp only [hb', hji, if_false] at hj
      obtain ⟨c', h1, _⟩ := h.bound j c nd hj
      obtain ⟨vs, hvs, _⟩ := nodeCost_some h1
      obtain ⟨v0, _, hv0⟩ := forall2_value_mem hvs hch
      obtain ⟨v', hv', hle, hst⟩ := hval _ _ hv0
      rw [hv'] at hv
      cases hv
      rcases h.earlier j c nd hj ch hch v0 hv0 with h2 | ⟨h2, h3⟩
      · exact Or.inl (Nat.lt_of_le_of_lt hle h2)
      · by_cases hci : g.find ch = i
        · exact Or.inl (by have := hst hci; omega)
        · rcases Nat.lt_or_eq_of_le hle with h4 | h4
          · exact Or.inl (by omega)
          · refine Or.inr ⟨by omega, ?_⟩
            simp only [hci, hji, if_false]
            exact h3

/-- Nothing improves. -/
def Stable (g : EGraph O C) (cost : O → List Nat → Nat) (nodes : Nat → List (FNode O)) (order : List Nat)
    (b : Costs O) : Prop := ∀ i ∈ order, improvement g cost nodes b i = none

theorem foldl_step_inv (hc : CostLaws cost) (order : List Nat) : ∀ (s : Costs O × Bool),
    (∃ stamp, CostInv g cost nodes s.1 stamp) →
    (∃ stamp, CostInv g cost nodes (order.foldl (costStep g cost nodes) s).1 stamp) ∧
      ((order.foldl (costStep g cost nodes) s).2 = false →
        (order.foldl (costStep g cost nodes) s).1 = s.1 ∧ s.2 = false ∧ Stable g cost nodes order s.1) := by
  induction order with
  | nil => exact fun s h => ⟨h, fun h' => ⟨rfl, h', by simp [Stable]⟩⟩
  | cons i order ih =>
    intro s hs
    rw [List.foldl_cons]
    have hstep : ∃ stamp, CostInv g cost nodes (costStep g cost nodes s i).1 stamp := by
      unfold costStep
      split
      · rename_i e he
        obtain ⟨stamp, hs⟩ := hs
        exact hs.step hc he
      · exact hs
    obtain ⟨h1, h2⟩ := ih _ hstep
    refine ⟨h1, fun hf => ?_⟩
    obtain ⟨h3, h4, h5⟩ := h2 hf
    cases hi : improvement g cost nodes s.1 i with
    | some e => simp [costStep, hi] at h4
    | none =>
      have hst : costStep g cost nodes s i = s := by simp [costStep, hi]
      rw [hst] at h3 h4 h5 ⊢
      refine ⟨h3, h4, fun j hj => ?_⟩
      rcases List.mem_cons.1 hj with rfl | hj
      · exact hi
      · exact h5 j hj

theorem findCosts_inv (hc : CostLaws cost) {order : List Nat} (fuel : Nat) : ∀ {b b' : Costs O},
    (∃ stamp, CostInv g cost nodes b stamp) → findCosts g cost nodes order fuel b = some b' →
    (∃ stamp, CostInv g cost nodes b' stamp) ∧ Stable g cost nodes order b' := by
  induction fuel with
  | zero => intro b b' _ h; cases h
  | succ fuel ih =>
    intro b b' hb h
    rw [findCosts] at h
    obtain ⟨h1, h2⟩ := foldl_step_inv hc order (b, false) hb
    split at h
    · exact ih h1 h
    · rename_i hf
      cases h
      obtain ⟨h3, _, h5⟩ := h2 (by simpa using hf)
      exact ⟨h1, by rw [h3]; exact h5⟩

theorem costInv_empty : CostInv g cost nodes (fun _ => none) (fun _ => 0) :=
  ⟨by simp, by simp, by simp, by simp⟩

/-! ## Termination -/

/-- How much is left to do: classes without a cost, and the sum of the costs. -/
def costMeasure (order : List Nat) (b : Costs O) : Nat ×ₗ Nat :=
  toLex ((order.map fun i => if (b i).isNone then 1 else 0).sum, (order.map fun i => ((costOf b i).getD 0)).sum)

theorem sum_le_sum {f f' : Nat → Nat} (l : List Nat) (h : ∀ i ∈ l, f' i ≤ f i) : (l.map f').sum ≤ (l.map f).sum := by
  induction l with
  | nil => simp
  | cons a l ih =>
    simp only [List.map_cons, List.sum_cons]
    have := h a (by simp)
    have := ih fun i hi => h i (by simp [hi])
    omega

theorem sum_lt_sum' {f f' : Nat → Nat} (l : List Nat) (h : ∀ i ∈ l, f' i ≤ f i) {j : Nat} (hj : j ∈ l) (hlt : f' j < f j) :
    (l.map f').sum < (l.map f).sum := by
  induction l with
  | nil => simp at hj
  | cons a l ih =>
    simp only [List.map_cons, List.sum_cons]
    have h1 := h a (by simp)
    have h2 := sum_le_sum l fun i hi => h i (by simp [hi])
    rcases List.mem_cons.1 hj with rfl | hj
    · omega
    · have := ih (fun i hi => h i (by simp [hi])) hj
      omega

theorem costMeasure_step {order : List Nat} {b : Costs O} {i : Nat} (hi : i ∈ order) {e : Nat × FNode O}
    (he : improvement g cost nodes b i = some e) :
    costMeasure order (fun j => if j = i then some e else b j) < costMeasure order b := by
  obtain ⟨_, _, hlt⟩ := improvement_some he
  unfold costMeasure
  rw [Prod.Lex.toLex_lt_toLex]
  cases hb : b i with
  | none =>
    left
    refine sum_lt_sum' order (fun j _ => ?_) hi ?_
    · by_cases hj : j = i
      · simp [hj]
      · simp [hj]
    · simp [hb]
  | some old =>
    right
    refine ⟨?_, ?_⟩
    · refine congrArg List.sum (List.map_congr_left fun j _ => ?_)
      by_cases hj : j = i
      · simp [hj, hb]
      · simp [hj]
    · refine sum_lt_sum' order (fun j _ => ?_) hi ?_
      · by_cases hj : j = i
        · subst hj
          have := hlt old.1 (by simp [costOf, hb])
          simp [costOf, hb]
          omega
        · simp [costOf, hj]
      · have := hlt old.1 (by simp [costOf, hb])
        simpa [costOf, hb] using this

theorem foldl_measure {order : List Nat} (l : List Nat) (hl : ∀ i ∈ l, i ∈ order) : ∀ (s : Costs O × Bool),
    costMeasure order (l.foldl (costStep g cost nodes) s).1 ≤ costMeasure order s.1 ∧
      ((l.foldl (costStep g cost nodes) s).2 = true → s.2 = true ∨
        costMeasure order (l.foldl (costStep g cost nodes) s).1 < costMeasure order s.1) := by
  induction l with
  | nil => exact fun s => ⟨le_refl _, fun h => Or.inl h⟩
  | cons i l ih =>
    intro s
    rw [List.foldl_cons]
    obtain ⟨h1, h2⟩ := ih (fun j hj => hl j (by simp [hj])) (costStep g cost nodes s i)
    cases hi : improvement g cost nodes s.1 i with
    | none =>
      have hst : costStep g cost nodes s i = s := by simp [costStep, hi]
      rw [hst] at h1 h2 ⊢
      exact ⟨h1, h2⟩
    | some e =>
      have hd := costMeasure_step (hl i (by simp)) hi
      have hst : (costStep g cost nodes s i).1 = fun j => if j = i then some e else s.1 j := by simp [costStep, hi]
      rw [← hst] at hd
      exact ⟨le_of_lt (lt_of_le_of_lt h1 hd), fun _ => Or.inr (lt_of_le_of_lt h1 hd)⟩

theorem findCosts_stops (g : EGraph O C) (cost : O → List Nat → Nat) (nodes : Nat → List (FNode O)) (order : List Nat)
    (b : Costs O) : ∃ fuel, (findCosts g cost nodes order fuel b).isSome := by
  generalize hm : costMeasure order b = m
  induction m using WellFoundedLT.induction generalizing b with
  | ind m ih =>
    subst hm
    cases hs : (order.foldl (costStep g cost nodes) (b, false)).2 with
    | false => exact ⟨1, by simp [findCosts, hs]⟩
    | true =>
      obtain ⟨_, h2⟩ := foldl_measure (g := g) (cost := cost) (nodes := nodes) order (fun i hi => hi) (b, false)
      have hlt := (h2 hs).resolve_left (by simp)
      obtain ⟨fuel, hf⟩ := ih _ hlt _ rfl
      exact ⟨fuel + 1, by simpa [findCosts, hs] using hf⟩

/-! ## The result -/

theorem buildBest_mono {b : Costs O} (d : Nat) : ∀ {i : Nat} {t : Tm O}, buildBest g b d i = some t →
    buildBest g b (d + 1) i = some t := by
  induction d with
  | zero => intro i t h; cases h
  | succ d ih =>
    intro i t h
    rw [buildBest] at h ⊢
    obtain ⟨e, he, h⟩ := Option.bind_eq_some_iff.1 h
    obtain ⟨l, hl, h⟩ := Option.map_eq_some_iff.1 h
    rw [he, Option.bind_some]
    have : ∀ (cs : List Nat) l, cs.mapM (buildBest g b d) = some l → cs.mapM (buildBest g b (d + 1)) = some l := by
      intro cs
      induction cs with
      | nil => exact fun l h => h
      | cons c cs ihc =>
        intro l h
        rw [List.mapM_cons] at h ⊢
        obtain ⟨x, hx, h⟩ := Option.bind_eq_some_iff.1 h
        obtain ⟨xs, hxs, h⟩ := Option.bind_eq_some_iff.1 h
        rw [ih hx, Option.bind_eq_bind, Option.bind_some, ihc xs hxs]
        exact h
    rw [this _ _ hl, ← h]
    rfl

theorem buildBest_le {b : Costs O} {d d' : Nat} (hd : d ≤ d') {i : Nat} {t : Tm O} (h : buildBest g b d i = some t) :
    buildBest g b d' i = some t := by
  induction hd with
  | refl => exact h
  | step _ ih => exact buildBest_mono _ ih

/-- The stored e-nodes give a term of the class with the stored cost. -/
theorem buildBest_ok {b : Costs O} {stamp : Nat → Nat} {order : List Nat} (h : CostInv g cost nodes b stamp)
    (hst : Stable g cost nodes order b)
    (hnodes : ∀ i nd, nd ∈ nodes i → i ∈ order → ∃ e ∈ g.nodes, e.1 = nd ∧ g.find e.2 = i)
    (hord : ∀ i c nd, b i = some (c, nd) → i ∈ order ∧ g.find i = i) :
    ∀ i c nd, b (g.find i) = some (c, nd) → ∃ d t, buildBest g b d i = some t ∧ Rep g t i ∧ c = Tm.fold cost t := by
  have key : ∀ (p : Nat ×ₗ Nat) i c nd, b (g.find i) = some (c, nd) → toLex (c, stamp (g.find i)) = p →
      ∃ d t, buildBest g b d i = some t ∧ Rep g t i ∧ c = Tm.fold cost t := by
    intro p
    induction p using WellFoundedLT.induction with
    | ind p ih =>
      intro i c nd hb hp
      obtain ⟨c', h1, hle⟩ := h.bound _ _ _ hb
      obtain ⟨cs, hcs, rfl⟩ := nodeCost_some h1
      have hmem := h.member _ _ _ hb
      -- the cost is exact
      have hexact : c = cost nd.op cs := by
        obtain ⟨v, hv, hv'⟩ := improvement_none (hst _ (hord _ _ _ hb).1) hmem h1
        simp only [costOf, hb, Option.map_some, Option.some.injEq] at hv
        omega
      have hch : ∀ ch v, ch ∈ nd.children → costOf b (g.find ch) = some v →
          ∃ d t, buildBest g b d ch = some t ∧ Rep g t ch ∧ v = Tm.fold cost t := by
        intro ch v hch hv
        unfold costOf at hv
        obtain ⟨⟨c0, nd0⟩, h0, h0'⟩ := Option.map_eq_some_iff.1 hv
        simp only at h0'
        subst h0'
        refine ih (toLex (c0, stamp (g.find ch))) ?_ ch c0 nd0 h0 rfl
        rw [← hp, Prod.Lex.toLex_lt_toLex]
        exact h.earlier _ _ _ hb ch hch c0 (by simp [costOf, h0])
      have hall : ∀ (l vs : List Nat), (∀ ch ∈ l, ch ∈ nd.children) →
          List.Forall₂ (fun ch v => costOf b (g.find ch) = some v) l vs →
          ∃ d ts, l.mapM (buildBest g b d) = some ts ∧ List.Forall₂ (Rep g) ts l ∧ vs = ts.map (Tm.fold cost) := by
        intro l vs hsub hf
        induction hf with
        | nil => exact ⟨0, [], rfl, .nil, rfl⟩
        | @cons ch v l vs hv _ ihl =>
          obtain ⟨d1, t, k1, k2, k3⟩ := hch ch v (hsub ch (by simp)) hv
          obtain ⟨d2, ts, k4, k5, k6⟩ := ihl fun c hc => hsub c (by simp [hc])
          refine ⟨max d1 d2, t :: ts, ?_, .cons k2 k5, by simp [k3, k6]⟩
          have hmap : ∀ (cs : List Nat) ts, cs.mapM (buildBest g b d2) = some ts →
              cs.mapM (buildBest g b (max d1 d2)) = some ts := by
            intro cs
            induction cs with
            | nil => exact fun l h => h
            | cons c cs ihc =>
              intro l h
              rw [List.mapM_cons] at h ⊢
              obtain ⟨x, hx, h⟩ := Option.bind_eq_some_iff.1 h
              obtain ⟨xs, hxs, h⟩ := Option.bind_eq_some_iff.1 h
              rw [buildBest_le (Nat.le_max_right _ _) hx, Option.bind_eq_bind, Option.bind_some, ihc xs hxs]
              exact h
          rw [List.mapM_cons, buildBest_le (Nat.le_max_left _ _) k1, hmap _ _ k4]
          rfl
      obtain ⟨d, ts, k1, k2, k3⟩ := hall _ _ (fun _ h => h) hcs
      refine ⟨d + 1, .node nd.op ts, ?_, ?_, ?_⟩
      · rw [buildBest, hb, Option.bind_some, k1]
        rfl
      · obtain ⟨e, he, he1, he2⟩ := hnodes _ _ hmem (hord _ _ _ hb).1
        exact ⟨e, he, by rw [he1], he2, (RepL_iff g ts _).2 (by rw [he1]; exact k2)⟩
      · rw [Tm.fold_node, hexact, k3]
  exact fun i c nd hb => key _ i c nd hb rfl

/-- Every represented term costs at least as much as what is stored. -/
theorem stable_minimal (hc : CostLaws cost) {b : Costs O} {order : List Nat} (hst : Stable g cost nodes order b)
    (hnodes : ∀ e ∈ g.nodes, g.find e.2 ∈ order ∧ e.1 ∈ nodes (g.find e.2)) (u : Tm O) :
    ∀ i, Rep g u i → ∃ c, costOf b (g.find i) = some c ∧ c ≤ Tm.fold cost u := by
  induction u using Tm.ind with
  | hn o l ih =>
    rintro i ⟨e, he, hop, hf, hl⟩
    rw [RepL_iff] at hl
    have : ∃ vs, List.Forall₂ (fun ch v => costOf b (g.find ch) = some v) e.1.children vs ∧
        List.Forall₂ (· ≤ ·) vs (l.map (Tm.fold cost)) := by
      revert hl ih
      generalize e.1.children = cs
      intro ih hl
      induction hl with
      | nil => exact ⟨[], .nil, .nil⟩
      | cons h1 _ ih' =>
        obtain ⟨c, k1, k2⟩ := ih _ (by simp) _ h1
        obtain ⟨vs, k3, k4⟩ := ih' fun a ha => ih a (by simp [ha])
        exact ⟨c :: vs, .cons k1 k3, .cons k2 k4⟩
    obtain ⟨vs, k1, k2⟩ := this
    obtain ⟨h1, h2⟩ := hnodes e he
    obtain ⟨v, hv, hle⟩ := improvement_none (hst _ h1) h2 (nodeCost_of (cost := cost) k1)
    rw [← hf]
    refine ⟨v, hv, Nat.le_trans hle ?_⟩
    rw [Tm.fold_node, ← hop]
    exact hc.mono _ _ _ k2

/-- Only classes of the list get a cost. -/
theorem foldl_step_dom (order : List Nat) : ∀ (s : Costs O × Bool) (i : Nat),
    ((order.foldl (costStep g cost nodes) s).1 i).isSome → (s.1 i).isSome ∨ i ∈ order := by
  induction order with
  | nil => exact fun s i h => Or.inl h
  | cons j order ih =>
    intro s i h
    rw [List.foldl_cons] at h
    rcases ih _ _ h with h | h
    · unfold costStep at h
      split at h
      · by_cases hij : i = j
        · exact Or.inr (by simp [hij])
        · exact Or.inl (by simpa [hij] using h)
      · exact Or.inl h
    · exact Or.inr (by simp [h])

theorem findCosts_dom {order : List Nat} (fuel : Nat) : ∀ {b b' : Costs O}, findCosts g cost nodes order fuel b = some b' →
    ∀ i, (b' i).isSome → (b i).isSome ∨ i ∈ order := by
  induction fuel with
  | zero => intro b b' h; cases h
  | succ fuel ih =>
    intro b b' h i hi
    rw [findCosts] at h
    split at h
    · rcases ih h i hi with h1 | h1
      · exact foldl_step_dom order _ i h1
      · exact Or.inr h1
    · cases h
      exact foldl_step_dom order _ i hi

end Ruler
