import Verif.Spec.Saturation
import Verif.Proofs.Saturate
import Verif.Proofs.EGraphData
import Verif.Proofs.Domain
/-! Invariants of reachable e-graphs, and `lookup_expr`. -/
namespace Ruler
open Spec EGraph
variable {O C V : Type} [Lang O] [LinearOrder C]
variable {S : Side O} {ar : O → Nat → Prop} {I : O → List V → V} {ok : Signature O C → V → Prop} {D : Domain O C} {E : Egg}

omit [Lang O] [LinearOrder C] in
theorem InvS.setCvec {g : EGraph O C} {val : Nat → V} (hg : InvS S ar I ok g val)
    (hok : ∀ s v cv, ok s v → ok { s with cvec := cv } v) (i : Nat) (cv : CVec C) : InvS S ar I ok (g.setCvec i cv) val := by
  refine ⟨hg.find_lt, hg.find_ge, hg.idem, hg.nodes_lt, hg.nodes_ar, hg.val_find, hg.val_node, ?_, hg.side_len,
    hg.side_nodes⟩
  intro k hk
  have h := hg.data_ok k hk
  simp only [EGraph.setCvec]
  split
  · exact hok _ _ _ h
  · exact h

omit [Lang O] [LinearOrder C] in
theorem InvS.setLen {g : EGraph O C} {val : Nat → V} (hg : Inv ar I ok g val) (k : Nat) :
    Inv ar I ok { g with cvecLen := k } val :=
  ⟨hg.find_lt, hg.find_ge, hg.idem, hg.nodes_lt, hg.nodes_ar, hg.val_find, hg.val_node, hg.data_ok,
    by simp [Side.free], hg.side_nodes⟩

omit [Lang O] [LinearOrder C] in
theorem Inv.empty (ar : O → Nat → Prop) (I : O → List V → V) (ok : Signature O C → V → Prop) (val : Nat → V) :
    Inv ar I ok (EGraph.empty : EGraph O C) val :=
  ⟨fun _ h => absurd h (Nat.not_lt_zero _), fun _ _ => rfl, fun _ => rfl, by simp [EGraph.empty],
    by simp [EGraph.empty], fun _ h => absurd h (Nat.not_lt_zero _), by simp [EGraph.empty],
    fun _ h => absurd h (Nat.not_lt_zero _), by simp [Side.free], fun _ h => h.elim⟩

omit [Lang O] [LinearOrder C] in
theorem InvS.setCvec_ext {g : EGraph O C} {val : Nat → V} (hg : InvS S ar I ok g val) (i : Nat) (cv : CVec C) :
    Ext g val (g.setCvec i cv) val :=
  ⟨Nat.le_refl _, fun _ _ => rfl, fun _ _ _ _ h => h, fun e he => ⟨e, he, rfl, rfl, rfl⟩, fun P h i hi =>
    Live.mono (by exact Nat.le_refl _) hg.nodes_lt (by exact fun _ _ _ _ h => h)
      (by exact fun e he => ⟨e, he, rfl, rfl, rfl⟩) (h i hi) hi⟩

theorem initVar_ok (hD : DataInv D ar I ok) (hok : ∀ s v cv, ok s v → ok { s with cvec := cv } v)
    {g g' : EGraph O C} {val : Nat → V} (hg : Inv ar I ok g val) {p : String × CVec C} (hp : ar (Lang.mkVar p.1) 0)
    (h : initVar D E g p = some g') : ∃ val', Inv ar I ok g' val' ∧ Ext g val g' val' := by
  rw [initVar, Option.bind_eq_some_iff] at h
  obtain ⟨⟨g1, i⟩, h1, h2⟩ := h
  obtain ⟨val1, hI1, hE1, hi, _, hval, _⟩ := addTm_ok (t := .node (Lang.mkVar p.1) []) hD (.node hp (by simp)) hg h1
  have hI1' := hI1.setCvec hok i p.2
  obtain ⟨val2, hI2, hE2⟩ := addUnions_ok hD (modify_ok hD) _ hI1' hi (fun t ht => by
    rw [hval, Tm.fold]
    exact hD.varTerms p.1 hp t ht) h2
  exact ⟨val2, hI2, Ext.trans hg hI1 hE1 (Ext.trans hI1 hI1' (hI1.setCvec_ext i p.2) hE2)⟩

theorem Reach.inv [Nonempty V] {R : Rule O → Prop} (hD : DataInv D ar I ok)
    (hok : ∀ s v cv, ok s v → ok { s with cvec := cv } v) (hR : ∀ r, R r → RuleOk ar r ∧ Holds I r)
    {g : EGraph O C} (h : Reach D ar R g) : ∃ val, Inv ar I ok g val := by
  induction h with
  | empty =>
    obtain ⟨v⟩ := ‹Nonempty V›
    exact ⟨fun _ => v, Inv.empty _ _ _ _⟩
  | setLen k _ ih => exact ih.imp fun val h => h.setLen k
  | addTm _ ht h ih =>
    obtain ⟨val, hv⟩ := ih
    obtain ⟨val', h', _⟩ := addTm_ok hD ht hv h
    exact ⟨val', h'⟩
  | setCvec i cv _ ih => exact ih.imp fun val h => h.setCvec hok i cv
  | initVar _ hp h ih =>
    obtain ⟨val, hv⟩ := ih
    obtain ⟨val', h', _⟩ := initVar_ok hD hok hv hp h
    exact ⟨val', h'⟩
  | rebuild _ h ih =>
    obtain ⟨val, hv⟩ := ih
    obtain ⟨⟨val', h', _⟩, _⟩ := rebuild_ok hD hv h
    exact ⟨val', h'⟩
  | run _ hr h ih =>
    obtain ⟨val, hv⟩ := ih
    obtain ⟨⟨val', h', _⟩, _⟩ := run_ok hD (fun r hm => hR r (hr r hm)) hv h
    exact ⟨val', h'⟩

/-- Structure only. -/
theorem AnyHistory.inv {g : EGraph O C} (h : AnyHistory D g) :
    ∃ val : Nat → Unit, Inv (fun _ _ => True) (fun _ _ => ()) (fun _ _ => True) g val :=
  Reach.inv (unitInv D) (fun _ _ _ _ => trivial)
    (fun _ _ => ⟨⟨PatOk.any _, PatOk.any _⟩, fun _ => rfl⟩) h

omit [Lang O] [LinearOrder C] in
theorem Rep.lt {g : EGraph O C} {val : Nat → V} (hg : InvS S ar I ok g val) {t : Tm O} {i : Nat} (h : Rep g t i) :
    i < g.n := by
  cases t with
  | node o l =>
    obtain ⟨e, h1, h2, h3, h4⟩ := h
    rw [← hg.find_lt_iff, ← h3]
    exact hg.find_lt _ (hg.nodes_lt e h1).1

omit [LinearOrder C] in
theorem lookupTmL_iff (g : EGraph O C) (l : List (Tm O)) (ids : List Nat) :
    lookupTmL g l = some ids ↔ List.Forall₂ (fun t i => lookupTm g t = some i) l ids := by
  induction l generalizing ids with
  | nil => cases ids <;> simp [lookupTmL]
  | cons t l ih =>
    rw [lookupTmL, Option.bind_eq_some_iff]
    constructor
    · rintro ⟨i, h1, h2⟩
      rw [Option.map_eq_some_iff] at h2
      obtain ⟨is, h2, rfl⟩ := h2
      exact .cons h1 ((ih is).1 h2)
    · intro h
      cases h with
      | cons h1 h2 => exact ⟨_, h1, by rw [(ih _).2 h2]; rfl⟩

omit [LinearOrder C] in
/-- A term that is found is represented. -/
theorem lookupTm_rep {g : EGraph O C} {val : Nat → V} (hg : InvS S ar I ok g val) (t : Tm O) :
    ∀ i, g.lookupTm t = some i → Rep g t i ∧ g.find i = i := by
  induction t using Tm.ind with
  | hn o l ih =>
    intro i h
    rw [lookupTm, Option.bind_eq_some_iff] at h
    obtain ⟨ids, h1, h2⟩ := h
    obtain ⟨e, he, k1, rfl⟩ := lookup_some h2
    refine ⟨⟨e, he, by rw [k1]; rfl, (hg.idem _).symm, ?_⟩, hg.idem _⟩
    rw [lookupTmL_iff] at h1
    have h3 : RepL g l ids := by
      rw [RepL_iff]
      exact forall2_imp_mem h1 fun a ha b _ hab => (ih a ha b hab).1
    refine RepL.congr h3 ?_
    rw [k1]
    simp only [EGraph.canon, List.map_map]
    exact List.map_congr_left fun c _ => (hg.idem c).symm

omit [LinearOrder C] in
theorem closed_canon {g : EGraph O C} (hc : g.closed = true) {e : FNode O × Nat} (he : e ∈ g.nodes) :
    g.canon e.1 = e.1 := by
  simp only [EGraph.closed, List.all_eq_true, Bool.and_eq_true, decide_eq_true_eq] at hc
  exact (hc e he).1

omit [LinearOrder C] in
theorem closed_inj {g : EGraph O C} (hc : g.closed = true) {e e' : FNode O × Nat} (he : e ∈ g.nodes)
    (he' : e' ∈ g.nodes) (h : e.1 = e'.1) : g.find e.2 = g.find e'.2 := by
  simp only [EGraph.closed, List.all_eq_true, Bool.and_eq_true, decide_eq_true_eq] at hc
  have := (hc e he).2 e' he'
  simpa [h] using this

omit [LinearOrder C] in
/-- In a closed e-graph every known node is found. -/
theorem closed_lookup {g : EGraph O C} (hc : g.closed = true) {e : FNode O × Nat} (he : e ∈ g.nodes)
    {nd : FNode O} (h : g.canon nd = g.canon e.1) : g.lookup nd = some (g.find e.2) := by
  unfold EGraph.lookup
  rw [h, closed_canon hc he]
  cases hf : g.nodes.find? fun x => decide (x.1 = e.1) with
  | none =>
    rw [List.find?_eq_none] at hf
    exact absurd (by simp) (hf e he)
  | some e' =>
    rw [Option.map_some, Option.some.injEq]
    exact closed_inj hc (List.mem_of_find?_eq_some hf) he (by simpa using List.find?_some hf)

omit [LinearOrder C] in
/-- In a closed e-graph every represented term is found. -/
theorem rep_lookupTm {g : EGraph O C} {val : Nat → V} (hg : InvS S ar I ok g val) (hc : g.closed = true) (t : Tm O) :
    ∀ i, Rep g t i → g.lookupTm t = some (g.find i) := by
  induction t using Tm.ind with
  | hn o l ih =>
    intro i ⟨e, h1, h2, h3, h4⟩
    rw [RepL_iff] at h4
    have h5 : lookupTmL g l = some (e.1.children.map g.find) := by
      rw [lookupTmL_iff, List.forall₂_map_right_iff]
      exact forall2_imp_mem h4 fun a ha b _ hab => ih a ha b hab
    rw [lookupTm, h5, Option.bind_some, ← h3]
    refine closed_lookup hc h1 ?_
    simp only [EGraph.canon, List.map_map, h2]
    congr 1
    exact List.map_congr_left fun c _ => hg.idem c

/-! ## Instantiated patterns -/

omit [Lang O] in
theorem TmOk.instantiate [Lang O] {p : Pat O} (hv : VarsOk (O := O) ar) (h : PatOk ar p) : TmOk ar p.instantiate := by
  induction p using Pat.ind with
  | hv v => exact .node (hv _).2 (by simp)
  | hn o l ih =>
    cases h with
    | node h1 h2 =>
      rw [Pat.instantiate, Pat.instantiateL_eq]
      refine .node (by simpa using h1) ?_
      intro a ha
      obtain ⟨q, hq, rfl⟩ := List.mem_map.1 ha
      exact ih q hq (h2 q hq)

theorem withVars_instantiate (hv : VarsOk (O := O) ar) (env : String → V) (I : O → List V → V) {p : Pat O}
    (h : Schematic p) : Tm.fold (withVars env I) p.instantiate = patVal (fun v => env (dropQ v)) I p := by
  induction p using Pat.ind with
  | hv v => rw [Pat.instantiate, Tm.fold_node, withVars, (hv _).1, patVal]
  | hn o l ih =>
    cases h with
    | node h1 h2 =>
      rw [Pat.instantiate, Pat.instantiateL_eq, Tm.fold_node, withVars, h1, patVal_node, List.map_map]
      simp only
      congr 1
      exact List.map_congr_left fun q hq => ih q hq (h2 q hq)

theorem patVal_withVars (env ρ : String → V) (I : O → List V → V) {p : Pat O} (h : Schematic p) :
    patVal ρ (withVars env I) p = patVal ρ I p := by
  induction p using Pat.ind with
  | hv v => rfl
  | hn o l ih =>
    cases h with
    | node h1 h2 =>
      rw [patVal_node, patVal_node, withVars, h1]
      simp only
      congr 1
      exact List.map_congr_left fun q hq => ih q hq (h2 q hq)

/-- The value of a schematic pattern depends only on the values of its variables without the question mark. -/
theorem patVal_schematic (ρ : String → V) (I : O → List V → V) {p : Pat O} (h : Schematic p) :
    patVal (fun v => ρ ("?" ++ dropQ v)) I p = patVal ρ I p := by
  induction p using Pat.ind with
  | hv v =>
    cases h with
    | var hq => rw [patVal, patVal, dropQ_cons hq]
  | hn o l ih =>
    cases h with
    | node h1 h2 =>
      rw [patVal_node, patVal_node]
      congr 1
      exact List.map_congr_left fun q hq => ih q hq (h2 q hq)

theorem Holds.withVars {r : Rule O} (hl : Schematic r.lhs) (hr : Schematic r.rhs) {I : O → List V → V} (h : Holds I r)
    (env : String → V) : Holds (Spec.withVars env I) r := by
  intro ρ
  rw [patVal_withVars env ρ I hl, patVal_withVars env ρ I hr]
  exact h ρ

/-- A rule whose instantiated sides have the same value for all values of the variables holds. -/
theorem holds_of_instantiate (hv : VarsOk (O := O) ar) {r : Rule O} (hl : Schematic r.lhs) (hr : Schematic r.rhs)
    {I : O → List V → V}
    (h : ∀ env, Tm.fold (withVars env I) r.lhs.instantiate = Tm.fold (withVars env I) r.rhs.instantiate) :
    Holds I r := by
  intro ρ
  have k := h fun x => ρ ("?" ++ x)
  rw [withVars_instantiate hv _ I hl, withVars_instantiate hv _ I hr] at k
  rw [patVal_schematic ρ I hl, patVal_schematic ρ I hr] at k
  exact k

/-! ## `to_egraph` -/

theorem reach_initVars {R : Rule O → Prop} (hv : VarsOk (O := O) ar) (l : List (String × CVec C)) {g g' : EGraph O C}
    (hg : Reach D ar R g) (h : l.foldlM (initVar D E) g = some g') : Reach D ar R g' := by
  induction l generalizing g with
  | nil => cases h; exact hg
  | cons p l ih =>
    rw [List.foldlM_cons] at h
    obtain ⟨g1, h1, h2⟩ := Option.bind_eq_some_iff.1 h
    exact ih (.initVar hg (hv _).2 h1) h2

theorem reach_addTms {R : Rule O → Prop} (ts : List (Tm O)) (ht : ∀ t ∈ ts, TmOk ar t) {g g' : EGraph O C}
    {ids : List Nat} (hg : Reach D ar R g) (h : addTms D E ts g = some (g', ids)) : Reach D ar R g' := by
  induction ts generalizing g ids with
  | nil => cases h; exact hg
  | cons t l ih =>
    rw [addTms, Option.bind_eq_some_iff] at h
    obtain ⟨⟨g1, i⟩, h1, h2⟩ := h
    rw [Option.map_eq_some_iff] at h2
    obtain ⟨⟨g2, is⟩, h3, h4⟩ := h2
    cases h4
    exact ih (fun t ht' => ht t (by simp [ht'])) (.addTm hg (ht t (by simp)) h1) h3

theorem reach_termsToEGraph {R : Rule O → Prop} (hv : VarsOk (O := O) ar) {ts : List (Tm O)}
    (ht : ∀ t ∈ ts, TmOk ar t) {g : EGraph O C} (h : termsToEGraph D E ts = some g) : Reach D ar R g := by
  rw [termsToEGraph, Option.bind_eq_some_iff] at h
  obtain ⟨g1, h1, h2⟩ := h
  rw [Option.map_eq_some_iff] at h2
  obtain ⟨⟨g2, ids⟩, h2, rfl⟩ := h2
  rw [initializeVars, Option.bind_eq_some_iff] at h1
  obtain ⟨q, _, h1⟩ := h1
  exact reach_addTms ts ht (reach_initVars hv q.2 (.setLen _ .empty) h1) h2

theorem addTms_ok (hD : DataInvS S D ar I ok) (ts : List (Tm O)) (ht : ∀ t ∈ ts, TmOk ar t) {g g' : EGraph O C}
    {val : Nat → V} {ids : List Nat} (hg : InvS S ar I ok g val) (h : addTms D E ts g = some (g', ids)) :
    ∃ val', InvS S ar I ok g' val' ∧ Ext g val g' val' ∧ List.Forall₂ (Rep g') ts ids ∧ ∀ i ∈ ids, i < g'.n := by
  induction ts generalizing g val ids with
  | nil => cases h; exact ⟨val, hg, Ext.refl _ _, .nil, by simp⟩
  | cons t l ih =>
    rw [addTms, Option.bind_eq_some_iff] at h
    obtain ⟨⟨g1, i⟩, h1, h2⟩ := h
    rw [Option.map_eq_some_iff] at h2
    obtain ⟨⟨g2, is⟩, h3, h4⟩ := h2
    cases h4
    obtain ⟨val1, hI1, hE1, hi, _, _, hr⟩ := addTm_ok hD (ht t (by simp)) hg h1
    obtain ⟨val2, hI2, hE2, hf, hl⟩ := ih (fun t ht' => ht t (by simp [ht'])) hI1 h3
    refine ⟨val2, hI2, Ext.trans hg hI1 hE1 hE2, .cons (Rep.ext hI1 hE2 t i hi hr) hf, ?_⟩
    intro j hj
    rcases List.mem_cons.1 hj with rfl | hj
    · exact Nat.lt_of_lt_of_le hi hE2.n_le
    · exact hl j hj

/-- The terms of a workload are represented in its e-graph. -/
theorem termsToEGraph_rep {ts : List (Tm O)} {g : EGraph O C} (h : termsToEGraph D E ts = some g) :
    ∀ t ∈ ts, ∃ i, Rep g t i := by
  rw [termsToEGraph, Option.bind_eq_some_iff] at h
  obtain ⟨g1, h1, h2⟩ := h
  rw [Option.map_eq_some_iff] at h2
  obtain ⟨⟨g2, ids⟩, h2, rfl⟩ := h2
  rw [initializeVars, Option.bind_eq_some_iff] at h1
  obtain ⟨q, _, h1⟩ := h1
  have hr : ∀ (l : List (String × CVec C)) (g g' : EGraph O C), AnyHistory D g → l.foldlM (initVar D E) g = some g' →
      AnyHistory D g' := by
    intro l
    induction l with
    | nil => intro g g' hg h; cases h; exact hg
    | cons p l ih =>
      intro g g' hg h
      rw [List.foldlM_cons] at h
      obtain ⟨g1, h1, h2⟩ := Option.bind_eq_some_iff.1 h
      exact ih _ _ (.initVar hg trivial h1) h2
  obtain ⟨val, hI⟩ := AnyHistory.inv (hr q.2 _ g1 (.setLen _ .empty) h1)
  obtain ⟨_, _, _, hf, _⟩ := addTms_ok (unitInv D) ts (fun t _ => TmOk.any t) hI h2
  intro t ht
  obtain ⟨k, hk, rfl⟩ := List.getElem_of_mem ht
  exact ⟨_, hf.get hk (by rw [← hf.length_eq]; exact hk)⟩

end Ruler
