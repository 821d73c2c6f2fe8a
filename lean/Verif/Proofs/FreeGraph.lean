import Verif.Proofs.Compress
import Verif.Spec.Subterm
import Mathlib.Data.List.Nodup
/-! E-graphs in which nothing was merged: inserting terms in a domain without constant folding. -/
namespace Ruler
open Spec EGraph
variable {O C : Type}

/-! ## Subterms -/

theorem tmSub_trans {a b c : Tm O} (h : TmSub a b) (k : TmSub b c) : TmSub a c := by
  induction k with
  | refl => exact h
  | arg hm _ ih => exact .arg hm ih

mutual
/-- Number of nodes. -/
def Tm.size : Tm O → Nat
  | .node _ l => 1 + Tm.sizeL l
/-- Sum. -/
def Tm.sizeL : List (Tm O) → Nat
  | [] => 0
  | t :: l => Tm.size t + Tm.sizeL l
end

theorem Tm.size_le_sizeL {a : Tm O} {l : List (Tm O)} (h : a ∈ l) : a.size ≤ Tm.sizeL l := by
  induction l with
  | nil => simp at h
  | cons t l ih =>
    rw [Tm.sizeL]
    rcases List.mem_cons.1 h with rfl | h
    · omega
    · have := ih h; omega

theorem tmSub_size_le {a b : Tm O} (h : TmSub a b) : a.size ≤ b.size := by
  induction h with
  | refl => exact Nat.le_refl _
  | arg hm _ ih =>
    rw [Tm.size]
    have := Tm.size_le_sizeL hm
    omega

/-- A term does not occur in its arguments. -/
theorem not_sub_arg {o : O} {l : List (Tm O)} {a : Tm O} (ha : a ∈ l) : ¬ TmSub (.node o l) a := by
  intro h
  have h1 := tmSub_size_le h
  have h2 := Tm.size_le_sizeL ha
  rw [Tm.size] at h1
  omega

theorem forall2_mem_right {α β : Type} {R : α → β → Prop} {l : List α} {m : List β} (h : List.Forall₂ R l m) {b : β}
    (hb : b ∈ m) : ∃ a ∈ l, R a b := by
  induction h with
  | nil => simp at hb
  | cons h1 _ ih =>
    rcases List.mem_cons.1 hb with rfl | hb
    · exact ⟨_, by simp, h1⟩
    · obtain ⟨c, hc, h⟩ := ih hb
      exact ⟨c, by simp [hc], h⟩

theorem forall2_mem_left {α β : Type} {R : α → β → Prop} {l : List α} {m : List β} (h : List.Forall₂ R l m) {a : α}
    (ha : a ∈ l) : ∃ b ∈ m, R a b :=
  forall2_mem_right (R := fun b a => R a b) h.flip ha

/-! ## Free e-graphs -/

/-- Nothing was merged: id `k` stands for the term `S[k]`, and the terms are pairwise different. -/
structure FreeG (g : EGraph O C) (S : List (Tm O)) : Prop where
  n_eq : g.n = S.length
  find_id : ∀ i, g.find i = i
  len : g.nodes.length = S.length
  node : ∀ (k : Nat) e, g.nodes[k]? = some e → e.2 = k ∧ ∃ ts, S[k]? = some (.node e.1.op ts) ∧
    List.Forall₂ (fun (c : Nat) t => S[c]? = some t) e.1.children ts
  nodup : S.Nodup

theorem FreeG.empty : FreeG (EGraph.empty : EGraph O C) [] :=
  ⟨rfl, fun _ => rfl, rfl, by intro k e h; simp [EGraph.empty] at h, List.nodup_nil⟩

/-- Arguments of known terms are known. -/
theorem FreeG.arg_mem {g : EGraph O C} {S : List (Tm O)} (h : FreeG g S) {o : O} {l : List (Tm O)}
    (ht : Tm.node o l ∈ S) {a : Tm O} (ha : a ∈ l) : a ∈ S := by
  obtain ⟨k, hk⟩ := List.mem_iff_getElem?.1 ht
  have hlt : k < g.nodes.length := by
    rw [h.len]
    by_contra hc
    rw [List.getElem?_eq_none (by omega)] at hk
    cases hk
  obtain ⟨_, ts, h1, h2⟩ := h.node k _ (List.getElem?_eq_getElem hlt)
  rw [hk] at h1
  cases h1
  obtain ⟨c, hc, hca⟩ : ∃ c ∈ (g.nodes[k]).1.children, S[c]? = some a := by
    exact forall2_mem_right h2 ha
  exact List.mem_of_getElem? hca

theorem FreeG.sub_mem {g : EGraph O C} {S : List (Tm O)} (h : FreeG g S) {u t : Tm O} (hs : TmSub u t) (ht : t ∈ S) :
    u ∈ S := by
  induction hs with
  | refl => exact ht
  | arg hm _ ih => exact ih (h.arg_mem ht hm)

theorem nodup_getElem?_inj {α : Type} {S : List α} (h : S.Nodup) {i j : Nat} {a : α} (hi : S[i]? = some a)
    (hj : S[j]? = some a) : i = j := by
  have h1 : i < S.length := by
    by_contra hc; rw [List.getElem?_eq_none (by omega)] at hi; cases hi
  have h2 : j < S.length := by
    by_contra hc; rw [List.getElem?_eq_none (by omega)] at hj; cases hj
  rw [List.getElem?_eq_getElem h1] at hi
  rw [List.getElem?_eq_getElem h2] at hj
  exact (List.Nodup.getElem_inj_iff h).1 (Option.some.inj (hi.trans hj.symm))

theorem forall2_getElem?_inj {α : Type} {S : List α} (h : S.Nodup) {is js : List Nat} {ts : List α}
    (hi : List.Forall₂ (fun (c : Nat) t => S[c]? = some t) is ts)
    (hj : List.Forall₂ (fun (c : Nat) t => S[c]? = some t) js ts) : is = js := by
  induction hi generalizing js with
  | nil => cases hj; rfl
  | cons h1 _ ih =>
    cases hj with
    | cons h2 h3 => rw [nodup_getElem?_inj h h1 h2, ih h3]

theorem forall2_getElem?_fun {α : Type} {S : List α} {is : List Nat} {ts us : List α}
    (hi : List.Forall₂ (fun (c : Nat) t => S[c]? = some t) is ts)
    (hj : List.Forall₂ (fun (c : Nat) t => S[c]? = some t) is us) : ts = us := by
  induction hi generalizing us with
  | nil => cases hj; rfl
  | cons h1 _ ih =>
    cases hj with
    | cons h2 h3 => rw [Option.some.inj (h1.symm.trans h2), ih h3]

theorem getElem?_append_of {α : Type} {S S' : List α} {i : Nat} {a : α} (h : S[i]? = some a) :
    (S ++ S')[i]? = some a := by
  have h1 : i < S.length := by
    by_contra hc; rw [List.getElem?_eq_none (by omega)] at h; cases h
  rw [List.getElem?_append_left h1, h]

theorem forall2_append_of {α : Type} {S S' : List α} {is : List Nat} {ts : List α}
    (hi : List.Forall₂ (fun (c : Nat) t => S[c]? = some t) is ts) :
    List.Forall₂ (fun (c : Nat) t => (S ++ S')[c]? = some t) is ts :=
  hi.imp fun _ _ h => getElem?_append_of h

section
variable [Lang O]

omit [Lang O] in
theorem FreeG.canon {g : EGraph O C} {S : List (Tm O)} (h : FreeG g S) (nd : FNode O) : g.canon nd = nd := by
  cases nd with
  | mk o cs =>
    simp only [EGraph.canon, FNode.mk.injEq, true_and]
    exact (List.map_congr_left fun c _ => h.find_id c).trans (List.map_id _)

/-- The node of a term is found exactly when the term is known. -/
theorem FreeG.lookup_some {g : EGraph O C} {S : List (Tm O)} (h : FreeG g S) {o : O} {cs : List Nat} {ts : List (Tm O)}
    (hc : List.Forall₂ (fun (c : Nat) t => S[c]? = some t) cs ts) {i : Nat} (hl : g.lookup ⟨o, cs⟩ = some i) :
    S[i]? = some (.node o ts) := by
  obtain ⟨e, he, h1, h2⟩ := Ruler.lookup_some hl
  obtain ⟨k, hk⟩ := List.mem_iff_getElem?.1 he
  obtain ⟨h3, us, h4, h5⟩ := h.node k e hk
  rw [h.canon] at h1
  rw [h1] at h4 h5
  rw [h2, h.find_id, h3, h4, forall2_getElem?_fun h5 hc]

theorem FreeG.lookup_none {g : EGraph O C} {S : List (Tm O)} (h : FreeG g S) {o : O} {cs : List Nat} {ts : List (Tm O)}
    (hc : List.Forall₂ (fun (c : Nat) t => S[c]? = some t) cs ts) (hl : g.lookup ⟨o, cs⟩ = none) :
    Tm.node o ts ∉ S := by
  intro hm
  obtain ⟨k, hk⟩ := List.mem_iff_getElem?.1 hm
  have hlt : k < g.nodes.length := by
    rw [h.len]
    by_contra hc
    rw [List.getElem?_eq_none (by omega)] at hk
    cases hk
  obtain ⟨_, us, h1, h2⟩ := h.node k _ (List.getElem?_eq_getElem hlt)
  rw [hk] at h1
  have h3 : o = (g.nodes[k]).1.op ∧ ts = us := by simpa using h1
  unfold EGraph.lookup at hl
  rw [Option.map_eq_none_iff, List.find?_eq_none] at hl
  refine hl g.nodes[k] (List.getElem_mem hlt) ?_
  rw [h.canon, decide_eq_true_eq]
  rw [← h3.2] at h2
  have := forall2_getElem?_inj h.nodup h2 hc
  rw [← this, h3.1]

/-- Free e-graphs are closed. -/
theorem FreeG.closed {g : EGraph O C} {S : List (Tm O)} (h : FreeG g S) : g.closed = true := by
  simp only [EGraph.closed, List.all_eq_true, Bool.and_eq_true, decide_eq_true_eq]
  intro e he
  refine ⟨h.canon _, fun e' he' => ?_⟩
  split
  · rename_i heq
    rw [decide_eq_true_eq, h.find_id, h.find_id]
    obtain ⟨k, hk⟩ := List.mem_iff_getElem?.1 he
    obtain ⟨k', hk'⟩ := List.mem_iff_getElem?.1 he'
    obtain ⟨h1, ts, h2, h3⟩ := h.node k e hk
    obtain ⟨h1', ts', h2', h3'⟩ := h.node k' e' hk'
    rw [h1, h1']
    rw [heq] at h2 h3
    rw [forall2_getElem?_fun h3 h3'] at h2
    exact nodup_getElem?_inj h.nodup h2 h2'
  · rfl

variable [LinearOrder C] {D : Domain O C} {E : Egg}

theorem add_freeG (hD : NoFold D) {g g' : EGraph O C} {S : List (Tm O)} (h : FreeG g S) {o : O} {cs : List Nat}
    {ts : List (Tm O)} (hc : List.Forall₂ (fun (c : Nat) t => S[c]? = some t) cs ts) {i : Nat}
    (ha : EGraph.add D E g ⟨o, cs⟩ = some (g', i)) :
    (Tm.node o ts ∈ S ∧ g' = g ∧ S[i]? = some (.node o ts)) ∨
    (Tm.node o ts ∉ S ∧ FreeG g' (S ++ [.node o ts]) ∧ i = S.length) := by
  unfold EGraph.add addWith at ha
  cases hl : g.lookup ⟨o, cs⟩ with
  | some j =>
    rw [hl] at ha
    simp only [Option.some.injEq, Prod.mk.injEq] at ha
    obtain ⟨rfl, rfl⟩ := ha
    have := h.lookup_some hc hl
    exact .inl ⟨List.mem_of_getElem? this, rfl, this⟩
  | none =>
    rw [hl] at ha
    have hn := h.lookup_none hc hl
    refine .inr ⟨hn, ?_⟩
    simp only at ha
    rw [Option.bind_eq_some_iff] at ha
    obtain ⟨s, hs, ha⟩ := ha
    rw [Option.map_eq_some_iff] at ha
    obtain ⟨g2, hm, ha⟩ := ha
    simp only [Prod.mk.injEq] at ha
    obtain ⟨rfl, rfl⟩ := ha
    have := modify_free hD (by simp only [EGraph.dataOf, if_true]; exact hD.1 _ _ _ (makeSig_some hs).2.1) hm
    subst this
    refine ⟨⟨by simp [h.n_eq], ?_, by simp [h.len], ?_, ?_⟩, ?_⟩
    · intro i
      simp only [h.find_id]
      split
      · rename_i he; exact he.symm
      · rfl
    · intro k e hk
      simp only at hk
      by_cases hlt : k < g.nodes.length
      · rw [List.getElem?_append_left hlt] at hk
        obtain ⟨h1, us, h2, h3⟩ := h.node k e hk
        exact ⟨h1, us, getElem?_append_of h2, forall2_append_of h3⟩
      · rw [List.getElem?_append_right (by omega)] at hk
        have hk0 : k - g.nodes.length = 0 := by
          by_contra hne
          rw [List.getElem?_eq_none (by simp; omega)] at hk
          cases hk
        rw [hk0] at hk
        simp only [List.getElem?_cons_zero, Option.some.injEq] at hk
        subst hk
        have hke : k = S.length := by have := h.len; omega
        refine ⟨by simp [h.n_eq, hke], ts, ?_, ?_⟩
        · rw [hke, List.getElem?_append_right (Nat.le_refl _)]
          simp [EGraph.canon]
        · rw [h.canon]
          exact forall2_append_of hc
    · rw [List.nodup_append]
      refine ⟨h.nodup, by simp, ?_⟩
      intro a ha b hb
      rw [List.mem_singleton] at hb
      rintro rfl
      exact hn (hb ▸ ha)
    · simp [h.n_eq]

/-- Inserting a term adds exactly its unknown subterms. -/
theorem addTm_freeG (hD : NoFold D) (t : Tm O) : ∀ {g g' : EGraph O C} {S : List (Tm O)} {i : Nat}, FreeG g S →
    EGraph.addTm D E t g = some (g', i) →
    ∃ S', FreeG g' (S ++ S') ∧ (S ++ S')[i]? = some t ∧ (∀ u ∈ S', TmSub u t) := by
  induction t using Tm.ind with
  | hn o l ih =>
    intro g g' S i hS h
    have key : ∀ (l : List (Tm O)), (∀ s ∈ l, ∀ {g g' : EGraph O C} {S : List (Tm O)} {i : Nat}, FreeG g S →
        EGraph.addTm D E s g = some (g', i) →
        ∃ S', FreeG g' (S ++ S') ∧ (S ++ S')[i]? = some s ∧ (∀ u ∈ S', TmSub u s)) →
        ∀ (g g' : EGraph O C) (S : List (Tm O)) (ids : List Nat), FreeG g S →
          addTmWithL D (EGraph.modify D E) l g = some (g', ids) →
          ∃ S', FreeG g' (S ++ S') ∧ List.Forall₂ (fun (c : Nat) t => (S ++ S')[c]? = some t) ids l ∧
            ∀ u ∈ S', ∃ a ∈ l, TmSub u a := by
      intro l
      induction l with
      | nil =>
        intro _ g g' S ids hS h
        cases h
        exact ⟨[], by simpa using hS, .nil, by simp⟩
      | cons a l ihl =>
        intro hs g g' S ids hS h
        rw [addTmWithL, Option.bind_eq_some_iff] at h
        obtain ⟨⟨g1, i⟩, h1, h⟩ := h
        rw [Option.map_eq_some_iff] at h
        obtain ⟨⟨g2, is⟩, h2, h⟩ := h
        cases h
        obtain ⟨S1, k1, k2, k3⟩ := hs a (by simp) hS h1
        obtain ⟨S2, j1, j2, j3⟩ := ihl (fun s hs' => hs s (by simp [hs'])) g1 g2 (S ++ S1) is k1 h2
        refine ⟨S1 ++ S2, by rwa [← List.append_assoc], ?_, ?_⟩
        · rw [← List.append_assoc]
          exact .cons (getElem?_append_of k2) j2
        · intro u hu
          rcases List.mem_append.1 hu with hu | hu
          · exact ⟨a, by simp, k3 u hu⟩
          · obtain ⟨b, hb, hu⟩ := j3 u hu
            exact ⟨b, by simp [hb], hu⟩
    unfold EGraph.addTm at h
    rw [addTmWith, Option.bind_eq_some_iff] at h
    obtain ⟨⟨g1, ids⟩, h1, h⟩ := h
    obtain ⟨S1, k1, k2, k3⟩ := key l ih g g1 S ids hS h1
    have hsub : ∀ u ∈ S1, TmSub u (.node o l) := fun u hu => by
      obtain ⟨a, ha, h⟩ := k3 u hu
      exact .arg ha h
    rcases add_freeG hD k1 k2 h with ⟨j1, rfl, j3⟩ | ⟨j1, j2, rfl⟩
    · exact ⟨S1, k1, j3, hsub⟩
    · refine ⟨S1 ++ [.node o l], by rwa [← List.append_assoc], ?_, ?_⟩
      · rw [← List.append_assoc]
        simp
      · intro u hu
        rcases List.mem_append.1 hu with hu | hu
        · exact hsub u hu
        · rw [List.mem_singleton.1 hu]; exact .refl _

omit [Lang O] [LinearOrder C] in
theorem FreeG.numClasses {g : EGraph O C} {S : List (Tm O)} (h : FreeG g S) : g.numClasses = S.length := by
  unfold EGraph.numClasses EGraph.classes
  rw [List.filter_eq_self.2 (by intro i _; simp [h.find_id]), List.length_range, h.n_eq]

end
end Ruler
