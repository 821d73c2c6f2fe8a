import Verif.Proofs.Reach
/-! Domains without constant folding: unions and rebuilding only shrink the e-graph; the Compress scheduler. -/
namespace Ruler
open Spec EGraph
variable {O C V : Type} [Lang O] [LinearOrder C]
variable {ar : O → Nat → Prop} {I : O → List V → V} {D : Domain O C} {E : Egg}

/-- No new id, no new e-node, no new class. -/
structure Shrinks (g g' : EGraph O C) : Prop where
  n_eq : g'.n = g.n
  find_eq : ∀ i j, i < g.n → j < g.n → g.find i = g.find j → g'.find i = g'.find j
  nodes : ∀ e ∈ g'.nodes, ∃ e0 ∈ g.nodes, e.1.op = e0.1.op ∧ e.1.children.map g'.find = e0.1.children.map g'.find ∧
    g'.find e.2 = g'.find e0.2
  len : g'.nodes.length ≤ g.nodes.length
  root : ∀ i, g'.find i = i → g.find i = i

omit [Lang O] [LinearOrder C] in
theorem Shrinks.refl (g : EGraph O C) : Shrinks g g :=
  ⟨rfl, fun _ _ _ _ h => h, fun e he => ⟨e, he, rfl, rfl, rfl⟩, Nat.le_refl _, fun _ h => h⟩

/-- Ids occurring in e-nodes have been handed out. -/
def NodesLt (g : EGraph O C) : Prop := ∀ e ∈ g.nodes, e.2 < g.n ∧ ∀ c ∈ e.1.children, c < g.n

omit [Lang O] [LinearOrder C] in
theorem Shrinks.trans {a b c : EGraph O C} (hla : NodesLt a) (hlb : NodesLt b) (h : Shrinks a b) (k : Shrinks b c) :
    Shrinks a c := by
  refine ⟨k.n_eq.trans h.n_eq, ?_, ?_, Nat.le_trans k.len h.len, fun i hi => h.root i (k.root i hi)⟩
  · intro i j hi hj he
    exact k.find_eq i j (h.n_eq ▸ hi) (h.n_eq ▸ hj) (h.find_eq i j hi hj he)
  · intro e he
    obtain ⟨e1, he1, h1, h2, h3⟩ := k.nodes e he
    obtain ⟨e0, he0, k1, k2, k3⟩ := h.nodes e1 he1
    have l1 := hlb e1 he1
    have l0 := hla e0 he0
    refine ⟨e0, he0, h1.trans k1, h2.trans ?_, h3.trans ?_⟩
    · exact map_find_of b.find c.find _ _ (fun i hi j hj hij => k.find_eq i j (l1.2 i hi) (h.n_eq ▸ l0.2 j hj) hij) k2
    · exact k.find_eq _ _ l1.1 (h.n_eq ▸ l0.1) k3

/-- The data invariant: every interval is unbounded. -/
abbrev Free (s : Signature O C) (_ : V) : Prop := s.interval = ⟨none, none⟩

theorem modify_free (hD : NoFold D) {g g' : EGraph O C} {i : Nat} (hi : (g.dataOf i).interval = ⟨none, none⟩)
    (h : EGraph.modify D E g i = some g') : g' = g := by
  unfold EGraph.modify at h
  cases hd : E.depth with
  | zero => rw [hd] at h; cases h
  | succ d =>
    rw [hd, modifyD] at h
    rw [hD.2.1, List.foldlM_nil] at h
    simp only [Option.pure_def, Option.bind_some, hi, Option.some.injEq] at h
    exact h.symm

theorem link_free {g g' : EGraph O C} {val : Nat → V} (hg : Inv ar I Free g val) {r s : Nat} (hr : g.find r = r)
    (hrn : r < g.n) (hsn : s < g.n) (hs : g.find s = s) (hne : r ≠ s) (h : link g r s = some g') :
    Shrinks g g' ∧ (g'.dataOf r).interval = ⟨none, none⟩ ∧ g'.nodes = g.nodes := by
  unfold link at h
  rw [Option.map_eq_some_iff] at h
  obtain ⟨m, hm, rfl⟩ := h
  refine ⟨⟨rfl, ?_, fun e he => ⟨e, he, rfl, rfl, rfl⟩, Nat.le_refl _, ?_⟩, ?_, rfl⟩
  · intro i j _ _ hij
    simp only [hij]
  · intro i hi
    simp only at hi
    split at hi
    · rw [← hi]; exact hr
    · exact hi
  · have h1 := (mergeSig_some hm).1
    have k1 := hg.data_ok r hrn
    have k2 := hg.data_ok s hsn
    rw [hr] at k1
    rw [hs] at k2
    simp only [Free] at k1 k2
    rw [k1, k2] at h1
    simp only [mergeInterval, maxLow, minHigh, Interval.new, Option.some.injEq] at h1
    simp only [EGraph.dataOf, hr, if_neg hne, if_true]
    exact h1.symm

theorem union_free (hD : NoFold D) {g g' : EGraph O C} {val : Nat → V} (hg : Inv ar I Free g val) {i j : Nat}
    (hi : i < g.n) (hj : j < g.n) (h : EGraph.union D E g i j = some g') : Shrinks g g' ∧ g'.nodes = g.nodes := by
  unfold EGraph.union unionWith at h
  by_cases he : g.find i = g.find j
  · simp only [he, if_true, Option.some.injEq] at h
    subst h
    exact ⟨Shrinks.refl g, rfl⟩
  · rw [if_neg he] at h
    split at h
    · rw [Option.bind_eq_some_iff] at h
      obtain ⟨g1, h1, h2⟩ := h
      obtain ⟨k1, k2, k3⟩ := link_free hg (hg.idem i) (hg.find_lt i hi) (hg.find_lt j hj) (hg.idem j) he h1
      rw [modify_free hD k2 h2]
      exact ⟨k1, k3⟩
    · rw [Option.bind_eq_some_iff] at h
      obtain ⟨g1, h1, h2⟩ := h
      obtain ⟨k1, k2, k3⟩ := link_free hg (hg.idem j) (hg.find_lt j hj) (hg.find_lt i hi) (hg.idem i)
        (fun h => he h.symm) h1
      rw [modify_free hD k2 h2]
      exact ⟨k1, k3⟩

theorem repair_free (hD : NoFold D) {g g' : EGraph O C} {val : Nat → V} (hg : Inv ar I Free g val) {s : Repair}
    (h : repair D E g s = some g') : Shrinks g g' := by
  cases s with
  | congr k =>
    simp only [repair] at h
    cases hk : g.nodes[k]? with
    | none => rw [hk] at h; cases h; exact Shrinks.refl g
    | some p =>
      obtain ⟨nd, c⟩ := p
      rw [hk] at h
      simp only at h
      have hmem : (nd, c) ∈ g.nodes := List.mem_of_getElem? hk
      have hlen : (g.nodes.eraseIdx k).length + 1 = g.nodes.length := by
        have : k < g.nodes.length := by
          by_contra hc
          rw [List.getElem?_eq_none (by omega)] at hk
          cases hk
        rw [List.length_eraseIdx]
        simp only [this, if_true]
        omega
      have hsub : ∀ e ∈ g.nodes.eraseIdx k, e ∈ g.nodes := fun e he => List.mem_of_mem_eraseIdx he
      cases hf : (g.nodes.eraseIdx k).find? fun e => decide (e.1 = g.canon nd) with
      | some q =>
        obtain ⟨nd', c'⟩ := q
        rw [hf] at h
        simp only at h
        have hmem' := hsub _ (List.mem_of_find?_eq_some hf)
        have hI : Inv ar I Free { g with nodes := g.nodes.eraseIdx k } val :=
          InvS.setNodes hg _ (fun e he => Or.inl (hsub e he)) fun e he h0 => by
            rcases mem_eraseIdx_or _ k _ hk e he with he | rfl
            · exact ⟨e, he, rfl⟩
            · refine ⟨_, List.mem_of_find?_eq_some hf, ?_⟩
              have heq : nd' = g.canon nd := by simpa using List.find?_some hf
              subst heq
              simp only at h0
              cases nd
              simp_all [EGraph.canon]
        obtain ⟨h1, h2⟩ := union_free hD hI (hg.nodes_lt _ hmem').1 (hg.nodes_lt _ hmem).1 h
        refine ⟨h1.n_eq, h1.find_eq, ?_, ?_, h1.root⟩
        · intro e he
          obtain ⟨e0, he0, k⟩ := h1.nodes e he
          exact ⟨e0, hsub e0 he0, k⟩
        · have := h1.len
          simp only at this
          omega
      | none =>
        rw [hf] at h
        simp only [Option.some.injEq] at h
        subst h
        refine ⟨rfl, fun _ _ _ _ h => h, ?_, ?_, fun _ h => h⟩
        · intro e he
          rcases List.mem_append.1 he with he | he
          · exact ⟨e, hsub e he, rfl, rfl, rfl⟩
          · cases List.mem_singleton.1 he
            refine ⟨_, hmem, rfl, ?_, rfl⟩
            simp only [EGraph.canon, List.map_map]
            exact List.map_congr_left fun c _ => hg.idem c
        · simp only [List.length_append, List.length_singleton]
          omega
  | analyse k =>
    simp only [repair] at h
    cases hk : g.nodes[k]? with
    | none => rw [hk] at h; cases h; exact Shrinks.refl g
    | some p =>
      obtain ⟨nd, c⟩ := p
      rw [hk] at h
      simp only at h
      have hmem : (nd, c) ∈ g.nodes := List.mem_of_getElem? hk
      have hc := (hg.nodes_lt _ hmem).1
      rw [Option.bind_eq_some_iff] at h
      obtain ⟨s, hs, h⟩ := h
      rw [Option.bind_eq_some_iff] at h
      obtain ⟨m, hm, h⟩ := h
      have hsame : Shrinks g { g with data := fun i => if i = g.find c then m.1 else g.data i } :=
        ⟨rfl, fun _ _ _ _ h => h, fun e he => ⟨e, he, rfl, rfl, rfl⟩, Nat.le_refl _, fun _ h => h⟩
      split at h
      · have hfree : (EGraph.dataOf ({ g with data := fun i => if i = g.find c then m.1 else g.data i } : EGraph O C)
            (g.find c)).interval = ⟨none, none⟩ := by
          simp only [EGraph.dataOf, hg.idem, if_true]
          have h1 := (mergeSig_some hm).1
          have k1 : (g.dataOf c).interval = ⟨none, none⟩ := hg.data_ok c hc
          have k2 : s.interval = ⟨none, none⟩ := hD.1 _ _ _ (makeSig_some hs).2.1
          rw [k1, k2] at h1
          simp only [mergeInterval, maxLow, minHigh, Interval.new, Option.some.injEq] at h1
          exact h1.symm
        rw [modify_free hD hfree h]
        exact hsame
      · cases h
        exact hsame

omit [Lang O] [LinearOrder C] in
/-- A fold of steps that keep the invariant, extend and shrink. -/
theorem foldlM_shrinks {α : Type} (f : EGraph O C → α → Option (EGraph O C)) (P : EGraph O C → (Nat → V) → α → Prop)
    (hP : ∀ g val g' val' a, Ext g val g' val' → P g val a → P g' val' a)
    (hf : ∀ g val a g', Inv ar I Free g val → P g val a → f g a = some g' →
      (∃ val', Inv ar I Free g' val' ∧ Ext g val g' val') ∧ Shrinks g g') (l : List α) :
    ∀ g val g', Inv ar I Free g val → (∀ a ∈ l, P g val a) → l.foldlM f g = some g' →
      (∃ val', Inv ar I Free g' val' ∧ Ext g val g' val') ∧ Shrinks g g' := by
  induction l with
  | nil => intro g val g' hg _ h; cases h; exact ⟨⟨val, hg, Ext.refl _ _⟩, Shrinks.refl _⟩
  | cons a l ih =>
    intro g val g' hg hp h
    rw [List.foldlM_cons] at h
    obtain ⟨g1, h1, h2⟩ := Option.bind_eq_some_iff.1 h
    obtain ⟨⟨v1, I1, E1⟩, S1⟩ := hf g val a g1 hg (hp a (by simp)) h1
    obtain ⟨⟨v2, I2, E2⟩, S2⟩ := ih g1 v1 g' I1 (fun b hb => hP _ _ _ _ b E1 (hp b (by simp [hb]))) h2
    exact ⟨⟨v2, I2, Ext.trans hg I1 E1 E2⟩, Shrinks.trans hg.nodes_lt I1.nodes_lt S1 S2⟩

/-- Uniting a group: all its members end up in one class, nothing is added. -/
theorem uniteGroup_free (hD : NoFold D) (hDI : DataInv D ar I (Free (V := V))) {g g' : EGraph O C} {val : Nat → V}
    (hg : Inv ar I Free g val) {l : List Nat} (hl : ∀ i ∈ l, i < g.n) (hv : ∀ i ∈ l, ∀ j ∈ l, val i = val j)
    (h : uniteGroup D E g l = some g') :
    ((∃ val', Inv ar I Free g' val' ∧ Ext g val g' val') ∧ Shrinks g g') ∧
      ∀ i ∈ l, ∀ j ∈ l, g'.find i = g'.find j := by
  cases l with
  | nil => cases h; exact ⟨⟨⟨val, hg, Ext.refl _ _⟩, Shrinks.refl _⟩, by simp⟩
  | cons a l =>
    simp only [uniteGroup] at h
    have step : ∀ g (val : Nat → V) i g', Inv ar I Free g val → (a < g.n ∧ i < g.n ∧ val a = val i) →
        EGraph.union D E g a i = some g' → (∃ val', Inv ar I Free g' val' ∧ Ext g val g' val') ∧ Shrinks g g' := by
      intro g val i g' hI hp hu
      obtain ⟨v, h1, h2, _⟩ := union_ok hDI hI hp.1 hp.2.1 hp.2.2 hu
      exact ⟨⟨v, h1, h2⟩, (union_free hD hI hp.1 hp.2.1 hu).1⟩
    have mono : ∀ (g : EGraph O C) (val : Nat → V) (g' : EGraph O C) (val' : Nat → V) i, Ext g val g' val' → (a < g.n ∧ i < g.n ∧ val a = val i) →
        (a < g'.n ∧ i < g'.n ∧ val' a = val' i) := by
      rintro g val g' val' i hE ⟨h1, h2, h3⟩
      exact ⟨Nat.lt_of_lt_of_le h1 hE.n_le, Nat.lt_of_lt_of_le h2 hE.n_le, by rw [hE.val_eq a h1, hE.val_eq i h2, h3]⟩
    have ha : ∀ i ∈ l, a < g.n ∧ i < g.n ∧ val a = val i := fun i hi =>
      ⟨hl a (by simp), hl i (by simp [hi]), hv a (by simp) i (by simp [hi])⟩
    refine ⟨foldlM_shrinks _ _ mono step l g val g' hg ha h, ?_⟩
    have hall : ∀ (l : List Nat) (g : EGraph O C) (val : Nat → V), Inv ar I Free g val →
        (∀ i ∈ l, a < g.n ∧ i < g.n ∧ val a = val i) → l.foldlM (fun g i => EGraph.union D E g a i) g = some g' →
        ∀ i ∈ l, g'.find a = g'.find i := by
      intro l
      induction l with
      | nil => intro g val _ _ _ i hi; simp at hi
      | cons b l ih =>
        intro g val hI hp h i hi
        rw [List.foldlM_cons] at h
        obtain ⟨g1, h1, h2⟩ := Option.bind_eq_some_iff.1 h
        have hb := hp b (by simp)
        obtain ⟨v1, I1, E1, hf⟩ := union_ok hDI hI hb.1 hb.2.1 hb.2.2 h1
        have hp1 : ∀ i ∈ l, a < g1.n ∧ i < g1.n ∧ v1 a = v1 i := fun i hi => mono _ _ _ _ i E1 (hp i (by simp [hi]))
        rcases List.mem_cons.1 hi with rfl | hi
        · obtain ⟨⟨v2, I2, E2⟩, _⟩ := foldlM_shrinks _ _ mono step l g1 v1 g' I1 hp1 h2
          exact E2.find_eq _ _ (Nat.lt_of_lt_of_le hb.1 E1.n_le) (Nat.lt_of_lt_of_le hb.2.1 E1.n_le) hf
        · exact ih g1 v1 I1 hp1 h2 i hi
    have hall' := hall l g val hg ha h
    have hone : ∀ i ∈ a :: l, g'.find a = g'.find i := by
      intro i hi
      rcases List.mem_cons.1 hi with rfl | hi
      · rfl
      · exact hall' i hi
    intro i hi j hj
    rw [← hone i hi, ← hone j hj]

/-- The members of every group end up in one class. -/
theorem groups_merged (hD : NoFold D) (hDI : DataInv D ar I (Free (V := V))) (ls : List (List Nat)) {g g' : EGraph O C}
    {val : Nat → V} (hg : Inv ar I Free g val)
    (hl : ∀ l ∈ ls, (∀ i ∈ l, i < g.n) ∧ ∀ i ∈ l, ∀ j ∈ l, val i = val j)
    (h : ls.foldlM (uniteGroup D E) g = some g') :
    ((∃ val', Inv ar I Free g' val' ∧ Ext g val g' val') ∧ Shrinks g g') ∧
      ∀ l ∈ ls, ∀ i ∈ l, ∀ j ∈ l, g'.find i = g'.find j := by
  induction ls generalizing g val with
  | nil => cases h; exact ⟨⟨⟨val, hg, Ext.refl _ _⟩, Shrinks.refl _⟩, by simp⟩
  | cons l ls ih =>
    rw [List.foldlM_cons] at h
    obtain ⟨g1, h1, h2⟩ := Option.bind_eq_some_iff.1 h
    have hb := hl l (by simp)
    obtain ⟨⟨⟨v1, I1, E1⟩, S1⟩, hm⟩ := uniteGroup_free hD hDI hg hb.1 hb.2 h1
    obtain ⟨⟨⟨v2, I2, E2⟩, S2⟩, hm2⟩ := ih I1 (fun l' hl' => by
      have k := hl l' (by simp [hl'])
      refine ⟨fun i hi => Nat.lt_of_lt_of_le (k.1 i hi) E1.n_le, fun i hi j hj => ?_⟩
      rw [E1.val_eq i (k.1 i hi), E1.val_eq j (k.1 j hj)]
      exact k.2 i hi j hj) h2
    refine ⟨⟨⟨v2, I2, Ext.trans hg I1 E1 E2⟩, Shrinks.trans hg.nodes_lt I1.nodes_lt S1 S2⟩, ?_⟩
    intro l' hl' i hi j hj
    rcases List.mem_cons.1 hl' with rfl | hl'
    · exact E2.find_eq i j (Nat.lt_of_lt_of_le (hb.1 i hi) E1.n_le) (Nat.lt_of_lt_of_le (hb.1 j hj) E1.n_le)
        (hm i hi j hj)
    · exact hm2 l' hl' i hi j hj

/-- The algebra whose values are the classes of a closed e-graph. -/
def quotient (out : EGraph O C) (o : O) (vs : List Nat) : Nat := (out.lookup ⟨o, vs⟩).getD 0

omit [LinearOrder C] in
/-- A smaller e-graph is evaluated in it by `find`. -/
theorem quotient_inv {g out : EGraph O C} {I : O → List V → V} {val val' : Nat → V} (hg : Inv ar I Free g val)
    (ho : Inv ar I Free out val') (hE : Ext g val out val') (hc : out.closed = true) :
    Inv ar (quotient out) Free g out.find := by
  refine ⟨hg.find_lt, hg.find_ge, hg.idem, hg.nodes_lt, hg.nodes_ar, ?_, ?_, hg.data_ok, hg.side_len, hg.side_nodes⟩
  · intro i hi
    exact hE.find_eq _ _ (hg.find_lt i hi) hi (hg.idem i)
  · intro e he
    obtain ⟨e', he', h1, h2, h3⟩ := hE.nodes e he
    unfold quotient
    rw [closed_lookup hc he', Option.getD_some, h3]
    simp only [EGraph.canon, h1, List.map_map]
    rw [h2]
    congr 1
    exact List.map_congr_left fun c _ => ho.idem c

end Ruler
