import Verif.Proofs.EGraph
import Verif.Proofs.Domain
/-! Adding terms, the analysis hook and rebuilding preserve the invariant. -/
namespace Ruler
open Spec EGraph
variable {O C V : Type} [Lang O] [LinearOrder C]
variable {S : Side O} {ar : O → Nat → Prop} {I : O → List V → V} {ok : Signature O C → V → Prop} {D : Domain O C} {E : Egg}

omit [Lang O] [LinearOrder C] in
theorem forall2_imp_mem {α β : Type} {R S : α → β → Prop} {l : List α} {m : List β} (h : List.Forall₂ R l m)
    (hi : ∀ a ∈ l, ∀ b ∈ m, R a b → S a b) : List.Forall₂ S l m := by
  induction h with
  | nil => exact .nil
  | cons ha _ ih =>
    exact .cons (hi _ (by simp) _ (by simp) ha) (ih fun a ha b hb => hi a (by simp [ha]) b (by simp [hb]))

omit [Lang O] [LinearOrder C] in
theorem forall2_map_eq {α β γ : Type} {R : α → β → Prop} {l : List α} {m : List β} (h : List.Forall₂ R l m)
    (f : α → γ) (k : β → γ) (hi : ∀ a ∈ l, ∀ b ∈ m, R a b → k b = f a) : m.map k = l.map f := by
  induction h with
  | nil => rfl
  | cons ha _ ih =>
    simp only [List.map_cons, List.cons.injEq]
    exact ⟨hi _ (by simp) _ (by simp) ha, ih fun a ha b hb => hi a (by simp [ha]) b (by simp [hb])⟩

omit [Lang O] [LinearOrder C] in
theorem RepL_iff (g : EGraph O C) (l : List (Tm O)) (is : List Nat) : RepL g l is ↔ List.Forall₂ (Rep g) l is := by
  induction l generalizing is with
  | nil => cases is <;> simp [RepL]
  | cons t l ih => cases is <;> simp [RepL, ih]

omit [Lang O] [LinearOrder C] in
/-- Representation depends only on the class. -/
theorem Rep.congr {g : EGraph O C} {t : Tm O} {i j : Nat} (h : Rep g t i) (he : g.find i = g.find j) : Rep g t j := by
  cases t with
  | node o args =>
    obtain ⟨e, h1, h2, h3, h4⟩ := h
    exact ⟨e, h1, h2, h3.trans he, h4⟩

omit [Lang O] [LinearOrder C] in
theorem RepL.congr {g : EGraph O C} {l : List (Tm O)} {is js : List Nat} (h : RepL g l is)
    (he : is.map g.find = js.map g.find) : RepL g l js := by
  induction l generalizing is js with
  | nil =>
    cases is with
    | nil =>
      cases js with
      | nil => trivial
      | cons _ _ => simp at he
    | cons _ _ => exact absurd h (by simp [RepL])
  | cons t l ih =>
    cases is with
    | nil => exact absurd h (by simp [RepL])
    | cons i is =>
      cases js with
      | nil => simp at he
      | cons j js =>
        simp only [List.map_cons, List.cons.injEq] at he
        exact ⟨Rep.congr h.1 he.1, ih h.2 he.2⟩

omit [Lang O] [LinearOrder C] in
/-- Represented terms stay represented. -/
theorem Rep.ext {g g' : EGraph O C} {val val' : Nat → V} (hg : InvS S ar I ok g val) (hE : Ext g val g' val')
    (t : Tm O) : ∀ i, i < g.n → Rep g t i → Rep g' t i := by
  induction t using Tm.ind with
  | hn o l ih =>
    intro i hi ⟨e, h1, h2, h3, h4⟩
    obtain ⟨e', he', k1, k2, k3⟩ := hE.nodes e h1
    have r := hg.nodes_lt e h1
    refine ⟨e', he', k1.trans h2, k3.trans (hE.find_eq _ _ r.1 hi h3), ?_⟩
    refine RepL.congr ?_ k2.symm
    rw [RepL_iff] at h4 ⊢
    exact forall2_imp_mem h4 fun a ha b hb hab => ih a ha b (r.2 b hb) hab

omit [Lang O] [LinearOrder C] in
/-- A represented term has the value of the class. -/
theorem Rep.val {g : EGraph O C} {val : Nat → V} (hg : InvS S ar I ok g val) (t : Tm O) :
    ∀ i, i < g.n → Rep g t i → val i = Tm.fold I t := by
  induction t using Tm.ind with
  | hn o l ih =>
    intro i hi ⟨e, h1, h2, h3, h4⟩
    have r := hg.nodes_lt e h1
    rw [Tm.fold_node, ← hg.val_find i hi, ← h3, hg.val_find _ r.1, hg.val_node e h1, h2]
    congr 1
    rw [RepL_iff] at h4
    exact forall2_map_eq h4 _ _ fun a ha b hb hab => ih a ha b (r.2 b hb) hab

omit [Lang O] [LinearOrder C] in
/-- A sequence of additions, given what each of them does. -/
theorem accum_ok {α : Type} (step : α → EGraph O C → Option (EGraph O C × Nat))
    (stepL : List α → EGraph O C → Option (EGraph O C × List Nat)) (hnil : ∀ g, stepL [] g = some (g, []))
    (hcons : ∀ a l g, stepL (a :: l) g = (step a g).bind fun r => (stepL l r.1).map fun q => (q.1, r.2 :: q.2))
    (Pre : EGraph O C → (Nat → V) → Prop)
    (hPre : ∀ g val g' val', InvS S ar I ok g val → Ext g val g' val' → Pre g val → Pre g' val')
    (value : α → V) (rep : EGraph O C → α → Nat → Prop)
    (hrep : ∀ g val g' val' a i, InvS S ar I ok g val → Ext g val g' val' → i < g.n → rep g a i → rep g' a i)
    (l : List α)
    (hstep : ∀ a ∈ l, ∀ g val g' i, InvS S ar I ok g val → Pre g val → step a g = some (g', i) →
      ∃ val', InvS S ar I ok g' val' ∧ Ext g val g' val' ∧ i < g'.n ∧ val' i = value a ∧ rep g' a i) :
    ∀ g val g' ids, InvS S ar I ok g val → Pre g val → stepL l g = some (g', ids) →
      ∃ val', InvS S ar I ok g' val' ∧ Ext g val g' val' ∧ ids.length = l.length ∧ (∀ c ∈ ids, c < g'.n) ∧
        ids.map val' = l.map value ∧ List.Forall₂ (rep g') l ids := by
  induction l with
  | nil =>
    intro g val g' ids hg _ h
    rw [hnil] at h
    simp only [Option.some.injEq, Prod.mk.injEq] at h
    obtain ⟨rfl, rfl⟩ := h
    exact ⟨val, hg, Ext.refl _ _, rfl, by simp, rfl, .nil⟩
  | cons a l ih =>
    intro g val g' ids hg hp h
    rw [hcons, Option.bind_eq_some_iff] at h
    obtain ⟨⟨g1, i⟩, h1, h⟩ := h
    rw [Option.map_eq_some_iff] at h
    obtain ⟨⟨g2, is⟩, h2, h⟩ := h
    simp only [Prod.mk.injEq] at h
    obtain ⟨rfl, rfl⟩ := h
    obtain ⟨val1, hI1, hE1, hi1, hv1, hr1⟩ := hstep a (by simp) g val g1 i hg hp h1
    obtain ⟨val2, hI2, hE2, hl2, hn2, hm2, hf2⟩ :=
      ih (fun b hb => hstep b (by simp [hb])) g1 val1 g2 is hI1 (hPre _ _ _ _ hg hE1 hp) h2
    refine ⟨val2, hI2, Ext.trans hg hI1 hE1 hE2, by simp [hl2], ?_, ?_, ?_⟩
    · intro c hc
      simp only [List.mem_cons] at hc
      rcases hc with rfl | hc
      · exact Nat.lt_of_lt_of_le hi1 hE2.n_le
      · exact hn2 c hc
    · simp only [List.map_cons, List.cons.injEq]
      exact ⟨by rw [hE2.val_eq i hi1, hv1], hm2⟩
    · exact .cons (hrep _ _ _ _ _ _ hI1 hE2 hi1 hr1) hf2

omit [Lang O] [LinearOrder C] in
theorem Ext.map_find {g g' : EGraph O C} {val val' : Nat → V} (hE : Ext g val g' val') {l m : List Nat}
    (hl : ∀ c ∈ l, c < g.n) (hm : ∀ c ∈ m, c < g.n) (h : l.map g.find = m.map g.find) :
    l.map g'.find = m.map g'.find :=
  map_find_of _ _ _ _ (fun i hi j hj hij => hE.find_eq i j (hl i hi) (hm j hj) hij) h

/-- Adding a term: the result is a root with the value of the term, and represents it. -/
theorem addTmWith_ok (hD : DataInvS S D ar I ok) {mod : EGraph O C → Nat → Option (EGraph O C)} (hm : ModOk S ar I ok mod)
    (t : Tm O) : TmOk ar t → ∀ g val g' i, InvS S ar I ok g val → addTmWith D mod t g = some (g', i) →
      ∃ val', InvS S ar I ok g' val' ∧ Ext g val g' val' ∧ i < g'.n ∧ g'.find i = i ∧ val' i = Tm.fold I t ∧
        Rep g' t i := by
  induction t using Tm.ind with
  | hn o l ih =>
    intro hok g val g' i hg h
    cases hok with
    | node har hargs =>
    rw [addTmWith, Option.bind_eq_some_iff] at h
    obtain ⟨⟨g1, ids⟩, h1, h⟩ := h
    obtain ⟨val1, hI1, hE1, hl1, hn1, hm1, hf1⟩ :=
      accum_ok (addTmWith D mod) (addTmWithL D mod) (fun g => by rw [addTmWithL]) (fun a l g => by rw [addTmWithL])
        (fun _ _ => True) (fun _ _ _ _ _ _ _ => trivial) (Tm.fold I) (fun g a i => Rep g a i)
        (fun g val g' val' a i hI hE hi hr => Rep.ext hI hE a i hi hr) l
        (fun a ha g val g' i hI _ hs => by
          obtain ⟨val', k1, k2, k3, _, k5, k6⟩ := ih a ha (hargs a ha) g val g' i hI hs
          exact ⟨val', k1, k2, k3, k5, k6⟩) g val g1 ids hg trivial h1
    obtain ⟨val2, hI2, hE2, hi2, hr2, hv2, e, he, e1, e2, e3⟩ :=
      addWith_ok hD hm hI1 (nd := ⟨o, ids⟩) (by simpa [hl1] using har) hn1 h
    refine ⟨val2, hI2, Ext.trans hg hI1 hE1 hE2, hi2, hr2, ?_, ?_⟩
    · rw [hv2, Tm.fold_node, hm1]
    · refine ⟨e, he, e1, by rw [e3, hr2], RepL.congr ?_ e2.symm⟩
      rw [RepL_iff]
      exact forall2_imp_mem hf1 fun a _ b hb hab => Rep.ext hI1 hE2 a b (hn1 b hb) hab

omit [Lang O] [LinearOrder C] in
theorem classNodes_val {g : EGraph O C} {val : Nat → V} (hg : InvS S ar I ok g val) (k : Nat) :
    ∀ nd ∈ g.classNodes k, val k = I nd.op (nd.children.map val) := by
  intro nd hnd
  simp only [EGraph.classNodes, List.mem_map, List.mem_filter, decide_eq_true_eq] at hnd
  obtain ⟨e, ⟨he, hf⟩, rfl⟩ := hnd
  have r := hg.nodes_lt e he
  have hk : k < g.n := by
    rw [← hg.find_lt_iff, ← hf]
    exact hg.find_lt _ r.1
  rw [← hg.val_find k hk, ← hf, hg.val_find _ r.1]
  exact hg.val_node e he

/-- Adding a constant to a class whose value it is. -/
theorem addUnion_ok (hD : DataInvS S D ar I ok) {mod : EGraph O C → Nat → Option (EGraph O C)} (hm : ModOk S ar I ok mod)
    {g g' : EGraph O C} {val : Nat → V} (hg : InvS S ar I ok g val) {i : Nat} (hi : i < g.n) {t : Tm O}
    (ht : TmOk ar t) (hv : Tm.fold I t = val i)
    (h : addUnionWith D E mod i g t = some g') :
    ∃ val', InvS S ar I ok g' val' ∧ Ext g val g' val' := by
  rw [addUnionWith, Option.bind_eq_some_iff] at h
  obtain ⟨⟨g1, j⟩, h1, h⟩ := h
  obtain ⟨val1, hI1, hE1, hj, _, hv1, _⟩ := addTmWith_ok hD hm t ht g val g1 j hg h1
  obtain ⟨val2, hI2, hE2, _⟩ := unionWith_ok hD hm hI1 (Nat.lt_of_lt_of_le hi hE1.n_le) hj
    (by rw [hE1.val_eq i hi, hv1, hv]) h
  exact ⟨val2, hI2, Ext.trans hg hI1 hE1 hE2⟩

theorem addUnions_ok (hD : DataInvS S D ar I ok) {mod : EGraph O C → Nat → Option (EGraph O C)} (hm : ModOk S ar I ok mod)
    (ts : List (Tm O)) {g g' : EGraph O C} {val : Nat → V} (hg : InvS S ar I ok g val) {i : Nat} (hi : i < g.n)
    (ht : ∀ t ∈ ts, TmOk ar t ∧ Tm.fold I t = val i) (h : ts.foldlM (addUnionWith D E mod i) g = some g') :
    ∃ val', InvS S ar I ok g' val' ∧ Ext g val g' val' := by
  induction ts generalizing g val with
  | nil => cases h; exact ⟨val, hg, Ext.refl _ _⟩
  | cons t l ih =>
    rw [List.foldlM_cons] at h
    obtain ⟨g1, h1, h2⟩ := Option.bind_eq_some_iff.1 h
    obtain ⟨val1, hI1, hE1⟩ := addUnion_ok hD hm hg hi (ht t (by simp)).1 (ht t (by simp)).2 h1
    obtain ⟨val2, hI2, hE2⟩ := ih hI1 (Nat.lt_of_lt_of_le hi hE1.n_le) (fun t' ht' => by
      rw [hE1.val_eq i hi]; exact ht t' (by simp [ht'])) h2
    exact ⟨val2, hI2, Ext.trans hg hI1 hE1 hE2⟩

theorem modifyD_ok (hD : DataInvS S D ar I ok) (d : Nat) : ModOk S ar I ok (modifyD D E d) := by
  induction d with
  | zero => intro g val i g' _ _ h; simp [modifyD] at h
  | succ d ih =>
    intro g val i g' hg hi h
    rw [modifyD, Option.bind_eq_some_iff] at h
    obtain ⟨g1, h1, h⟩ := h
    have hstep : ∃ val1, InvS S ar I ok g1 val1 ∧ Ext g val g1 val1 := by
      refine addUnions_ok hD ih _ hg hi (fun t ht => ?_) h1
      have := hD.custom g.classNodes val _ (classNodes_val hg) t ht
      rwa [hg.val_find i hi] at this
    obtain ⟨val1, hI1, hE1⟩ := hstep
    have hi1 := Nat.lt_of_lt_of_le hi hE1.n_le
    split at h
    · rename_i lo hi' hiv
      split at h
      · rename_i hlh
        subst hlh
        rw [Option.bind_eq_some_iff] at h
        obtain ⟨t, hc, h⟩ := h
        obtain ⟨ht, hv⟩ := hD.const _ (val1 i) lo t (hI1.data_ok i hi1) hiv hc
        obtain ⟨val2, hI2, hE2⟩ := addUnion_ok hD ih hI1 hi1 ht hv h
        exact ⟨val2, hI2, Ext.trans hg hI1 hE1 hE2⟩
      · simp only [Option.some.injEq] at h
        subst h
        exact ⟨val1, hI1, hE1⟩
    · simp only [Option.some.injEq] at h
      subst h
      exact ⟨val1, hI1, hE1⟩

theorem modify_ok (hD : DataInvS S D ar I ok) : ModOk S ar I ok (modify D E) := modifyD_ok hD _

theorem add_ok (hD : DataInvS S D ar I ok) {g g' : EGraph O C} {val : Nat → V} (hg : InvS S ar I ok g val) {nd : FNode O}
    {i : Nat} (har : ar nd.op nd.children.length) (hc : ∀ c ∈ nd.children, c < g.n)
    (h : add D E g nd = some (g', i)) :
    ∃ val', InvS S ar I ok g' val' ∧ Ext g val g' val' ∧ i < g'.n ∧ g'.find i = i ∧
      val' i = I nd.op (nd.children.map val) ∧
      ∃ e ∈ g'.nodes, e.1.op = nd.op ∧ e.1.children.map g'.find = nd.children.map g'.find ∧ g'.find e.2 = i :=
  addWith_ok hD (modify_ok hD) hg har hc h

theorem addTm_ok (hD : DataInvS S D ar I ok) {t : Tm O} (ht : TmOk ar t) {g g' : EGraph O C} {val : Nat → V} {i : Nat}
    (hg : InvS S ar I ok g val) (h : addTm D E t g = some (g', i)) :
    ∃ val', InvS S ar I ok g' val' ∧ Ext g val g' val' ∧ i < g'.n ∧ g'.find i = i ∧ val' i = Tm.fold I t ∧ Rep g' t i :=
  addTmWith_ok hD (modify_ok hD) t ht g val g' i hg h

theorem union_ok (hD : DataInvS S D ar I ok) {g g' : EGraph O C} {val : Nat → V} (hg : InvS S ar I ok g val) {i j : Nat}
    (hi : i < g.n) (hj : j < g.n) (hv : val i = val j) (h : EGraph.union D E g i j = some g') :
    ∃ val', InvS S ar I ok g' val' ∧ Ext g val g' val' ∧ g'.find i = g'.find j :=
  unionWith_ok hD (modify_ok hD) hg hi hj hv h

omit [Lang O] [LinearOrder C] in
/-- Dropping an entry, provided an equivalent one remains. -/
theorem InvS.setNodes {g : EGraph O C} {val : Nat → V} (hg : InvS S ar I ok g val) (nodes : List (FNode O × Nat))
    (hn : ∀ e ∈ nodes, e ∈ g.nodes ∨ ∃ nd c, (nd, c) ∈ g.nodes ∧ e = (g.canon nd, c))
    (hk : ∀ e ∈ g.nodes, e.1.children = [] → ∃ e' ∈ nodes, e'.1 = e.1) :
    InvS S ar I ok { g with nodes := nodes } val := by
  refine ⟨hg.find_lt, hg.find_ge, hg.idem, ?_, ?_, hg.val_find, ?_, hg.data_ok, hg.side_len, fun o ho => ?_⟩
  · intro e he
    rcases hn e he with he | ⟨nd, c, he', rfl⟩
    · exact hg.nodes_lt e he
    · have r := hg.nodes_lt _ he'
      refine ⟨r.1, fun d hd => ?_⟩
      simp only [EGraph.canon, List.mem_map] at hd
      obtain ⟨x, hx, rfl⟩ := hd
      exact hg.find_lt x (r.2 x hx)
  · intro e he
    rcases hn e he with he | ⟨nd, c, he', rfl⟩
    · exact hg.nodes_ar e he
    · simpa [EGraph.canon] using hg.nodes_ar _ he'
  · intro e he
    rcases hn e he with he | ⟨nd, c, he', rfl⟩
    · exact hg.val_node e he
    · have r := hg.nodes_lt _ he'
      simp only [EGraph.canon]
      rw [map_val_find hg _ r.2]
      exact hg.val_node _ he'
  · obtain ⟨e, he, hee⟩ := hg.side_nodes o ho
    obtain ⟨e', he', h'⟩ := hk e he (by rw [hee])
    exact ⟨e', he', h'.trans hee⟩

omit [Lang O] [LinearOrder C] in
theorem mem_eraseIdx_or {α : Type} (l : List α) (i : Nat) (a : α) (h : l[i]? = some a) (x : α) (hx : x ∈ l) :
    x ∈ l.eraseIdx i ∨ x = a := by
  induction l generalizing i with
  | nil => simp at hx
  | cons b l ih =>
    cases i with
    | zero =>
      simp only [List.getElem?_cons_zero, Option.some.injEq] at h
      subst h
      simp only [List.mem_cons] at hx
      rcases hx with rfl | hx
      · exact Or.inr rfl
      · exact Or.inl (by simpa using hx)
    | succ i =>
      simp only [List.getElem?_cons_succ] at h
      simp only [List.mem_cons] at hx
      rcases hx with rfl | hx
      · exact Or.inl (by simp)
      · rcases ih i h hx with h' | h'
        · exact Or.inl (by simp [h'])
        · exact Or.inr h'

theorem repair_ok (hD : DataInvS S D ar I ok) {g g' : EGraph O C} {val : Nat → V} (hg : InvS S ar I ok g val) {r : Repair}
    (h : repair D E g r = some g') : ∃ val', InvS S ar I ok g' val' ∧ Ext g val g' val' := by
  cases r with
  | congr i =>
    rw [repair] at h
    cases hn : g.nodes[i]? with
    | none =>
      simp only [hn, Option.some.injEq] at h
      subst h
      exact ⟨val, hg, Ext.refl _ _⟩
    | some e =>
      obtain ⟨nd, c⟩ := e
      simp only [hn] at h
      have hmem : (nd, c) ∈ g.nodes := List.mem_of_getElem? hn
      have rr := hg.nodes_lt _ hmem
      have hidem : (g.canon nd).children.map g.find = nd.children.map g.find := by
        simp only [EGraph.canon, List.map_map]
        exact List.map_congr_left fun c _ => hg.idem c
      cases hf : (g.nodes.eraseIdx i).find? fun e => decide (e.1 = g.canon nd) with
      | none =>
        simp only [hf, Option.some.injEq] at h
        subst h
        have hnodes : ∀ e ∈ g.nodes, ∃ e' ∈ g.nodes.eraseIdx i ++ [(g.canon nd, c)], e'.1.op = e.1.op ∧
            e'.1.children.map g.find = e.1.children.map g.find ∧ g.find e'.2 = g.find e.2 := by
          intro e he
          rcases mem_eraseIdx_or _ i _ hn e he with he | rfl
          · exact ⟨e, by simp [he], rfl, rfl, rfl⟩
          · exact ⟨(g.canon nd, c), by simp, rfl, hidem, rfl⟩
        refine ⟨val, hg.setNodes _ ?_ ?_, ⟨Nat.le_refl _, fun _ _ => rfl, fun _ _ _ _ h => h, hnodes, fun P hP j hj =>
          Live.mono (g := g) (by exact Nat.le_refl _) hg.nodes_lt (by exact fun _ _ _ _ h => h) hnodes (hP j hj) hj⟩⟩
        · intro e he
          simp only [List.mem_append, List.mem_singleton] at he
          rcases he with he | rfl
          · exact Or.inl (List.mem_of_mem_eraseIdx he)
          · exact Or.inr ⟨nd, c, hmem, rfl⟩
        · intro e he h0
          rcases mem_eraseIdx_or _ i _ hn e he with he | rfl
          · exact ⟨e, by simp [he], rfl⟩
          · refine ⟨(g.canon nd, c), by simp, ?_⟩
            simp only at h0
            cases nd
            simp_all [EGraph.canon]
      | some e' =>
        obtain ⟨nd', c'⟩ := e'
        simp only [hf] at h
        have hmem' := List.mem_of_find?_eq_some hf
        have heq : nd' = g.canon nd := by simpa using List.find?_some hf
        subst heq
        have hmem'' := List.mem_of_mem_eraseIdx hmem'
        have rr' := hg.nodes_lt _ hmem''
        have hI1 : InvS S ar I ok { g with nodes := g.nodes.eraseIdx i } val :=
          hg.setNodes _ (fun e he => Or.inl (List.mem_of_mem_eraseIdx he)) fun e he h0 => by
            rcases mem_eraseIdx_or _ i _ hn e he with he | rfl
            · exact ⟨e, he, rfl⟩
            · refine ⟨_, hmem', ?_⟩
              simp only at h0
              cases nd
              simp_all [EGraph.canon]
        have hv : val c' = val c := by
          have h1 := hg.val_node _ hmem
          have h2 := hg.val_node _ hmem''
          simp only [EGraph.canon] at h2
          rw [map_val_find hg _ rr.2] at h2
          exact h2.trans h1.symm
        obtain ⟨val2, hI2, hE2, hu⟩ := union_ok hD hI1 rr'.1 rr.1 hv h
        have hnodes : ∀ e ∈ g.nodes, ∃ e' ∈ g'.nodes, e'.1.op = e.1.op ∧
            e'.1.children.map g'.find = e.1.children.map g'.find ∧ g'.find e'.2 = g'.find e.2 := by
          intro e he
          rcases mem_eraseIdx_or _ i _ hn e he with he | rfl
          · exact hE2.nodes e he
          · obtain ⟨e', he', k1, k2, k3⟩ := hE2.nodes _ hmem'
            refine ⟨e', he', k1, k2.trans ?_, k3.trans hu⟩
            exact hE2.map_find rr'.2 rr.2 hidem
        refine ⟨val2, hI2, ⟨hE2.n_le, hE2.val_eq, hE2.find_eq, hnodes, fun P hP => ?_⟩⟩
        -- without the entry, everything is live provided that its class is
        have hrest : ∀ j, Live g P j → Live { g with nodes := g.nodes.eraseIdx i } (fun k => P k ∨ k = c) j := by
          intro j hj
          induction hj with
          | base hp hl he => exact .base (Or.inl hp) hl he
          | node hm he _ ih =>
            rcases mem_eraseIdx_or _ i _ hn _ hm with hm | rfl
            · exact .node hm he ih
            · exact .base (Or.inr rfl) rr.1 he
        intro j hj
        refine (hE2.live _ (fun k hk => hrest k (hP k hk)) j hj).cut fun k hk hk' => ?_
        by_cases hkn : k < g.n
        · exact Live.mono (g := g) (by exact hE2.n_le) hg.nodes_lt (by exact hE2.find_eq) hnodes (hP k hkn) hkn
        · rcases hk with hk | rfl
          · exact .base hk hk' rfl
          · exact absurd rr.1 hkn
  | analyse i =>
    rw [repair] at h
    cases hn : g.nodes[i]? with
    | none =>
      simp only [hn, Option.some.injEq] at h
      subst h
      exact ⟨val, hg, Ext.refl _ _⟩
    | some e =>
      obtain ⟨nd, c⟩ := e
      simp only [hn] at h
      have hmem : (nd, c) ∈ g.nodes := List.mem_of_getElem? hn
      have rr := hg.nodes_lt _ hmem
      rw [Option.bind_eq_some_iff] at h
      obtain ⟨s, hs, h⟩ := h
      rw [Option.bind_eq_some_iff] at h
      obtain ⟨m, hm, h⟩ := h
      have hok2 : ok m.1 (val c) := by
        by_cases hp : S.present nd.op
        · have ha := hg.data_ok c rr.1
          rw [hg.val_node _ hmem] at ha ⊢
          exact hD.again g.cvecLen nd g.dataOf val _ s m hg.side_len hp (hg.nodes_ar _ hmem) ha hs hm
        · have hok1 := hD.make g.cvecLen nd g.dataOf val s hg.side_len hp (hg.nodes_ar _ hmem)
            (fun d hd => hg.data_ok d (rr.2 d hd)) hs
          rw [← hg.val_node _ hmem] at hok1
          exact hD.merge _ _ _ _ (hg.data_ok c rr.1) hok1 hm
      set g1 : EGraph O C := { g with data := fun i => if i = g.find c then m.1 else g.data i } with hg1
      have hI1 : InvS S ar I ok g1 val := by
        refine ⟨hg.find_lt, hg.find_ge, hg.idem, hg.nodes_lt, hg.nodes_ar, hg.val_find, hg.val_node, ?_, hg.side_len,
          hg.side_nodes⟩
        intro j hj
        by_cases he : g.find j = g.find c
        · simp only [hg1, he, if_true]
          have h1 := hg.val_find j hj
          have h2 := hg.val_find c rr.1
          rw [← h1, he, h2]
          exact hok2
        · simp only [hg1, he, if_false]
          exact hg.data_ok j hj
      have hE1 : Ext g val g1 val := ⟨Nat.le_refl _, fun _ _ => rfl, fun _ _ _ _ h => h,
        fun e he => ⟨e, he, rfl, rfl, rfl⟩, fun P hP j hj => Live.mono (g := g) (by exact Nat.le_refl _)
          hg.nodes_lt (by exact fun _ _ _ _ h => h) (by exact fun e he => ⟨e, he, rfl, rfl, rfl⟩) (hP j hj) hj⟩
      split at h
      · obtain ⟨val2, hI2, hE2⟩ := modify_ok hD g1 val _ _ hI1 (hg.find_lt c rr.1) h
        exact ⟨val2, hI2, Ext.trans hg hI1 hE1 hE2⟩
      · simp only [Option.some.injEq] at h
        subst h
        exact ⟨val, hI1, hE1⟩

omit [Lang O] [LinearOrder C] in
/-- A sequence of steps each of which preserves the invariant. -/
theorem foldlM_ok {α : Type} (f : EGraph O C → α → Option (EGraph O C)) (Pre : EGraph O C → (Nat → V) → α → Prop)
    (hPre : ∀ g val g' val' a, InvS S ar I ok g val → Ext g val g' val' → Pre g val a → Pre g' val' a)
    (hf : ∀ g val a g', InvS S ar I ok g val → Pre g val a → f g a = some g' →
      ∃ val', InvS S ar I ok g' val' ∧ Ext g val g' val') (l : List α) :
    ∀ g val g', InvS S ar I ok g val → (∀ a ∈ l, Pre g val a) → l.foldlM f g = some g' →
      ∃ val', InvS S ar I ok g' val' ∧ Ext g val g' val' := by
  induction l with
  | nil =>
    intro g val g' hg _ h
    simp only [List.foldlM_nil] at h
    cases h
    exact ⟨val, hg, Ext.refl _ _⟩
  | cons a l ih =>
    intro g val g' hg hp h
    rw [List.foldlM_cons] at h
    cases hfa : f g a with
    | none => rw [hfa] at h; cases h
    | some g1 =>
      rw [hfa] at h
      obtain ⟨val1, hI1, hE1⟩ := hf g val a g1 hg (hp a (by simp)) hfa
      obtain ⟨val2, hI2, hE2⟩ := ih g1 val1 g' hI1 (fun b hb => hPre _ _ _ _ _ hg hE1 (hp b (by simp [hb]))) h
      exact ⟨val2, hI2, Ext.trans hg hI1 hE1 hE2⟩

theorem rebuild_ok (hD : DataInvS S D ar I ok) {g g' : EGraph O C} {val : Nat → V} (hg : InvS S ar I ok g val)
    {steps : List Repair} (h : rebuild D E steps g = some g') :
    (∃ val', InvS S ar I ok g' val' ∧ Ext g val g' val') ∧ g'.closed = true := by
  unfold rebuild at h
  rw [Option.bind_eq_some_iff] at h
  obtain ⟨g1, h1, h⟩ := h
  split at h
  · rename_i hc
    simp only [Option.some.injEq] at h
    subst h
    exact ⟨foldlM_ok (repair D E) (fun _ _ _ => True) (fun _ _ _ _ _ _ _ _ => trivial)
      (fun g val a g' hI _ hs => repair_ok hD hI hs) steps g val g1 hg (fun _ _ => trivial) h1, hc⟩
  · cases h

end Ruler
