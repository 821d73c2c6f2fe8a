import Verif.Spec.EGraph
import Verif.Proofs.Analysis
/-! Invariants of e-graph operations: the interpretation of ids, and growth. -/
namespace Ruler
open Spec EGraph
variable {O C V : Type} [Lang O] [LinearOrder C]

/-- What an argument may fix about an e-graph beforehand: the length of the vectors, and operators that are present as
leaves. -/
structure Side (O : Type) where
  len : Option Nat
  present : O → Prop

/-- Nothing. -/
def Side.free {O : Type} : Side O := ⟨none, fun _ => False⟩

/-- What the analysis data must satisfy for the argument to go through; instances in `Verif/Proofs/EGraphData.lean`. For
operators that are present nothing is demanded of new data, only of what is computed again when rebuilding. -/
structure DataInvS (S : Side O) (D : Domain O C) (ar : O → Nat → Prop) (I : O → List V → V)
    (ok : Signature O C → V → Prop) : Prop where
  leaf : ∀ o k, S.present o → ar o k → k = 0
  make : ∀ len (nd : FNode O) (get : Nat → Signature O C) (val : Nat → V) s, (∀ n, S.len = some n → len = n) →
    ¬ S.present nd.op → ar nd.op nd.children.length → (∀ c ∈ nd.children, ok (get c) (val c)) →
    makeSig D len nd get = some s → ok s (I nd.op (nd.children.map val))
  again : ∀ len (nd : FNode O) (get : Nat → Signature O C) (val : Nat → V) a s m, (∀ n, S.len = some n → len = n) →
    S.present nd.op → ar nd.op nd.children.length → ok a (I nd.op (nd.children.map val)) →
    makeSig D len nd get = some s → mergeSig a s = some m → ok m.1 (I nd.op (nd.children.map val))
  merge : ∀ a b v m, ok a v → ok b v → mergeSig a b = some m → ok m.1 v
  const : ∀ s v c t, ok s v → s.interval = ⟨some c, some c⟩ → D.mkConst c = some t → TmOk ar t ∧ Tm.fold I t = v
  custom : ∀ (nodes : Nat → List (FNode O)) (val : Nat → V) i,
    (∀ k, ∀ nd ∈ nodes k, val k = I nd.op (nd.children.map val)) → ∀ t ∈ D.custom nodes i,
    TmOk ar t ∧ Tm.fold I t = val i
  varTerms : ∀ x, ar (Lang.mkVar x) 0 → ∀ t ∈ D.varTerms x, TmOk ar t ∧ Tm.fold I t = I (Lang.mkVar x) []

/-- Nothing fixed beforehand. -/
abbrev DataInv (D : Domain O C) (ar : O → Nat → Prop) (I : O → List V → V) (ok : Signature O C → V → Prop) : Prop :=
  DataInvS Side.free D ar I ok

/-- The invariant: ids have values compatible with the hash-cons, the union-find and the data. -/
structure InvS (S : Side O) (ar : O → Nat → Prop) (I : O → List V → V) (ok : Signature O C → V → Prop) (g : EGraph O C)
    (val : Nat → V) : Prop where
  find_lt : ∀ i, i < g.n → g.find i < g.n
  find_ge : ∀ i, g.n ≤ i → g.find i = i
  idem : ∀ i, g.find (g.find i) = g.find i
  nodes_lt : ∀ e ∈ g.nodes, e.2 < g.n ∧ ∀ c ∈ e.1.children, c < g.n
  nodes_ar : ∀ e ∈ g.nodes, ar e.1.op e.1.children.length
  val_find : ∀ i, i < g.n → val (g.find i) = val i
  val_node : ∀ e ∈ g.nodes, val e.2 = I e.1.op (e.1.children.map val)
  data_ok : ∀ i, i < g.n → ok (g.data (g.find i)) (val i)
  side_len : ∀ n, S.len = some n → g.cvecLen = n
  side_nodes : ∀ o, S.present o → ∃ e ∈ g.nodes, e.1 = ⟨o, []⟩

/-- With nothing fixed beforehand. -/
abbrev Inv (ar : O → Nat → Prop) (I : O → List V → V) (ok : Signature O C → V → Prop) (g : EGraph O C)
    (val : Nat → V) : Prop :=
  InvS Side.free ar I ok g val

/-- The class of `i` represents some term, provided that the classes in `P` do. -/
inductive Live (g : EGraph O C) (P : Nat → Prop) : Nat → Prop
  | base {i j : Nat} : P j → j < g.n → g.find j = g.find i → Live g P i
  | node {i : Nat} {e : FNode O × Nat} : e ∈ g.nodes → g.find e.2 = g.find i → (∀ c ∈ e.1.children, Live g P c) →
      Live g P i

/-- Growth: ids keep their values, equal ids stay equal, e-nodes stay present (up to the new equalities), and new ids
represent terms if the old ones do. -/
structure Ext (g : EGraph O C) (val : Nat → V) (g' : EGraph O C) (val' : Nat → V) : Prop where
  n_le : g.n ≤ g'.n
  val_eq : ∀ i, i < g.n → val' i = val i
  find_eq : ∀ i j, i < g.n → j < g.n → g.find i = g.find j → g'.find i = g'.find j
  nodes : ∀ e ∈ g.nodes, ∃ e' ∈ g'.nodes, e'.1.op = e.1.op ∧ e'.1.children.map g'.find = e.1.children.map g'.find ∧
    g'.find e'.2 = g'.find e.2
  live : ∀ P : Nat → Prop, (∀ i, i < g.n → Live g P i) → ∀ i, i < g'.n → Live g' P i

omit [Lang O] [LinearOrder C] in
theorem Live.congr {g : EGraph O C} {P : Nat → Prop} {i j : Nat} (h : Live g P i) (he : g.find i = g.find j) :
    Live g P j := by
  cases h with
  | base hp hl hf => exact .base hp hl (hf.trans he)
  | node hm hf hc => exact .node hm (hf.trans he) hc

omit [Lang O] [LinearOrder C] in
theorem live_children {g : EGraph O C} {P : Nat → Prop} {l m : List Nat} (h : ∀ c ∈ l, Live g P c)
    (he : m.map g.find = l.map g.find) : ∀ c ∈ m, Live g P c := by
  intro c hc
  have : g.find c ∈ l.map g.find := he ▸ List.mem_map_of_mem hc
  obtain ⟨d, hd, hdc⟩ := List.mem_map.1 this
  exact (h d hd).congr hdc

omit [Lang O] [LinearOrder C] in
/-- Live classes stay live when classes are united and e-nodes stay present. -/
theorem Live.mono {g g' : EGraph O C} {P : Nat → Prop} (hn : g.n ≤ g'.n)
    (hlt : ∀ e ∈ g.nodes, e.2 < g.n ∧ ∀ c ∈ e.1.children, c < g.n)
    (hf : ∀ i j, i < g.n → j < g.n → g.find i = g.find j → g'.find i = g'.find j)
    (hnodes : ∀ e ∈ g.nodes, ∃ e' ∈ g'.nodes, e'.1.op = e.1.op ∧
      e'.1.children.map g'.find = e.1.children.map g'.find ∧ g'.find e'.2 = g'.find e.2)
    {i : Nat} (h : Live g P i) : i < g.n → Live g' P i := by
  induction h with
  | base hp hl he => exact fun hi => .base hp (Nat.lt_of_lt_of_le hl hn) (hf _ _ hl hi he)
  | node hm he _ ih =>
    intro hi
    obtain ⟨e', he', _, k2, k3⟩ := hnodes _ hm
    have r := hlt _ hm
    exact .node he' (k3.trans (hf _ _ r.1 hi he)) (live_children (fun c hc => ih c hc (r.2 c hc)) k2)

omit [Lang O] [LinearOrder C] in
/-- An assumption that holds can be dropped. -/
theorem Live.cut {g : EGraph O C} {P Q : Nat → Prop} (hq : ∀ j, P j → j < g.n → Live g Q j) {i : Nat} (h : Live g P i) :
    Live g Q i := by
  induction h with
  | base hp hl he => exact (hq _ hp hl).congr he
  | node hm he _ ih => exact .node hm he ih

variable {S : Side O} {ar : O → Nat → Prop} {I : O → List V → V} {ok : Signature O C → V → Prop} {D : Domain O C} {E : Egg}

omit [Lang O] [LinearOrder C] in
theorem Ext.refl (g : EGraph O C) (val : Nat → V) : Ext g val g val :=
  ⟨Nat.le_refl _, fun _ _ => rfl, fun _ _ _ _ h => h, fun e he => ⟨e, he, rfl, rfl, rfl⟩, fun _ h => h⟩

omit [Lang O] [LinearOrder C] in
theorem map_find_of (f f' : Nat → Nat) (l m : List Nat) (hf : ∀ i ∈ l, ∀ j ∈ m, f i = f j → f' i = f' j)
    (h : l.map f = m.map f) : l.map f' = m.map f' := by
  induction l generalizing m with
  | nil =>
    cases m with
    | nil => rfl
    | cons _ _ => simp at h
  | cons a l ih =>
    cases m with
    | nil => simp at h
    | cons b m =>
      simp only [List.map_cons, List.cons.injEq] at h ⊢
      exact ⟨hf a (by simp) b (by simp) h.1, ih m (fun i hi j hj => hf i (by simp [hi]) j (by simp [hj])) h.2⟩

omit [Lang O] [LinearOrder C] in
theorem Ext.trans {g g' g'' : EGraph O C} {val val' val'' : Nat → V} (hg : InvS S ar I ok g val)
    (hg' : InvS S ar I ok g' val') (h : Ext g val g' val') (h' : Ext g' val' g'' val'') : Ext g val g'' val'' := by
  refine ⟨Nat.le_trans h.n_le h'.n_le, ?_, ?_, ?_, fun P hP => h'.live P (h.live P hP)⟩
  · intro i hi
    rw [h'.val_eq i (Nat.lt_of_lt_of_le hi h.n_le), h.val_eq i hi]
  · intro i j hi hj he
    exact h'.find_eq i j (Nat.lt_of_lt_of_le hi h.n_le) (Nat.lt_of_lt_of_le hj h.n_le) (h.find_eq i j hi hj he)
  · intro e he
    obtain ⟨e', he', h1, h2, h3⟩ := h.nodes e he
    obtain ⟨e'', he'', k1, k2, k3⟩ := h'.nodes e' he'
    have r := hg.nodes_lt e he
    have r' := hg'.nodes_lt e' he'
    refine ⟨e'', he'', k1.trans h1, k2.trans ?_, k3.trans ?_⟩
    · refine map_find_of g'.find g''.find _ _ ?_ h2
      intro i hi j hj hij
      exact h'.find_eq i j (r'.2 i hi) (Nat.lt_of_lt_of_le (r.2 j hj) h.n_le) hij
    · exact h'.find_eq _ _ r'.1 (Nat.lt_of_lt_of_le r.1 h.n_le) h3

/-- The analysis hook preserves the invariant. -/
def ModOk (S : Side O) (ar : O → Nat → Prop) (I : O → List V → V) (ok : Signature O C → V → Prop)
    (mod : EGraph O C → Nat → Option (EGraph O C)) : Prop :=
  ∀ g val i g', InvS S ar I ok g val → i < g.n → mod g i = some g' →
    ∃ val', InvS S ar I ok g' val' ∧ Ext g val g' val'

omit [Lang O] [LinearOrder C] in
theorem InvS.find_lt_iff {g : EGraph O C} {val : Nat → V} (h : InvS S ar I ok g val) (i : Nat) :
    g.find i < g.n ↔ i < g.n := by
  constructor
  · intro hi
    by_contra hc
    rw [h.find_ge i (not_lt.1 hc)] at hi
    exact hc hi
  · exact h.find_lt i

omit [Lang O] [LinearOrder C] in
theorem map_val_find {g : EGraph O C} {val : Nat → V} (h : InvS S ar I ok g val) (l : List Nat)
    (hl : ∀ c ∈ l, c < g.n) : (l.map g.find).map val = l.map val := by
  rw [List.map_map]
  exact List.map_congr_left fun c hc => h.val_find c (hl c hc)

omit [LinearOrder C] in
theorem lookup_some {g : EGraph O C} {nd : FNode O} {i : Nat} (h : g.lookup nd = some i) :
    ∃ e ∈ g.nodes, e.1 = g.canon nd ∧ i = g.find e.2 := by
  unfold EGraph.lookup at h
  rw [Option.map_eq_some_iff] at h
  obtain ⟨e, he, rfl⟩ := h
  exact ⟨e, List.mem_of_find?_eq_some he, by simpa using List.find?_some he, rfl⟩

omit [LinearOrder C] in
theorem lookup_val {g : EGraph O C} {val : Nat → V} (hg : InvS S ar I ok g val) {nd : FNode O} {i : Nat}
    (hc : ∀ c ∈ nd.children, c < g.n) (h : g.lookup nd = some i) :
    i < g.n ∧ val i = I nd.op (nd.children.map val) ∧ g.find i = i := by
  obtain ⟨e, he, h1, rfl⟩ := lookup_some h
  have r := hg.nodes_lt e he
  refine ⟨hg.find_lt _ r.1, ?_, hg.idem _⟩
  rw [hg.val_find _ r.1, hg.val_node e he, h1]
  simp only [EGraph.canon]
  rw [map_val_find hg _ hc]

/-- Result of adding something with children `ids` to the e-graph. -/
theorem addWith_ok (hD : DataInvS S D ar I ok) {mod : EGraph O C → Nat → Option (EGraph O C)} (hm : ModOk S ar I ok mod)
    {g g' : EGraph O C} {val : Nat → V} (hg : InvS S ar I ok g val) {nd : FNode O} {i : Nat}
    (har : ar nd.op nd.children.length) (hc : ∀ c ∈ nd.children, c < g.n) (h : addWith D mod g nd = some (g', i)) :
    ∃ val', InvS S ar I ok g' val' ∧ Ext g val g' val' ∧ i < g'.n ∧ g'.find i = i ∧
      val' i = I nd.op (nd.children.map val) ∧
      ∃ e ∈ g'.nodes, e.1.op = nd.op ∧ e.1.children.map g'.find = nd.children.map g'.find ∧ g'.find e.2 = i := by
  unfold addWith at h
  cases hl : g.lookup nd with
  | some j =>
    simp only [hl, Option.some.injEq, Prod.mk.injEq] at h
    obtain ⟨rfl, rfl⟩ := h
    obtain ⟨h1, h2, h3⟩ := lookup_val hg hc hl
    refine ⟨val, hg, Ext.refl _ _, h1, h3, h2, ?_⟩
    obtain ⟨e, he, he1, he2⟩ := lookup_some hl
    refine ⟨e, he, by rw [he1]; rfl, ?_, he2.symm⟩
    rw [he1]
    simp only [EGraph.canon, List.map_map]
    exact List.map_congr_left fun c _ => hg.idem c
  | none =>
    simp only [hl] at h
    rw [Option.bind_eq_some_iff] at h
    obtain ⟨s, hs, h⟩ := h
    rw [Option.map_eq_some_iff] at h
    obtain ⟨g2, hg2, h⟩ := h
    simp only [Prod.mk.injEq] at h
    obtain ⟨rfl, rfl⟩ := h
    set v := I nd.op (nd.children.map val) with hv
    set val1 : Nat → V := fun i => if i = g.n then v else val i with hval1
    have hne : ∀ i, i < g.n → i ≠ g.n := fun i hi => Nat.ne_of_lt hi
    have hval1_eq : ∀ i, i < g.n → val1 i = val i := fun i hi => by simp [hval1, hne i hi]
    have hmap : ∀ l : List Nat, (∀ c ∈ l, c < g.n) → l.map val1 = l.map val :=
      fun l hl => List.map_congr_left fun c hc => hval1_eq c (hl c hc)
    have hcan : ∀ c ∈ (g.canon nd).children, c < g.n := by
      intro c hc'
      simp only [EGraph.canon, List.mem_map] at hc'
      obtain ⟨d, hd, rfl⟩ := hc'
      exact hg.find_lt d (hc d hd)
    have hvcan : I (g.canon nd).op ((g.canon nd).children.map val) = v := by
      simp only [EGraph.canon]
      rw [map_val_find hg _ hc]
    set g1 : EGraph O C := { g with
        n := g.n + 1
        find := fun i => if i = g.n then g.n else g.find i
        nodes := g.nodes ++ [(g.canon nd, g.n)]
        data := fun i => if i = g.n then s else g.data i } with hg1
    have hfind1 : ∀ i, i < g.n → g1.find i = g.find i := fun i hi => by simp [hg1, hne i hi]
    have hnp : ¬ S.present nd.op := by
      intro hp
      have h0 : nd.children = [] := List.length_eq_zero_iff.1 (hD.leaf _ _ hp har)
      obtain ⟨e, he, hee⟩ := hg.side_nodes _ hp
      have : (g.lookup nd).isSome := by
        rw [EGraph.lookup, Option.isSome_map, List.find?_isSome]
        refine ⟨e, he, ?_⟩
        simp [hee, EGraph.canon, h0]
      rw [hl] at this
      cases this
    have hInv1 : InvS S ar I ok g1 val1 := by
      refine ⟨?_, ?_, ?_, ?_, ?_, ?_, ?_, ?_, hg.side_len, fun o ho => ?_⟩
      · intro i hi
        by_cases he : i = g.n
        · simp [hg1, he]
        · have : i < g.n := by
            have : i < g.n + 1 := hi
            omega
          rw [hfind1 i this]
          exact Nat.lt_succ_of_lt (hg.find_lt i this)
      · intro i hi
        have hi' : g.n + 1 ≤ i := hi
        have : i ≠ g.n := by omega
        simp only [hg1, this, if_false]
        exact hg.find_ge i (by omega)
      · intro i
        by_cases he : i = g.n
        · simp [hg1, he]
        · have hgi : g.find i ≠ g.n := by
            intro hc'
            by_cases hi : i < g.n
            · have := hg.find_lt i hi
              omega
            · rw [hg.find_ge i (by omega)] at hc'
              exact he hc'
          simp only [hg1, he, if_false, hgi]
          exact hg.idem i
      · intro e he
        simp only [hg1, List.mem_append, List.mem_singleton] at he
        rcases he with he | rfl
        · have := hg.nodes_lt e he
          exact ⟨Nat.lt_succ_of_lt this.1, fun c hc' => Nat.lt_succ_of_lt (this.2 c hc')⟩
        · exact ⟨Nat.lt_succ_self _, fun c hc' => Nat.lt_succ_of_lt (hcan c hc')⟩
      · intro e he
        simp only [hg1, List.mem_append, List.mem_singleton] at he
        rcases he with he | rfl
        · exact hg.nodes_ar e he
        · simpa [EGraph.canon] using har
      · intro i hi
        by_cases he : i = g.n
        · simp [hg1, he]
        · have : i < g.n := by
            have : i < g.n + 1 := hi
            omega
          rw [hfind1 i this, hval1_eq _ (hg.find_lt i this), hval1_eq i this]
          exact hg.val_find i this
      · intro e he
        simp only [hg1, List.mem_append, List.mem_singleton] at he
        rcases he with he | rfl
        · have r := hg.nodes_lt e he
          rw [hval1_eq _ r.1, hmap _ r.2]
          exact hg.val_node e he
        · rw [hmap _ hcan, hvcan]
          simp [hval1]
      · intro i hi
        by_cases he : i = g.n
        · subst he
          simp only [hg1, if_true, hval1]
          have := hD.make g.cvecLen (g.canon nd) g.dataOf val s hg.side_len hnp (by simpa [EGraph.canon] using har) (by
            intro c hc'
            have := hg.data_ok c (hcan c hc')
            exact this) hs
          rw [hvcan] at this
          exact this
        · have hi' : i < g.n := by
            have : i < g.n + 1 := hi
            omega
          rw [hfind1 i hi', hval1_eq i hi']
          have : g.find i ≠ g.n := hne _ (hg.find_lt i hi')
          simp only [hg1, this, if_false]
          exact hg.data_ok i hi'
      · obtain ⟨e, he, hee⟩ := hg.side_nodes o ho
        exact ⟨e, by simp [hg1, he], hee⟩
    have hExt1 : Ext g val g1 val1 := by
      have hfe : ∀ i j, i < g.n → j < g.n → g.find i = g.find j → g1.find i = g1.find j := by
        intro i j hi hj he
        rw [hfind1 i hi, hfind1 j hj, he]
      have hne' : ∀ e ∈ g.nodes, ∃ e' ∈ g1.nodes, e'.1.op = e.1.op ∧
          e'.1.children.map g1.find = e.1.children.map g1.find ∧ g1.find e'.2 = g1.find e.2 :=
        fun e he => ⟨e, by simp [hg1, he], rfl, rfl, rfl⟩
      refine ⟨Nat.le_succ _, hval1_eq, hfe, hne', fun P hP => ?_⟩
      have old : ∀ i, i < g.n → Live g1 P i := fun i hi => (hP i hi).mono (Nat.le_succ _) hg.nodes_lt hfe hne' hi
      intro i hi
      by_cases he : i = g.n
      · subst he
        exact .node (e := (g.canon nd, g.n)) (by simp [hg1]) rfl fun c hc' => old c (hcan c hc')
      · exact old i (by have : i < g.n + 1 := hi; omega)
    obtain ⟨val2, hInv2, hExt2⟩ := hm g1 val1 g.n g2 hInv1 (Nat.lt_succ_self _) hg2
    have hlt : g.n < g2.n := Nat.lt_of_lt_of_le (Nat.lt_succ_self _) hExt2.n_le
    refine ⟨val2, hInv2, Ext.trans hg hInv1 hExt1 hExt2, hInv2.find_lt _ hlt, hInv2.idem _, ?_, ?_⟩
    · rw [hInv2.val_find _ hlt, hExt2.val_eq _ (Nat.lt_succ_self _)]
      simp [hval1]
    · obtain ⟨e', he', k1, k2, k3⟩ := hExt2.nodes (g.canon nd, g.n) (by simp [hg1])
      refine ⟨e', he', k1, k2.trans ?_, k3⟩
      simp only [EGraph.canon, List.map_map]
      refine List.map_congr_left fun c hc' => ?_
      have hcn := hc c hc'
      refine hExt2.find_eq _ _ (Nat.lt_succ_of_lt (hg.find_lt c hcn)) (Nat.lt_succ_of_lt hcn) ?_
      rw [hfind1 _ (hg.find_lt c hcn), hfind1 c hcn, hg.idem]

theorem link_ok (hD : DataInvS S D ar I ok) {g g' : EGraph O C} {val : Nat → V} (hg : InvS S ar I ok g val) {r s : Nat}
    (hr : g.find r = r) (hs : g.find s = s) (hrn : r < g.n) (hsn : s < g.n) (hne : r ≠ s) (hv : val r = val s)
    (h : link g r s = some g') : InvS S ar I ok g' val ∧ Ext g val g' val ∧ g'.find r = g'.find s := by
  unfold link at h
  rw [Option.map_eq_some_iff] at h
  obtain ⟨m, hm, rfl⟩ := h
  have hfr : ∀ i, g.find i ≠ r → g.find i ≠ s → True := fun _ _ _ => trivial
  refine ⟨⟨?_, ?_, ?_, hg.nodes_lt, hg.nodes_ar, ?_, hg.val_node, ?_, hg.side_len, hg.side_nodes⟩, ⟨Nat.le_refl _, fun _ _ => rfl, ?_, ?_, ?_⟩, ?_⟩
  · intro i hi
    by_cases he : g.find i = s
    · simpa [he] using hrn
    · simpa [he] using hg.find_lt i hi
  · intro i hi
    have : g.find i ≠ s := by
      rw [hg.find_ge i hi]
      intro he
      have : g.n ≤ i := hi
      omega
    simpa [this] using hg.find_ge i hi
  · intro i
    by_cases he : g.find i = s
    · simp [he, hr, hne]
    · simp [he, hg.idem]
  · intro i hi
    by_cases he : g.find i = s
    · have := hg.val_find i hi
      simp only [he, if_true]
      rw [hv, ← he]
      exact this
    · simpa [he] using hg.val_find i hi
  · intro i hi
    have hdr := hg.data_ok r hrn
    have hds := hg.data_ok s hsn
    rw [hr] at hdr
    rw [hs, ← hv] at hds
    have hmm := hD.merge _ _ _ _ hdr hds hm
    by_cases he : g.find i = s
    · have := hg.val_find i hi
      rw [he, ← hv] at this
      simp only [he, if_true]
      rw [← this]
      exact hmm
    · simp only [he, if_false]
      by_cases her : g.find i = r
      · have := hg.val_find i hi
        rw [her] at this
        simp only [her, if_true]
        rw [← this]
        exact hmm
      · simp only [her, if_false]
        exact hg.data_ok i hi
  · intro i j _ _ he
    simp [he]
  · exact fun e he => ⟨e, he, rfl, rfl, rfl⟩
  · intro P hP i hi
    refine Live.mono (g := g) ?_ hg.nodes_lt ?_ ?_ (hP i hi) hi
    · exact Nat.le_refl _
    · intro i j _ _ he
      simp [he]
    · exact fun e he => ⟨e, he, rfl, rfl, rfl⟩
  · simp [hr, hs]

theorem unionWith_ok (hD : DataInvS S D ar I ok) {mod : EGraph O C → Nat → Option (EGraph O C)} (hm : ModOk S ar I ok mod)
    {g g' : EGraph O C} {val : Nat → V} (hg : InvS S ar I ok g val) {i j : Nat} (hi : i < g.n) (hj : j < g.n)
    (hv : val i = val j) (h : unionWith E mod g i j = some g') :
    ∃ val', InvS S ar I ok g' val' ∧ Ext g val g' val' ∧ g'.find i = g'.find j := by
  unfold unionWith at h
  by_cases he : g.find i = g.find j
  · simp only [he, if_true, Option.some.injEq] at h
    subst h
    exact ⟨val, hg, Ext.refl _ _, he⟩
  · rw [if_neg he] at h
    have hvi := hg.val_find i hi
    have hvj := hg.val_find j hj
    have hin := hg.find_lt i hi
    have hjn := hg.find_lt j hj
    split at h
    · rw [Option.bind_eq_some_iff] at h
      obtain ⟨g1, hl, h⟩ := h
      obtain ⟨hI, hE, hf⟩ := link_ok hD hg (hg.idem i) (hg.idem j) hin hjn he (by rw [hvi, hvj, hv]) hl
      obtain ⟨val', hI', hE'⟩ := hm _ _ _ _ hI (Nat.lt_of_lt_of_le hin hE.n_le) h
      have hT := Ext.trans hg hI hE hE'
      refine ⟨val', hI', hT, ?_⟩
      have e1 := hE.find_eq i (g.find i) hi hin (hg.idem i).symm
      have e2 := hE.find_eq (g.find j) j hjn hj (hg.idem j)
      exact hE'.find_eq i j (Nat.lt_of_lt_of_le hi hE.n_le) (Nat.lt_of_lt_of_le hj hE.n_le) (e1.trans (hf.trans e2))
    · rw [Option.bind_eq_some_iff] at h
      obtain ⟨g1, hl, h⟩ := h
      obtain ⟨hI, hE, hf⟩ := link_ok hD hg (hg.idem j) (hg.idem i) hjn hin (fun e => he e.symm)
        (by rw [hvi, hvj, hv]) hl
      obtain ⟨val', hI', hE'⟩ := hm _ _ _ _ hI (Nat.lt_of_lt_of_le hjn hE.n_le) h
      have hT := Ext.trans hg hI hE hE'
      refine ⟨val', hI', hT, ?_⟩
      have e1 := hE.find_eq i (g.find i) hi hin (hg.idem i).symm
      have e2 := hE.find_eq (g.find j) j hjn hj (hg.idem j)
      exact hE'.find_eq i j (Nat.lt_of_lt_of_le hi hE.n_le) (Nat.lt_of_lt_of_le hj hE.n_le)
        (e1.trans (hf.symm.trans e2))

end Ruler
