import Verif.Proofs.Progress
import Mathlib.Data.Multiset.DershowitzManna
import Mathlib.Data.Multiset.Range
import Mathlib.Data.Multiset.Filter
/-! From every e-graph that satisfies the invariant, repairing the hash-cons entries terminates in a closed e-graph. -/
namespace Ruler
open Spec EGraph
variable {O C V : Type} [Lang O] [LinearOrder C]
variable {S : Side O} {ar : O → Nat → Prop} {I : O → List V → V} {ok : Signature O C → V → Prop} {D : Domain O C} {E : Egg}

/-- The classes. -/
def rootIds (g : EGraph O C) : Multiset Nat := (Multiset.range g.n).filter fun i => g.find i = i

/-- The sizes of the constants the classes stand for. -/
noncomputable def rootRanks (D : Domain O C) (ar : O → Nat → Prop) (I : O → List V → V) (ok : Signature O C → V → Prop)
    (g : EGraph O C) (val : Nat → V) : Multiset Nat :=
  (rootIds g).map fun i => rank D ar I ok (val i)

omit [Lang O] in
theorem rootIds_append {g g' : EGraph O C} (h : Appended g g') :
    rootIds g' = rootIds g + ((Multiset.range (g'.n - g.n)).map (g.n + ·)).filter fun i => g'.find i = i := by
  have hn : g'.n = g.n + (g'.n - g.n) := (Nat.add_sub_cancel' h.n_le).symm
  rw [rootIds, hn, Multiset.range_add, Multiset.filter_add, ← hn]
  congr 1
  refine Multiset.filter_congr fun i hi => ?_
  rw [h.find_eq i (Multiset.mem_range.1 hi)]

omit [Lang O] in
theorem rootIds_link {g g' : EGraph O C} {r s : Nat} (hn : g'.n = g.n)
    (hf : g'.find = fun k => if g.find k = s then r else g.find k) (hr : g.find r = r) (hs : g.find s = s)
    (hsn : s < g.n) (hne : r ≠ s) : rootIds g = s ::ₘ rootIds g' := by
  have hmem : s ∈ rootIds g := by
    rw [rootIds, Multiset.mem_filter, Multiset.mem_range]
    exact ⟨hsn, hs⟩
  have : rootIds g' = (rootIds g).erase s := by
    have hnd : (rootIds g).Nodup := Multiset.Nodup.filter _ (Multiset.nodup_range _)
    rw [hnd.erase_eq_filter, rootIds, rootIds, hn,
      Multiset.filter_filter]
    refine Multiset.filter_congr fun i _ => ?_
    rw [hf]
    by_cases h : g.find i = s
    · simp only [h, if_true]
      constructor
      · intro h'
        rw [← h', hr] at h
        exact absurd h hne
      · rintro ⟨h1, h2⟩
        exact absurd h2.symm h1
    · simp only [h, if_false]
      constructor
      · intro h'
        exact ⟨fun h'' => h (h'' ▸ hs), h'⟩
      · exact fun h' => h'.2
  rw [this, Multiset.cons_erase hmem]

/-- The hook does not fail, and the classes it makes stand for smaller constants. -/
def ModBound (S : Side O) (D : Domain O C) (ar : O → Nat → Prop) (I : O → List V → V) (ok : Signature O C → V → Prop)
    (mod : EGraph O C → Nat → Option (EGraph O C)) : Prop :=
  ∀ g val i, InvS S ar I ok g val → i < g.n → ∃ g' val', mod g i = some g' ∧ InvS S ar I ok g' val' ∧
    ∃ Y : Multiset Nat, (∀ y ∈ Y, y < rank D ar I ok (val i)) ∧ rootRanks D ar I ok g' val' ≤ rootRanks D ar I ok g val + Y

/-- What uniting two different roots does. -/
theorem unionWith_cases {g : EGraph O C} {mod : EGraph O C → Nat → Option (EGraph O C)} {i j : Nat}
    (hne : g.find i ≠ g.find j) :
    (∃ r s, r = g.find i ∧ s = g.find j ∧ unionWith E mod g i j = (link g r s).bind fun g' => mod g' r) ∨
    ∃ r s, r = g.find j ∧ s = g.find i ∧ unionWith E mod g i j = (link g r s).bind fun g' => mod g' r := by
  unfold unionWith
  rw [if_neg hne]
  by_cases h : E.keep (g.find i) (g.find j) = true
  · exact Or.inl ⟨_, _, rfl, rfl, by rw [if_pos h]⟩
  · exact Or.inr ⟨_, _, rfl, rfl, by rw [if_neg h]⟩

/-- Uniting two different roots with the same value. -/
theorem union_roots (hD : DataInvS S D ar I ok) (hT : MakeTotal S D ar I ok)
    {mod : EGraph O C → Nat → Option (EGraph O C)} {g : EGraph O C} {val : Nat → V} (hg : InvS S ar I ok g val)
    {i j : Nat} (hi : i < g.n) (hj : j < g.n) (hv : val i = val j) (hne : g.find i ≠ g.find j) :
    ∃ g1 r s, unionWith E mod g i j = mod g1 r ∧ InvS S ar I ok g1 val ∧ g1.n = g.n ∧ g1.nodes = g.nodes ∧ r < g.n ∧
      s < g.n ∧ g.find r = r ∧ r ≠ s ∧ val r = val i ∧ val s = val i ∧
      g1.find = (fun k => if g.find k = s then r else g.find k) ∧ g1.find j = r ∧
      rootRanks D ar I ok g val = rank D ar I ok (val i) ::ₘ rootRanks D ar I ok g1 val ∧ g1.find i = r := by
  have v1 := hg.val_find i hi
  have v2 := (hg.val_find j hj).trans hv.symm
  have n1 := hg.find_lt i hi
  have n2 := hg.find_lt j hj
  have key : ∀ r s, g.find r = r → g.find s = s → r < g.n → s < g.n → r ≠ s → val r = val i → val s = val i →
      (if g.find j = s then r else g.find j) = r → (if g.find i = s then r else g.find i) = r →
      unionWith E mod g i j = ((link g r s).bind fun g' => mod g' r) → ∃ g1 r s, unionWith E mod g i j = mod g1 r ∧ InvS S ar I ok g1 val ∧ g1.n = g.n ∧ g1.nodes = g.nodes ∧ r < g.n ∧
      s < g.n ∧ g.find r = r ∧ r ≠ s ∧ val r = val i ∧ val s = val i ∧
      g1.find = (fun k => if g.find k = s then r else g.find k) ∧ g1.find j = r ∧
      rootRanks D ar I ok g val = rank D ar I ok (val i) ::ₘ rootRanks D ar I ok g1 val ∧ g1.find i = r := by
    intro r s hr hs hrn hsn hne hvr hvs hfj hfi hu
    obtain ⟨m, hm⟩ := link_total hT hg hr hs hrn hsn (hvr.trans hvs.symm)
    have hI := (link_ok hD hg hr hs hrn hsn hne (hvr.trans hvs.symm) hm).1
    refine ⟨_, r, s, by rw [hu, hm, Option.bind_some], hI, rfl, rfl, hrn, hsn, hr, hne, hvr, hvs, rfl, hfj, ?_, hfi⟩
    rw [rootRanks, rootRanks, rootIds_link (g := g) (r := r) (s := s) (g' := { g with
      find := fun i => if g.find i = s then r else g.find i
      data := fun i => if i = r then m else g.data i }) rfl rfl hr hs hsn hne, Multiset.map_cons, hvs]
  rcases unionWith_cases (E := E) (mod := mod) hne with ⟨r, s, rfl, rfl, hu⟩ | ⟨r, s, rfl, rfl, hu⟩
  · exact key _ _ (hg.idem i) (hg.idem j) n1 n2 hne v1 v2 (by simp) (by simp [hne]) hu
  · exact key _ _ (hg.idem j) (hg.idem i) n2 n1 (Ne.symm hne) v2 v1 (by simp [Ne.symm hne]) (by simp) hu

/-- The hook never fails and makes only smaller constants. -/
theorem modifyD_bound (hD : DataInvS S D ar I ok) (hT : DataTotal S D ar I ok) (d : Nat) :
    ModBound S D ar I ok (modifyD D E (d + 2)) := by
  intro g val i hg hi
  have hsame : ∃ g' val', some g = some g' ∧ InvS S ar I ok g' val' ∧ ∃ Y : Multiset Nat,
      (∀ y ∈ Y, y < rank D ar I ok (val i)) ∧ rootRanks D ar I ok g' val' ≤ rootRanks D ar I ok g val + Y :=
    ⟨g, val, rfl, hg, 0, by simp, by simp⟩
  rw [modifyD, hT.custom, List.foldlM_nil]
  simp only [Option.pure_def, Option.bind_some]
  split
  · rename_i lo hi' hiv
    split
    · rename_i he
      subst he
      obtain ⟨t, ht⟩ := hT.const _ _ lo (hg.data_ok i hi) hiv
      obtain ⟨htok, htv⟩ := hD.const _ _ _ _ (hg.data_ok i hi) hiv ht
      rw [ht, Option.bind_some, addUnionWith]
      obtain ⟨g1, j, val1, h1, h2, h3, hI1, h4, h5⟩ := addNumeral (E := E) hD hT d t ⟨⟨lo, ht⟩, htok, _, _, lo, hg.data_ok i hi, hiv⟩ htok g val hg
      have hjr := lookupTm_rep hI1 _ _ h3
      have hj : j < g1.n := Rep.lt hI1 hjr.1
      have hjv : val1 j = Tm.fold I t := Rep.val hI1 t j hj hjr.1
      have hrk : rank D ar I ok (val i) = sizeOf t := by rw [← htv, rank_numeral hT ⟨⟨lo, ht⟩, htok, _, _, lo, hg.data_ok i hi, hiv⟩]
      rw [h1, Option.bind_some]
      have hv : val1 i = val1 j := by rw [h4 i hi, hjv, htv]
      have hi1 : i < g1.n := Nat.lt_of_lt_of_le hi h2.n_le
      -- the new classes
      set L : Multiset Nat := ((Multiset.range (g1.n - g.n)).map (g.n + ·)).filter fun i => g1.find i = i with hL
      have hroots : rootRanks D ar I ok g1 val1 = rootRanks D ar I ok g val + L.map fun i => rank D ar I ok (val1 i) := by
        rw [rootRanks, rootIds_append h2, Multiset.map_add, rootRanks]
        congr 1
        refine Multiset.map_congr rfl fun k hk => ?_
        rw [rootIds, Multiset.mem_filter, Multiset.mem_range] at hk
        rw [h4 k hk.1]
      have hLmem : ∀ k ∈ L, g.n ≤ k ∧ k < g1.n := by
        intro k hk
        rw [hL, Multiset.mem_filter, Multiset.mem_map] at hk
        obtain ⟨⟨a, ha, rfl⟩, _⟩ := hk
        rw [Multiset.mem_range] at ha
        omega
      have hLnd : L.Nodup :=
        Multiset.Nodup.filter _ (Multiset.Nodup.map (fun a b h => by simpa using h) (Multiset.nodup_range _))
      by_cases hfj : g1.find i = g1.find j
      · refine ⟨g1, val1, by simp [unionWith, hfj], hI1, L.map fun i => rank D ar I ok (val1 i), ?_, le_of_eq hroots⟩
        intro y hy
        obtain ⟨k, hk, rfl⟩ := Multiset.mem_map.1 hy
        rw [hrk]
        refine ((h5 k (hLmem k hk).1 (hLmem k hk).2).2).resolve_left ?_
        rintro rfl
        have := (hLmem _ hk).1
        rw [hjr.2, h2.find_eq i hi] at hfj
        have := hg.find_lt i hi
        omega
      · obtain ⟨g2, r, s, hu, hI2, hn, hnodes, hrn, hsn, hr, hne, hvr, hvs, hf, hfj2, hrr, -⟩ :=
          union_roots (E := E) (mod := modifyD D E (d + 1)) hD hT.toMakeTotal hI1 hi1 hj hv hfj
        have hvs' : val1 s = Tm.fold I t := hvs.trans (hv.trans hjv)
        have hdone : modifyD D E (d + 1) g2 r = some g2 := by
          refine modifyD_done hD hT hI2 (by rw [hn]; exact hrn) ⟨⟨lo, ht⟩, htok, _, _, lo, hg.data_ok i hi, hiv⟩ (hvr.trans (hv.trans hjv))
            (lookup_numeral hT hI1 hsn hnodes hf ⟨⟨lo, ht⟩, htok, _, _, lo, hg.data_ok i hi, hiv⟩ hvs' h3) ?_
          have hidem := hI2.idem j
          rw [hidem, hfj2, hf]
          simp [hr, hne]
        refine ⟨g2, val1, hu.trans hdone, hI2, ?_⟩
        by_cases hjL : j ∈ L
        · refine ⟨(L.erase j).map fun i => rank D ar I ok (val1 i), ?_, ?_⟩
          · intro y hy
            obtain ⟨k, hk, rfl⟩ := Multiset.mem_map.1 hy
            rw [hLnd.mem_erase_iff] at hk
            rw [hrk]
            exact ((h5 k (hLmem k hk.2).1 (hLmem k hk.2).2).2).resolve_left hk.1
          · rw [hroots, ← Multiset.cons_erase hjL, Multiset.map_cons, Multiset.add_cons, hv] at hrr
            exact le_of_eq (Multiset.cons_inj_right _ |>.1 hrr).symm
        · refine ⟨L.map fun i => rank D ar I ok (val1 i), ?_, ?_⟩
          · intro y hy
            obtain ⟨k, hk, rfl⟩ := Multiset.mem_map.1 hy
            rw [hrk]
            refine ((h5 k (hLmem k hk).1 (hLmem k hk).2).2).resolve_left ?_
            rintro rfl
            exact hjL hk
          · rw [← hroots, hrr]
            exact Multiset.le_cons_self _ _
    · exact hsame
  · exact hsame

theorem modify_bound (hD : DataInvS S D ar I ok) (hT : DataTotal S D ar I ok) (hE : 2 ≤ E.depth) :
    ModBound S D ar I ok (EGraph.modify D E) := by
  obtain ⟨d, hd⟩ := Nat.exists_eq_add_of_le hE
  rw [EGraph.modify, hd, Nat.add_comm]
  exact modifyD_bound hD hT d

/-- Uniting two different classes makes the multiset of sizes smaller. -/
theorem union_decreases (hD : DataInvS S D ar I ok) (hT : DataTotal S D ar I ok) (hE : 2 ≤ E.depth) {g : EGraph O C}
    {val : Nat → V} (hg : InvS S ar I ok g val) {i j : Nat} (hi : i < g.n) (hj : j < g.n) (hv : val i = val j)
    (hne : g.find i ≠ g.find j) :
    ∃ g' val', EGraph.union D E g i j = some g' ∧ InvS S ar I ok g' val' ∧
      Multiset.IsDershowitzMannaLT (rootRanks D ar I ok g' val') (rootRanks D ar I ok g val) := by
  obtain ⟨g1, r, s, hu, hI1, hn, _, hrn, _, _, _, hvr, _, _, _, hrr, _⟩ :=
    union_roots (E := E) (mod := EGraph.modify D E) hD hT.toMakeTotal hg hi hj hv hne
  obtain ⟨g2, val2, h2, hI2, Y, hY, hle⟩ := modify_bound hD hT hE g1 val r hI1 (by rw [hn]; exact hrn)
  refine ⟨g2, val2, hu.trans h2, hI2, ?_⟩
  rw [hvr] at hY
  rw [hrr]
  obtain ⟨Z, hZ⟩ := Multiset.le_iff_exists_add.1 hle
  -- remove the common part
  have h1 : Multiset.IsDershowitzMannaLT (rootRanks D ar I ok g1 val + Y) (rank D ar I ok (val i) ::ₘ rootRanks D ar I ok g1 val) :=
    ⟨rootRanks D ar I ok g1 val, Y, {rank D ar I ok (val i)}, by simp, rfl, by rw [Multiset.add_comm, Multiset.singleton_add],
      fun y hy => ⟨_, by simp, hY y hy⟩⟩
  by_cases hZ0 : Z = 0
  · rw [hZ0, add_zero] at hZ
    rw [← hZ]
    exact h1
  · refine Multiset.IsDershowitzMannaLT.trans ?_ h1
    rw [hZ]
    exact ⟨rootRanks D ar I ok g2 val2, 0, Z, hZ0, by simp, rfl, by simp⟩

/-- Number of entries that are not canonical. -/
def stale (g : EGraph O C) : Nat := g.nodes.countP fun e => decide (g.canon e.1 ≠ e.1)

/-- An entry to repair: this either only changes the entry, or unites two classes. -/
theorem repair_pick (D : Domain O C) (E : Egg) {g : EGraph O C} {val : Nat → V} (hg : InvS S ar I ok g val) (hc : g.closed = false) :
    ∃ i, (∃ g', repair D E g (.congr i) = some g' ∧ InvS S ar I ok g' val ∧ g'.n = g.n ∧ g'.find = g.find ∧
        Prod.Lex (· < ·) (· < ·) (g'.nodes.length, stale g') (g.nodes.length, stale g)) ∨
      ∃ nd c c', repair D E g (.congr i) = EGraph.union D E { g with nodes := g.nodes.eraseIdx i } c' c ∧
        InvS S ar I ok { g with nodes := g.nodes.eraseIdx i } val ∧ g.nodes[i]? = some (nd, c) ∧
        (g.canon nd, c') ∈ g.nodes.eraseIdx i ∧ c' < g.n ∧ c < g.n ∧ val c' = val c ∧ g.find c' ≠ g.find c := by
  -- an entry to work on
  have hpick : ∃ i nd c, g.nodes[i]? = some (nd, c) ∧
      (g.canon nd ≠ nd ∨ ((g.nodes.eraseIdx i).find? fun e => decide (e.1 = g.canon nd)).isSome = true) := by
    unfold closed at hc
    rw [List.all_eq_false] at hc
    obtain ⟨e, he, h⟩ := hc
    obtain ⟨i, hi⟩ := List.getElem?_of_mem he
    refine ⟨i, e.1, e.2, hi, ?_⟩
    by_cases hcan : g.canon e.1 = e.1
    · right
      simp only [hcan, decide_true, Bool.true_and, Bool.not_eq_true] at h
      rw [List.all_eq_false] at h
      obtain ⟨e', he', h'⟩ := h
      split at h'
      · rename_i heq
        rw [List.find?_isSome]
        rcases mem_eraseIdx_or _ i _ hi e' he' with hm | rfl
        · exact ⟨e', hm, by rw [decide_eq_true_eq, hcan, heq]⟩
        · simp at h'
      · simp at h'
    · exact Or.inl hcan
  obtain ⟨i, nd, c, hn, hw⟩ := hpick
  have hmem : (nd, c) ∈ g.nodes := List.mem_of_getElem? hn
  have rr := hg.nodes_lt _ hmem
  have hlen : (g.nodes.eraseIdx i).length + 1 = g.nodes.length := by
    have hlt : i < g.nodes.length := (List.getElem?_eq_some_iff.1 hn).1
    rw [List.length_eraseIdx_of_lt hlt]
    omega
  refine ⟨i, ?_⟩
  rw [repair]
  simp only [hn]
  cases hf : (g.nodes.eraseIdx i).find? fun e => decide (e.1 = g.canon nd) with
  | none =>
    have hst : g.canon nd ≠ nd := by
      rcases hw with hw | hw
      · exact hw
      · rw [hf] at hw; cases hw
    refine .inl ⟨_, rfl, ?_, rfl, rfl, ?_⟩
    · refine hg.setNodes _ ?_ ?_
      · intro e he
        simp only [List.mem_append, List.mem_singleton] at he
        rcases he with he | rfl
        · exact Or.inl (List.mem_of_mem_eraseIdx he)
        · exact Or.inr ⟨nd, c, hmem, rfl⟩
      · intro e he h0
        rcases mem_eraseIdx_or _ i _ hn e he with he | rfl
        · exact ⟨e, by simp [he], rfl⟩
        · refine ⟨(g.canon nd, c), by simp, ?_⟩
          simp only at h0
          cases nd
          simp_all [EGraph.canon]
    · have e2 : (g.nodes.eraseIdx i ++ [(g.canon nd, c)]).length = g.nodes.length := by
        rw [List.length_append, List.length_singleton, hlen]
      simp only [e2]
      refine Prod.Lex.right _ ?_
      have hidem : g.canon (g.canon nd) = g.canon nd := by
        simp only [EGraph.canon, FNode.mk.injEq, true_and, List.map_map]
        exact List.map_congr_left fun c _ => hg.idem c
      have hlt : i < g.nodes.length := (List.getElem?_eq_some_iff.1 hn).1
      have hsplit : g.nodes = g.nodes.take i ++ (nd, c) :: g.nodes.drop (i + 1) := by
        have hget : g.nodes[i] = (nd, c) := (List.getElem?_eq_some_iff.1 hn).2
        rw [← hget, List.cons_getElem_drop_succ, List.take_append_drop]
      have herase : g.nodes.eraseIdx i = g.nodes.take i ++ g.nodes.drop (i + 1) := List.eraseIdx_eq_take_drop_succ _ _
      show ((g.nodes.eraseIdx i ++ [(g.canon nd, c)]).countP fun e => decide (g.canon e.1 ≠ e.1)) <
        g.nodes.countP fun e => decide (g.canon e.1 ≠ e.1)
      rw [herase]
      conv_rhs => rw [hsplit]
      simp only [List.countP_append, List.countP_cons, List.countP_nil, hidem]
      simp [hst]
  | some e' =>
    obtain ⟨nd', c'⟩ := e'
    simp only
    have hmem' := List.mem_of_find?_eq_some hf
    have heq : nd' = g.canon nd := by simpa using List.find?_some hf
    subst heq
    have hmem'' := List.mem_of_mem_eraseIdx hmem'
    have rr' := hg.nodes_lt _ hmem''
    have hI1 : InvS S ar I ok { g with nodes := g.nodes.eraseIdx i } val :=
      hg.setNodes _ (fun e he => Or.inl (List.mem_of_mem_eraseIdx he)) fun e he h0 => by
        rcases mem_eraseIdx_or _ i _ hn e he with he | rfl
        · exact ⟨e, he, rfl⟩
        · refine ⟨_, hmem', ?_⟩
          simp only at h0
          cases nd
          simp_all [EGraph.canon]
    have hv : val c' = val c := by
      have h1 := hg.val_node _ hmem
      have h2 := hg.val_node _ hmem''
      simp only [EGraph.canon] at h2
      rw [map_val_find hg _ rr.2] at h2
      exact h2.trans h1.symm
    by_cases hcc : g.find c' = g.find c
    · refine .inl ⟨{ g with nodes := g.nodes.eraseIdx i }, ?_, hI1, rfl, rfl, ?_⟩
      · simp [EGraph.union, unionWith, hcc]
      · exact Prod.Lex.left _ _ (by simp only; omega)
    · exact .inr ⟨nd, c, c', rfl, hI1, rfl, hmem', rr'.1, rr.1, hv, hcc⟩

/-- A step of repair that makes progress, and does not fail. -/
theorem repair_progress (hD : DataInvS S D ar I ok) (hT : DataTotal S D ar I ok) (hE : 2 ≤ E.depth) {g : EGraph O C}
    {val : Nat → V} (hg : InvS S ar I ok g val) (hc : g.closed = false) :
    ∃ i g' val', repair D E g (.congr i) = some g' ∧ InvS S ar I ok g' val' ∧
      Prod.Lex Multiset.IsDershowitzMannaLT (Prod.Lex (· < ·) (· < ·))
        (rootRanks D ar I ok g' val', g'.nodes.length, stale g') (rootRanks D ar I ok g val, g.nodes.length, stale g) := by
  obtain ⟨i, ⟨g', h1, h2, h3, h4, h5⟩ | ⟨nd, c, c', h1, h2, -, -, h3, h4, h5, h6⟩⟩ := repair_pick D E hg hc
  · refine ⟨i, g', val, h1, h2, ?_⟩
    have e1 : rootRanks D ar I ok g' val = rootRanks D ar I ok g val := by
      simp only [rootRanks, rootIds, h3, h4]
    rw [e1]
    exact Prod.Lex.right _ h5
  · obtain ⟨g2, val2, k2, hI2, hlt⟩ := union_decreases (E := E) hD hT hE h2 h3 h4 h5 h6
    exact ⟨i, g2, val2, h1.trans k2, hI2, Prod.Lex.left _ _ hlt⟩

/-- `EGraph::rebuild` can be completed from every state. -/
theorem rebuild_completes (hD : DataInvS S D ar I ok) (hT : DataTotal S D ar I ok) (hE : 2 ≤ E.depth) :
    ∀ (g : EGraph O C) (val : Nat → V), InvS S ar I ok g val →
      ∃ (steps : List Repair) (g' : EGraph O C), steps.foldlM (repair D E) g = some g' ∧ g'.closed = true := by
  have wf : WellFounded (Prod.Lex (Multiset.IsDershowitzMannaLT (α := Nat))
      (Prod.Lex (α := Nat) (β := Nat) (· < ·) (· < ·))) :=
    WellFounded.prod_lex Multiset.wellFounded_isDershowitzMannaLT
      (WellFounded.prod_lex Nat.lt_wfRel.wf Nat.lt_wfRel.wf)
  suffices h : ∀ m : Multiset Nat × Nat × Nat, ∀ (g : EGraph O C) (val : Nat → V), InvS S ar I ok g val →
      (rootRanks D ar I ok g val, g.nodes.length, stale g) = m →
      ∃ (steps : List Repair) (g' : EGraph O C), steps.foldlM (repair D E) g = some g' ∧ g'.closed = true from
    fun g val hg => h _ g val hg rfl
  intro m
  induction m using wf.induction with
  | _ m ih =>
    intro g val hg hm
    cases hc : g.closed with
    | true => exact ⟨[], g, rfl, hc⟩
    | false =>
      obtain ⟨i, g1, val1, h1, hI1, hlt⟩ := repair_progress (E := E) hD hT hE hg hc
      obtain ⟨steps, g2, h2, hc2⟩ := ih _ (hm ▸ hlt) g1 val1 hI1 rfl
      refine ⟨.congr i :: steps, g2, ?_, hc2⟩
      rw [List.foldlM_cons, h1]
      exact h2

theorem DataTotal.steps (hD : DataInvS S D ar I ok) (hT : DataTotal S D ar I ok) : StepTotal S D ar I ok :=
  { hT.toMakeTotal with
    mod := fun _ hE => modify_total hD hT hE
    ends := fun _ hE => rebuild_completes hD hT hE }

/-- Any steps of `EGraph::rebuild` do not fail, and can be continued until it is complete. -/
theorem rebuild_extends (hD : DataInvS S D ar I ok) (hT : StepTotal S D ar I ok) (hE : 2 ≤ E.depth) {g : EGraph O C}
    {val : Nat → V} (hg : InvS S ar I ok g val) (steps : List Repair) :
    ∃ more g', rebuild D E (steps ++ more) g = some g' := by
  induction steps generalizing g val with
  | nil =>
    obtain ⟨more, g', h, hc⟩ := hT.ends E hE g val hg
    exact ⟨more, g', by rw [List.nil_append, rebuild, h, Option.bind_some, if_pos hc]⟩
  | cons r l ih =>
    obtain ⟨g1, h1⟩ := repair_total (E := E) hD hT hE hg r
    obtain ⟨val1, hI1, _⟩ := repair_ok hD hg h1
    obtain ⟨more, g', h⟩ := ih hI1
    refine ⟨more, g', ?_⟩
    rw [rebuild] at h ⊢
    rw [List.cons_append, List.foldlM_cons, h1]
    exact h

end Ruler
