import Verif.Proofs.FreeGraph
import Mathlib.Data.List.Perm.Subperm
/-! Classification of saturating rules, and what applying them does. -/
namespace Ruler
open Spec EGraph
variable {O C : Type} [Lang O]

/-! ## Instantiated patterns -/

theorem instantiate_sub {q p : Pat O} (h : PatSub q p) : TmSub q.instantiate p.instantiate := by
  induction h with
  | refl => exact .refl _
  | arg hm _ ih =>
    rw [Pat.instantiate, Pat.instantiateL_eq]
    exact .arg (List.mem_map_of_mem hm) ih

theorem sub_instantiate {u : Tm O} {p : Pat O} (h : TmSub u p.instantiate) : ∃ q, PatSub q p ∧ u = q.instantiate := by
  induction p using Pat.ind with
  | hv v =>
    rw [Pat.instantiate] at h
    cases h with
    | refl => exact ⟨_, .refl _, rfl⟩
    | arg hm _ => simp at hm
  | hn o l ih =>
    rw [Pat.instantiate, Pat.instantiateL_eq] at h
    cases h with
    | refl => exact ⟨_, .refl _, by rw [Pat.instantiate, Pat.instantiateL_eq]⟩
    | arg hm hs =>
      obtain ⟨a, ha, rfl⟩ := List.mem_map.1 hm
      obtain ⟨q, hq, rfl⟩ := ih a ha hs
      exact ⟨q, .arg ha hq, rfl⟩

theorem Schematic.sub {q p : Pat O} (h : PatSub q p) (hp : Schematic p) : Schematic q := by
  induction h with
  | refl => exact hp
  | arg hm _ ih =>
    cases hp with
    | node _ h2 => exact ih (h2 _ hm)

theorem instantiate_inj {ar : O → Nat → Prop} (hv : VarsOk (O := O) ar) (p : Pat O) :
    ∀ {q : Pat O}, Schematic p → Schematic q → p.instantiate = q.instantiate → p = q := by
  induction p using Pat.ind with
  | hv v =>
    intro q hp hq h
    cases q with
    | var w =>
      simp only [Pat.instantiate, Tm.node.injEq, and_true] at h
      have : dropQ v = dropQ w := by
        have := congrArg Lang.toVar h
        rw [(hv _).1, (hv _).1] at this
        exact Option.some.inj this
      cases hp with
      | var h1 =>
        cases hq with
        | var h2 => rw [← dropQ_cons h1, ← dropQ_cons h2, this]
    | node o l =>
      simp only [Pat.instantiate, Tm.node.injEq] at h
      cases hq with
      | node h1 _ => rw [← h.1, (hv _).1] at h1; cases h1
  | hn o l ih =>
    intro q hp hq h
    cases q with
    | var w =>
      simp only [Pat.instantiate, Tm.node.injEq] at h
      cases hp with
      | node h1 _ => rw [h.1, (hv _).1] at h1; cases h1
    | node o' l' =>
      simp only [Pat.instantiate, Pat.instantiateL_eq, Tm.node.injEq] at h
      obtain ⟨rfl, h⟩ := h
      cases hp with
      | node _ hp =>
      cases hq with
      | node _ hq =>
      congr 1
      clear * - ih hp hq h
      induction l generalizing l' with
      | nil => cases l' <;> simp_all
      | cons a l ihl =>
        cases l' with
        | nil => simp at h
        | cons b l' =>
          simp only [List.map_cons, List.cons.injEq] at h
          rw [ih a (by simp) (hp a (by simp)) (hq b (by simp)) h.1,
            ihl (fun s hs => ih s (by simp [hs])) l' h.2 (fun s hs => hp s (by simp [hs]))
              (fun s hs => hq s (by simp [hs]))]

/-! ## Counting classes -/

omit [Lang O] in
theorem classes_nodup (g : EGraph O C) : g.classes.Nodup := List.Nodup.filter _ List.nodup_range

omit [Lang O] in
theorem mem_classes {g : EGraph O C} {i : Nat} : i ∈ g.classes ↔ i < g.n ∧ g.find i = i := by
  simp [EGraph.classes]

omit [Lang O] in
theorem length_le_of_subset {α : Type} {l m : List α} (hn : l.Nodup) (h : ∀ x ∈ l, x ∈ m) : l.length ≤ m.length :=
  (List.Nodup.subperm hn h).length_le

omit [Lang O] in
theorem Shrinks.classes_sub {g g' : EGraph O C} (h : Shrinks g g') : ∀ i ∈ g'.classes, i ∈ g.classes := by
  intro i hi
  rw [mem_classes] at hi ⊢
  exact ⟨h.n_eq ▸ hi.1, h.root i hi.2⟩

omit [Lang O] in
theorem Shrinks.numClasses_le {g g' : EGraph O C} (h : Shrinks g g') : g'.numClasses ≤ g.numClasses :=
  length_le_of_subset (classes_nodup _) h.classes_sub

variable [LinearOrder C] {D : Domain O C} {E : Egg} {V : Type} {ar : O → Nat → Prop} {I : O → List V → V}

theorem union_drop (hD : NoFold D) {g g' : EGraph O C} {val : Nat → Unit}
    (hg : Inv ar (fun _ _ => ()) Free g val) {i j : Nat} (hi : i < g.n) (hj : j < g.n) (hne : g.find i ≠ g.find j)
    (h : EGraph.union D E g i j = some g') :
    Shrinks g g' ∧ g'.find i = g'.find j ∧ g'.numClasses + 1 ≤ g.numClasses := by
  have hS := (union_free hD hg hi hj h).1
  obtain ⟨v, hI, hE, hf⟩ := union_ok (foldInv (NoFold.foldsIn hD ar _)) hg hi hj rfl h
  refine ⟨hS, hf, ?_⟩
  have h1 : g'.find (g.find i) = g'.find i := hE.find_eq _ _ (hg.find_lt i hi) hi (hg.idem i)
  have h2 : g'.find (g.find j) = g'.find j := hE.find_eq _ _ (hg.find_lt j hj) hj (hg.idem j)
  have hx : ∃ x, x ∈ g.classes ∧ x ∉ g'.classes := by
    by_cases hc : g.find i ∈ g'.classes
    · refine ⟨g.find j, mem_classes.2 ⟨hg.find_lt j hj, hg.idem j⟩, fun hc' => hne ?_⟩
      rw [mem_classes] at hc hc'
      rw [← hc.2, ← hc'.2, h1, h2, hf]
    · exact ⟨g.find i, mem_classes.2 ⟨hg.find_lt i hi, hg.idem i⟩, hc⟩
  obtain ⟨x, hx1, hx2⟩ := hx
  have := length_le_of_subset (l := x :: g'.classes) (m := g.classes) (List.nodup_cons.2 ⟨hx2, classes_nodup _⟩)
    (by
      intro y hy
      rcases List.mem_cons.1 hy with rfl | hy
      · exact hx1
      · exact hS.classes_sub y hy)
  simpa [EGraph.numClasses] using this

/-- Rebuilding only shrinks. -/
theorem rebuild_shrinks (hD : NoFold D) {I : O → List V → V} {g g' : EGraph O C} {val : Nat → V} (hg : Inv ar I Free g val)
    {steps : List Repair} (h : rebuild D E steps g = some g') :
    (∃ val', Inv ar I Free g' val' ∧ Ext g val g' val') ∧ Shrinks g g' := by
  unfold rebuild at h
  rw [Option.bind_eq_some_iff] at h
  obtain ⟨g1, h1, h⟩ := h
  have : g1 = g' := by
    split at h
    · exact Option.some.inj h
    · cases h
  subst this
  exact foldlM_shrinks (repair D E) (fun _ _ _ => True) (fun _ _ _ _ _ _ _ => trivial)
    (fun g val a g' hI _ hs => ⟨repair_ok (foldInv (NoFold.foldsIn hD ar I)) hI hs, repair_free hD hI hs⟩) steps g val
    g1 hg (fun _ _ => trivial) h1

/-! ## Classification -/

omit [LinearOrder C] in
/-- If the node for `b` is nobody's child then evaluating it as `a` is consistent. -/
theorem glue_inv {g : EGraph O C} {S : List (Tm O)} (hS : FreeG g S) {val : Nat → Unit}
    (hg : Inv ar (fun _ _ => ()) Free g val) (a b : Nat) (hb : ∀ e ∈ g.nodes, b ∉ e.1.children) :
    Inv ar (fun o vs => if (g.lookup ⟨o, vs⟩).getD 0 = b then a else (g.lookup ⟨o, vs⟩).getD 0) Free g
      (fun i => if i = b then a else i) := by
  refine ⟨hg.find_lt, hg.find_ge, hg.idem, hg.nodes_lt, hg.nodes_ar, ?_, ?_, hg.data_ok, hg.side_len, hg.side_nodes⟩
  · intro i _
    simp only [hS.find_id]
  · intro e he
    have h1 : e.1.children.map (fun i => if i = b then a else i) = e.1.children := by
      conv => rhs; rw [← List.map_id e.1.children]
      refine List.map_congr_left fun c hc => ?_
      have : c ≠ b := fun h => hb e he (h ▸ hc)
      simp [this]
    have h2 : g.lookup ⟨e.1.op, e.1.children⟩ = some (g.find e.2) := closed_lookup hS.closed he rfl
    simp only [h1, h2, Option.getD_some, hS.find_id]

/-- `is_saturating` answers yes iff everything below the root of the right-hand side occurs on the left. -/
theorem isSaturating_iff (hD : NoFold D) (hv : VarsOk (O := O) ar) {r : Rule O} (hl : Schematic r.lhs)
    (hr : Schematic r.rhs) {steps : List Repair} {b : Bool} (h : isSaturating D E steps r = some b) :
    b = true ↔ ArgsOccur r.lhs r.rhs := by
  unfold isSaturating at h
  rw [Option.bind_eq_some_iff] at h
  obtain ⟨⟨g1, li⟩, h1, h⟩ := h
  rw [Option.bind_eq_some_iff] at h
  obtain ⟨⟨g2, ri⟩, h2, h⟩ := h
  simp only at h
  rw [Option.bind_eq_some_iff] at h
  obtain ⟨g3, h3, h⟩ := h
  rw [Option.map_eq_some_iff] at h
  obtain ⟨g4, h4, h⟩ := h
  have hreach : AnyHistory D g2 := .addTm (.addTm .empty (TmOk.any _) h1) (TmOk.any _) h2
  obtain ⟨val, hI⟩ : ∃ val : Nat → Unit, Inv (fun _ _ => True) (fun _ _ => ()) Free g2 val :=
    Reach.inv (foldInv (NoFold.foldsIn hD _ _)) (fun _ _ _ h => h)
      (fun _ _ => ⟨⟨PatOk.any _, PatOk.any _⟩, fun _ => rfl⟩) hreach
  obtain ⟨S1, F1, e1, s1⟩ := addTm_freeG hD r.lhs.instantiate FreeG.empty h1
  obtain ⟨S2, F2, e2, s2⟩ := addTm_freeG hD r.rhs.instantiate F1 h2
  simp only [List.nil_append] at *
  have hn1 : g1.numClasses = S1.length := F1.numClasses
  have hlt : ∀ {α : Type} {S : List α} {i : Nat} {a : α}, S[i]? = some a → i < S.length := by
    intro α S i a h
    by_contra hc
    rw [List.getElem?_eq_none (by omega)] at h
    cases h
  have hli2 : (S1 ++ S2)[li]? = some r.lhs.instantiate := getElem?_append_of e1
  have hli : li < g2.n := by rw [F2.n_eq]; exact hlt hli2
  have hri : ri < g2.n := by rw [F2.n_eq]; exact hlt e2
  -- subpatterns and members
  have memS1 : ∀ q, Schematic q → (q.instantiate ∈ S1 ↔ PatSub q r.lhs) := by
    intro q hq
    constructor
    · intro hm
      obtain ⟨p, hp, he⟩ := sub_instantiate (s1 _ hm)
      rw [instantiate_inj hv q hq (Schematic.sub hp hl) he]
      exact hp
    · intro hs
      exact F1.sub_mem (instantiate_sub hs) (List.mem_of_getElem? e1)
  have hS : Shrinks g2 g3 := (union_free hD hI hli hri h3).1
  obtain ⟨_, hI3, hE3, _⟩ := union_ok (foldInv (NoFold.foldsIn hD _ _)) hI hli hri rfl h3
  have hS4 := (rebuild_shrinks hD hI3 h4).2
  have hn2 : g2.numClasses = S1.length + S2.length := by rw [F2.numClasses, List.length_append]
  subst h
  rw [decide_eq_true_eq, hn1]
  by_cases hmem : r.rhs.instantiate ∈ S1
  · -- the right-hand side occurs in the left-hand side
    have hS2 : S2 = [] := by
      cases S2 with
      | nil => rfl
      | cons u l =>
        have hu : u ∈ S1 := F1.sub_mem (s2 u (by simp)) hmem
        have := (List.nodup_append.1 F2.nodup).2.2 u hu u (by simp)
        exact absurd rfl this
    have hle : g4.numClasses ≤ S1.length := by
      have a := hS.numClasses_le
      have b := hS4.numClasses_le
      rw [hS2] at hn2
      simp only [List.length_nil] at hn2
      omega
    refine ⟨fun _ q hq _ => ?_, fun _ => hle⟩
    rw [← memS1 q (Schematic.sub hq hr)]
    exact F1.sub_mem (instantiate_sub hq) hmem
  · -- it is new
    have hmem2 : r.rhs.instantiate ∈ S2 := by
      rcases List.mem_append.1 (List.mem_of_getElem? e2) with h | h
      · exact absurd h hmem
      · exact h
    have hneq : g2.find li ≠ g2.find ri := by
      rw [F2.find_id, F2.find_id]
      rintro rfl
      rw [hli2] at e2
      exact hmem (Option.some.inj e2 ▸ List.mem_of_getElem? e1)
    have hchild : ∀ e ∈ g2.nodes, ri ∉ e.1.children := by
      intro e he hc
      obtain ⟨k, hk⟩ := List.mem_iff_getElem?.1 he
      obtain ⟨_, ts, h5, h6⟩ := F2.node k e hk
      have hin : r.rhs.instantiate ∈ ts := by
        obtain ⟨t, ht, h7⟩ := forall2_mem_left h6 hc
        rw [e2] at h7
        cases h7
        exact ht
      rcases List.mem_append.1 (List.mem_of_getElem? h5) with h7 | h7
      · exact hmem (F1.arg_mem h7 hin)
      · exact not_sub_arg hin (s2 _ h7)
    constructor
    · -- exactly one merge took place
      intro hle
      have hG := glue_inv F2 hI li ri hchild
      have hval : (if li = ri then li else li) = if ri = ri then li else ri := by simp
      obtain ⟨v3, J3, X3, _⟩ := union_ok (foldInv (NoFold.foldsIn hD _ _)) hG hli hri hval h3
      obtain ⟨⟨v4, J4, X4⟩, _⟩ := rebuild_shrinks hD J3 h4
      have X := Ext.trans hG J3 X3 X4
      have hn4 : g4.n = g2.n := by rw [hS4.n_eq, hS.n_eq]
      have hinj : ∀ i j, i < g2.n → j < g2.n → i ≠ ri → j ≠ ri → g4.find i = g4.find j → i = j := by
        intro i j hi hj hi' hj' hij
        have : v4 i = v4 j := by
          rw [← J4.val_find i (hn4 ▸ hi), ← J4.val_find j (hn4 ▸ hj), hij]
        rw [X.val_eq i hi, X.val_eq j hj] at this
        simpa [hi', hj'] using this
      have hcount := length_le_of_subset (l := ((List.range g2.n).erase ri).map g4.find) (m := g4.classes)
        (by
          refine List.Nodup.map_on ?_ (List.nodup_range.erase _)
          intro x hx y hy hxy
          rw [List.Nodup.mem_erase_iff List.nodup_range, List.mem_range] at hx hy
          exact hinj x y hx.2 hy.2 hx.1 hy.1 hxy)
        (by
          intro x hx
          obtain ⟨y, hy, rfl⟩ := List.mem_map.1 hx
          rw [List.Nodup.mem_erase_iff List.nodup_range, List.mem_range] at hy
          rw [mem_classes]
          exact ⟨J4.find_lt y (hn4 ▸ hy.2), J4.idem y⟩)
      rw [List.length_map, List.length_erase_of_mem (List.mem_range.2 hri), List.length_range, F2.n_eq,
        List.length_append] at hcount
      have hlen : S2.length = 1 := by
        have : 0 < S2.length := List.length_pos_of_mem hmem2
        unfold EGraph.numClasses at hle
        omega
      obtain ⟨w, hw⟩ := List.length_eq_one_iff.1 hlen
      rw [hw, List.mem_singleton] at hmem2
      intro q hq hne
      rw [← memS1 q (Schematic.sub hq hr)]
      have hq2 : q.instantiate ∈ S1 ++ S2 := F2.sub_mem (instantiate_sub hq) (List.mem_of_getElem? e2)
      rcases List.mem_append.1 hq2 with h | h
      · exact h
      · rw [hw, List.mem_singleton, ← hmem2] at h
        exact absurd (instantiate_inj hv q (Schematic.sub hq hr) hr h) hne
    · intro ha
      have hS2 : S2.length ≤ 1 := by
        have hall : ∀ u ∈ S2, u = r.rhs.instantiate := by
          intro u hu
          obtain ⟨q, hq, rfl⟩ := sub_instantiate (s2 u hu)
          by_contra hne
          have hq1 := (memS1 q (Schematic.sub hq hr)).2 (ha q hq (fun h => hne (by rw [h])))
          exact (List.nodup_append.1 F2.nodup).2.2 _ hq1 _ hu rfl
        have := length_le_of_subset (l := S2) (m := [r.rhs.instantiate]) (List.nodup_append.1 F2.nodup).2.1
          (by intro x hx; simp [hall x hx])
        simpa using this
      have a := (union_drop hD hI hli hri hneq h3).2.2
      have b := hS4.numClasses_le
      omega

/-! ## Application -/

mutual
/-- The pattern is represented by the class of `i`, with its variables bound by `σ`. -/
def PRep (g : EGraph O C) (σ : Subst) : Pat O → Nat → Prop
  | .var v, i => ∃ j, σ.lookup v = some j ∧ g.find j = g.find i
  | .node o args, i => ∃ e ∈ g.nodes, e.1.op = o ∧ g.find e.2 = g.find i ∧ PRepL g σ args e.1.children
/-- Element-wise. -/
def PRepL (g : EGraph O C) (σ : Subst) : List (Pat O) → List Nat → Prop
  | [], [] => True
  | p :: l, i :: is => PRep g σ p i ∧ PRepL g σ l is
  | _, _ => False
end

omit [Lang O] [LinearOrder C] in
theorem PRepL_iff (g : EGraph O C) (σ : Subst) (l : List (Pat O)) (is : List Nat) :
    PRepL g σ l is ↔ List.Forall₂ (PRep g σ) l is := by
  induction l generalizing is with
  | nil => cases is <;> simp [PRepL]
  | cons a l ih => cases is <;> simp [PRepL, ih]

omit [Lang O] [LinearOrder C] in
theorem PRep.mono {g : EGraph O C} {σ σ' : Subst} (h : ∀ v j, σ.lookup v = some j → σ'.lookup v = some j) (p : Pat O) :
    ∀ {i}, PRep g σ p i → PRep g σ' p i := by
  induction p using Pat.ind with
  | hv v =>
    rintro i ⟨j, h1, h2⟩
    exact ⟨j, h v j h1, h2⟩
  | hn o l ih =>
    rintro i ⟨e, h1, h2, h3, h4⟩
    refine ⟨e, h1, h2, h3, ?_⟩
    rw [PRepL_iff] at h4 ⊢
    exact forall2_imp_mem h4 fun a ha b _ hab => ih a ha hab

omit [LinearOrder C] in
/-- A match represents the pattern. -/
theorem ematch_rep {g : EGraph O C} {val : Nat → V} {ok : Signature O C → V → Prop} (hg : Inv ar I ok g val) (p : Pat O) :
    ∀ i σ σ', i < g.n → SubstLt g σ → σ' ∈ ematch g p i σ → PRep g σ' p i := by
  induction p using Pat.ind with
  | hv v =>
    intro i σ σ' hi hb h
    rw [ematch] at h
    cases hl : σ.lookup v with
    | some j =>
      simp only [hl] at h
      split at h
      · rename_i hf
        simp only [List.mem_singleton] at h
        subst h
        exact ⟨j, hl, hf⟩
      · simp at h
    | none =>
      simp only [hl, List.mem_singleton] at h
      subst h
      exact ⟨g.find i, by simp, hg.idem i⟩
  | hn o l ih =>
    intro i σ σ' hi hb h
    rw [ematch, List.mem_flatMap] at h
    obtain ⟨e, he, h⟩ := h
    simp only [List.mem_filter, Bool.and_eq_true, decide_eq_true_eq] at he
    obtain ⟨hmem, ⟨hop, hlen⟩, hfind⟩ := he
    refine ⟨e, hmem, hop, hfind, ?_⟩
    have r := hg.nodes_lt e hmem
    have key : ∀ (l : List (Pat O)) (cs : List Nat) (σ : Subst),
        (∀ s ∈ l, ∀ i σ σ', i < g.n → SubstLt g σ → σ' ∈ ematch g s i σ → PRep g σ' s i) →
        (∀ c ∈ cs, c < g.n) → SubstLt g σ → σ' ∈ ematchL g l cs σ →
        (∀ v j, σ.lookup v = some j → σ'.lookup v = some j) ∧ PRepL g σ' l cs := by
      intro l
      induction l with
      | nil =>
        intro cs σ _ _ hb h
        cases cs with
        | cons _ _ => simp [ematchL] at h
        | nil =>
          simp only [ematchL, List.mem_singleton] at h
          subst h
          exact ⟨fun _ _ h => h, trivial⟩
      | cons p l ihl =>
        intro cs σ hs hcs hb h
        cases cs with
        | nil => simp [ematchL] at h
        | cons c cs =>
          rw [ematchL, List.mem_flatMap] at h
          obtain ⟨σ1, h1, h2⟩ := h
          have m := ematch_ok hg p c σ σ1 (hcs c (by simp)) hb h1
          have mr := hs p (by simp) c σ σ1 (hcs c (by simp)) hb h1
          obtain ⟨k1, k2⟩ := ihl cs σ1 (fun s hs' => hs s (by simp [hs'])) (fun d hd => hcs d (by simp [hd])) m.bounded h2
          exact ⟨fun v j hv => k1 v j (m.ext v j hv), PRep.mono k1 p mr, k2⟩
    exact (key l e.1.children σ ih r.2 hb h).2

omit [Lang O] [LinearOrder C] in
theorem PRep.sub {g : EGraph O C} {σ : Subst} {q p : Pat O} (h : PatSub q p) : ∀ {i}, PRep g σ p i → ∃ j, PRep g σ q j := by
  induction h with
  | refl => intro i h; exact ⟨i, h⟩
  | arg hm _ ih =>
    rintro i ⟨e, _, _, _, h4⟩
    rw [PRepL_iff] at h4
    obtain ⟨c, _, hc⟩ := forall2_mem_left h4 hm
    exact ih hc

/-- Inserting a represented pattern into a closed e-graph changes nothing. -/
theorem addPat_rep {g : EGraph O C} {val : Nat → V} {ok : Signature O C → V → Prop} (hg : Inv ar I ok g val)
    (hc : g.closed = true) {σ : Subst} (p : Pat O) :
    ∀ {i}, PRep g σ p i → ∃ j, addPat D E σ p g = some (g, j) ∧ g.find j = g.find i := by
  induction p using Pat.ind with
  | hv v =>
    rintro i ⟨j, h1, h2⟩
    exact ⟨j, by rw [addPat, h1]; rfl, h2⟩
  | hn o l ih =>
    rintro i ⟨e, h1, h2, h3, h4⟩
    have key : ∀ (l : List (Pat O)) (cs : List Nat),
        (∀ s ∈ l, ∀ {i}, PRep g σ s i → ∃ j, addPat D E σ s g = some (g, j) ∧ g.find j = g.find i) →
        List.Forall₂ (PRep g σ) l cs →
        ∃ js, addPatL D E σ l g = some (g, js) ∧ js.map g.find = cs.map g.find := by
      intro l
      induction l with
      | nil =>
        intro cs _ h
        cases h
        exact ⟨[], by rw [addPatL], rfl⟩
      | cons a l ihl =>
        intro cs hs h
        cases h with
        | cons k1 k2 =>
          obtain ⟨j, j1, j2⟩ := hs a (by simp) k1
          obtain ⟨js, j3, j4⟩ := ihl _ (fun s hs' => hs s (by simp [hs'])) k2
          exact ⟨j :: js, by rw [addPatL, j1, Option.bind_some, j3]; rfl, by simp [j2, j4]⟩
    obtain ⟨js, j1, j2⟩ := key l _ ih ((PRepL_iff _ _ _ _).1 h4)
    have hl : g.lookup ⟨o, js⟩ = some (g.find e.2) :=
      closed_lookup hc h1 (by simp only [EGraph.canon, j2, h2])
    refine ⟨g.find e.2, ?_, ?_⟩
    · rw [addPat, j1, Option.bind_some]
      simp only [EGraph.add, addWith, hl]
    · rw [hg.idem, h3]

theorem addPatL_rep {g : EGraph O C} {val : Nat → V} {ok : Signature O C → V → Prop} (hg : Inv ar I ok g val)
    (hc : g.closed = true) {σ : Subst} (l : List (Pat O)) (h : ∀ p ∈ l, ∃ i, PRep g σ p i) :
    ∃ js, addPatL D E σ l g = some (g, js) := by
  induction l with
  | nil => exact ⟨[], by rw [addPatL]⟩
  | cons a l ih =>
    obtain ⟨i, hi⟩ := h a (by simp)
    obtain ⟨j, j1, _⟩ := addPat_rep (D := D) (E := E) hg hc a hi
    obtain ⟨js, j3⟩ := ih fun p hp => h p (by simp [hp])
    exact ⟨j :: js, by rw [addPatL, j1, Option.bind_some, j3]; rfl⟩

end Ruler
