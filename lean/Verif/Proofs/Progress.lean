import Verif.Proofs.Reach
/-! Operations on e-graphs that satisfy the invariant do not fail. -/
namespace Ruler
open Spec EGraph
variable {O C V : Type} [Lang O] [LinearOrder C]
variable {S : Side O} {ar : O → Nat → Prop} {I : O → List V → V} {ok : Signature O C → V → Prop} {D : Domain O C} {E : Egg}

/-- A constant term; only in domains where a class can be constant. -/
def Numeral (D : Domain O C) (ar : O → Nat → Prop) (ok : Signature O C → V → Prop) (t : Tm O) : Prop :=
  (∃ c, D.mkConst c = some t) ∧ TmOk ar t ∧ ∃ s v c, ok s v ∧ s.interval = ⟨some c, some c⟩

/-- What the analysis data must satisfy for making and merging it not to fail. -/
structure MakeTotal (S : Side O) (D : Domain O C) (ar : O → Nat → Prop) (I : O → List V → V)
    (ok : Signature O C → V → Prop) : Prop where
  make : ∀ len (nd : FNode O) (get : Nat → Signature O C) (val : Nat → V), (∀ n, S.len = some n → len = n) →
    ar nd.op nd.children.length → (∀ c ∈ nd.children, ok (get c) (val c)) → ∃ s, makeSig D len nd get = some s
  merge : ∀ a b v, ok a v → ok b v → ∃ m, mergeSig a b = some m
  again : ∀ len (nd : FNode O) (get : Nat → Signature O C) (val : Nat → V) a s, (∀ n, S.len = some n → len = n) →
    S.present nd.op → ar nd.op nd.children.length → ok a (I nd.op (nd.children.map val)) →
    makeSig D len nd get = some s → ∃ m, mergeSig a s = some m

/-- What the analysis data must satisfy for no step to fail, in a domain without a hook of its own. -/
structure DataTotal (S : Side O) (D : Domain O C) (ar : O → Nat → Prop) (I : O → List V → V)
    (ok : Signature O C → V → Prop) : Prop extends MakeTotal S D ar I ok where
  const : ∀ s v c, ok s v → s.interval = ⟨some c, some c⟩ → ∃ t, D.mkConst c = some t
  args : ∀ o args, Numeral D ar ok (.node o args) → ∀ a ∈ args, Numeral D ar ok a
  same : ∀ t t', Numeral D ar ok t → Numeral D ar ok t' → Tm.fold I t = Tm.fold I t' → t = t'
  custom : ∀ nodes i, D.custom nodes i = []

/-- The hook does not fail. -/
def ModTotal (S : Side O) (ar : O → Nat → Prop) (I : O → List V → V) (ok : Signature O C → V → Prop)
    (mod : EGraph O C → Nat → Option (EGraph O C)) : Prop :=
  ∀ g val i, InvS S ar I ok g val → i < g.n → ∃ g', mod g i = some g'

/-- Only nodes were added: nothing was united. -/
structure Appended (g g' : EGraph O C) : Prop where
  n_le : g.n ≤ g'.n
  find_eq : ∀ i, i < g.n → g'.find i = g.find i
  nodes : ∃ l, g'.nodes = g.nodes ++ l

omit [Lang O] [LinearOrder C] in
theorem Appended.refl (g : EGraph O C) : Appended g g := ⟨Nat.le_refl _, fun _ _ => rfl, [], by simp⟩

omit [Lang O] [LinearOrder C] in
theorem Appended.trans {g g' g'' : EGraph O C} (h : Appended g g') (h' : Appended g' g'') : Appended g g'' := by
  obtain ⟨l, hl⟩ := h.nodes
  obtain ⟨l', hl'⟩ := h'.nodes
  exact ⟨Nat.le_trans h.n_le h'.n_le, fun i hi => (h'.find_eq i (Nat.lt_of_lt_of_le hi h.n_le)).trans (h.find_eq i hi),
    l ++ l', by rw [hl', hl, List.append_assoc]⟩

mutual
/-- Adding a term that is there changes nothing. -/
theorem addTmWith_found (mod : EGraph O C → Nat → Option (EGraph O C)) {g : EGraph O C} :
    ∀ (t : Tm O) (i : Nat), g.lookupTm t = some i → addTmWith D mod t g = some (g, i)
  | .node o args, i, h => by
    rw [lookupTm, Option.bind_eq_some_iff] at h
    obtain ⟨ids, h1, h2⟩ := h
    rw [addTmWith, addTmWithL_found mod args ids h1, Option.bind_some]
    unfold addWith
    simp only [h2]
theorem addTmWithL_found (mod : EGraph O C → Nat → Option (EGraph O C)) {g : EGraph O C} :
    ∀ (l : List (Tm O)) (ids : List Nat), g.lookupTmL l = some ids → addTmWithL D mod l g = some (g, ids)
  | [], ids, h => by
    rw [lookupTmL] at h
    cases h
    rw [addTmWithL]
  | t :: l, ids, h => by
    rw [lookupTmL, Option.bind_eq_some_iff] at h
    obtain ⟨i, h1, h⟩ := h
    rw [Option.map_eq_some_iff] at h
    obtain ⟨is, h2, rfl⟩ := h
    rw [addTmWithL, addTmWith_found mod t i h1, Option.bind_some, addTmWithL_found mod l is h2]
    rfl
end

omit [Lang O] [LinearOrder C] in
theorem find?_append_some {α : Type} {p : α → Bool} {l m : List α} {a : α} (h : l.find? p = some a) :
    (l ++ m).find? p = some a := by
  rw [List.find?_append, h]
  rfl

omit [LinearOrder C] in
theorem Appended.lookup {g g' : EGraph O C} (h : Appended g g') {nd : FNode O} (hc : ∀ c ∈ nd.children, c < g.n) {i : Nat}
    (hlt : ∀ e ∈ g.nodes, e.2 < g.n) (hl : g.lookup nd = some i) : g'.lookup nd = some i := by
  unfold EGraph.lookup at hl ⊢
  rw [Option.map_eq_some_iff] at hl
  obtain ⟨e, he, rfl⟩ := hl
  have hcan : g'.canon nd = g.canon nd := by
    simp only [EGraph.canon, FNode.mk.injEq, true_and]
    exact List.map_congr_left fun c hc' => h.find_eq c (hc c hc')
  obtain ⟨l, hl⟩ := h.nodes
  rw [hcan, hl, find?_append_some he]
  simp [h.find_eq _ (hlt e (List.mem_of_find?_eq_some he))]

mutual
/-- What is found stays found. -/
theorem Appended.lookupTm {g g' : EGraph O C} {val : Nat → V} (hg : InvS S ar I ok g val) (h : Appended g g') :
    ∀ (t : Tm O) (i : Nat), g.lookupTm t = some i → g'.lookupTm t = some i
  | .node o args, i, ht => by
    rw [EGraph.lookupTm, Option.bind_eq_some_iff] at ht
    obtain ⟨ids, h1, h2⟩ := ht
    rw [EGraph.lookupTm, (Appended.lookupTmL hg h args ids h1).1, Option.bind_some]
    exact h.lookup (Appended.lookupTmL hg h args ids h1).2 (fun e he => (hg.nodes_lt e he).1) h2
theorem Appended.lookupTmL {g g' : EGraph O C} {val : Nat → V} (hg : InvS S ar I ok g val) (h : Appended g g') :
    ∀ (l : List (Tm O)) (ids : List Nat), g.lookupTmL l = some ids → g'.lookupTmL l = some ids ∧ ∀ c ∈ ids, c < g.n
  | [], ids, ht => by
    rw [EGraph.lookupTmL] at ht ⊢
    cases ht
    exact ⟨rfl, by simp⟩
  | t :: l, ids, ht => by
    rw [EGraph.lookupTmL, Option.bind_eq_some_iff] at ht
    obtain ⟨i, h1, ht⟩ := ht
    rw [Option.map_eq_some_iff] at ht
    obtain ⟨is, h2, rfl⟩ := ht
    have k1 := Appended.lookupTm hg h t i h1
    obtain ⟨k2, k3⟩ := Appended.lookupTmL hg h l is h2
    refine ⟨by rw [EGraph.lookupTmL, k1, Option.bind_some, k2]; rfl, ?_⟩
    intro c hc
    rcases List.mem_cons.1 hc with rfl | hc
    · exact Rep.lt hg (lookupTm_rep hg t _ h1).1
    · exact k3 c hc
end

omit [LinearOrder C] in
/-- A node just added is found. -/
theorem lookup_new {g : EGraph O C} {nd : FNode O} (s : Signature O C)
    (hc : ∀ c ∈ nd.children, c < g.n) (h : g.lookup nd = none) :
    EGraph.lookup { g with
        n := g.n + 1
        find := fun i => if i = g.n then g.n else g.find i
        nodes := g.nodes ++ [(g.canon nd, g.n)]
        data := fun i => if i = g.n then s else g.data i } nd = some g.n := by
  have hcan : EGraph.canon { g with
        n := g.n + 1
        find := fun i => if i = g.n then g.n else g.find i
        nodes := g.nodes ++ [(g.canon nd, g.n)]
        data := fun i => if i = g.n then s else g.data i } nd = g.canon nd := by
    simp only [EGraph.canon, FNode.mk.injEq, true_and]
    refine List.map_congr_left fun c hc' => ?_
    simp [Nat.ne_of_lt (hc c hc')]
  unfold EGraph.lookup at h ⊢
  rw [hcan]
  rw [Option.map_eq_none_iff] at h
  simp only
  rw [List.find?_append, h]
  simp

omit [LinearOrder C] in
theorem ModOk.id : ModOk S ar I ok (fun (g : EGraph O C) _ => some g) := by
  intro g val i g' hg _ h
  cases h
  exact ⟨val, hg, Ext.refl _ _⟩

/-- Adding a node succeeds if the hook does on the extended e-graph. -/
theorem addWith_total (hD : DataInvS S D ar I ok) (hT : MakeTotal S D ar I ok)
    {mod : EGraph O C → Nat → Option (EGraph O C)}
    {g : EGraph O C} {val : Nat → V} (hg : InvS S ar I ok g val) {nd : FNode O}
    (har : ar nd.op nd.children.length) (hc : ∀ c ∈ nd.children, c < g.n)
    (hmod : ∀ g1 val1, InvS S ar I ok g1 val1 → Appended g g1 → g1.n = g.n + 1 → g1.find g.n = g.n →
      val1 g.n = I nd.op (nd.children.map val) → g1.lookup nd = some g.n → (∀ i, i < g.n → val1 i = val i) →
      ∃ g', mod g1 g.n = some g') :
    ∃ g' i, addWith D mod g nd = some (g', i) := by
  cases hl : g.lookup nd with
  | some j => exact ⟨g, j, by unfold addWith; simp only [hl]⟩
  | none =>
    obtain ⟨s, hs⟩ := hT.make g.cvecLen (g.canon nd) g.dataOf val hg.side_len (by simpa [EGraph.canon] using har) (by
      intro c hc'
      simp only [EGraph.canon, List.mem_map] at hc'
      obtain ⟨d, hd, rfl⟩ := hc'
      exact hg.data_ok _ (hg.find_lt d (hc d hd)))
    have h1 : addWith D (fun g _ => some g) g nd = some ({ g with
        n := g.n + 1
        find := fun i => if i = g.n then g.n else g.find i
        nodes := g.nodes ++ [(g.canon nd, g.n)]
        data := fun i => if i = g.n then s else g.data i }, g.n) := by
      unfold addWith
      simp only [hl, hs, Option.bind_some, Option.map_some]
      simp
    obtain ⟨val1, hI1, hE1, _, _, hv1, _⟩ := addWith_ok hD ModOk.id hg har hc h1
    obtain ⟨g', hg'⟩ := hmod _ val1 hI1 ⟨Nat.le_succ _, fun i hi => by simp [Nat.ne_of_lt hi], _, rfl⟩ rfl (by simp) hv1
      (lookup_new s hc hl) hE1.val_eq
    refine ⟨g', g'.find g.n, ?_⟩
    unfold addWith
    simp only [hl, hs, Option.bind_some, hg', Option.map_some]

/-- The hook does nothing to a class that has its constant. -/
theorem modifyD_done (hD : DataInvS S D ar I ok) (hT : DataTotal S D ar I ok) {d : Nat} {g : EGraph O C}
    {val : Nat → V} (hg : InvS S ar I ok g val) {i : Nat} (hi : i < g.n) {t : Tm O} (ht : Numeral D ar ok t)
    (hv : val i = Tm.fold I t) {j : Nat} (hl : g.lookupTm t = some j) (hf : g.find i = g.find j) :
    modifyD D E (d + 1) g i = some g := by
  rw [modifyD, hT.custom, List.foldlM_nil]
  simp only [Option.pure_def, Option.bind_some]
  split
  · rename_i lo hi' hiv
    split
    · rename_i he
      subst he
      obtain ⟨t', ht'⟩ := hT.const _ _ lo (hg.data_ok i hi) hiv
      obtain ⟨hok, hv'⟩ := hD.const _ _ _ _ (hg.data_ok i hi) hiv ht'
      have := hT.same _ _ ⟨⟨lo, ht'⟩, hok, _, _, lo, hg.data_ok i hi, hiv⟩ ht (hv'.trans hv)
      subst this
      rw [ht', Option.bind_some, addUnionWith, addTmWith_found _ _ _ hl, Option.bind_some]
      simp only [unionWith, hf, if_true]
    · rfl
  · rfl

/-- Size of the constant term with a value, zero if there is none. -/
noncomputable def rank (D : Domain O C) (ar : O → Nat → Prop) (I : O → List V → V) (ok : Signature O C → V → Prop) (v : V) : Nat :=
  open Classical in if h : ∃ t, Numeral D ar ok t ∧ Tm.fold I t = v then sizeOf h.choose else 0

theorem rank_numeral (hT : DataTotal S D ar I ok) {t : Tm O} (ht : Numeral D ar ok t) : rank D ar I ok (Tm.fold I t) = sizeOf t := by
  have h : ∃ u, Numeral D ar ok u ∧ Tm.fold I u = Tm.fold I t := ⟨t, ht, rfl⟩
  rw [rank, dif_pos h]
  obtain ⟨hc, hv⟩ := h.choose_spec
  rw [hT.same _ _ hc ht hv]

/-- Adding a constant succeeds and unites nothing; the classes that are new stand for smaller constants, apart from its
own. -/
theorem addNumeral (hD : DataInvS S D ar I ok) (hT : DataTotal S D ar I ok) (d : Nat) (t : Tm O) :
    Numeral D ar ok t → TmOk ar t → ∀ (g : EGraph O C) val, InvS S ar I ok g val →
      ∃ g' i val', addTmWith D (modifyD D E (d + 1)) t g = some (g', i) ∧ Appended g g' ∧ g'.lookupTm t = some i ∧
        InvS S ar I ok g' val' ∧ (∀ k, k < g.n → val' k = val k) ∧
        ∀ k, g.n ≤ k → k < g'.n → g'.find k = k ∧ (k = i ∨ rank D ar I ok (val' k) < sizeOf t) := by
  induction t using Tm.ind with
  | hn o args ih =>
    intro hnum hok g val hg
    have hargs := hT.args o args hnum
    cases hok with
    | node har hok =>
    -- the arguments
    have hL : ∀ (l : List (Tm O)), (∀ a ∈ l, a ∈ args) → ∀ (g : EGraph O C) val, InvS S ar I ok g val →
        ∃ g' ids val', addTmWithL D (modifyD D E (d + 1)) l g = some (g', ids) ∧ Appended g g' ∧
          g'.lookupTmL l = some ids ∧ InvS S ar I ok g' val' ∧ (∀ k, k < g.n → val' k = val k) ∧
          (∀ c ∈ ids, c < g'.n) ∧ ids.map val' = l.map (Tm.fold I) ∧
          ∀ k, g.n ≤ k → k < g'.n → g'.find k = k ∧ rank D ar I ok (val' k) < sizeOf (Tm.node o args) := by
      intro l
      induction l with
      | nil =>
        exact fun _ g val hg => ⟨g, [], val, by rw [addTmWithL], Appended.refl _, by rw [lookupTmL], hg,
          fun _ _ => rfl, by simp, rfl, fun k h1 h2 => absurd h2 (by omega)⟩
      | cons a l ihl =>
        intro hl g val hg
        have ha := hl a (by simp)
        have hsz : sizeOf a < sizeOf (Tm.node o args) := by
          have := List.sizeOf_lt_of_mem ha
          simp only [Tm.node.sizeOf_spec]
          omega
        obtain ⟨g1, i, val1, h1, h2, h3, hI1, h4, h5⟩ := ih a ha (hargs a ha) (hok a ha) g val hg
        obtain ⟨g2, ids, val2, k1, k2, k3, hI2, k4, k5, k6, k7⟩ := ihl (fun b hb => hl b (by simp [hb])) g1 val1 hI1
        have hi1 : i < g1.n := Rep.lt hI1 (lookupTm_rep hI1 _ _ h3).1
        have hv1 : val1 i = Tm.fold I a := Rep.val hI1 a i hi1 (lookupTm_rep hI1 _ _ h3).1
        refine ⟨g2, i :: ids, val2, ?_, h2.trans k2, ?_, hI2, fun k hk => ?_, ?_, ?_, fun k hk hk' => ?_⟩
        · rw [addTmWithL, h1, Option.bind_some, k1]
          rfl
        · rw [lookupTmL, Appended.lookupTm hI1 k2 a i h3, Option.bind_some, k3]
          rfl
        · rw [k4 k (Nat.lt_of_lt_of_le hk h2.n_le), h4 k hk]
        · intro c hc
          rcases List.mem_cons.1 hc with rfl | hc
          · exact Nat.lt_of_lt_of_le hi1 k2.n_le
          · exact k5 c hc
        · rw [List.map_cons, List.map_cons, k6, k4 i hi1, hv1]
        · by_cases hk1 : k < g1.n
          · obtain ⟨m1, m2⟩ := h5 k hk hk1
            refine ⟨by rw [k2.find_eq k hk1, m1], ?_⟩
            rw [k4 k hk1]
            rcases m2 with rfl | m2
            · rw [hv1, rank_numeral hT (hargs a ha)]
              exact hsz
            · exact Nat.lt_trans m2 hsz
          · exact k7 k (not_lt.1 hk1) hk'
    obtain ⟨g1, ids, val1, h1, h2, h3, hI1, h4, hn1, hm1, h5⟩ := hL args (fun _ h => h) g val hg
    have hl1 : ids.length = args.length := by simpa using congrArg List.length hm1
    rw [addTmWith, h1, Option.bind_some]
    cases hlk : g1.lookup ⟨o, ids⟩ with
    | some j =>
      refine ⟨g1, j, val1, by unfold addWith; simp only [hlk], h2, ?_, hI1, h4, fun k hk hk' => ?_⟩
      · rw [lookupTm, h3, Option.bind_some, hlk]
      · obtain ⟨m1, m2⟩ := h5 k hk hk'
        exact ⟨m1, Or.inr m2⟩
    | none =>
      obtain ⟨s, hs⟩ := hT.make g1.cvecLen (g1.canon ⟨o, ids⟩) g1.dataOf val1 hI1.side_len
        (by simpa [EGraph.canon, hl1] using har) (by
          intro c hc'
          simp only [EGraph.canon, List.mem_map] at hc'
          obtain ⟨d, hd, rfl⟩ := hc'
          exact hI1.data_ok _ (hI1.find_lt d (hn1 d hd)))
      set g2 : EGraph O C := { g1 with
        n := g1.n + 1
        find := fun i => if i = g1.n then g1.n else g1.find i
        nodes := g1.nodes ++ [(g1.canon ⟨o, ids⟩, g1.n)]
        data := fun i => if i = g1.n then s else g1.data i } with hg2
      have h6 : addWith D (fun g _ => some g) g1 ⟨o, ids⟩ = some (g2, g1.n) := by
        unfold addWith
        simp only [hlk, hs, Option.bind_some, Option.map_some]
        simp [hg2]
      obtain ⟨val2, hI2, hE2, hlt2, hr2, hv2, _⟩ := addWith_ok hD ModOk.id hI1 (by simpa [hl1] using har) hn1 h6
      have hA : Appended g1 g2 := ⟨Nat.le_succ _, fun i hi => by simp [hg2, Nat.ne_of_lt hi], _, rfl⟩
      have hfound : g2.lookupTm (.node o args) = some g1.n := by
        rw [lookupTm, (Appended.lookupTmL hI1 hA args ids h3).1, Option.bind_some]
        exact lookup_new s hn1 hlk
      have hdone : modifyD D E (d + 1) g2 g1.n = some g2 := by
        refine modifyD_done hD hT hI2 hlt2 hnum ?_ hfound rfl
        rw [hv2, Tm.fold_node, hm1]
      refine ⟨g2, g1.n, val2, ?_, h2.trans hA, hfound, hI2, fun k hk => ?_, fun k hk hk' => ?_⟩
      · unfold addWith
        simp only [hlk, hs, Option.bind_some]
        rw [← hg2, hdone, Option.map_some, hr2]
      · rw [hE2.val_eq k (Nat.lt_of_lt_of_le hk h2.n_le), h4 k hk]
      · by_cases hk1 : k < g1.n
        · obtain ⟨m1, m2⟩ := h5 k hk hk1
          refine ⟨by rw [hA.find_eq k hk1, m1], Or.inr ?_⟩
          rw [hE2.val_eq k hk1]
          exact m2
        · have : k = g1.n := by
            have : k < g1.n + 1 := hk'
            omega
          exact ⟨by rw [this]; exact hr2, Or.inl this⟩

omit [LinearOrder C] in
/-- A lookup whose children are not involved finds the class it was united into. -/
theorem lookup_link {g g' : EGraph O C} {val : Nat → V} (hg : InvS S ar I ok g val) {r s : Nat} (hn : g'.nodes = g.nodes)
    (hf : g'.find = fun i => if g.find i = s then r else g.find i) {nd : FNode O}
    (hc : ∀ c ∈ nd.children, g.find c = c ∧ c ≠ s) {i : Nat} (h : g.lookup nd = some i) :
    g'.lookup nd = some (g'.find i) := by
  have hcan : g'.canon nd = g.canon nd := by
    simp only [EGraph.canon, FNode.mk.injEq, true_and]
    refine List.map_congr_left fun c hc' => ?_
    obtain ⟨h1, h2⟩ := hc c hc'
    rw [hf]
    simp [h1, h2]
  unfold EGraph.lookup at h ⊢
  rw [Option.map_eq_some_iff] at h
  obtain ⟨e, he, rfl⟩ := h
  rw [hcan, hn, he, Option.map_some, hf]
  simp [hg.idem]

/-- Parts of a constant have other values, so they are found as before when two classes with its value are united. -/
theorem lookup_part (hT : DataTotal S D ar I ok) {g g' : EGraph O C} {val : Nat → V} (hg : InvS S ar I ok g val)
    {r s : Nat} (hsn : s < g.n) (hn : g'.nodes = g.nodes) (hf : g'.find = fun i => if g.find i = s then r else g.find i)
    {t : Tm O} (ht : Numeral D ar ok t) (hv : val s = Tm.fold I t) (u : Tm O) : Numeral D ar ok u → sizeOf u < sizeOf t →
      ∀ i, g.lookupTm u = some i → g'.lookupTm u = some i ∧ g.find i = i ∧ i ≠ s := by
  induction u using Tm.ind with
  | hn o args ih =>
    intro hu hlt i hl
    have hargs := hT.args o args hu
    have hrep := lookupTm_rep hg _ i hl
    have hne : i ≠ s := by
      rintro rfl
      have h1 := Rep.val hg _ i hsn hrep.1
      have := hT.same _ _ hu ht (h1.symm.trans hv)
      subst this
      exact absurd hlt (Nat.lt_irrefl _)
    refine ⟨?_, hrep.2, hne⟩
    have hL : ∀ l : List (Tm O), (∀ a ∈ l, a ∈ args) → ∀ ids, g.lookupTmL l = some ids →
        g'.lookupTmL l = some ids ∧ ∀ c ∈ ids, g.find c = c ∧ c ≠ s := by
      intro l
      induction l with
      | nil =>
        intro _ ids h
        rw [lookupTmL] at h ⊢
        cases h
        exact ⟨rfl, by simp⟩
      | cons a l ihl =>
        intro hm ids h
        rw [lookupTmL, Option.bind_eq_some_iff] at h
        obtain ⟨j, h1, h⟩ := h
        rw [Option.map_eq_some_iff] at h
        obtain ⟨js, h2, rfl⟩ := h
        have ha := hm a (by simp)
        have hsz : sizeOf a < sizeOf t := by
          have := List.sizeOf_lt_of_mem ha
          simp only [Tm.node.sizeOf_spec] at hlt
          omega
        obtain ⟨k1, k2, k3⟩ := ih a ha (hargs a ha) hsz j h1
        obtain ⟨m1, m2⟩ := ihl (fun b hb => hm b (by simp [hb])) js h2
        refine ⟨by rw [lookupTmL, k1, Option.bind_some, m1]; rfl, ?_⟩
        intro c hc
        rcases List.mem_cons.1 hc with rfl | hc
        · exact ⟨k2, k3⟩
        · exact m2 c hc
    rw [lookupTm, Option.bind_eq_some_iff] at hl
    obtain ⟨ids, h1, h2⟩ := hl
    obtain ⟨m1, m2⟩ := hL args (fun _ h => h) ids h1
    rw [lookupTm, m1, Option.bind_some, lookup_link hg hn hf m2 h2, hf]
    simp [hrep.2, hne]

/-- A constant is still found after uniting two classes with its value. -/
theorem lookup_numeral (hT : DataTotal S D ar I ok) {g g' : EGraph O C} {val : Nat → V} (hg : InvS S ar I ok g val)
    {r s : Nat} (hsn : s < g.n) (hn : g'.nodes = g.nodes) (hf : g'.find = fun i => if g.find i = s then r else g.find i)
    {t : Tm O} (ht : Numeral D ar ok t) (hv : val s = Tm.fold I t) {i : Nat} (hl : g.lookupTm t = some i) :
    g'.lookupTm t = some (g'.find i) := by
  cases t with
  | node o args =>
  have hargs := hT.args o args ht
  have hL : ∀ l : List (Tm O), (∀ a ∈ l, a ∈ args) → ∀ ids, g.lookupTmL l = some ids →
      g'.lookupTmL l = some ids ∧ ∀ c ∈ ids, g.find c = c ∧ c ≠ s := by
    intro l
    induction l with
    | nil =>
      intro _ ids h
      rw [lookupTmL] at h ⊢
      cases h
      exact ⟨rfl, by simp⟩
    | cons a l ihl =>
      intro hm ids h
      rw [lookupTmL, Option.bind_eq_some_iff] at h
      obtain ⟨j, h1, h⟩ := h
      rw [Option.map_eq_some_iff] at h
      obtain ⟨js, h2, rfl⟩ := h
      have ha := hm a (by simp)
      have hsz : sizeOf a < sizeOf (Tm.node o args) := by
        have := List.sizeOf_lt_of_mem ha
        simp only [Tm.node.sizeOf_spec]
        omega
      obtain ⟨k1, k2, k3⟩ := lookup_part hT hg hsn hn hf ht hv a (hargs a ha) hsz j h1
      obtain ⟨m1, m2⟩ := ihl (fun b hb => hm b (by simp [hb])) js h2
      refine ⟨by rw [lookupTmL, k1, Option.bind_some, m1]; rfl, ?_⟩
      intro c hc
      rcases List.mem_cons.1 hc with rfl | hc
      · exact ⟨k2, k3⟩
      · exact m2 c hc
  rw [lookupTm, Option.bind_eq_some_iff] at hl
  obtain ⟨ids, h1, h2⟩ := hl
  obtain ⟨m1, m2⟩ := hL args (fun _ h => h) ids h1
  rw [lookupTm, m1, Option.bind_some, lookup_link hg hn hf m2 h2]

/-- Uniting two roots with the same value succeeds. -/
theorem link_total (hT : MakeTotal S D ar I ok) {g : EGraph O C} {val : Nat → V} (hg : InvS S ar I ok g val) {r s : Nat}
    (hr : g.find r = r) (hs : g.find s = s) (hrn : r < g.n) (hsn : s < g.n) (hv : val r = val s) :
    ∃ m, link g r s = some { g with
      find := fun i => if g.find i = s then r else g.find i
      data := fun i => if i = r then m else g.data i } := by
  have h1 := hg.data_ok r hrn
  have h2 := hg.data_ok s hsn
  rw [hr] at h1
  rw [hs, ← hv] at h2
  obtain ⟨m, hm⟩ := hT.merge _ _ _ h1 h2
  exact ⟨m.1, by rw [link, hm]; rfl⟩

/-- Uniting succeeds if the hook does on the united e-graph. -/
theorem unionWith_total (hD : DataInvS S D ar I ok) (hT : MakeTotal S D ar I ok)
    {mod : EGraph O C → Nat → Option (EGraph O C)} {g : EGraph O C} {val : Nat → V} (hg : InvS S ar I ok g val)
    {i j : Nat} (hi : i < g.n) (hj : j < g.n) (hv : val i = val j)
    (hmod : ∀ g1 r s, InvS S ar I ok g1 val → g1.n = g.n → g1.nodes = g.nodes → r < g.n → s < g.n → g.find s = s →
      g.find r = r → r ≠ s → val r = val i → val s = val i →
      g1.find = (fun k => if g.find k = s then r else g.find k) → g1.find i = r → g1.find j = r →
      ∃ g', mod g1 r = some g') :
    ∃ g', unionWith E mod g i j = some g' := by
  unfold unionWith
  by_cases he : g.find i = g.find j
  · exact ⟨g, by simp [he]⟩
  · simp only [he, if_false]
    have v1 := hg.val_find i hi
    have v2 := (hg.val_find j hj).trans hv.symm
    have n1 := hg.find_lt i hi
    have n2 := hg.find_lt j hj
    by_cases hk : E.keep (g.find i) (g.find j) = true
    · simp only [hk, if_true]
      obtain ⟨m, hm⟩ := link_total hT hg (hg.idem i) (hg.idem j) n1 n2 (v1.trans v2.symm)
      have := (link_ok hD hg (hg.idem i) (hg.idem j) n1 n2 he (v1.trans v2.symm) hm).1
      obtain ⟨g', hg'⟩ := hmod _ _ _ this rfl rfl n1 n2 (hg.idem j) (hg.idem i) he v1 v2 rfl (by simp [he]) (by simp)
      exact ⟨g', by rw [hm, Option.bind_some, hg']⟩
    · simp only [hk]
      obtain ⟨m, hm⟩ := link_total hT hg (hg.idem j) (hg.idem i) n2 n1 (v2.trans v1.symm)
      have := (link_ok hD hg (hg.idem j) (hg.idem i) n2 n1 (Ne.symm he) (v2.trans v1.symm) hm).1
      obtain ⟨g', hg'⟩ := hmod _ _ _ this rfl rfl n2 n1 (hg.idem i) (hg.idem j) (Ne.symm he) v2 v1 rfl (by simp)
        (by simp [Ne.symm he])
      exact ⟨g', by simp only [Bool.false_eq_true, if_false]; rw [hm, Option.bind_some, hg']⟩

/-- The hook never fails: it adds a constant, unites it, and then has nothing left to do. -/
theorem modifyD_total (hD : DataInvS S D ar I ok) (hT : DataTotal S D ar I ok) (d : Nat) :
    ModTotal S ar I ok (modifyD D E (d + 2)) := by
  intro g val i hg hi
  rw [modifyD, hT.custom, List.foldlM_nil]
  simp only [Option.pure_def, Option.bind_some]
  split
  · rename_i lo hi' hiv
    split
    · rename_i he
      subst he
      obtain ⟨t, ht⟩ := hT.const _ _ lo (hg.data_ok i hi) hiv
      obtain ⟨htok, htv⟩ := hD.const _ _ _ _ (hg.data_ok i hi) hiv ht
      rw [ht, Option.bind_some, addUnionWith]
      obtain ⟨g1, j, val1, h1, h2, h3, hI1, h4, h5⟩ := addNumeral (E := E) hD hT d t ⟨⟨lo, ht⟩, htok, _, _, lo, hg.data_ok i hi, hiv⟩ htok g val hg
      obtain ⟨val1, hI1, hE1, hj, hjr, hjv, _⟩ := addTmWith_ok hD (modifyD_ok hD _) t htok g val g1 j hg h1
      rw [h1, Option.bind_some]
      have hv : val1 i = val1 j := by rw [hE1.val_eq i hi, hjv, htv]
      refine unionWith_total hD hT.toMakeTotal hI1 (Nat.lt_of_lt_of_le hi h2.n_le) hj hv ?_
      intro g2 r s hI2 hn hnodes hrn hsn hs hr hne hvr hvs hf hfi hfj
      have hvr' : val1 r = Tm.fold I t := hvr.trans (hv.trans hjv)
      have hvs' : val1 s = Tm.fold I t := hvs.trans (hv.trans hjv)
      refine ⟨g2, modifyD_done hD hT hI2 (by rw [hn]; exact hrn) ⟨⟨lo, ht⟩, htok, _, _, lo, hg.data_ok i hi, hiv⟩ hvr'
        (lookup_numeral hT hI1 hsn hnodes hf ⟨⟨lo, ht⟩, htok, _, _, lo, hg.data_ok i hi, hiv⟩ hvs' h3) ?_⟩
      have hidem := hI2.idem j
      rw [hidem, hfj, hf]
      simp [hr, hne]
    · exact ⟨g, rfl⟩
  · exact ⟨g, rfl⟩

theorem modify_total (hD : DataInvS S D ar I ok) (hT : DataTotal S D ar I ok) (hE : 2 ≤ E.depth) :
    ModTotal S ar I ok (modify D E) := by
  obtain ⟨d, hd⟩ := Nat.exists_eq_add_of_le hE
  rw [EGraph.modify, hd, Nat.add_comm]
  exact modifyD_total hD hT d

/-- What is needed for no operation to fail: the hook does not fail, and rebuilding can be completed, if two calls fit on the
stack. -/
structure StepTotal (S : Side O) (D : Domain O C) (ar : O → Nat → Prop) (I : O → List V → V)
    (ok : Signature O C → V → Prop) : Prop extends MakeTotal S D ar I ok where
  mod : ∀ E : Egg, 2 ≤ E.depth → ModTotal S ar I ok (EGraph.modify D E)
  ends : ∀ E : Egg, 2 ≤ E.depth → ∀ (g : EGraph O C) (val : Nat → V), InvS S ar I ok g val →
    ∃ (steps : List Repair) (g' : EGraph O C), steps.foldlM (repair D E) g = some g' ∧ g'.closed = true

/-- `EGraph::add` does not fail. -/
theorem add_total (hD : DataInvS S D ar I ok) (hT : StepTotal S D ar I ok) (hE : 2 ≤ E.depth) {g : EGraph O C}
    {val : Nat → V} (hg : InvS S ar I ok g val) {nd : FNode O} (har : ar nd.op nd.children.length)
    (hc : ∀ c ∈ nd.children, c < g.n) : ∃ g' i, add D E g nd = some (g', i) :=
  addWith_total hD hT.toMakeTotal hg har hc fun g1 val1 hI1 _ hn _ _ _ _ =>
    hT.mod E hE g1 val1 _ hI1 (by rw [hn]; exact Nat.lt_succ_self _)

/-- `EGraph::union` of classes with the same value does not fail. -/
theorem union_total (hD : DataInvS S D ar I ok) (hT : StepTotal S D ar I ok) (hE : 2 ≤ E.depth) {g : EGraph O C}
    {val : Nat → V} (hg : InvS S ar I ok g val) {i j : Nat} (hi : i < g.n) (hj : j < g.n) (hv : val i = val j) :
    ∃ g', EGraph.union D E g i j = some g' :=
  unionWith_total hD hT.toMakeTotal hg hi hj hv fun g1 r s hI1 hn _ hr _ _ _ _ _ _ _ _ _ =>
    hT.mod E hE g1 val r hI1 (by rw [hn]; exact hr)

/-- `EGraph::add_expr` does not fail. -/
theorem addTm_total (hD : DataInvS S D ar I ok) (hT : StepTotal S D ar I ok) (hE : 2 ≤ E.depth) (t : Tm O) :
    TmOk ar t → ∀ (g : EGraph O C) val, InvS S ar I ok g val → ∃ g' i, addTm D E t g = some (g', i) := by
  induction t using Tm.ind with
  | hn o args ih =>
    intro hok g val hg
    cases hok with
    | node har hok =>
    have hL : ∀ (l : List (Tm O)), (∀ a ∈ l, a ∈ args) → ∀ (g : EGraph O C) val, InvS S ar I ok g val →
        ∃ g' ids, addTmWithL D (modify D E) l g = some (g', ids) := by
      intro l
      induction l with
      | nil => exact fun _ g val hg => ⟨g, [], by rw [addTmWithL]⟩
      | cons a l ihl =>
        intro hl g val hg
        have ha := hl a (by simp)
        obtain ⟨g1, i, h1⟩ := ih a ha (hok a ha) g val hg
        obtain ⟨val1, hI1, _⟩ := addTm_ok hD (hok a ha) hg h1
        obtain ⟨g2, ids, k1⟩ := ihl (fun b hb => hl b (by simp [hb])) g1 val1 hI1
        unfold addTm at h1
        exact ⟨g2, i :: ids, by rw [addTmWithL, h1, Option.bind_some, k1]; rfl⟩
    obtain ⟨g1, ids, h1⟩ := hL args (fun _ h => h) g val hg
    obtain ⟨val1, hI1, hE1, hl1, hn1, hm1, hf1⟩ :=
      accum_ok (addTmWith D (modify D E)) (addTmWithL D (modify D E)) (fun g => by rw [addTmWithL])
        (fun a l g => by rw [addTmWithL])
        (fun _ _ => True) (fun _ _ _ _ _ _ _ => trivial) (Tm.fold I) (fun g a i => Rep g a i)
        (fun g val g' val' a i hI hE hi hr => Rep.ext hI hE a i hi hr) args
        (fun a ha g val g' i hI _ hs => by
          obtain ⟨val', k1, k2, k3, _, k5, k6⟩ := addTmWith_ok hD (modify_ok hD) a (hok a ha) g val g' i hI hs
          exact ⟨val', k1, k2, k3, k5, k6⟩) g val g1 ids hg trivial h1
    obtain ⟨g2, i, h2⟩ := add_total (E := E) hD hT hE hI1 (nd := ⟨o, ids⟩) (by simpa [hl1] using har) hn1
    exact ⟨g2, i, by rw [addTm, addTmWith, h1, Option.bind_some]; exact h2⟩

/-- A step of `EGraph::rebuild` does not fail. -/
theorem repair_total (hD : DataInvS S D ar I ok) (hT : StepTotal S D ar I ok) (hE : 2 ≤ E.depth) {g : EGraph O C}
    {val : Nat → V} (hg : InvS S ar I ok g val) (r : Repair) : ∃ g', repair D E g r = some g' := by
  cases r with
  | congr i =>
    rw [repair]
    cases hn : g.nodes[i]? with
    | none => exact ⟨g, rfl⟩
    | some e =>
      obtain ⟨nd, c⟩ := e
      have hmem : (nd, c) ∈ g.nodes := List.mem_of_getElem? hn
      have rr := hg.nodes_lt _ hmem
      cases hf : (g.nodes.eraseIdx i).find? fun e => decide (e.1 = g.canon nd) with
      | none => exact ⟨_, by simp only [hf]; rfl⟩
      | some e' =>
        obtain ⟨nd', c'⟩ := e'
        simp only [hf]
        have hmem' := List.mem_of_find?_eq_some hf
        have heq : nd' = g.canon nd := by simpa using List.find?_some hf
        subst heq
        have hmem'' := List.mem_of_mem_eraseIdx hmem'
        have rr' := hg.nodes_lt _ hmem''
        have hI1 : InvS S ar I ok { g with nodes := g.nodes.eraseIdx i } val :=
          hg.setNodes _ (fun e he => Or.inl (List.mem_of_mem_eraseIdx he)) fun e he h0 => by
            rcases mem_eraseIdx_or _ i _ hn e he with he | rfl
            · exact ⟨e, he, rfl⟩
            · refine ⟨_, hmem', ?_⟩
              simp only at h0
              cases nd
              simp_all [EGraph.canon]
        have hv : val c' = val c := by
          have h1 := hg.val_node _ hmem
          have h2 := hg.val_node _ hmem''
          simp only [EGraph.canon] at h2
          rw [map_val_find hg _ rr.2] at h2
          exact h2.trans h1.symm
        exact union_total hD hT hE hI1 rr'.1 rr.1 hv
  | analyse i =>
    rw [repair]
    cases hn : g.nodes[i]? with
    | none => exact ⟨g, rfl⟩
    | some e =>
      obtain ⟨nd, c⟩ := e
      have hmem : (nd, c) ∈ g.nodes := List.mem_of_getElem? hn
      have rr := hg.nodes_lt _ hmem
      obtain ⟨s, hs⟩ := hT.make g.cvecLen nd g.dataOf val hg.side_len (hg.nodes_ar _ hmem)
        (fun d hd => hg.data_ok d (rr.2 d hd))
      have hm : ∃ m, mergeSig (g.dataOf c) s = some m := by
        by_cases hp : S.present nd.op
        · have ha := hg.data_ok c rr.1
          rw [hg.val_node _ hmem] at ha
          exact hT.again g.cvecLen nd g.dataOf val _ s hg.side_len hp (hg.nodes_ar _ hmem) ha hs
        · have hok1 := hD.make g.cvecLen nd g.dataOf val s hg.side_len hp (hg.nodes_ar _ hmem)
            (fun d hd => hg.data_ok d (rr.2 d hd)) hs
          rw [← hg.val_node _ hmem] at hok1
          exact hT.merge _ _ _ (hg.data_ok c rr.1) hok1
      obtain ⟨m, hm⟩ := hm
      have hok2 : ok m.1 (val c) := by
        by_cases hp : S.present nd.op
        · have ha := hg.data_ok c rr.1
          rw [hg.val_node _ hmem] at ha ⊢
          exact hD.again g.cvecLen nd g.dataOf val _ s m hg.side_len hp (hg.nodes_ar _ hmem) ha hs hm
        · have hok1 := hD.make g.cvecLen nd g.dataOf val s hg.side_len hp (hg.nodes_ar _ hmem)
            (fun d hd => hg.data_ok d (rr.2 d hd)) hs
          rw [← hg.val_node _ hmem] at hok1
          exact hD.merge _ _ _ _ (hg.data_ok c rr.1) hok1 hm
      simp only [hs, Option.bind_some, hm]
      split
      · refine hT.mod E hE _ val _ ?_ (hg.find_lt c rr.1)
        refine ⟨hg.find_lt, hg.find_ge, hg.idem, hg.nodes_lt, hg.nodes_ar, hg.val_find, hg.val_node, ?_, hg.side_len,
          hg.side_nodes⟩
        intro j hj
        by_cases he : g.find j = g.find c
        · simp only [he, if_true]
          have h1 := hg.val_find j hj
          have h2 := hg.val_find c rr.1
          rw [← h1, he, h2]
          exact hok2
        · simp only [he, if_false]
          exact hg.data_ok j hj
      · exact ⟨_, rfl⟩

end Ruler
