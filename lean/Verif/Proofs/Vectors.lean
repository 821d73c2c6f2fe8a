import Verif.Spec.Vectors
import Verif.Proofs.Reach
/-! The characteristic vectors of the classes stay right. -/
namespace Ruler
open Spec EGraph
variable {O C V : Type} [Lang O] [LinearOrder C]
variable {ar : O → Nat → Prop} {D : Domain O C} {E : Egg}

/-- The arity relation restricted to the variables in `X`. -/
def arIn (ar : O → Nat → Prop) (X : List String) (o : O) (k : Nat) : Prop := ar o k ∧ ∀ x, Lang.toVar o = some x → x ∈ X

omit [Lang O] in
theorem mergeCvecLoop_entry : ∀ (a b : CVec C) (r : CVec C × Bool × Bool), mergeCvecLoop a b = some r →
    r.1.length = a.length ∧ ∀ (j : Nat) x y, a[j]? = some x → b[j]? = some y → r.1[j]? = some x ∨ r.1[j]? = some y
  | [], _, r, h => by
    rw [mergeCvecLoop] at h
    cases h
    simp
  | _ :: _, [], _, h => by simp [mergeCvecLoop] at h
  | x :: a, y :: b, r, h => by
    have key : ∀ (z : Option C) (q : CVec C × Bool × Bool), mergeCvecLoop a b = some q → (z = x ∨ z = y) →
        (z :: q.1).length = (x :: a).length ∧
        ∀ (j : Nat) u v, (x :: a)[j]? = some u → (y :: b)[j]? = some v → (z :: q.1)[j]? = some u ∨ (z :: q.1)[j]? = some v := by
      intro z q hq hz
      obtain ⟨h1, h2⟩ := mergeCvecLoop_entry a b q hq
      refine ⟨by simp [h1], fun j u v hu hv => ?_⟩
      cases j with
      | zero =>
        simp only [List.getElem?_cons_zero, Option.some.injEq] at hu hv ⊢
        rcases hz with rfl | rfl
        · exact Or.inl hu
        · exact Or.inr hv
      | succ j =>
        simp only [List.getElem?_cons_succ] at hu hv ⊢
        exact h2 j u v hu hv
    cases x with
    | none =>
      cases y with
      | none =>
        rw [mergeCvecLoop] at h
        obtain ⟨q, hq, rfl⟩ := Option.map_eq_some_iff.1 h
        exact key none q hq (Or.inl rfl)
      | some d =>
        rw [mergeCvecLoop] at h
        obtain ⟨q, hq, rfl⟩ := Option.map_eq_some_iff.1 h
        exact key (some d) q hq (Or.inr rfl)
    | some c =>
      cases y with
      | none =>
        rw [mergeCvecLoop] at h
        obtain ⟨q, hq, rfl⟩ := Option.map_eq_some_iff.1 h
        exact key (some c) q hq (Or.inl rfl)
      | some d =>
        rw [mergeCvecLoop] at h
        split at h
        · obtain ⟨q, hq, rfl⟩ := Option.map_eq_some_iff.1 h
          exact key (some c) q hq (Or.inl rfl)
        · cases h

omit [Lang O] in
theorem mergeCvec_fits {n j : Nat} {fits : Option C → V → Prop} {a b : CVec C} {r : CVec C × Bool × Bool} {v : V}
    (ha : EntryFits n j fits a v) (hb : b = [] ∨ EntryFits n j fits b v) (h : mergeCvec a b = some r) :
    EntryFits n j fits r.1 v := by
  unfold mergeCvec at h
  split at h
  · rename_i hne
    rcases hb with rfl | hb
    · simp at hne
    · obtain ⟨h1, h2⟩ := mergeCvecLoop_entry a b r h
      obtain ⟨la, e, hea, fa⟩ := ha
      obtain ⟨lb, e', heb, fb⟩ := hb
      refine ⟨by rw [h1, la], ?_⟩
      rcases h2 j e e' hea heb with h | h
      · exact ⟨e, h, fa⟩
      · exact ⟨e', h, fb⟩
  · cases h
    exact ha

theorem mergeCvecLoop_succeeds : ∀ (a b : CVec C), a.length ≤ b.length →
    (∀ (j : Nat) x y, a[j]? = some (some x) → b[j]? = some (some y) → x = y) → ∃ r, mergeCvecLoop a b = some r
  | [], _, _, _ => by simp [mergeCvecLoop]
  | _ :: _, [], h, _ => by simp at h
  | x :: a, y :: b, h, he => by
    obtain ⟨r, hr⟩ := mergeCvecLoop_succeeds a b (by simpa using h) fun j x y h1 h2 => he (j + 1) x y (by simpa using h1) (by simpa using h2)
    cases x with
    | none => cases y <;> simp [mergeCvecLoop, hr]
    | some x =>
      cases y with
      | none => simp [mergeCvecLoop, hr]
      | some y =>
        have := he 0 x y (by simp) (by simp)
        simp [mergeCvecLoop, hr, this]

theorem mergeCvec_succeeds {a b : CVec C} (h : a.length = b.length)
    (he : ∀ (j : Nat) x y, a[j]? = some (some x) → b[j]? = some (some y) → x = y) : ∃ r, mergeCvec a b = some r := by
  unfold mergeCvec
  split
  · exact mergeCvecLoop_succeeds a b (by omega) he
  · exact ⟨_, rfl⟩

theorem mergeSig_fits {n j : Nat} {fits : Option C → V → Prop} {a b : Signature O C} {m : Signature O C × Bool × Bool}
    {v : V} (ha : EntryFits n j fits a.cvec v) (hb : b.cvec = [] ∨ EntryFits n j fits b.cvec v)
    (h : mergeSig a b = some m) : EntryFits n j fits m.1.cvec v := by
  obtain ⟨-, -, hc⟩ := mergeSig_some h
  obtain ⟨r, hr, e⟩ := Option.map_eq_some_iff.1 hc
  rw [← e]
  exact mergeCvec_fits ha hb hr

omit [LinearOrder C] in
/-- Well-sorted terms whose variables are in `X`. -/
theorem TmOk.arIn {X : List String} {t : Tm O} (h : TmOk ar t) (hx : ∀ x, HasVar x t → x ∈ X) :
    TmOk (Ruler.arIn ar X) t := by
  induction t using Tm.ind with
  | hn o l ih =>
    cases h with
    | node ha hargs =>
      exact .node ⟨ha, fun x h => hx x (.here h)⟩ fun a hm => ih a hm (hargs a hm) fun x h => hx x (.there hm h)

/-- The invariant: the interval admits the value, and position `j` of the vector holds a sample of it. -/
def VecOk (mem : Interval C → V → Prop) (n j : Nat) (fits : Option C → V → Prop) (s : Signature O C) (v : V) : Prop :=
  mem s.interval v ∧ EntryFits n j fits s.cvec v

/-- Variables in `X` are present; `Y` are the variables that may occur, and those which are not in `X` evaluate rightly. -/
theorem vecInv {I : O → List V → V} {mem : Interval C → V → Prop} {fits : Option C → V → Prop} {env : String → V}
    (hF : FoldsIn D ar (withVars env I) mem) (hP : PlainFolding D ar) (hv : VarOps (O := O) ar)
    {X Y : List String} {n j : Nat} (hj : j < n)
    (hnode : ∀ (o : O) (args : List (CVec C)) (vs : List V) cv, Lang.toVar o = none → ar o vs.length →
      List.Forall₂ (EntryFits n j fits) args vs → D.eval n o args = some cv → EntryFits n j fits cv (I o vs))
    (hold : ∀ x ∈ X, ∀ args cv, D.eval n (Lang.mkVar x) args = some cv → cv = [])
    (hnew : ∀ x ∈ Y, x ∉ X → ∀ args cv, D.eval n (Lang.mkVar x) args = some cv → EntryFits n j fits cv (env x)) :
    DataInvS ⟨some n, fun o => ∃ x ∈ X, o = Lang.mkVar x⟩ D (Ruler.arIn ar Y) (withVars env I) (VecOk mem n j fits) where
  leaf := by
    rintro o k ⟨x, hx, rfl⟩ ha
    exact (hv.2 _ x (hv.1 x).1).2 k ha.1
  make := by
    intro len nd get val s hlen hp har hc hs
    obtain rfl := hlen n rfl
    obtain ⟨h1, h2, -⟩ := makeSig_some hs
    refine ⟨hF.interval nd.op _ (nd.children.map val) _ (by simpa using har.1)
      (forall2_of_map mem nd.children (fun i => (get i).interval) val fun c hc' => (hc c hc').1) h2, ?_⟩
    cases ho : Lang.toVar nd.op with
    | none =>
      rw [withVars, ho]
      exact hnode nd.op _ (nd.children.map val) _ ho (by simpa using har.1)
        (forall2_of_map _ nd.children (fun i => (get i).cvec) val fun c hc' => (hc c hc').2) h1
    | some x =>
      obtain ⟨e, -⟩ := hv.2 _ x ho
      have hx : x ∉ X := fun hx => hp ⟨x, hx, e⟩
      rw [withVars, ho]
      rw [e] at h1
      exact hnew x (har.2 x ho) hx _ _ h1
  again := by
    rintro len nd get val a s m hlen ⟨x, hx, e⟩ har ha hs hm
    obtain rfl := hlen n rfl
    obtain ⟨h1, h2, -⟩ := makeSig_some hs
    obtain ⟨hm1, -, -⟩ := mergeSig_some hm
    have h0 : nd.children = [] := by
      rw [e] at har
      exact List.length_eq_zero_iff.1 ((hv.2 _ x (hv.1 x).1).2 _ har.1)
    refine ⟨hF.join _ _ _ _ ha.1 ?_ hm1, mergeSig_fits ha.2 (Or.inl (hold x hx _ _ (e ▸ h1))) hm⟩
    refine hF.interval nd.op _ (nd.children.map val) _ (by simpa using har.1) ?_ h2
    rw [h0]
    exact .nil
  merge := by
    intro a b v m ha hb hm
    exact ⟨hF.join _ _ _ v ha.1 hb.1 (mergeSig_some hm).1, mergeSig_fits ha.2 (Or.inr hb.2) hm⟩
  const := by
    intro s v c t hs hc ht
    have h1 := hs.1
    rw [hc] at h1
    obtain ⟨h2, h3⟩ := hF.const c v t h1 ht
    exact ⟨TmOk.arIn h2 fun x hx => absurd hx (hP.const c t ht x), h3⟩
  custom := by intro nodes val i _ t ht; rw [hP.custom] at ht; cases ht
  varTerms := by intro x _ t ht; rw [hP.varTerms] at ht; cases ht

/-- The domain with the right vector for one variable. -/
def setVar (D : Domain O C) (x : String) (cv : CVec C) : Domain O C :=
  { D with eval := fun len o args => if o = Lang.mkVar x then some cv else D.eval len o args }

theorem modify_id {g g' : EGraph O C} {i : Nat} (hc : ∀ nodes i, D.custom nodes i = [])
    (hi : ∀ c, (g.dataOf i).interval ≠ ⟨some c, some c⟩) (h : EGraph.modify D E g i = some g') : g' = g := by
  unfold EGraph.modify at h
  cases hd : E.depth with
  | zero => rw [hd, modifyD] at h; cases h
  | succ d =>
    rw [hd, modifyD, hc, List.foldlM_nil] at h
    simp only [pure, Option.bind_some] at h
    split at h
    · rename_i lo hi' hiv
      split at h
      · rename_i e
        subst e
        exact absurd hiv (hi lo)
      · exact (Option.some.inj h).symm
    · exact (Option.some.inj h).symm

/-- Initializing a new variable: as if its node had been added with the right vector. -/
theorem initVar_eq (hP : PlainFolding D ar) {g g' : EGraph O C} {x : String} {cv : CVec C}
    (hl : g.lookup ⟨Lang.mkVar x, []⟩ = none) (h : initVar D E g (x, cv) = some g') :
    addWith (setVar D x cv) (fun g _ => some g) g ⟨Lang.mkVar x, []⟩ = some (g', g.n) := by
  rw [initVar, Option.bind_eq_some_iff] at h
  obtain ⟨⟨g1, i⟩, h1, h2⟩ := h
  simp only [hP.varTerms, List.foldlM_nil] at h2
  cases h2
  unfold add addWith at h1
  simp only [hl] at h1
  obtain ⟨s, hs, h1⟩ := Option.bind_eq_some_iff.1 h1
  obtain ⟨g2, hm, h1⟩ := Option.map_eq_some_iff.1 h1
  simp only [Prod.mk.injEq] at h1
  obtain ⟨rfl, rfl⟩ := h1
  obtain ⟨e1, e2, e3⟩ := makeSig_some hs
  have hg2 := modify_id hP.custom (fun c => by
    simp only [EGraph.dataOf, if_true]
    exact hP.varInterval x _ c (by simpa [EGraph.canon] using e2)) hm
  subst hg2
  unfold addWith
  simp only [hl]
  have hs' : makeSig (setVar D x cv) g.cvecLen (g.canon ⟨Lang.mkVar x, []⟩) g.dataOf = some { s with cvec := cv } := by
    unfold makeSig setVar at *
    simp only [EGraph.canon, List.map_nil, if_true, Option.bind_some] at *
    obtain ⟨w, hw, hs⟩ := Option.bind_eq_some_iff.1 hs
    obtain ⟨iv, hiv, rfl⟩ := Option.map_eq_some_iff.1 hs
    rw [hiv]
    rfl
  rw [hs']
  simp only [Option.bind_some, Option.map_some, if_true, Option.some.injEq, Prod.mk.injEq, and_true]
  unfold EGraph.setCvec
  simp only [if_true, EGraph.mk.injEq, true_and, and_true]
  funext k
  by_cases hk : k = g.n <;> simp [hk]

omit [Lang O] [LinearOrder C] in
theorem InvS.mono {S : Side O} {ar ar' : O → Nat → Prop} {I : O → List V → V} {ok : Signature O C → V → Prop}
    (h : ∀ o k, ar o k → ar' o k) {g : EGraph O C} {val : Nat → V} (hg : InvS S ar I ok g val) : InvS S ar' I ok g val :=
  ⟨hg.find_lt, hg.find_ge, hg.idem, hg.nodes_lt, fun e he => h _ _ (hg.nodes_ar e he), hg.val_find, hg.val_node,
    hg.data_ok, hg.side_len, hg.side_nodes⟩

section
variable {I : O → List V → V} {mem : Interval C → V → Prop} {fits : Option C → V → Prop} {env : String → V}

/-- The invariant for the variables `X`. -/
abbrev VecInv (ar : O → Nat → Prop) (env : String → V) (I : O → List V → V) (mem : Interval C → V → Prop)
    (fits : Option C → V → Prop) (n j : Nat) (X : List String) (g : EGraph O C) (val : Nat → V) : Prop :=
  InvS ⟨some n, fun o => ∃ x ∈ X, o = Lang.mkVar x⟩ (arIn ar X) (withVars env I) (VecOk mem n j fits) g val

theorem initVar_vec (hF : FoldsIn D ar (withVars env I) mem) (hP : PlainFolding D ar) (hv : VarOps (O := O) ar)
    (hC : Computes D ar I fits) {n j : Nat} (hj : j < n) {X : List String} {x : String} {cv : CVec C} (hx : x ∉ X)
    (hcv : EntryFits n j fits cv (env x)) {g g' : EGraph O C} {val : Nat → V}
    (hg : VecInv ar env I mem fits n j X g val) (h : initVar D E g (x, cv) = some g') :
    ∃ val', VecInv ar env I mem fits n j (X ++ [x]) g' val' := by
  have hinj : ∀ a b, (Lang.mkVar a : O) = Lang.mkVar b → a = b := by
    intro a b e
    have := (hv.1 a).1
    rw [e, (hv.1 b).1] at this
    exact (Option.some.inj this).symm
  have hl : g.lookup ⟨Lang.mkVar x, []⟩ = none := by
    cases hl : g.lookup ⟨Lang.mkVar x, []⟩ with
    | none => rfl
    | some i =>
      obtain ⟨e, he, h1, -⟩ := lookup_some hl
      have := (hg.nodes_ar e he).2 x (by rw [h1]; exact (hv.1 x).1)
      exact absurd this hx
  have hadd := initVar_eq hP hl h
  have hF' : FoldsIn (setVar D x cv) ar (withVars env I) mem :=
    ⟨hF.interval, hF.join, hF.const, hF.custom, hF.varTerms⟩
  have hP' : PlainFolding (setVar D x cv) ar := ⟨hP.custom, hP.varTerms, hP.const, hP.varInterval⟩
  have hD := vecInv (X := X) (Y := X ++ [x]) hF' hP' hv hj (fits := fits)
    (by
      intro o args vs cv' ho har hf he
      have hne : o ≠ Lang.mkVar x := by
        rintro rfl
        rw [(hv.1 x).1] at ho
        cases ho
      exact hC.node n j o args vs cv' hj ho har hf (by simpa [setVar, hne] using he))
    (by
      intro y hy args cv' he
      have hne : (Lang.mkVar y : O) ≠ Lang.mkVar x := fun e => hx (hinj _ _ e ▸ hy)
      exact hC.var n _ args cv' (by rw [(hv.1 y).1]; rfl) (by simpa [setVar, hne] using he))
    (by
      intro y hy hy' args cv' he
      have : y = x := by
        rcases List.mem_append.1 hy with hy | hy
        · exact absurd hy hy'
        · simpa using hy
      subst this
      simp only [setVar, if_true, Option.some.injEq] at he
      exact he ▸ hcv)
  have hgm : InvS ⟨some n, fun o => ∃ x ∈ X, o = Lang.mkVar x⟩ (arIn ar (X ++ [x])) (withVars env I)
      (VecOk mem n j fits) g val := hg.mono fun o k ho => ⟨ho.1, fun y hy => by simp [ho.2 y hy]⟩
  obtain ⟨val', h1, -, -, -, -, e, he, k1, k2, -⟩ := addWith_ok hD
    (mod := fun g _ => some g) (fun g val i g' hI _ e => by cases e; exact ⟨val, hI, Ext.refl _ _⟩) hgm
    ⟨(hv.1 x).2, fun y hy => by rw [(hv.1 x).1] at hy; cases hy; simp⟩ (by simp) hadd
  refine ⟨val', ⟨h1.find_lt, h1.find_ge, h1.idem, h1.nodes_lt, h1.nodes_ar, h1.val_find, h1.val_node, h1.data_ok,
    h1.side_len, ?_⟩⟩
  rintro o ⟨y, hy, rfl⟩
  rcases List.mem_append.1 hy with hy | hy
  · exact h1.side_nodes _ ⟨y, hy, rfl⟩
  · obtain rfl : y = x := by simpa using hy
    refine ⟨e, he, ?_⟩
    obtain ⟨⟨op, ch⟩, c⟩ := e
    simp only [List.map_nil, List.map_eq_nil_iff] at k1 k2 ⊢
    rw [k1, k2]

theorem initVars_vec (hF : FoldsIn D ar (withVars env I) mem) (hP : PlainFolding D ar) (hv : VarOps (O := O) ar)
    (hC : Computes D ar I fits) {n j : Nat} (hj : j < n) (tbl : List (String × CVec C)) :
    ∀ (X : List String), (X ++ tbl.map Prod.fst).Nodup → (∀ p ∈ tbl, EntryFits n j fits p.2 (env p.1)) →
    ∀ (g g' : EGraph O C) (val : Nat → V), VecInv ar env I mem fits n j X g val → tbl.foldlM (initVar D E) g = some g' →
    ∃ val', VecInv ar env I mem fits n j (X ++ tbl.map Prod.fst) g' val' := by
  induction tbl with
  | nil => intro X _ _ g g' val hg h; cases h; exact ⟨val, by simpa using hg⟩
  | cons p tbl ih =>
    intro X hn hp g g' val hg h
    rw [List.foldlM_cons] at h
    obtain ⟨g1, h1, h2⟩ := Option.bind_eq_some_iff.1 h
    have hx : p.1 ∉ X := by
      intro hx
      have := (List.nodup_append.1 hn).2.2 p.1 hx p.1 (by simp)
      exact this rfl
    obtain ⟨val1, hg1⟩ := initVar_vec hF hP hv hC hj hx (hp p (by simp)) hg h1
    obtain ⟨val2, hg2⟩ := ih (X ++ [p.1]) (by simpa using hn) (fun q hq => hp q (by simp [hq])) g1 g' val1 hg1 h2
    exact ⟨val2, by simpa using hg2⟩

/-- Only the variables `X` occur. -/
theorem vecInv_plain (hF : FoldsIn D ar (withVars env I) mem) (hP : PlainFolding D ar) (hv : VarOps (O := O) ar)
    (hC : Computes D ar I fits) {n j : Nat} (hj : j < n) (X : List String) :
    DataInvS ⟨some n, fun o => ∃ x ∈ X, o = Lang.mkVar x⟩ D (arIn ar X) (withVars env I) (VecOk mem n j fits) :=
  vecInv hF hP hv hj (fun o args vs cv => hC.node n j o args vs cv hj)
    (fun x _ args cv => hC.var n _ args cv (by rw [(hv.1 x).1]; rfl)) fun x hx hx' => absurd hx hx'

omit [LinearOrder C] in
theorem hasVar_varNames {x : String} (t : Tm O) : HasVar x t → x ∈ Tm.varNames t := by
  have hL : ∀ (l : List (Tm O)) a, a ∈ l → x ∈ Tm.varNames a → x ∈ Tm.varNamesL l := by
    intro l
    induction l with
    | nil => intro a ha; cases ha
    | cons b l ih =>
      intro a ha hx
      rw [Tm.varNamesL, List.mem_append]
      rcases List.mem_cons.1 ha with rfl | ha
      · exact Or.inl hx
      · exact Or.inr (ih a ha hx)
  induction t using Tm.ind with
  | hn o l ih =>
    intro h
    rw [Tm.varNames, List.mem_append]
    cases h with
    | here ho => rw [ho]; simp
    | there ha hx => exact Or.inl (hL l _ ha (ih _ ha hx))

theorem dedupFold (l : List String) : ∀ (acc : List String), acc.Nodup →
    (l.foldl (fun vs v => if v ∈ vs then vs else vs ++ [v]) acc).Nodup ∧
    ∀ x, x ∈ l.foldl (fun vs v => if v ∈ vs then vs else vs ++ [v]) acc ↔ x ∈ acc ∨ x ∈ l := by
  induction l with
  | nil => intro acc h; exact ⟨h, by simp⟩
  | cons a l ih =>
    intro acc h
    rw [List.foldl_cons]
    split
    · rename_i hm
      obtain ⟨h1, h2⟩ := ih acc h
      refine ⟨h1, fun x => ?_⟩
      rw [h2 x, List.mem_cons]
      constructor
      · rintro (h | h)
        · exact Or.inl h
        · exact Or.inr (Or.inr h)
      · rintro (h | rfl | h)
        · exact Or.inl h
        · exact Or.inl hm
        · exact Or.inr h
    · rename_i hm
      obtain ⟨h1, h2⟩ := ih (acc ++ [a]) (by
        rw [List.nodup_append]
        refine ⟨h, by simp, ?_⟩
        intro x hx y hy
        simp only [List.mem_singleton] at hy
        subst hy
        exact fun e => hm (e ▸ hx))
      refine ⟨h1, fun x => ?_⟩
      rw [h2 x]
      simp [or_assoc]

omit [LinearOrder C] in
theorem collectVars_nodup (ts : List (Tm O)) : (collectVars ts).Nodup :=
  (dedupFold _ [] (by simp)).1

omit [LinearOrder C] in
theorem mem_collectVars {ts : List (Tm O)} {t : Tm O} (ht : t ∈ ts) {x : String} (hx : HasVar x t) :
    x ∈ collectVars ts :=
  ((dedupFold _ [] (by simp)).2 x).2 (Or.inr (List.mem_flatMap.2 ⟨t, ht, hasVar_varNames t hx⟩))

omit [LinearOrder C] in
theorem varNames_hasVar {x : String} (t : Tm O) : x ∈ Tm.varNames t → HasVar x t := by
  have hL : ∀ (l : List (Tm O)), x ∈ Tm.varNamesL l → ∃ a ∈ l, x ∈ Tm.varNames a := by
    intro l
    induction l with
    | nil => intro h; rw [Tm.varNamesL] at h; cases h
    | cons b l ih =>
      intro hx
      rw [Tm.varNamesL, List.mem_append] at hx
      rcases hx with hx | hx
      · exact ⟨b, by simp, hx⟩
      · obtain ⟨a, ha, h⟩ := ih hx
        exact ⟨a, by simp [ha], h⟩
  induction t using Tm.ind with
  | hn o l ih =>
    intro h
    rw [Tm.varNames, List.mem_append] at h
    rcases h with h | h
    · obtain ⟨a, ha, h⟩ := hL l h
      exact .there ha (ih a ha h)
    · cases ho : Lang.toVar o with
      | none => rw [ho] at h; cases h
      | some y =>
        rw [ho] at h
        cases List.mem_singleton.1 h
        exact .here ho

omit [LinearOrder C] in
theorem collectVars_spec (ts : List (Tm O)) : VarsOf ts (collectVars ts) := by
  refine ⟨collectVars_nodup ts, fun x => ⟨fun h => ?_, fun ⟨t, ht, hx⟩ => mem_collectVars ht hx⟩⟩
  rcases ((dedupFold _ [] (by simp)).2 x).1 h with h | h
  · cases h
  · obtain ⟨t, ht, hx⟩ := List.mem_flatMap.1 h
    exact ⟨t, ht, varNames_hasVar t hx⟩

/-- The e-graph of a list of terms. -/
theorem termsToEGraph_vec (hF : FoldsIn D ar (withVars env I) mem) (hP : PlainFolding D ar) (hv : VarOps (O := O) ar)
    (hC : Computes D ar I fits) {ts : List (Tm O)} (hts : ∀ t ∈ ts, TmOk ar t) {g : EGraph O C}
    {n : Nat} {tbl : List (String × CVec C)} (hinit : D.initVars (collectVars ts) = some (n, tbl))
    (hI : InitOk D) {j : Nat} (hj : j < n) (hs : SampleAt fits tbl j env) [Nonempty V]
    (h : termsToEGraph D E ts = some g) : ∃ val, VecInv ar env I mem fits n j (collectVars ts) g val := by
  rw [termsToEGraph, Option.bind_eq_some_iff] at h
  obtain ⟨g1, h1, h2⟩ := h
  obtain ⟨⟨g2, ids⟩, h3, rfl⟩ := Option.map_eq_some_iff.1 h2
  rw [initializeVars, hinit, Option.bind_some] at h1
  obtain ⟨hnames, hlen⟩ := hI _ n tbl (collectVars_nodup ts) hinit
  obtain ⟨v⟩ := ‹Nonempty V›
  have h0 : VecInv ar env I mem fits n j [] ({ EGraph.empty with cvecLen := n } : EGraph O C) (fun _ => v) :=
    ⟨fun _ h => absurd h (Nat.not_lt_zero _), fun _ _ => rfl, fun _ => rfl, by simp [EGraph.empty],
      by simp [EGraph.empty], fun _ h => absurd h (Nat.not_lt_zero _), by simp [EGraph.empty],
      fun _ h => absurd h (Nat.not_lt_zero _), fun m hm => Option.some.inj hm, fun o ⟨x, hx, _⟩ => by cases hx⟩
  obtain ⟨val1, hg1⟩ := initVars_vec hF hP hv hC hj tbl [] (by
      rw [List.nil_append, hnames]
      exact collectVars_nodup ts)
    (fun p hp => ⟨hlen p hp, hs p hp⟩) _ g1 _ h0 h1
  rw [List.nil_append, hnames] at hg1
  obtain ⟨val2, hg2, -⟩ := addTms_ok (vecInv_plain hF hP hv hC hj (collectVars ts)) ts
    (fun t ht => TmOk.arIn (hts t ht) fun x hx => mem_collectVars ht hx) hg1 h3
  exact ⟨val2, hg2⟩

omit [LinearOrder C] in
theorem PatOk.arIn {X : List String} {p : Pat O} (h : PatOk ar p) (hs : Schematic p) : PatOk (Ruler.arIn ar X) p := by
  induction p using Pat.ind with
  | hv v => exact .var
  | hn o l ih =>
    cases h with
    | node ha hargs =>
      cases hs with
      | node ho hs =>
        exact .node ⟨ha, fun x h => by rw [ho] at h; cases h⟩ fun a hm => ih a hm (hargs a hm) (hs a hm)

/-- The invariant is kept. -/
theorem Grows.vec (hF : FoldsIn D ar (withVars env I) mem) (hP : PlainFolding D ar) (hv : VarOps (O := O) ar)
    (hC : Computes D ar I fits) {n j : Nat} (hj : j < n) {X : List String} {R : Rule O → Prop}
    (hR : ∀ r, R r → GoodRule ar r ∧ Holds I r) {g g' : EGraph O C} {val : Nat → V}
    (hg : VecInv ar env I mem fits n j X g val) (h : Grows D ar R X g g') :
    ∃ val', VecInv ar env I mem fits n j X g' val' := by
  have hD := vecInv_plain hF hP hv hC hj X
  induction h with
  | refl => exact ⟨val, hg⟩
  | addTm _ ht hx h ih =>
    obtain ⟨val1, h1⟩ := ih
    obtain ⟨val2, h2, -⟩ := addTm_ok hD (TmOk.arIn ht hx) h1 h
    exact ⟨val2, h2⟩
  | rebuild _ h ih =>
    obtain ⟨val1, h1⟩ := ih
    obtain ⟨⟨val2, h2, -⟩, -⟩ := rebuild_ok hD h1 h
    exact ⟨val2, h2⟩
  | run _ hr h ih =>
    obtain ⟨val1, h1⟩ := ih
    obtain ⟨⟨val2, h2, -⟩, -⟩ := run_ok hD (fun r hm => by
      obtain ⟨⟨hk, hl, hr'⟩, hh⟩ := hR r (hr r hm)
      exact ⟨⟨PatOk.arIn hk.1 hl, PatOk.arIn hk.2 hr'⟩, Holds.withVars hl hr' hh env⟩) h1 h
    exact ⟨val2, h2⟩

omit [LinearOrder C] in
/-- No term of the e-graph has other variables. -/
theorem rep_vars {S : Side O} {X : List String} {I : O → List V → V} {ok : Signature O C → V → Prop} {g : EGraph O C}
    {val : Nat → V} (hg : InvS S (arIn ar X) I ok g val) {x : String} (t : Tm O) :
    ∀ i, Rep g t i → HasVar x t → x ∈ X := by
  have hL : ∀ (l : List (Tm O)) (is : List Nat), RepL g l is → ∀ a ∈ l, ∃ i, Rep g a i := by
    intro l
    induction l with
    | nil => intro is _ a ha; cases ha
    | cons b l ih =>
      intro is h a ha
      cases is with
      | nil => cases h
      | cons i is =>
        rcases List.mem_cons.1 ha with rfl | ha
        · exact ⟨i, h.1⟩
        · exact ih is h.2 a ha
  induction t using Tm.ind with
  | hn o l ih =>
    intro i ⟨e, h1, h2, h3, h4⟩ hx
    cases hx with
    | here ho => exact (hg.nodes_ar e h1).2 x (h2 ▸ ho)
    | there ha hx =>
      obtain ⟨k, hk⟩ := hL l _ h4 _ ha
      exact ih _ ha k hk hx
end

end Ruler
