import Verif.Proofs.Saturate
import Verif.Spec.Saturation
/-! Instances of the data invariant: no information, intervals, the stored expression. -/
namespace Ruler
open Spec EGraph
variable {O C V : Type} [Lang O] [LinearOrder C] {D : Domain O C} {ar : O → Nat → Prop}

omit [Lang O] in
theorem TmOk.any (t : Tm O) : TmOk (fun _ _ => True) t := by
  induction t using Tm.ind with
  | hn o l ih => exact .node trivial ih

omit [Lang O] in
theorem PatOk.any (p : Pat O) : PatOk (fun _ _ => True) p := by
  induction p using Pat.ind with
  | hv v => exact .var
  | hn o l ih => exact .node trivial ih

/-- In the one-element algebra everything holds: only growth is left. -/
theorem unitInv (D : Domain O C) : DataInv D (fun _ _ => True) (fun _ _ => ()) (fun _ _ => True) where
  leaf := fun _ _ h => h.elim
  again := fun _ _ _ _ _ _ _ _ h => h.elim
  make := by intros; trivial
  merge := by intros; trivial
  const := by
    intro s v c t _ _ _
    exact ⟨TmOk.any t, rfl⟩
  custom := by
    intro nodes val i _ t _
    exact ⟨TmOk.any t, rfl⟩
  varTerms := by
    intro x _ t _
    exact ⟨TmOk.any t, rfl⟩

omit [LinearOrder C] in
theorem makeSig_some {len : Nat} {nd : FNode O} {get : Nat → Signature O C} {s : Signature O C}
    (h : makeSig D len nd get = some s) :
    D.eval len nd.op (nd.children.map fun i => (get i).cvec) = some s.cvec ∧
      D.mkInterval nd.op (nd.children.map fun i => (get i).interval) = some s.interval ∧
      s.simplest = mkSimplest nd fun i => (get i).simplest := by
  unfold makeSig at h
  rw [Option.bind_eq_some_iff] at h
  obtain ⟨cv, h1, h⟩ := h
  rw [Option.map_eq_some_iff] at h
  obtain ⟨iv, h2, rfl⟩ := h
  exact ⟨h1, h2, rfl⟩

theorem mergeSig_some {a b : Signature O C} {m : Signature O C × Bool × Bool} (h : mergeSig a b = some m) :
    mergeInterval a.interval b.interval = some m.1.interval ∧
      (m.1.simplest = a.simplest ∨ m.1.simplest = b.simplest) ∧
      (mergeCvec a.cvec b.cvec).map Prod.fst = some m.1.cvec := by
  unfold mergeSig at h
  rw [Option.bind_eq_some_iff] at h
  obtain ⟨⟨cv, ca, cb⟩, hcv, h⟩ := h
  rw [Option.bind_eq_some_iff] at h
  obtain ⟨iv, hiv, h⟩ := h
  rw [Option.bind_eq_some_iff] at h
  obtain ⟨cf, hcf, h⟩ := h
  rw [Option.map_eq_some_iff] at h
  obtain ⟨ct, hct, rfl⟩ := h
  refine ⟨hiv, ?_, by simp [hcv]⟩
  by_cases hlt : cf < ct
  · simp [hlt]
  · simp [hlt]

theorem forall2_of_map {α β γ : Type} (R : β → γ → Prop) (l : List α) (f : α → β) (k : α → γ)
    (h : ∀ a ∈ l, R (f a) (k a)) : List.Forall₂ R (l.map f) (l.map k) := by
  induction l with
  | nil => exact .nil
  | cons a l ih => exact .cons (h a (by simp)) (ih fun b hb => h b (by simp [hb]))

/-- Intervals admit the value of the class. -/
theorem foldInv {I : O → List V → V} {mem : Interval C → V → Prop} (h : FoldsIn D ar I mem) :
    DataInv D ar I (fun s v => mem s.interval v) where
  leaf := fun _ _ h => h.elim
  again := fun _ _ _ _ _ _ _ _ h => h.elim
  make := by
    intro len nd get val s hlen hp har hc hs
    obtain ⟨_, h2, _⟩ := makeSig_some hs
    exact h.interval nd.op _ (nd.children.map val) _ (by simpa using har)
      (forall2_of_map mem nd.children (fun i => (get i).interval) val hc) h2
  merge := by
    intro a b v m ha hb hm
    exact h.join _ _ _ v ha hb (mergeSig_some hm).1
  const := by
    intro s v c t hs hc ht
    rw [hc] at hs
    exact h.const c v t hs ht
  custom := h.custom
  varTerms := fun x _ => h.varTerms x

/-- Without constant folding every algebra will do. -/
theorem NoFold.foldsIn (hD : NoFold D) (ar : O → Nat → Prop) (I : O → List V → V) :
    FoldsIn D ar I (fun J _ => J = ⟨none, none⟩) where
  interval := by
    intro o Js vs J _ _ h
    exact hD.1 o Js J h
  join := by
    intro a b c v ha hb h
    subst ha hb
    simp only [mergeInterval, maxLow, minHigh, Interval.new, Option.some.injEq] at h
    exact h.symm
  const := by
    intro c v t h
    cases h
  custom := by
    intro nodes val i _ t h
    rw [hD.2.1] at h
    cases h
  varTerms := by
    intro x t h
    rw [hD.2.2] at h
    cases h

section simplest
variable {A B : Type}

theorem foldBuf_append (f : A → List B → B) (a b : RecExpr A) (buf : List B) :
    RecExpr.foldBuf f (a ++ b) buf = (RecExpr.foldBuf f a buf).bind (RecExpr.foldBuf f b) := by
  induction a generalizing buf with
  | nil => rfl
  | cons n a ih =>
    rw [List.cons_append, RecExpr.foldBuf, RecExpr.foldBuf]
    cases n.children.mapM fun c => buf[c]? with
    | none => rfl
    | some args => simp only [Option.bind_some]; exact ih _

theorem foldBuf_length (f : A → List B → B) (a : RecExpr A) (buf out : List B)
    (h : RecExpr.foldBuf f a buf = some out) : out.length = buf.length + a.length ∧ ∃ l, out = buf ++ l := by
  induction a generalizing buf with
  | nil =>
    simp only [RecExpr.foldBuf, Option.some.injEq] at h
    subst h
    exact ⟨by simp, [], by simp⟩
  | cons n a ih =>
    rw [RecExpr.foldBuf, Option.bind_eq_some_iff] at h
    obtain ⟨args, _, h⟩ := h
    obtain ⟨h1, l, rfl⟩ := ih _ h
    refine ⟨?_, f n.op args :: l, by simp⟩
    simp only [List.length_append, List.length_cons, List.length_nil] at h1 ⊢
    omega

theorem mapM_shift (pre buf : List B) (cs : List Nat) :
    ((cs.map (· + pre.length)).mapM fun c => (pre ++ buf)[c]?) = cs.mapM fun c => buf[c]? := by
  induction cs with
  | nil => rfl
  | cons c cs ih =>
    rw [List.map_cons, List.mapM_cons, List.mapM_cons, ih]
    have : (pre ++ buf)[c + pre.length]? = buf[c]? := by
      rw [List.getElem?_append_right (by omega)]
      simp
    rw [this]

theorem foldBuf_shift (f : A → List B → B) (e : RecExpr A) (pre buf : List B) :
    RecExpr.foldBuf f (e.map fun n => ⟨n.op, n.children.map (· + pre.length)⟩) (pre ++ buf) =
      (RecExpr.foldBuf f e buf).map (pre ++ ·) := by
  induction e generalizing buf with
  | nil => rfl
  | cons n e ih =>
    rw [List.map_cons, RecExpr.foldBuf, RecExpr.foldBuf]
    simp only
    rw [mapM_shift]
    cases n.children.mapM fun c => buf[c]? with
    | none => rfl
    | some args =>
      simp only [Option.bind_some]
      rw [List.append_assoc]
      exact ih _

theorem mapM_some_iff {α β : Type} (l : List α) (f : α → Option β) (k : α → β) (h : ∀ a ∈ l, f a = some (k a)) :
    l.mapM f = some (l.map k) := by
  induction l with
  | nil => rfl
  | cons a l ih =>
    rw [List.mapM_cons, h a (by simp), ih fun b hb => h b (by simp [hb])]
    rfl

/-- The loop over the children keeps an evaluated prefix in which every seen child has its value. -/
theorem gather_ok (f : A → List B → B) (get : Nat → RecExpr A) (val : Nat → B) (cs : List Nat)
    (hc : ∀ c ∈ cs, RecExpr.run f (get c) = some (val c)) :
    ∀ (st : RecExpr A × List (Nat × Nat)) (buf : List B), RecExpr.foldBuf f st.1 [] = some buf →
      (∀ i p, st.2.lookup i = some p → buf[p]? = some (val i)) →
      ∃ buf', RecExpr.foldBuf f (cs.foldl (gather get) st).1 [] = some buf' ∧
        (∀ i p, (cs.foldl (gather get) st).2.lookup i = some p → buf'[p]? = some (val i)) ∧
        (∀ i, (i ∈ cs ∨ (st.2.lookup i).isSome) → ((cs.foldl (gather get) st).2.lookup i).isSome) := by
  induction cs with
  | nil =>
    intro st buf h1 h2
    exact ⟨buf, h1, h2, fun i hi => by simpa using hi⟩
  | cons c cs ih =>
    intro st buf h1 h2
    have hstep : ∃ buf1, RecExpr.foldBuf f (gather get st c).1 [] = some buf1 ∧
        (∀ i p, (gather get st c).2.lookup i = some p → buf1[p]? = some (val i)) ∧
        (∀ i, (i = c ∨ (st.2.lookup i).isSome) → ((gather get st c).2.lookup i).isSome) := by
      unfold gather
      cases hl : st.2.lookup c with
      | some p =>
        refine ⟨buf, h1, h2, ?_⟩
        rintro i (rfl | hi)
        · simp [hl]
        · exact hi
      | none =>
        have hr := hc c (by simp)
        rw [RecExpr.run, Option.bind_eq_some_iff] at hr
        obtain ⟨b, hb, hlast⟩ := hr
        have hlen := (foldBuf_length f _ _ _ h1).1
        simp only [List.length_nil, Nat.zero_add] at hlen
        have hblen := (foldBuf_length f _ _ _ hb).1
        simp only [List.length_nil, Nat.zero_add] at hblen
        have hne : b ≠ [] := by
          intro he
          simp [he] at hlast
        have hpos : 0 < b.length := List.length_pos_iff.2 hne
        simp only
        refine ⟨buf ++ b, ?_, ?_, ?_⟩
        · rw [foldBuf_append, h1, Option.bind_some, ← hlen]
          have := foldBuf_shift f (get c) buf []
          rw [List.append_nil, hb] at this
          exact this
        · intro i p hp
          rw [List.lookup_cons] at hp
          by_cases he : i == c
          · simp only [he, Option.some.injEq] at hp
            have hic : i = c := by simpa using he
            subst hic
            rw [← hp]
            simp only [List.length_append, List.length_map]
            rw [← hlen, ← hblen, List.getElem?_append_right (by omega)]
            rw [List.getLast?_eq_getElem?] at hlast
            rw [← hlast]
            congr 1
            omega
          · simp only [he] at hp
            have := h2 i p hp
            rw [List.getElem?_append_left (List.getElem?_eq_some_iff.1 this).1]
            exact this
        · rintro i (rfl | hi)
          · simp
          · rw [List.lookup_cons]
            by_cases he : i == c
            · simp [he]
            · simpa [he] using hi
    obtain ⟨buf1, k1, k2, k3⟩ := hstep
    obtain ⟨buf', l1, l2, l3⟩ := ih (fun d hd => hc d (by simp [hd])) (gather get st c) buf1 k1 k2
    refine ⟨buf', l1, l2, ?_⟩
    intro i hi
    rw [List.foldl_cons]
    apply l3
    simp only [List.mem_cons] at hi
    rcases hi with (rfl | hi) | hi
    · exact Or.inr (k3 i (Or.inl rfl))
    · exact Or.inl hi
    · exact Or.inr (k3 i (Or.inr hi))

end simplest

/-- The expression stored for a new node evaluates to the value of the node. -/
theorem mkSimplest_run (f : O → List V → V) (nd : FNode O) (get : Nat → RecExpr O) (val : Nat → V)
    (hleaf : ((Lang.toVar nd.op).isSome || Lang.isConst nd.op) = true → nd.children = [])
    (hc : ∀ c ∈ nd.children, RecExpr.run f (get c) = some (val c)) :
    RecExpr.run f (mkSimplest nd get) = some (f nd.op (nd.children.map val)) := by
  unfold mkSimplest
  split
  · rename_i h
    have hnil := hleaf h
    rw [RecExpr.run, RecExpr.foldBuf, hnil]
    rfl
  · obtain ⟨buf, h1, h2, h3⟩ := gather_ok f get val nd.children hc ([], []) [] rfl (by simp)
    simp only
    rw [RecExpr.run, foldBuf_append, h1, Option.bind_some, RecExpr.foldBuf]
    have : ((nd.children.map fun id => ((nd.children.foldl (gather get) ([], [])).2.lookup id).getD 0).mapM
        fun c => buf[c]?) = some (nd.children.map val) := by
      rw [List.mapM_map]
      refine mapM_some_iff _ _ _ fun c hc' => ?_
      obtain ⟨p, hp⟩ := Option.isSome_iff_exists.1 (h3 c (Or.inl hc'))
      simp only [Function.comp, hp, Option.getD_some]
      exact h2 c p hp
    simp only
    rw [this]
    simp [RecExpr.foldBuf]

/-- Intervals admit the value of the class and the stored expression evaluates to it. -/
theorem simplestInv {I : O → List V → V} {mem : Interval C → V → Prop} (h : FoldsIn D ar I mem) (hl : LeafAr ar) :
    DataInv D ar I (fun s v => mem s.interval v ∧ RecExpr.run I s.simplest = some v) where
  leaf := fun _ _ h => h.elim
  again := fun _ _ _ _ _ _ _ _ h => h.elim
  make := by
    intro len nd get val s hlen hp har hc hs
    refine ⟨(foldInv h).make len nd get val s hlen hp har (fun c hc' => (hc c hc').1) hs, ?_⟩
    obtain ⟨_, _, h3⟩ := makeSig_some hs
    rw [h3]
    exact mkSimplest_run I nd _ val (fun hv => List.eq_nil_of_length_eq_zero (hl _ _ har hv))
      fun c hc' => (hc c hc').2
  merge := by
    intro a b v m ha hb hm
    refine ⟨(foldInv h).merge a b v m ha.1 hb.1 hm, ?_⟩
    rcases (mergeSig_some hm).2.1 with he | he
    · rw [he]; exact ha.2
    · rw [he]; exact hb.2
  const := by
    intro s v c t hs hc ht
    exact (foldInv h).const s v c t hs.1 hc ht
  custom := h.custom
  varTerms := fun x _ => h.varTerms x

end Ruler
