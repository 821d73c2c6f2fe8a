import Verif.Proofs.ProgressRuns
import Verif.Proofs.Vectors
import Verif.Proofs.Analysis
/-! The analysis data of a run: intervals, vectors and expressions fit the value in every environment. -/
namespace Ruler
open Spec EGraph
variable {O C V : Type} [Lang O] [LinearOrder C]
variable {ar : O → Nat → Prop} {D : Domain O C} {E : Egg}

/-- The algebra of functions from environments to values. -/
def piAlg (I : O → List V → V) (o : O) (fs : List ((String → V) → V)) : (String → V) → V :=
  fun env => withVars env I o (fs.map fun f => f env)

/-- The arity relation restricted to some variables. -/
def arOn (ar : O → Nat → Prop) (Y : String → Prop) (o : O) (k : Nat) : Prop := ar o k ∧ ∀ x, Lang.toVar o = some x → Y x

omit [LinearOrder C] in
theorem TmOk.arOn {Y : String → Prop} {t : Tm O} (h : TmOk ar t) (hx : ∀ x, HasVar x t → Y x) :
    TmOk (Ruler.arOn ar Y) t := by
  induction t using Tm.ind with
  | hn o l ih =>
    cases h with
    | node ha hargs =>
      exact .node ⟨ha, fun x h => hx x (.here h)⟩ fun a hm => ih a hm (hargs a hm) fun x h => hx x (.there hm h)

omit [LinearOrder C] in
theorem TmOk.ofArOn {Y : String → Prop} {t : Tm O} (h : TmOk (Ruler.arOn ar Y) t) : TmOk ar t := by
  induction t using Tm.ind with
  | hn o l ih =>
    cases h with
    | node ha hargs => exact .node ha.1 fun a hm => ih a hm (hargs a hm)

omit [LinearOrder C] in
theorem PatOk.arOn {Y : String → Prop} {p : Pat O} (h : PatOk ar p) (hs : Schematic p) : PatOk (Ruler.arOn ar Y) p := by
  induction p using Pat.ind with
  | hv v => exact .var
  | hn o l ih =>
    cases h with
    | node ha hargs =>
      cases hs with
      | node ho hs =>
        exact .node ⟨ha, fun x h => by rw [ho] at h; cases h⟩ fun a hm => ih a hm (hargs a hm) (hs a hm)

omit [LinearOrder C] in
theorem fold_piAlg (I : O → List V → V) (t : Tm O) (env : String → V) :
    Tm.fold (piAlg I) t env = Tm.fold (withVars env I) t := by
  induction t using Tm.ind with
  | hn o l ih =>
    rw [Tm.fold_node, Tm.fold_node, piAlg, List.map_map]
    congr 1
    exact List.map_congr_left fun a ha => ih a ha

omit [LinearOrder C] in
theorem patVal_piAlg (I : O → List V → V) (ρ : String → (String → V) → V) (p : Pat O) (env : String → V) :
    patVal ρ (piAlg I) p env = patVal (fun v => ρ v env) (withVars env I) p := by
  induction p using Pat.ind with
  | hv v => rfl
  | hn o l ih =>
    rw [patVal, patVal, piAlg]
    congr 1
    have : ∀ l' : List (Pat O), (∀ a ∈ l', a ∈ l) →
        (patValL ρ (piAlg I) l').map (fun f => f env) = patValL (fun v => ρ v env) (withVars env I) l' := by
      intro l'
      induction l' with
      | nil => intro _; rfl
      | cons a l' ih' =>
        intro h
        rw [patValL, patValL, List.map_cons, ih a (h a (by simp)), ih' fun b hb => h b (by simp [hb])]
    exact this l fun _ h => h

omit [LinearOrder C] in
/-- A rule that holds, holds in the algebra of functions. -/
theorem Holds.piAlg {I : O → List V → V} {r : Rule O} (hr : GoodRule ar r) (h : Holds I r) : Holds (piAlg I) r := by
  intro ρ
  funext env
  rw [patVal_piAlg, patVal_piAlg]
  exact Holds.withVars hr.2.1 hr.2.2 h env _

/-- The vector has the right length, and at every position a sample of the value. -/
def CvOk (n : Nat) (tbl : List (String × CVec C)) (fits : Option C → V → Prop) (cv : CVec C) (f : (String → V) → V) : Prop :=
  cv.length = n ∧ ∀ j, j < n → ∀ env, SampleAt fits tbl j env → EntryFits n j fits cv (f env)

/-- The invariant. -/
def SafeOk (mem : Interval C → V → Prop) (fits : Option C → V → Prop) (n : Nat) (tbl : List (String × CVec C))
    (s : Signature O C) (f : (String → V) → V) : Prop :=
  (∀ env, mem s.interval (f env)) ∧ (RecExpr.run (fun _ (_ : List Unit) => ()) s.simplest).isSome ∧ CvOk n tbl fits s.cvec f

section
variable {I : O → List V → V} {mem : Interval C → V → Prop} {fits : Option C → V → Prop}

omit [LinearOrder C] in
theorem forall2_env {α : Type} {R : α → V → Prop} (l : List Nat) (f : Nat → α) (val : Nat → (String → V) → V)
    (env : String → V) (h : ∀ c ∈ l, R (f c) (val c env)) :
    List.Forall₂ R (l.map f) ((l.map val).map fun g => g env) := by
  rw [List.map_map]
  exact forall2_of_map R l f (fun c => val c env) h

/-- Variables in `X` are present; `Y` are the variables that may occur, and those which are not in `X` evaluate rightly. -/
theorem safeInv [Nonempty V] (hF : ∀ env, FoldsIn D ar (withVars env I) mem) (hP : PlainFolding D ar) (hv : VarOps (O := O) ar)
    (hl : LeafAr ar) {X : List String} {Y : String → Prop} {n : Nat} {tbl : List (String × CVec C)}
    (hT : NoFail D ar I mem fits)
    (hnode : ∀ j, j < n → ∀ (o : O) (args : List (CVec C)) (vs : List V) cv, Lang.toVar o = none → ar o vs.length →
      List.Forall₂ (EntryFits n j fits) args vs → D.eval n o args = some cv → EntryFits n j fits cv (I o vs))
    (hold : ∀ x ∈ X, ∀ args cv, D.eval n (Lang.mkVar x) args = some cv → cv = [])
    (hnew : ∀ x, Y x → x ∉ X → ∀ args cv, D.eval n (Lang.mkVar x) args = some cv → CvOk n tbl fits cv fun env => env x) :
    DataInvS ⟨some n, fun o => ∃ x ∈ X, o = Lang.mkVar x⟩ D (arOn ar Y) (piAlg I) (SafeOk mem fits n tbl) where
  leaf := by
    rintro o k ⟨x, hx, rfl⟩ ha
    exact (hv.2 _ x (hv.1 x).1).2 k ha.1
  make := by
    intro len nd get val s hlen' hp har hc hs
    obtain rfl := hlen' n rfl
    obtain ⟨h1, h2, h3⟩ := makeSig_some hs
    refine ⟨fun env => ?_, ?_, ?_⟩
    · exact (hF env).interval nd.op _ _ _ (by simpa using har.1)
        (forall2_env nd.children (fun i => (get i).interval) val env fun c hc' => (hc c hc').1 env) h2
    · rw [h3, mkSimplest_run (fun _ (_ : List Unit) => ()) nd _ (fun _ => ())
        (fun hv => List.eq_nil_of_length_eq_zero (hl _ _ har.1 hv))
        fun c hc' => by
          obtain ⟨u, hu⟩ := Option.isSome_iff_exists.1 (hc c hc').2.1
          exact hu]
      rfl
    · cases ho : Lang.toVar nd.op with
      | none =>
        refine ⟨?_, fun j hj env hs => ?_⟩
        · obtain ⟨cv, h4, h5⟩ := hT.eval len nd.op (nd.children.map fun i => (get i).cvec) (by simpa using har.1) (by
            intro a ha
            obtain ⟨c, hc', rfl⟩ := List.mem_map.1 ha
            exact (hc c hc').2.2.1)
          rw [h1, Option.some.injEq] at h4
          rw [h4]
          exact h5 ho
        · rw [piAlg, withVars, ho]
          exact hnode j hj nd.op _ _ _ ho (by simpa using har.1)
            (forall2_env nd.children (fun i => (get i).cvec) val env fun c hc' => (hc c hc').2.2.2 j hj env hs) h1
      | some x =>
        obtain ⟨e, -⟩ := hv.2 _ x ho
        have hx : x ∉ X := fun hx => hp ⟨x, hx, e⟩
        have : piAlg I nd.op (nd.children.map val) = fun env => env x := by
          funext env
          rw [piAlg, withVars, ho]
        rw [this]
        rw [e] at h1
        exact hnew x (har.2 x ho) hx _ _ h1
  again := by
    rintro len nd get val a s m hlen' ⟨x, hx, e⟩ har ha hs hm
    obtain rfl := hlen' n rfl
    obtain ⟨h1, h2, h3⟩ := makeSig_some hs
    obtain ⟨hm1, hm2, hm3⟩ := mergeSig_some hm
    have h0 : nd.children = [] := by
      rw [e] at har
      exact List.length_eq_zero_iff.1 ((hv.2 _ x (hv.1 x).1).2 _ har.1)
    have hcv := hold x hx _ _ (e ▸ h1)
    refine ⟨fun env => (hF env).join _ _ _ _ (ha.1 env) ?_ hm1, ?_, ?_, fun j hj env hs' => ?_⟩
    · refine (hF env).interval nd.op _ _ _ (by simpa using har.1) ?_ h2
      rw [h0]
      exact .nil
    · rcases hm2 with hm2 | hm2
      · rw [hm2]; exact ha.2.1
      · rw [hm2, h3, mkSimplest_run (fun _ (_ : List Unit) => ()) nd _ (fun _ => ()) (fun _ => h0) (by rw [h0]; simp)]
        rfl
    · obtain ⟨r, hr, e⟩ := Option.map_eq_some_iff.1 hm3
      rw [← e]
      rw [hcv] at hr
      simp only [mergeCvec, List.isEmpty_nil, Bool.not_true, Bool.and_false, Bool.false_eq_true, if_false,
        Option.some.injEq] at hr
      subst hr
      exact ha.2.2.1
    · exact mergeSig_fits (ha.2.2.2 j hj env hs') (Or.inl hcv) hm
  merge := by
    intro a b v m ha hb hm
    obtain ⟨hm1, hm2, hm3⟩ := mergeSig_some hm
    refine ⟨fun env => (hF env).join _ _ _ _ (ha.1 env) (hb.1 env) hm1, ?_, ?_, fun j hj env hs' =>
      mergeSig_fits (ha.2.2.2 j hj env hs') (Or.inr (hb.2.2.2 j hj env hs')) hm⟩
    · rcases hm2 with hm2 | hm2
      · rw [hm2]; exact ha.2.1
      · rw [hm2]; exact hb.2.1
    · obtain ⟨r, hr, e⟩ := Option.map_eq_some_iff.1 hm3
      rw [← e]
      unfold mergeCvec at hr
      split at hr
      · rw [(mergeCvecLoop_entry _ _ _ hr).1]; exact ha.2.2.1
      · cases hr; exact ha.2.2.1
  const := by
    intro s v c t hs hc ht
    have h1 := hs.1
    rw [hc] at h1
    refine ⟨?_, ?_⟩
    · obtain ⟨v0⟩ := ‹Nonempty V›
      exact TmOk.arOn ((hF fun _ => v0).const c _ t (h1 fun _ => v0) ht).1 fun x hx => absurd hx (hP.const c t ht x)
    · funext env
      rw [fold_piAlg]
      exact ((hF env).const c _ t (h1 env) ht).2
  custom := by intro nodes val i _ t ht; rw [hP.custom] at ht; cases ht
  varTerms := by intro x _ t ht; rw [hP.varTerms] at ht; cases ht

theorem simplestCost_run {e : RecExpr O} (h : (RecExpr.run (fun _ (_ : List Unit) => ()) e).isSome) :
    ∃ c, simplestCost e = some c := by
  refine Option.isSome_iff_exists.1 (simplestCost_isSome e ?_)
  rw [RecExpr.run_eq_tree] at h
  simpa using h

theorem mergeSig_total {a b : Signature O C} (h1 : ∃ r, mergeCvec a.cvec b.cvec = some r)
    (h2 : ∃ J, mergeInterval a.interval b.interval = some J) (h3 : ∃ c, simplestCost a.simplest = some c)
    (h4 : ∃ c, simplestCost b.simplest = some c) : ∃ m, mergeSig a b = some m := by
  obtain ⟨r, h1⟩ := h1
  obtain ⟨J, h2⟩ := h2
  obtain ⟨c, h3⟩ := h3
  obtain ⟨d, h4⟩ := h4
  unfold mergeSig
  simp [h1, h2, h3, h4]

/-- No step of the analysis fails. -/
theorem safeTotal [Nonempty V] (hF : ∀ env, FoldsIn D ar (withVars env I) mem) (hP : PlainFolding D ar)
    (hv : VarOps (O := O) ar)
    (hl : LeafAr ar) {X : List String} {Y : String → Prop} {n : Nat} {tbl : List (String × CVec C)}
    (hT : NoFail D ar I mem fits) (hpos : ∀ j, j < n → ∃ env : String → V, SampleAt fits tbl j env)
    (hold : ∀ x ∈ X, ∀ args cv, D.eval n (Lang.mkVar x) args = some cv → cv = []) :
    DataTotal ⟨some n, fun o => ∃ x ∈ X, o = Lang.mkVar x⟩ D (arOn ar Y) (piAlg I) (SafeOk mem fits n tbl) where
  make := by
    intro len nd get val hlen har hc
    obtain rfl := hlen n rfl
    obtain ⟨v0⟩ := ‹Nonempty V›
    obtain ⟨cv, h1, -⟩ := hT.eval len nd.op (nd.children.map fun i => (get i).cvec) (by simpa using har.1) (by
      intro a ha
      obtain ⟨c, hc', rfl⟩ := List.mem_map.1 ha
      exact (hc c hc').2.2.1)
    obtain ⟨J, h2⟩ := hT.interval nd.op _ _ (by simpa using har.1)
      (forall2_env nd.children (fun i => (get i).interval) val (fun _ => v0) fun c hc' => (hc c hc').1 _)
    unfold makeSig
    rw [h1, Option.bind_some, h2]
    exact ⟨_, rfl⟩
  merge := by
    intro a b f ha hb
    obtain ⟨v0⟩ := ‹Nonempty V›
    refine mergeSig_total (mergeCvec_succeeds (by rw [ha.2.2.1, hb.2.2.1]) ?_) (hT.join _ _ _ (ha.1 fun _ => v0) (hb.1 _))
      (simplestCost_run ha.2.1) (simplestCost_run hb.2.1)
    intro j x y hx hy
    have hj : j < n := by
      rw [← ha.2.2.1]
      exact (List.getElem?_eq_some_iff.1 hx).1
    obtain ⟨env, hs⟩ := hpos j hj
    obtain ⟨-, e, h1, h2⟩ := ha.2.2.2 j hj env hs
    obtain ⟨-, e', h3, h4⟩ := hb.2.2.2 j hj env hs
    rw [hx, Option.some.injEq] at h1
    rw [hy, Option.some.injEq] at h3
    subst h1 h3
    exact hT.sample x y _ h2 h4
  again := by
    rintro len nd get val a s hlen ⟨x, hx, e⟩ har ha hs
    obtain rfl := hlen n rfl
    obtain ⟨v0⟩ := ‹Nonempty V›
    obtain ⟨h1, h2, h3⟩ := makeSig_some hs
    have h0 : nd.children = [] := by
      rw [e] at har
      exact List.length_eq_zero_iff.1 ((hv.2 _ x (hv.1 x).1).2 _ har.1)
    have hcv := hold x hx _ _ (e ▸ h1)
    refine mergeSig_total ⟨(a.cvec, false, false), ?_⟩ (hT.join _ _ _ (ha.1 fun _ => v0) ?_) (simplestCost_run ha.2.1)
      (simplestCost_run ?_)
    · rw [hcv]
      simp [mergeCvec]
    · refine (hF _).interval nd.op _ _ _ (by simpa using har.1) ?_ h2
      rw [h0]
      exact .nil
    · rw [h3, mkSimplest_run (fun _ (_ : List Unit) => ()) nd _ (fun _ => ()) (fun _ => h0) (by rw [h0]; simp)]
      rfl
  const := by
    intro s f c hs hc
    obtain ⟨v0⟩ := ‹Nonempty V›
    have h1 := hs.1 fun _ => v0
    rw [hc] at h1
    exact hT.const c _ h1
  args := by
    rintro o args ⟨⟨c, hc⟩, hok, hpt⟩ a ha
    refine ⟨hT.args c o args hc (TmOk.ofArOn hok) a ha, ?_, hpt⟩
    cases hok with
    | node _ h => exact h a ha
  same := by
    rintro t t' ⟨⟨c, hc⟩, hok, -⟩ ⟨⟨c', hc'⟩, hok', -⟩ h
    refine hT.same c c' t t' hc hc' (TmOk.ofArOn hok) (TmOk.ofArOn hok') fun env => ?_
    have := congrFun h env
    rwa [fold_piAlg, fold_piAlg] at this
  custom := hP.custom
end

end Ruler
