import Verif.Proofs.SatEnds
import Verif.Props.Budget
import Verif.Props.Saturated
import Verif.Props.Candidates
import Verif.Spec.DomBool
/-!
# When saturation ends: C82
-/
namespace Ruler
open Spec EGraph
variable {O C : Type} [Lang O] [LinearOrder C] {D : Domain O C} {ar : O → Nat → Prop}

private theorem start_inv (hD : NoFold D) {g : EGraph O C} (hg : AnyHistory D g) (hl : g.cvecLen = 0)
    (hv : ∀ i, i < g.n → (g.dataOf i).cvec = []) : SInv g := by
  obtain ⟨val, hI⟩ := AnyHistory.free hD hg
  exact ⟨hI.find_lt, hI.find_ge, hI.idem, hI.nodes_lt, hI.nodes_ar, fun _ _ => rfl, fun _ _ => rfl,
    fun i hi => ⟨hI.data_ok i hi, hv i hi⟩, fun n hn => (by cases hn; exact hl), fun _ h => h.elim⟩

theorem sat_args (hD : NoFold D) (hv : VarsOk (O := O) ar) {rules : List (Rule O)}
    (hs : ∀ r ∈ rules, Schematic r.lhs ∧ Schematic r.rhs ∧ ∃ E steps, isSaturating D E steps r = some true) :
    ∀ r ∈ rules, ArgsOccur r.lhs r.rhs := by
  intro r hr
  obtain ⟨h1, h2, E, steps, h3⟩ := hs r hr
  exact (isSaturating_iff hD hv h1 h2 h3).1 rfl

/-- **C82.** Without constant folding, running rules that `is_saturating` classifies as saturating comes to an end: starting from a rebuilt e-graph without
samples, as in `can_derive`, the number of iterations that change something is bounded by a number that depends only on the number of ids and
the shapes of the rules. There are never more classes than in the beginning. Missing: constant folding, with which it is false (`C82_endless`). -/
theorem C82_ends_partial (hD : NoFold D) (hE : EmptyVectors D) (hv : VarsOk (O := O) ar) {rules : List (Rule O)}
    (hs : ∀ r ∈ rules, Schematic r.lhs ∧ Schematic r.rhs ∧ ∃ E steps, isSaturating D E steps r = some true) {g g' : EGraph O C}
    (hg : AnyHistory D g) (hc : g.closed = true) (hl : g.cvecLen = 0) (hvec : ∀ i, i < g.n → (g.dataOf i).cvec = []) {k : Nat}
    (hw : Works D (· ∈ rules) k g g') :
    k ≤ workBound rules g.n ∧ g'.numClasses ≤ g.numClasses ∧ ∀ i, i < g'.n → ∃ j, j < g.n ∧ g'.find j = g'.find i := by
  have hI := start_inv hD hg hl hvec
  obtain ⟨h1, h2, h3, h4, h5⟩ := works_bound hD hE (sat_args hD hv hs) hw hI hc ⟨Nat.le_refl g.n, fun i hi => ⟨i, hi, rfl⟩⟩
  have := known_le rules g.n g'
  exact ⟨by omega, oldIds_classes hI h3 h5, h5.2⟩

private theorem works_snoc {R : Rule O → Prop} {k l : Nat} {a b c : EGraph O C} (h : Works D R k a b) (h' : Works D R l b c) :
    Works D R (k + l) a c := by
  induction h with
  | stop => rw [Nat.zero_add]; exact h'
  | idle ha hb _ ih => exact .idle ha hb (ih h')
  | busy ha hne hb _ ih => rw [Nat.add_right_comm]; exact .busy ha hne hb (ih h')

private theorem runOne_works {E : Egg} {rules : List (Rule O)} {g g' : EGraph O C} {t : IterTrace} (h : runOne D E rules g t = some g') :
    ∃ k, Works D (· ∈ rules) k g g' := by
  obtain ⟨g1, h1, h2⟩ := runOne_applies (R := (· ∈ rules)) (fun _ h => h) h
  by_cases he : g1 = g
  · subst he
    exact ⟨0, .idle h1 h2 .stop⟩
  · exact ⟨1, .busy h1 he h2 .stop⟩

/-- **C82 (runs).** For `Runner::run` with any iteration limit — in particular with none, as in the saturating phases of `Scheduler::Saturating` —: however
many iterations the run takes, at most `workBound` of them change something. egg stops after the first one that does not. -/
theorem C82_run_partial (hD : NoFold D) (hE : EmptyVectors D) (hv : VarsOk (O := O) ar) {rules : List (Rule O)}
    (hs : ∀ r ∈ rules, Schematic r.lhs ∧ Schematic r.rhs ∧ ∃ E steps, isSaturating D E steps r = some true) {g g' : EGraph O C}
    (hg : AnyHistory D g) (hl : g.cvecLen = 0) (hvec : ∀ i, i < g.n → (g.dataOf i).cvec = []) {E : Egg} {limit : Nat} {t : RunTrace}
    (h : runRules D E limit rules t g = some g') :
    ∃ g1 k, EGraph.rebuild D E t.first g = some g1 ∧ Works D (· ∈ rules) k g1 g' ∧ k ≤ workBound rules g.n ∧ g'.numClasses ≤ g.numClasses := by
  unfold runRules at h
  rw [Option.bind_eq_some_iff] at h
  obtain ⟨g1, h1, h2⟩ := h
  have hI := start_inv hD hg hl hvec
  obtain ⟨⟨v, I1, E1⟩, hc⟩ := rebuild_ok (satInv hD hE) hI h1
  have hS := (rebuild_shrinks hD hI.free h1).2
  have key : ∀ (ts : List IterTrace) (a : EGraph O C), ts.foldlM (runOne D E rules) a = some g' → ∃ k, Works D (· ∈ rules) k a g' := by
    intro ts
    induction ts with
    | nil => intro a h; cases h; exact ⟨0, .stop⟩
    | cons t ts ih =>
      intro a h
      rw [List.foldlM_cons] at h
      obtain ⟨b, hb, h⟩ := Option.bind_eq_some_iff.1 h
      obtain ⟨k, hk⟩ := runOne_works hb
      obtain ⟨l, hl⟩ := ih b h
      exact ⟨k + l, works_snoc hk hl⟩
  obtain ⟨k, hk⟩ := key _ _ h2
  refine ⟨g1, k, h1, hk, ?_⟩
  obtain ⟨k1, k2, k3, k4, k5⟩ := works_bound hD hE (sat_args hD hv hs) hk I1 hc ⟨Nat.le_refl g1.n, fun i hi => ⟨i, hi, rfl⟩⟩
  have := known_le rules g1.n g'
  rw [← hS.n_eq]
  exact ⟨by omega, Nat.le_trans (oldIds_classes I1 k3 k5) hS.numClasses_le⟩

/-- A sequence of applications that ends where it began changed nothing on the way. -/
private theorem applies_idle (hD : NoFold D) (hE : EmptyVectors D) {R : Rule O → Prop} (hR : ∀ r, R r → ArgsOccur r.lhs r.rhs) {g h : EGraph O C}
    (hg : SInv g) (hc : g.closed = true) (ha : Applies D R g g h) (he : h = g) {r : Rule O} (hr : R r) {m : Nat × Subst}
    (hm : m ∈ g.search r.lhs) {E : Egg} {h1 : EGraph O C} (hap : applyOne D E r.rhs g m = some h1) (hrest : Applies D R g h1 h) : h1 = g := by
  by_contra hne
  obtain ⟨I1, E1, _⟩ := applyOne_old hD hE (hR _ hr) hg hg (Ext.refl _ _) hm hap
  obtain ⟨I2, E2, _⟩ := applies_old hD hE hR hg hrest I1 E1
  subst he
  rcases applyOne_change hD hE (hR _ hr) hg hc hm hap hne with ⟨i, j, hi, hj, h3, h4⟩ | ⟨o, args, cs, j, h3, h4, h5, h6, h7, h8⟩
  · exact h3 (E2.find_eq _ _ (Nat.lt_of_lt_of_le hi E1.n_le) (Nat.lt_of_lt_of_le hj E1.n_le) h4)
  · exact h7 (HasNode.ext I1 E2 (fun c hc' => Nat.lt_of_lt_of_le (h5 c hc') E1.n_le) (Nat.lt_of_lt_of_le h6 E1.n_le) h8)

theorem applies_of_jobs {E : Egg} {R : Rule O → Prop} {g h : EGraph O C} (ms : List (Rule O × (Nat × Subst))) :
    ∀ a : EGraph O C, (∀ x ∈ ms, R x.1 ∧ x.2 ∈ g.search x.1.lhs) →
      ms.foldlM (fun a x => applyOne D E x.1.rhs a x.2) a = some h → Applies D R g a h := by
  induction ms with
  | nil => intro a _ h; cases h; exact .refl
  | cons x ms ih =>
    intro a hx h
    rw [List.foldlM_cons] at h
    obtain ⟨b, hb, h⟩ := Option.bind_eq_some_iff.1 h
    exact .step (hx x (by simp)).1 (hx x (by simp)).2 hb (ih b (fun y hy => hx y (by simp [hy])) h)

/-- A sequence of applications of the matches `ms` of rules, in order. -/
private theorem jobs_idle (hD : NoFold D) (hE : EmptyVectors D) {E : Egg} {R : Rule O → Prop} (hR : ∀ r, R r → ArgsOccur r.lhs r.rhs) {g h : EGraph O C}
    (hg : SInv g) (hc : g.closed = true) (ms : List (Rule O × (Nat × Subst))) (hms : ∀ x ∈ ms, R x.1 ∧ x.2 ∈ g.search x.1.lhs)
    (hf : ms.foldlM (fun a x => applyOne D E x.1.rhs a x.2) g = some h) (he : h = g) :
    ∀ x ∈ ms, applyOne D E x.1.rhs g x.2 = some g := by
  induction ms with
  | nil => simp
  | cons x ms ih =>
    have hall := applies_of_jobs (x :: ms) g hms hf
    rw [List.foldlM_cons] at hf
    obtain ⟨b, hb, hf'⟩ := Option.bind_eq_some_iff.1 hf
    have hbg : b = g := applies_idle hD hE hR hg hc hall he (hms x (by simp)).1 (hms x (by simp)).2 hb
      (applies_of_jobs ms b (fun y hy => hms y (by simp [hy])) hf')
    subst hbg
    intro y hy
    rcases List.mem_cons.1 hy with rfl | hy
    · exact hb
    · exact ih (fun y hy => hms y (by simp [hy])) hf' y hy

/-- The applications of one iteration, as one list. -/
private theorem picked_flat {E : Egg} (jobs : List ((Rule O × List (Nat × Subst)) × List Nat)) :
    ∀ g : EGraph O C, jobs.foldlM (applyPicked D E) g =
      (jobs.flatMap fun j => (j.2.filterMap fun k => j.1.2[k]?).map fun m => (j.1.1, m)).foldlM (fun a x => applyOne D E x.1.rhs a x.2) g := by
  induction jobs with
  | nil => intro g; rfl
  | cons j jobs ih =>
    intro g
    rw [List.foldlM_cons, List.flatMap_cons, List.foldlM_append, List.foldlM_map]
    unfold applyPicked
    congr 1
    funext a
    exact ih a

/-- The applications of one iteration: matches of the rules, and all of them if none is left out. -/
theorem iteration_jobs {E : Egg} {rules : List (Rule O)} {g h : EGraph O C} {it : IterTrace}
    (h1 : ((rules.zip (rules.map fun r => g.search r.lhs)).zip it.picks).foldlM (applyPicked D E) g = some h) :
    ∃ ms : List (Rule O × (Nat × Subst)), (∀ x ∈ ms, x.1 ∈ rules ∧ x.2 ∈ g.search x.1.lhs) ∧
      ms.foldlM (fun a x => applyOne D E x.1.rhs a x.2) g = some h ∧
      (AllPicked rules g it → ∀ r ∈ rules, ∀ m ∈ g.search r.lhs, (r, m) ∈ ms) := by
  rw [picked_flat] at h1
  have hjob : ∀ j ∈ (rules.zip (rules.map fun r => g.search r.lhs)).zip it.picks, j.1.1 ∈ rules ∧ j.1.2 = g.search j.1.1.lhs := by
    intro j hj
    have h3 := (List.of_mem_zip hj).1
    refine ⟨(List.of_mem_zip h3).1, ?_⟩
    rw [List.zip_map_right] at h3
    obtain ⟨⟨a, b⟩, h4, h5⟩ := List.mem_map.1 h3
    have hab : a = b := by
      obtain ⟨i, hi, he⟩ := List.mem_iff_getElem.1 h4
      rw [List.getElem_zip] at he
      simp only [Prod.mk.injEq] at he
      exact he.1.symm.trans he.2
    rw [← h5]
    simp [hab]
  have hms : ∀ x ∈ (((rules.zip (rules.map fun r => g.search r.lhs)).zip it.picks).flatMap fun j =>
      (j.2.filterMap fun k => j.1.2[k]?).map fun m => (j.1.1, m)), x.1 ∈ rules ∧ x.2 ∈ g.search x.1.lhs := by
    intro x hx
    obtain ⟨j, hj, hx⟩ := List.mem_flatMap.1 hx
    obtain ⟨m, hm, rfl⟩ := List.mem_map.1 hx
    obtain ⟨i, _, hi⟩ := List.mem_filterMap.1 hm
    obtain ⟨h3, h4⟩ := hjob j hj
    exact ⟨h3, h4 ▸ List.mem_of_getElem? hi⟩
  refine ⟨_, hms, h1, fun hp r hrm m hm => ?_⟩
  obtain ⟨a, ha⟩ := List.mem_iff_getElem?.1 hrm
  obtain ⟨i, hi⟩ := List.mem_iff_getElem?.1 hm
  have hal : a < rules.length := by
    by_contra hlt
    rw [List.getElem?_eq_none (by omega)] at ha
    cases ha
  have hil : i < (g.search r.lhs).length := by
    by_contra hlt
    rw [List.getElem?_eq_none (by omega)] at hi
    cases hi
  have hps := List.getElem?_eq_getElem (l := it.picks) (i := a) (by rw [hp.1]; exact hal)
  refine List.mem_flatMap.2 ⟨((r, g.search r.lhs), it.picks[a]'(by rw [hp.1]; exact hal)), ?_, ?_⟩
  · refine List.mem_iff_getElem?.2 ⟨a, ?_⟩
    simp [List.getElem?_zip_eq_some, ha, hps]
  · exact List.mem_map.2 ⟨m, List.mem_filterMap.2 ⟨i, hp.2 a r _ ha hps i hil, hi⟩, rfl⟩

/-- **C82 (saturation).** If all matches are applied in every iteration, then the rules saturate within the bound: after at most `workBound` iterations
applying any of them to any match neither adds a class nor unites two. -/
theorem C82_saturates_partial (hD : NoFold D) (hE : EmptyVectors D) (hv : VarsOk (O := O) ar) {rules : List (Rule O)}
    (hs : ∀ r ∈ rules, Schematic r.lhs ∧ Schematic r.rhs ∧ ∃ E steps, isSaturating D E steps r = some true) {E : Egg}
    (gs : Nat → EGraph O C) (ts : Nat → IterTrace) (hg : AnyHistory D (gs 0)) (hc : (gs 0).closed = true) (hl : (gs 0).cvecLen = 0)
    (hvec : ∀ i, i < (gs 0).n → ((gs 0).dataOf i).cvec = [])
    (hrun : ∀ k, k ≤ workBound rules (gs 0).n → AllPicked rules (gs k) (ts k) ∧ runOne D E rules (gs k) (ts k) = some (gs (k + 1))) :
    ∃ k, k ≤ workBound rules (gs 0).n ∧ Saturated D E (· ∈ rules) (gs k) := by
  by_contra hno
  have hargs := sat_args hD hv hs
  have hI := start_inv hD hg hl hvec
  have hold : OldIds (gs 0).n (gs 0) := ⟨Nat.le_refl _, fun i hi => ⟨i, hi, rfl⟩⟩
  have key : ∀ k, k ≤ workBound rules (gs 0).n + 1 → Works D (· ∈ rules) k (gs 0) (gs k) := by
    intro k
    induction k with
    | zero => intro _; exact .stop
    | succ k ih =>
      intro hk
      have hw := ih (by omega)
      obtain ⟨_, Ik, _, ck, _⟩ := works_bound hD hE hargs hw hI hc hold
      obtain ⟨hp, hr⟩ := hrun k (by omega)
      unfold runOne at hr
      obtain ⟨g1, h1, h2⟩ := Option.bind_eq_some_iff.1 hr
      obtain ⟨ms, hms, h1', hin⟩ := iteration_jobs h1
      refine works_snoc hw (.busy (applies_of_jobs _ _ hms h1') ?_ h2 .stop)
      intro he
      apply hno
      refine ⟨k, by omega, ?_⟩
      intro r hrm m hm
      refine ⟨gs k, ?_, rfl, fun _ _ => rfl⟩
      exact jobs_idle hD hE hargs Ik ck ms hms h1' he (r, m) (hin hp r hrm m hm)
  have hw := key _ (Nat.le_refl _)
  obtain ⟨h1, _⟩ := works_bound hD hE hargs hw hI hc hold
  have := known_le rules (gs 0).n (gs (workBound rules (gs 0).n + 1))
  omega

-- Commutativity on `(+ a b)`: the first iteration adds the node `(+ b a)`, the second one changes nothing; the e-graph has three ids.
example : ∃ (g g' : EGraph PredOp Int) (t : RunTrace), AnyHistory halideDomain g ∧ runRules halideDomain Sample.egg 5 [Sample.predComm] t g = some g' ∧
    g.nodes.length = 3 ∧ g'.nodes.length = 4 ∧ Saturated halideDomain Sample.egg (· ∈ [Sample.predComm]) g' ∧
    ∃ k, ∃ g1, Works halideDomain (· ∈ [Sample.predComm]) k g1 g' ∧ k ≤ 36 := by
  have h : ((deriveStart halideDomain Sample.egg .lhs Sample.predComm.lhs.instantiate Sample.predComm.rhs.instantiate).any fun g =>
      decide (g.n = 3) && decide (g.cvecLen = 0) && decide (∀ i, i < g.n → ((g.dataOf i).cvec).length = 0) && decide (g.nodes.length = 3) &&
      (runRules halideDomain Sample.egg 5 [Sample.predComm] ⟨[], [⟨[[0]], [.congr 3]⟩, ⟨[[0, 1]], []⟩]⟩ g).any fun g' =>
        decide (g'.nodes.length = 4) && saturatedB halideDomain Sample.egg [Sample.predComm] g') = true := by decide +kernel
  rw [Option.any_eq_true] at h
  obtain ⟨g, hg, h⟩ := h
  simp only [Bool.and_eq_true, decide_eq_true_eq, Option.any_eq_true] at h
  obtain ⟨⟨⟨⟨h1, h2⟩, h3⟩, h4⟩, g', h5, h6, h7⟩ := h
  have hreach : AnyHistory halideDomain g := deriveStart_reach (TmOk.any _) (TmOk.any _) hg
  have hgood := Sample.pred_good Sample.predComm (by simp [Sample.predRules, Ruleset.iter])
  obtain ⟨g1, k, _, hw, hk, _⟩ := C82_run_partial halide_noFold (C79_domains (fun _ _ => 0) 4 Sample.exactRat).2.2.2.1
    (ar := fun (o : PredOp) k => k = o.arity) (fun _ => ⟨rfl, rfl⟩) (rules := [Sample.predComm])
    (by
      intro r hr
      rcases List.mem_singleton.1 hr with rfl
      exact ⟨hgood.2.1, hgood.2.2, Sample.egg, [], by decide +kernel⟩) hreach h2 (fun i hi => List.eq_nil_of_length_eq_zero (h3 i hi)) h5
  refine ⟨g, g', _, hreach, h5, h4, h6, saturatedB_ok h7, k, g1, hw, ?_⟩
  rw [h1] at hk
  simpa [workBound, rootArity, Sample.predComm] using hk

/-! ## With constant folding -/

/-- An algebra that tells negations of a variable apart: truth values, and a number of negations of something that is not a truth value. -/
private def opNot : Bool ⊕ Nat → Bool ⊕ Nat
  | .inl b => .inl (!b)
  | .inr n => .inr (n + 1)
private def opAnd : Bool ⊕ Nat → Bool ⊕ Nat → Bool ⊕ Nat
  | .inl true, .inl true => .inl true
  | _, _ => .inl false
private def opOr : Bool ⊕ Nat → Bool ⊕ Nat → Bool ⊕ Nat
  | .inl true, _ => .inl true
  | _, .inl true => .inl true
  | _, _ => .inl false
private def opXor : Bool ⊕ Nat → Bool ⊕ Nat → Bool ⊕ Nat
  | .inl a, .inl b => .inl (a != b)
  | _, _ => .inl false
private def endAlg : BoolOp → List (Bool ⊕ Nat) → Bool ⊕ Nat
  | .lit c, _ => .inl c
  | .var _, _ => .inr 0
  | .not, [x] => opNot x
  | .and, [x, y] => opAnd x y
  | .or, [x, y] => opOr x y
  | .xor, [x, y] => opXor x y
  | .implies, [x, y] => opOr (opNot x) y
  | _, _ => .inl false

private def endMem (J : Interval Bool) (v : Bool ⊕ Nat) : Prop :=
  J = ⟨some false, some true⟩ ∨ ∃ c, J = ⟨some c, some c⟩ ∧ v = .inl c

private theorem end_folds : FoldsIn boolDomain (fun _ _ => True) endAlg endMem where
  interval := by
    intro o Js vs J _ hm h
    change BoolOp.mkInterval o Js = some J at h
    rcases hm with _ | ⟨m1, _ | ⟨m2, _ | _⟩⟩
    · cases o <;> simp [BoolOp.mkInterval, Interval.new] at h
      · subst h; exact .inr ⟨_, rfl, rfl⟩
      · subst h; exact .inl rfl
    · cases o <;> simp only [BoolOp.mkInterval, reduceCtorEq] at h
      rcases m1 with rfl | ⟨c, rfl, rfl⟩
      · cases h; exact .inl rfl
      · cases c <;> (cases h; exact .inr ⟨_, rfl, rfl⟩)
    · rename_i J1 v1 J2 v2
      cases o <;> simp only [BoolOp.mkInterval, reduceCtorEq] at h <;>
        rcases m1 with rfl | ⟨c, rfl, rfl⟩ <;> rcases m2 with rfl | ⟨d, rfl, rfl⟩ <;> (try cases c) <;> (try cases d) <;> cases h <;>
        first
          | exact .inl rfl
          | exact .inr ⟨_, rfl, rfl⟩
          | (rcases v1 with ⟨_ | _⟩ | _ <;> exact .inr ⟨_, rfl, rfl⟩)
    · cases o <;> simp [BoolOp.mkInterval] at h
  join := by
    intro a b c v ha hb h
    rcases ha with rfl | ⟨x, rfl, rfl⟩ <;> rcases hb with rfl | ⟨y, rfl, hy⟩ <;> (try cases x) <;> (try cases y) <;>
      first
        | (cases hy; done)
        | (cases h; exact .inl rfl)
        | (cases h; exact .inr ⟨_, rfl, rfl⟩)
        | (cases h; exact .inr ⟨_, rfl, hy⟩)
  const := by
    intro c v t hm h
    cases h
    rcases hm with h | ⟨d, h, rfl⟩
    · cases c <;> cases h
    · cases h
      exact ⟨TmOk.any _, rfl⟩
  custom := by
    intro nodes val i _ t ht
    cases ht
  varTerms := by
    intro x t ht
    cases ht

private theorem end_holds : RuleOk (fun _ _ => True) endlessRule ∧ Holds endAlg endlessRule := by
  refine ⟨⟨PatOk.any _, PatOk.any _⟩, fun ρ => ?_⟩
  simp only [endlessRule, patVal, patValL, endAlg]
  have h1 : ∀ v, opAnd v (.inl false) = .inl false := by rintro (⟨_ | _⟩ | _) <;> rfl
  have h2 : ∀ v, opXor v v = .inl false := by rintro (⟨_ | _⟩ | _) <;> rfl
  rw [h1, h1, h2]
  rfl

/-- `k` negations of a variable. -/
private def negs (x : String) : Nat → Tm BoolOp
  | 0 => .node (.var x) []
  | k + 1 => .node .not [negs x k]

private theorem negs_val (x : String) (k : Nat) : Tm.fold endAlg (negs x k) = .inr k := by
  induction k with
  | zero => rfl
  | succ k ih => rw [negs, Tm.fold_node, List.map_cons, ih]; rfl

/-- The term `(^ (& a false) (^ b b))`. -/
private def endTm (a b : Tm BoolOp) : Tm BoolOp := .node .xor [.node .and [a, .node (.lit false) []], .node .xor [b, b]]

/-- **C82 fails with constant folding** (finding). The rule `(^ (& ?y false) (^ ?z ?z)) ==> (& (~ ?y) false)` of the Boolean domain is sound, and
`is_saturating` classifies it as saturating. But no e-graph that is reached with it and contains an instance `(^ (& x false) (^ b b))` of its left side is
saturated: each application adds a negation. So the saturating phase of the scheduler, which has neither an iteration limit nor a node limit, only ends by
its time limit. -/
theorem C82_endless :
    Holds boolOpVal endlessRule ∧
    (∃ steps, isSaturating boolDomain Sample.egg steps endlessRule = some true) ∧
    ∀ g : EGraph BoolOp Bool, Reach boolDomain (fun _ _ => True) (· = endlessRule) g → g.closed = true →
      (∀ i, i < g.n → (g.dataOf i).isDefined = true) → AndFolded g →
      ∀ (x : String) (b : Tm BoolOp) (i : Nat),
        Rep g (.node .xor [.node .and [.node (.var x) [], .node (.lit false) []], .node .xor [b, b]]) i →
        ∀ E, ¬ Saturated boolDomain E (· = endlessRule) g := by
  refine ⟨fun ρ => ?_, ⟨[.congr 2, .congr 4, .congr 5], by decide +kernel⟩, ?_⟩
  · simp [endlessRule, patVal, patValL, boolOpVal]
  intro g hg hc hd hf x b i hi E hs
  have hany : AnyHistory boolDomain g := Reach.any hg
  obtain ⟨val, hI⟩ := AnyHistory.inv hany
  have hfold : ∀ u j, Rep g (.node .and [u, .node (.lit false) []]) j → Rep g (.node (.lit false) []) j := by
    rintro u j ⟨e, h1, h2, h3, h4⟩
    rw [RepL_iff] at h4
    simp only [List.forall₂_cons_left_iff, List.forall₂_nil_left_iff] at h4
    obtain ⟨c, _, r1, ⟨d, _, r2, rfl, rfl⟩, hch⟩ := h4
    obtain ⟨f, f1, f2, f3, f4⟩ := r2
    have fc : f.1 = ⟨.lit false, []⟩ := by
      rw [RepL_iff, List.forall₂_nil_left_iff] at f4
      rcases f with ⟨⟨o, cs⟩, k⟩
      simp only at f2 f4 ⊢
      rw [f2, f4]
    obtain ⟨f', k1, k2, k3⟩ := hf e h1 h2 d (by rw [hch]; simp) ⟨f, f1, fc, f3⟩
    refine ⟨f', k1, by rw [k2], k3.trans h3, ?_⟩
    rw [k2]
    trivial
  have key : ∀ k, Rep g (endTm (negs x k) b) i := by
    intro k
    induction k with
    | zero => exact hi
    | succ k ih =>
      have hrw : Rewrites (· = endlessRule) (endTm (negs x k) b) (.node .and [negs x (k + 1), .node (.lit false) []]) := by
        have := Rewrites.rule (R := (· = endlessRule)) (r := endlessRule) (fun v => if v = "?y" then negs x k else b) rfl
        simpa [endlessRule, patInst, patInstL, endTm, negs] using this
      have h1 := saturated_step hI hc hd hs hrw i ih
      have h2 := hfold _ _ h1
      obtain ⟨e, e1, e2, e3, e4⟩ := ih
      rw [RepL_iff, List.forall₂_cons_left_iff] at e4
      obtain ⟨c, cs, r1, r2, hch⟩ := e4
      refine ⟨e, e1, e2, e3, ?_⟩
      rw [RepL_iff, hch]
      refine .cons ?_ r2
      exact Rep.congr h1 (rep_unique hI hc h2 (hfold _ _ r1))
  have hsub : ∀ k, ∃ a, a < g.n ∧ Rep g (negs x k) a := by
    intro k
    obtain ⟨e, _, _, _, e4⟩ := key k
    rw [RepL_iff, List.forall₂_cons_left_iff] at e4
    obtain ⟨_, _, ⟨e', _, _, _, e5⟩, _⟩ := e4
    rw [RepL_iff, List.forall₂_cons_left_iff] at e5
    obtain ⟨_, _, r, _⟩ := e5
    exact ⟨_, Rep.lt hI r, r⟩
  choose a ha1 ha2 using hsub
  have hinj : ∀ k l, g.find (a k) = g.find (a l) → k = l := by
    intro k l h
    have := C29_sound end_folds (R := (· = endlessRule)) (by rintro r rfl; exact end_holds) hg (ha2 k) (ha2 l) h
    rw [negs_val, negs_val] at this
    exact Sum.inr.inj this
  have := length_le_of_subset (l := (List.range (g.n + 1)).map fun k => g.find (a k)) (m := List.range g.n)
    (List.Nodup.map_on (fun k _ l _ h => hinj k l h) List.nodup_range)
    (by
      intro j hj
      obtain ⟨k, _, rfl⟩ := List.mem_map.1 hj
      exact List.mem_range.2 (hI.find_lt _ (ha1 k)))
  simp at this

/-- **C82 fails with constant folding** (finding), in terms of `can_derive`: no run of the saturating scheduler with this rule, however long, on a query
whose left side is `(^ (& ?y false) (^ ?z ?z))` ends in a saturated e-graph. -/
theorem C82_endless_derive {r : Rule BoolOp} (hr : r.lhs = endlessRule.lhs) {E : Egg} {isSat : Rule BoolOp → Bool} {ty : DeriveType}
    {limits : Limits} {t : SchedTrace} {g out : EGraph BoolOp Bool}
    (hg : deriveStart boolDomain E ty r.lhs.instantiate r.rhs.instantiate = some g)
    (hout : Scheduler.run boolDomain E isSat (.saturating limits) [(endlessRule.name, endlessRule)] t g = some out) (hf : AndFolded out) :
    ∀ E', ¬ Saturated boolDomain E' (· = endlessRule) out := by
  have hE := (C79_domains (fun _ _ => 0) 4 Sample.exactRat).1
  obtain ⟨val, hI, ⟨i, hi⟩, _⟩ := derive_start hE hg
  obtain ⟨⟨v1, I1, E1⟩, hc⟩ := run_ok (emptyInv hE) (anyRules _) hI hout
  have hreach : Reach boolDomain (fun _ _ => True) (· = endlessRule) out :=
    .run (deriveStart_reach (TmOk.any _) (TmOk.any _) hg) (by simp [Ruleset.iter]) hout
  have hi' := Rep.ext hI E1 _ _ (Rep.lt hI hi) hi
  rw [hr] at hi'
  exact C82_endless.2.2 out hreach hc (empty_defined I1) hf "y" (.node (.var "z") []) i hi'

namespace Sample
/-- The query `(^ (& ?y false) (^ ?z ?z)) ==> false`, and the run of one iteration of the rule above on it. -/
def endlessRun : Option (EGraph BoolOp Bool) :=
  (deriveStart boolDomain egg .lhs endlessRule.lhs.instantiate endlessRule.rhs.instantiate).bind fun g =>
    Scheduler.run boolDomain egg (fun _ => true) (.saturating ⟨0, 100, 100⟩) [(endlessRule.name, endlessRule)]
      { trace with lastRun := ⟨List.replicate 6 (.congr 0), [⟨[[0]], List.replicate 9 (.congr 0)⟩]⟩ } g
end Sample

instance (g : EGraph BoolOp Bool) : Decidable (AndFolded g) := by unfold AndFolded; infer_instance

-- After one iteration folding is complete, a negation has been added, and the rule has a further match.
example : (Sample.endlessRun.map fun g => (g.closed, g.numClasses, (g.search endlessRule.lhs).length, decide (AndFolded g))) =
    some (true, 5, 2, true) := by decide +kernel

end Ruler
