import Verif.Proofs.Compress
import Verif.Spec.SampleEGraph
import Verif.Props.Saturation
/-!
# The Compress scheduler: C31
-/
namespace Ruler
open Spec EGraph
variable {O C : Type} [Lang O] [LinearOrder C] {D : Domain O C}

theorem AnyHistory.free (hD : NoFold D) {g : EGraph O C} (h : AnyHistory D g) :
    ∃ val : Nat → Unit, Inv (fun _ _ => True) (fun _ _ => ()) Free g val :=
  Reach.inv (foldInv (NoFold.foldsIn hD _ _)) (fun _ _ _ h => h) (fun _ _ => ⟨⟨PatOk.any _, PatOk.any _⟩, fun _ => rfl⟩) h

/-- **C31.** In a domain without constant folding, let `g` be the e-graph of any history and `g'` the result of the Compress
scheduler with any rules. `t.order` is the iteration order of a hash map: it returns the keys in some order. Then the Simple
scheduler with the same choices has a result `out` and
* `g'` has no id that was not in `g`, and its classes are classes of `g`;
* `g'` has no more e-nodes than `g`, and each of them is an e-node of `g` up to the classes merged in `g'`;
* two ids of `g` are in one class of `g'` iff they are in one class of `out`. -/
theorem C31_compress (hD : NoFold D) {g g' : EGraph O C} (hg : AnyHistory D g) {E : Egg} {isSat : Rule O → Bool}
    {l : Limits} {rules : Ruleset O} {t : SchedTrace} (hord : ∀ ks, (t.order ks).Perm ks)
    (h : Scheduler.run D E isSat (.compress l) rules t g = some g') :
    ∃ out, Scheduler.run D E isSat (.simple l) rules t g = some out ∧
      g'.n = g.n ∧ (∀ i ∈ g'.classes, i ∈ g.classes) ∧
      g'.nodes.length ≤ g.nodes.length ∧
      (∀ e ∈ g'.nodes, ∃ e0 ∈ g.nodes, e.1.op = e0.1.op ∧
        e.1.children.map g'.find = e0.1.children.map g'.find ∧ g'.find e.2 = g'.find e0.2) ∧
      ∀ i j, i < g.n → j < g.n → (g'.find i = g'.find j ↔ out.find i = out.find j) := by
  simp only [Scheduler.run] at h ⊢
  unfold runCompress at h
  rw [Option.bind_eq_some_iff] at h
  obtain ⟨out, h1, h⟩ := h
  simp only at h
  rw [Option.bind_eq_some_iff] at h
  obtain ⟨g2, h2, h⟩ := h
  refine ⟨out, h1, ?_⟩
  obtain ⟨val, hI⟩ := AnyHistory.free hD hg
  obtain ⟨⟨vo, hIo, hEo⟩, hc⟩ := runSimple_ok (foldInv (NoFold.foldsIn hD _ _))
    (fun r _ => ⟨⟨PatOk.any _, PatOk.any _⟩, fun _ => rfl⟩) hI h1
  have hQ := quotient_inv hI hIo hEo hc
  have hDI : DataInv D (fun _ _ => True) (quotient out) Free := foldInv (NoFold.foldsIn hD _ _)
  have hgr : ∀ l ∈ groupsBy out.find g.classes (t.order ((g.classes.map out.find).eraseDups)),
      (∀ i ∈ l, i < g.n) ∧ ∀ i ∈ l, ∀ j ∈ l, out.find i = out.find j := by
    intro l hl
    simp only [groupsBy, List.mem_map] at hl
    obtain ⟨k, _, rfl⟩ := hl
    have hlt : ∀ i ∈ g.classes.filter (fun i => decide (out.find i = k)), i < g.n ∧ out.find i = k := by
      intro i hi
      simp only [EGraph.classes, List.mem_filter, List.mem_range, decide_eq_true_eq] at hi
      exact ⟨hi.1.1, hi.2⟩
    exact ⟨fun i hi => (hlt i hi).1, fun i hi j hj => (hlt i hi).2.trans (hlt j hj).2.symm⟩
  obtain ⟨⟨⟨v2, I2, E2⟩, S2⟩, hm⟩ := groups_merged hD hDI _ hQ hgr h2
  unfold rebuild at h
  rw [Option.bind_eq_some_iff] at h
  obtain ⟨g3, h3, h⟩ := h
  have hg3 : g3 = g' := by
    split at h
    · exact Option.some.inj h
    · cases h
  subst hg3
  obtain ⟨⟨v3, I3, E3⟩, S3⟩ := foldlM_shrinks (repair D t.clone) (fun _ _ _ => True) (fun _ _ _ _ _ _ _ => trivial)
    (fun g val a g' hI _ hs => ⟨repair_ok hDI hI hs, repair_free hD hI hs⟩) t.cloneRepairs g2 v2 g3 I2
    (fun _ _ => trivial) h3
  have S := Shrinks.trans hQ.nodes_lt I2.nodes_lt S2 S3
  have EE := Ext.trans hQ I2 E2 E3
  refine ⟨S.n_eq, ?_, S.len, S.nodes, ?_⟩
  · intro i hi
    simp only [EGraph.classes, List.mem_filter, List.mem_range, decide_eq_true_eq] at hi ⊢
    exact ⟨S.n_eq ▸ hi.1, S.root i hi.2⟩
  · intro i j hi hj
    constructor
    · intro hij
      rw [← EE.val_eq i hi, ← EE.val_eq j hj, ← I3.val_find i (S.n_eq ▸ hi), ← I3.val_find j (S.n_eq ▸ hj), hij]
    · intro hij
      have key : ∀ k, k < g.n → g3.find k = g3.find (g.find k) ∧ out.find (g.find k) = out.find k ∧
          g.find k ∈ g.classes := by
        intro k hk
        refine ⟨EE.find_eq _ _ hk (hQ.find_lt k hk) (hQ.idem k).symm, hEo.find_eq _ _ (hI.find_lt k hk) hk (hI.idem k), ?_⟩
        simp only [EGraph.classes, List.mem_filter, List.mem_range, decide_eq_true_eq]
        exact ⟨hI.find_lt k hk, hI.idem k⟩
      obtain ⟨a1, a2, a3⟩ := key i hi
      obtain ⟨b1, b2, b3⟩ := key j hj
      rw [a1, b1]
      refine E3.find_eq _ _ (S2.n_eq ▸ hQ.find_lt i hi) (S2.n_eq ▸ hQ.find_lt j hj) ?_
      refine hm (g.classes.filter fun x => decide (out.find x = out.find i)) ?_ _ ?_ _ ?_
      · simp only [groupsBy, List.mem_map]
        refine ⟨out.find i, (hord _).mem_iff.2 ?_, rfl⟩
        rw [List.mem_eraseDups]
        exact List.mem_map.2 ⟨_, a3, a2⟩
      · simp [List.mem_filter, a2, a3]
      · simp [List.mem_filter, b2, b3, hij]

-- `(- (+ a b))` and `(- (+ b a))`: the rule merges the sums, the rest follows; of six classes and e-nodes four classes and
-- five e-nodes remain.
example : ∃ g g' : EGraph PredOp Int, AnyHistory halideDomain g ∧
    Scheduler.run halideDomain Sample.egg (fun _ => false) (.compress Sample.limits)
      [(Sample.predComm.name, Sample.predComm)] Sample.predTrace g = some g' ∧
    (∀ ks, (Sample.predTrace.order ks).Perm ks) ∧
    g.nodes.length = 6 ∧ g'.nodes.length = 5 ∧ g.classes = [0, 1, 2, 3, 4, 5] ∧ g'.classes = [0, 1, 2, 3] := by
  have h0 : (Sample.predStart.map fun g => (g.nodes.length, g.classes)) = some (6, [0, 1, 2, 3, 4, 5]) := by
    decide +kernel
  have h : ((Sample.predOut (.compress Sample.limits)).map fun g => (g.nodes.length, g.classes)) =
      some (5, [0, 1, 2, 3]) := by decide +kernel
  rw [Option.map_eq_some_iff] at h h0
  obtain ⟨g', hg', h⟩ := h
  obtain ⟨g0, hg0, h0⟩ := h0
  simp only [Prod.mk.injEq] at h h0
  rw [Sample.predOut, hg0] at hg'
  exact ⟨g0, g', reach_termsToEGraph (fun _ => ⟨rfl, trivial⟩) (fun t _ => TmOk.any t) hg0, hg',
    fun ks => List.Perm.refl _, h0.1, h.1, h0.2, h.2⟩

end Ruler
