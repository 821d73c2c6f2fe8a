import Verif.Proofs.Recipe
import Verif.Props.Workload
/-!
# Properties C11 – C13: grammar iteration, built-in grammars and substitution
-/
namespace Ruler
open Spec

theorem Guarded.measureT {met : Metric} {hole : String} {G : List Sexp} (h : Guarded met hole G) :
    ∀ g ∈ G, Subterm (.atom hole) g → g ≠ .atom hole ∧ (met = .atoms → 2 ≤ g.measureT .atoms) := by
  intro g hg hs
  refine ⟨(h g hg hs).1, fun hm => ?_⟩
  rw [← Sexp.measure_some _ _ _ (C10_atoms g)]
  exact (h g hg hs).2 hm

/-! ## C11 -/

/-- **C11.** For a workload of well-formed productions in which every recursive production increases the metric,
`iter_metric` up to `n ≥ 1` does not panic and contains a term iff the term is a complete derivation of the grammar
and its metric is at most `n`. -/
theorem C11_iter_metric (w : Workload) (hole : String) (met : Metric) (n : Nat) (hn : 1 ≤ n)
    (hw : AllSets NoEmpty w) (G : List Sexp) (hG : w.force = some G) (hg : Guarded met hole G) :
    ∃ rs, (iterMetric w hole met n).force = some rs ∧
      ∀ t, t ∈ rs ↔ Derives G hole t ∧ ∃ k, t.measure met = some k ∧ k ≤ n := by
  obtain ⟨h1, h2⟩ := Workload.AllSets.force (iterMetric_sets hw hole met n)
  have hGe := Workload.force_some _ _ hG
  subst hGe
  have hN := (Workload.AllSets.force hw).2
  have key := iterMetric_mem (met := met) hw (Guarded.measureT hg) n
  refine ⟨_, h1, fun t => ?_⟩
  constructor
  · intro ht
    have hle : t.measureT met ≤ n := by
      obtain ⟨m, rfl⟩ : ∃ m, n = m + 1 := ⟨n - 1, by omega⟩
      rw [iterMetric_forceT_succ, List.mem_filter] at ht
      have := ht.2
      simp at this; omega
    exact ⟨(key t hle).1 ht, _, Sexp.measure_noEmpty met t (h2 t ht), hle⟩
  · rintro ⟨hd, k, hk, hle⟩
    rw [Sexp.measure_some _ _ _ hk] at hle
    exact (key t hle).2 hd

/-- **C11.** Complete derivations never contain the hole (so the enumeration contains no unfinished term). -/
theorem C11_hole_free (G : List Sexp) (hole : String) (t : Sexp) (h : Derives G hole t) :
    ¬ Subterm (.atom hole) t := by
  refine Derives.ind (motive := fun t => ¬ Subterm (.atom hole) t) ?_ h
  intro g t hgm hf
  clear h hgm
  induction g using Sexp.ind generalizing t with
  | ha a =>
    cases hf with
    | hole hp => exact hp.2
    | other hne => intro hs; cases hs; exact hne rfl
  | hl l ih =>
    cases hf with
    | @list _ l' hl =>
      intro hs
      cases hs with
      | @child u _ hu hs =>
        rw [fillsL_iff] at hl
        obtain ⟨s, hs', hf⟩ : ∃ s ∈ l, Fills hole (fun p => Derives G hole p ∧ ¬ Subterm (.atom hole) p) s u := by
          clear ih hs
          induction hl with
          | nil => simp at hu
          | @cons a b l l' h1 _ ih =>
            rcases List.mem_cons.1 hu with rfl | hu
            · exact ⟨a, by simp, h1⟩
            · obtain ⟨s, h1, h2⟩ := ih hu
              exact ⟨s, by simp [h1], h2⟩
        exact ih s hs' u hf hs

/-- **C11.** The bound `n ≥ 1` is needed: for `n = 0` the grammar itself is returned, unfinished productions
included. -/
theorem C11_zero (w : Workload) (hole : String) (met : Metric) : iterMetric w hole met 0 = w := rfl

theorem not_subterm_atom {a b : String} (h : a ≠ b) : ¬ Subterm (.atom a) (.atom b) := by
  generalize hs : Sexp.atom a = s
  generalize ht : Sexp.atom b = t
  intro hst
  cases hst with
  | refl => subst hs; cases ht; exact h rfl
  | child => cases ht

theorem Sample.grammar_guarded (met : Metric) :
    Guarded met "EXPR" [a "VAR", .list [a "OP", a "EXPR", a "EXPR"]] := by
  intro g hg hs
  simp only [List.mem_cons, List.not_mem_nil, or_false] at hg
  rcases hg with rfl | rfl
  · exact absurd hs (not_subterm_atom (by decide))
  · exact ⟨by simp, fun _ => by decide⟩

example : ∃ rs, (iterMetric Sample.grammar "EXPR" .atoms 5).force = some rs ∧
    ∀ t, t ∈ rs ↔ Derives [.atom "VAR", .list [.atom "OP", .atom "EXPR", .atom "EXPR"]] "EXPR" t ∧
      ∃ k, t.measure .atoms = some k ∧ k ≤ 5 :=
  C11_iter_metric Sample.grammar "EXPR" .atoms 5 (by decide) (.set Sample.noEmpty_grammar) _ rfl
    (Sample.grammar_guarded _)

/-- Test: the enumeration of that grammar at 5 atoms, computed. -/
example : (iterMetric Sample.grammar "EXPR" .atoms 5).force =
    some [.atom "VAR", .list [.atom "OP", .atom "VAR", .atom "VAR"],
      .list [.atom "OP", .atom "VAR", .list [.atom "OP", .atom "VAR", .atom "VAR"]],
      .list [.atom "OP", .list [.atom "OP", .atom "VAR", .atom "VAR"], .atom "VAR"]] := by decide

/-! ## C12 -/

theorem baseLang_guarded (k : Nat) (met : Metric) : Guarded met "EXPR" (baseLang k).forceT := by
  intro g hg hs
  rw [mem_baseLang] at hg
  rcases hg with rfl | rfl | ⟨i, h1, _, rfl⟩
  · exact absurd hs (not_subterm_atom (by decide))
  · exact absurd hs (not_subterm_atom (by decide))
  · refine ⟨by simp [opProduction], fun _ => ?_⟩
    have := Sexp.measure_some _ _ _ (C10_atoms (opProduction i))
    rw [this, measureT_opProduction]; omega

/-- **C12.** Iterating the built-in grammar with operators of arity up to `k` to any bound `n ≥ 1`, for any metric,
yields no term twice, and exactly the operator skeletons with metric at most `n`. -/
theorem C12_base_lang (k n : Nat) (met : Metric) (hn : 1 ≤ n) :
    ∃ rs, (iterMetric (baseLang k) "EXPR" met n).force = some rs ∧ rs.Nodup ∧
      ∀ t, t ∈ rs ↔ Skeleton k t ∧ ∃ m, t.measure met = some m ∧ m ≤ n := by
  obtain ⟨rs, h1, h2⟩ := C11_iter_metric (baseLang k) "EXPR" met n hn (baseLang_sets k) _ (baseLang_force k)
    (baseLang_guarded k met)
  refine ⟨rs, h1, ?_, fun t => by rw [h2, derives_baseLang_iff]⟩
  rw [Workload.force_some _ _ h1]
  exact iterMetric_nodup (baseLang_nodup k) (baseLang_separated k) n

/-- Test: two terms of depth at most two for arity one. -/
example : (iterMetric (baseLang 1) "EXPR" .depth 2).force =
    some [.atom "VAR", .atom "VAL", .list [.atom "OP1", .atom "VAR"], .list [.atom "OP1", .atom "VAL"]] := by
  decide

example : Skeleton 2 (.list [.atom "OP2", .atom "VAR", .list [.atom "OP1", .atom "VAL"]]) := by
  refine .op (i := 2) (by decide) (by decide) rfl ?_
  intro a ha
  simp only [List.mem_cons, List.not_mem_nil, or_false] at ha
  rcases ha with rfl | rfl
  · exact .var
  · refine .op (i := 1) (by decide) (by decide) rfl ?_
    intro a ha
    simp only [List.mem_cons, List.not_mem_nil, or_false] at ha
    subst ha
    exact .val

/-! ## C13 -/

theorem substituteLoop_append (w : Workload) (name : String) (subs : List Sexp) (ws : List Workload) :
    substituteLoop w name (.append ws) subs =
      .append (ws ++ subs.map fun s => .plug w name (.set [s])) := by
  induction subs generalizing ws with
  | nil => simp [substituteLoop]
  | cons s subs ih =>
    have : Workload.doAppend (.append ws) (w.doPlug name (.set [s])) =
        .append (ws ++ [.plug w name (.set [s])]) := by simp [Workload.doAppend, Workload.doPlug]
    rw [substituteLoop, this, ih]
    simp

theorem forceL_plugs (w : Workload) (name : String) (ts : List Sexp) (hw : w.force = some ts)
    (hn : ∀ t ∈ ts, NoEmpty t) (subs : List Sexp) :
    Workload.forceL (subs.map fun s => .plug w name (.set [s])) =
      some (subs.flatMap fun s => ts.map (replaceAll name s)) := by
  induction subs with
  | nil => rfl
  | cons s subs ih =>
    simp only [List.map_cons, Workload.forceL, ih, Workload.force, hw, List.flatMap_cons]
    simp [flatMap_plug_singleton name s ts hn]

/-- **C13.** Substituting the terms of `sub` for `name` in a workload of well-formed terms gives, for each
substituted term in turn, every term of the workload with *all* occurrences of `name` replaced by that same term. -/
theorem C13_substitute (w sub : Workload) (name : String) (ts subs : List Sexp) (hw : w.force = some ts)
    (hs : sub.force = some subs) (hn : ∀ t ∈ ts, NoEmpty t) :
    ∃ r, substitute w sub name = some r ∧
      r.force = some (subs.flatMap fun s => ts.map (replaceAll name s)) := by
  refine ⟨_, by rw [substitute, hs]; rfl, ?_⟩
  cases subs with
  | nil => rfl
  | cons s subs =>
    simp only [substituteLoop]
    have : Workload.doAppend (.set []) (w.doPlug name (.set [s])) = .append [.set [], .plug w name (.set [s])] := by
      simp [Workload.doAppend, Workload.doPlug]
    rw [this, substituteLoop_append]
    have h := forceL_plugs w name ts hw hn (s :: subs)
    have h0 : ([.set [], .plug w name (.set [s])] ++ subs.map fun s => Workload.plug w name (.set [s])) =
        .set [] :: ((s :: subs).map fun s => Workload.plug w name (.set [s])) := rfl
    rw [Workload.force, h0, Workload.forceL, h]
    rfl

/-- **C13.** Membership form: one substituted term is chosen for all occurrences. -/
theorem C13_substitute_mem (w sub : Workload) (name : String) (ts subs : List Sexp) (hw : w.force = some ts)
    (hs : sub.force = some subs) (hn : ∀ t ∈ ts, NoEmpty t) (t : Sexp) :
    (∃ r rs, substitute w sub name = some r ∧ r.force = some rs ∧ t ∈ rs) ↔
      ∃ s ∈ subs, ∃ u ∈ ts, t = replaceAll name s u := by
  obtain ⟨r, h1, h2⟩ := C13_substitute w sub name ts subs hw hs hn
  constructor
  · rintro ⟨r', rs, h1', h2', ht⟩
    rw [h1] at h1'; cases h1'
    rw [h2] at h2'; cases h2'
    simp only [List.mem_flatMap, List.mem_map] at ht
    obtain ⟨s, hs, u, hu, rfl⟩ := ht
    exact ⟨s, hs, u, hu, rfl⟩
  · rintro ⟨s, hs, u, hu, rfl⟩
    exact ⟨r, _, h1, h2, by simp only [List.mem_flatMap, List.mem_map]; exact ⟨s, hs, u, hu, rfl⟩⟩

/-- Non-trivial instance: both holes of `(OP EXPR EXPR)` receive the same term. -/
example : ∃ r, substitute Sample.grammar (.set [.atom "x", .atom "y"]) "EXPR" = some r ∧
    r.force = some [.atom "VAR", .list [.atom "OP", .atom "x", .atom "x"],
      .atom "VAR", .list [.atom "OP", .atom "y", .atom "y"]] :=
  C13_substitute Sample.grammar (.set [.atom "x", .atom "y"]) "EXPR" _ _ rfl rfl Sample.noEmpty_grammar

/-- Filling independently instead would also produce `(OP x y)`, which `C13_substitute_mem` excludes. -/
example : ¬ ∃ s ∈ [Sexp.atom "x", .atom "y"], ∃ u ∈ [Sexp.atom "VAR", .list [.atom "OP", .atom "EXPR", .atom "EXPR"]],
    Sexp.list [.atom "OP", .atom "x", .atom "y"] = replaceAll "EXPR" s u := by
  simp [replaceAll, replaceAllL]

end Ruler
