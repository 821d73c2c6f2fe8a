import Verif.Proofs.Total
import Mathlib.Data.List.Nodup
/-! Helper lemmas about plugging and appending. -/
namespace Ruler
open Spec

theorem fillsL_iff {name : String} {pegs : Sexp → Prop} {l l' : List Sexp} :
    FillsL name pegs l l' ↔ List.Forall₂ (Fills name pegs) l l' := by
  constructor
  · intro h
    induction l generalizing l' with
    | nil => cases h; exact .nil
    | cons s l ih => cases h with | cons h1 h2 => exact .cons h1 (ih h2)
  · intro h
    induction h with
    | nil => exact .nil
    | cons h1 _ ih => exact .cons h1 ih

theorem Fills.mono {name : String} {P Q : Sexp → Prop} (h : ∀ s, P s → Q s) {t t' : Sexp}
    (hf : Fills name P t t') : Fills name Q t t' := by
  induction t using Sexp.ind generalizing t' with
  | ha a => cases hf with
    | hole hp => exact .hole (h _ hp)
    | other hn => exact .other hn
  | hl l ih => cases hf with
    | list hl =>
      rw [fillsL_iff] at hl
      refine .list (fillsL_iff.2 ?_)
      clear * - hl ih
      induction hl with
      | nil => exact .nil
      | cons h1 h2 ih2 =>
        exact .cons (ih _ (by simp) h1) (ih2 fun s hs => ih s (by simp [hs]))

namespace Sexp

theorem forall₂_map_right {α β γ : Type _} {R : α → γ → Prop} {f : β → γ} {l : List α} {m : List β} :
    List.Forall₂ R l (m.map f) ↔ List.Forall₂ (fun a b => R a (f b)) l m := by
  induction m generalizing l with
  | nil => cases l <;> simp
  | cons b m ih => cases l <;> simp [ih]

theorem mem_plug_fills {name : String} {pegs : List Sexp} {t t' : Sexp} (h : t' ∈ plug name pegs t) :
    Fills name (· ∈ pegs) t t' := by
  induction t using Sexp.ind generalizing t' with
  | ha a =>
    simp only [plug] at h
    split at h
    next e => subst e; exact .hole h
    next e => simp at h; subst h; exact .other e
  | hl l ih =>
    simp only [plug, plugL_eq, List.mem_map] at h
    obtain ⟨l', hl', rfl⟩ := h
    cases l with
    | nil => simp [multiCartesianProduct] at hl'
    | cons s l =>
      change l' ∈ prods ((s :: l).map _) at hl'
      rw [mem_prods, forall₂_map_right] at hl'
      refine .list (fillsL_iff.2 (List.Forall₂.flip ?_))
      revert ih hl'
      generalize (s :: l) = k
      intro ih hl'
      induction hl' with
      | nil => exact .nil
      | cons h1 _ ih2 => exact .cons (ih _ (by simp) h1) (ih2 fun s hs => ih s (by simp [hs]))

theorem fills_mem_plug {name : String} {pegs : List Sexp} {t t' : Sexp} (hn : NoEmpty t)
    (h : Fills name (· ∈ pegs) t t') : t' ∈ plug name pegs t := by
  induction t using Sexp.ind generalizing t' with
  | ha a =>
    simp only [plug]
    cases h with
    | hole hp => simpa using hp
    | other e => simp [e]
  | hl l ih =>
    cases h with
    | list h =>
      rw [fillsL_iff] at h
      rw [NoEmpty.list_iff] at hn
      simp only [plug, plugL_eq, List.mem_map]
      refine ⟨_, ?_, rfl⟩
      obtain ⟨hne, hn⟩ := hn
      cases l with
      | nil => exact absurd rfl hne
      | cons s l =>
        change _ ∈ prods ((s :: l).map _)
        rw [mem_prods, forall₂_map_right]
        revert h ih hn
        generalize (s :: l) = k
        intro ih h hn
        refine List.Forall₂.flip ?_
        induction h with
        | nil => exact .nil
        | cons h1 _ ih2 =>
          exact .cons (ih _ (by simp) (hn _ (by simp)) h1)
            (ih2 (fun s hs => ih s (by simp [hs])) fun s hs => hn s (by simp [hs]))

theorem Fills.noEmpty {name : String} {P : Sexp → Prop} (hP : ∀ p, P p → NoEmpty p) {t t' : Sexp}
    (hn : NoEmpty t) (h : Fills name P t t') : NoEmpty t' := by
  induction t using Sexp.ind generalizing t' with
  | ha a => cases h with
    | hole hp => exact hP _ hp
    | other => exact NoEmpty.atom _
  | hl l ih => cases h with
    | list h =>
      rw [fillsL_iff] at h
      rw [NoEmpty.list_iff] at hn ⊢
      constructor
      · rintro rfl; cases h; exact hn.1 rfl
      · replace hn := hn.2
        clear * - h ih hn
        induction h with
        | nil => simp
        | cons h1 _ ih2 =>
          intro t ht
          rcases List.mem_cons.1 ht with rfl | ht
          · exact ih _ (by simp) (hn _ (by simp)) h1
          · exact ih2 (fun s hs => ih s (by simp [hs])) (fun s hs => hn s (by simp [hs])) t ht

theorem length_prods {α : Type _} (xss : List (List α)) :
    (prods xss).length = (xss.map List.length).prod := by
  induction xss with
  | nil => rfl
  | cons xs rest ih =>
    simp only [prods, List.length_flatMap, List.length_map, ih, List.map_cons, List.prod_cons]
    induction xs with
    | nil => simp
    | cons x xs ihx => simp [Nat.add_mul, Nat.add_comm]

theorem nodup_prods {α : Type _} (xss : List (List α)) (h : ∀ xs ∈ xss, xs.Nodup) : (prods xss).Nodup := by
  induction xss with
  | nil => simp [prods]
  | cons xs rest ih =>
    have hr := ih fun ys hy => h ys (by simp [hy])
    have hx := h xs (by simp)
    simp only [prods]
    rw [List.nodup_flatMap]
    constructor
    · intro x _
      exact hr.map (fun a b e => by simpa using e)
    · refine hx.imp ?_
      intro a b hab
      simp only [Function.onFun]
      intro y hy hy'
      simp only [List.mem_map] at hy hy'
      obtain ⟨_, _, rfl⟩ := hy
      obtain ⟨_, _, e⟩ := hy'
      simp at e
      exact hab e.1.symm

theorem nodup_plug {name : String} {pegs : List Sexp} (hp : pegs.Nodup) (t : Sexp) :
    (plug name pegs t).Nodup := by
  induction t using Sexp.ind with
  | ha a => simp only [plug]; split <;> simp [hp]
  | hl l ih =>
    simp only [plug, plugL_eq]
    refine List.Nodup.map (fun a b e => by simpa using e) ?_
    cases l with
    | nil => simp [multiCartesianProduct]
    | cons s l =>
      change (prods ((s :: l).map _)).Nodup
      apply nodup_prods
      intro xs hxs
      obtain ⟨t, ht, rfl⟩ := List.mem_map.1 hxs
      exact ih t ht

theorem holeCount_list (name : String) (l : List Sexp) :
    holeCount name (.list l) = (l.map (holeCount name)).sum := by
  simp only [holeCount, occurrences, occurrencesL_eq]
  rw [List.count_cons_of_ne (by simp)]
  induction l with
  | nil => rfl
  | cons s l ih => simp [List.count_append, ih, holeCount]

theorem length_plug (name : String) (pegs : List Sexp) (t : Sexp) (hn : NoEmpty t) :
    (plug name pegs t).length = pegs.length ^ holeCount name t := by
  induction t using Sexp.ind with
  | ha a =>
    simp only [plug, holeCount, occurrences]
    split
    next e => subst e; simp
    next e => simp [e]
  | hl l ih =>
    rw [NoEmpty.list_iff] at hn
    obtain ⟨hne, hn⟩ := hn
    simp only [plug, plugL_eq, List.length_map]
    have : multiCartesianProduct (l.map (plug name pegs)) = prods (l.map (plug name pegs)) := by
      cases l with
      | nil => exact absurd rfl hne
      | cons => rfl
    rw [this, length_prods, holeCount_list]
    clear this hne
    induction l with
    | nil => simp
    | cons s l ihl =>
      simp only [List.map_cons, List.prod_cons, List.sum_cons, Nat.pow_add]
      rw [ih s (by simp) (hn s (by simp)), ihl (fun t ht => ih t (by simp [ht])) (fun t ht => hn t (by simp [ht]))]

theorem plug_not_occurs {name : String} {pegs : List Sexp} {t : Sexp} (hn : NoEmpty t)
    (h : ¬ Subterm (.atom name) t) : plug name pegs t = [t] := by
  induction t using Sexp.ind with
  | ha a =>
    simp only [plug]
    split
    next e => subst e; exact absurd (.refl _) h
    next => rfl
  | hl l ih =>
    rw [NoEmpty.list_iff] at hn
    obtain ⟨hne, hn⟩ := hn
    rw [Subterm.list_iff] at h
    have h' : ∀ t ∈ l, ¬ Subterm (.atom name) t := fun t ht hs => h (.inr ⟨t, ht, hs⟩)
    have hm : multiCartesianProduct (l.map (plug name pegs)) = prods (l.map (plug name pegs)) := by
      cases l with
      | nil => exact absurd rfl hne
      | cons => rfl
    simp only [plug, plugL_eq, hm]
    have : prods (l.map (plug name pegs)) = [l] := by
      clear * - ih hn h'
      induction l with
      | nil => rfl
      | cons s l ihl =>
        simp only [List.map_cons, prods, ih s (by simp) (hn s (by simp)) (h' s (by simp))]
        rw [ihl (fun t ht => ih t (by simp [ht])) (fun t ht => hn t (by simp [ht])) (fun t ht => h' t (by simp [ht]))]
        rfl
    rw [this]; rfl

end Sexp

theorem fills_false_iff {name : String} {t r : Sexp} :
    Fills name (fun _ => False) t r ↔ r = t ∧ ¬ Subterm (.atom name) t := by
  induction t using Sexp.ind generalizing r with
  | ha a =>
    constructor
    · intro h; cases h with
      | hole hp => exact hp.elim
      | other hn => exact ⟨rfl, fun h => by cases h; exact hn rfl⟩
    · rintro ⟨rfl, h⟩
      exact .other fun e => h (e ▸ .refl _)
  | hl l ih =>
    constructor
    · intro h
      cases h with
      | list h =>
        rw [fillsL_iff] at h
        rw [Subterm.list_iff]
        suffices H : ∀ l', List.Forall₂ (Fills name fun _ => False) l l' →
            l' = l ∧ ∀ t ∈ l, ¬ Subterm (.atom name) t by
          obtain ⟨e, h'⟩ := H _ h
          refine ⟨by rw [e], ?_⟩
          rintro (h | ⟨t, ht, hs⟩)
          · simp at h
          · exact h' t ht hs
        clear h
        intro l' h
        induction h with
        | nil => simp
        | cons h1 _ ih2 =>
          obtain ⟨e1, e2⟩ := (ih _ (by simp)).1 h1
          obtain ⟨e3, e4⟩ := ih2 fun s hs => ih s (by simp [hs])
          refine ⟨by rw [e1, e3], ?_⟩
          intro t ht
          rcases List.mem_cons.1 ht with rfl | ht
          · exact e2
          · exact e4 t ht
    · rintro ⟨rfl, h⟩
      rw [Subterm.list_iff] at h
      refine .list (fillsL_iff.2 ?_)
      have h' : ∀ t ∈ l, ¬ Subterm (.atom name) t := fun t ht hs => h (.inr ⟨t, ht, hs⟩)
      clear h
      induction l with
      | nil => exact .nil
      | cons s l ihl =>
        exact .cons ((ih s (by simp)).2 ⟨rfl, h' s (by simp)⟩)
          (ihl (fun t ht => ih t (by simp [ht])) fun t ht => h' t (by simp [ht]))

namespace Workload

theorem AllSets.force {w : Workload} (h : AllSets NoEmpty w) :
    w.force = some w.forceT ∧ ∀ t ∈ w.forceT, NoEmpty t := by
  induction h with
  | set h => exact ⟨rfl, h⟩
  | plug _ _ ihw ihp =>
    refine ⟨by simp [Workload.force, ihw.1, ihp.1, forceT], ?_⟩
    intro t ht
    simp only [forceT, List.mem_flatMap] at ht
    obtain ⟨s, hs, ht⟩ := ht
    exact Sexp.Fills.noEmpty (fun p hp => ihp.2 p hp) (ihw.2 s hs) (Sexp.mem_plug_fills ht)
  | filter _ ih =>
    refine ⟨by simp [Workload.force, ih.1, retain_noEmpty ih.2, forceT], ?_⟩
    intro t ht
    simp only [forceT, List.mem_filter] at ht
    exact ih.2 t ht.1
  | @append ws _ ih =>
    simp only [Workload.force, forceT]
    induction ws with
    | nil => simp [forceL, forceTL]
    | cons w ws ihl =>
      obtain ⟨h1, h2⟩ := ihl (fun v hv => by rename_i h; exact h v (by simp [hv])) fun v hv => ih v (by simp [hv])
      obtain ⟨h3, h4⟩ := ih w (by simp)
      refine ⟨by simp [forceL, h1, h3, forceTL], ?_⟩
      intro t ht
      rcases List.mem_append.1 ht with ht | ht
      · exact h4 t ht
      · exact h2 t ht

theorem AllSets.addFilter {P : Sexp → Prop} {w : Workload} (h : AllSets P w) (f : Filter) :
    AllSets P (w.addFilter f) := by
  induction h generalizing f with
  | set h => exact .filter (.set h)
  | plug hw hp _ ihp =>
    simp only [Workload.addFilter]
    split
    · exact .filter (.plug hw (ihp f))
    · exact .filter (.plug hw hp)
  | filter _ ih => exact ih _
  | append h => exact .filter (.append h)

theorem AllSets.doPlug {P : Sexp → Prop} {w pegs : Workload} {name : String} (hw : AllSets P w)
    (hp : AllSets P pegs) : AllSets P (w.doPlug name pegs) := by
  unfold Workload.doPlug
  split
  · exact AllSets.addFilter hw _
  · exact .plug hw hp

theorem forceL_eq (ws : List Workload) : forceL ws = (ws.mapM force).map List.flatten := by
  induction ws with
  | nil => rfl
  | cons w ws ih =>
    simp only [forceL, ih, List.mapM_cons]
    cases w.force <;> simp
    cases ws.mapM force <;> simp

theorem forceL_append (xs ys : List Workload) :
    forceL (xs ++ ys) = (forceL xs).bind fun a => (forceL ys).map (a ++ ·) := by
  induction xs with
  | nil => simp [forceL]
  | cons w xs ih =>
    simp only [List.cons_append, forceL, ih]
    cases w.force with
    | none => simp
    | some a =>
      cases forceL xs with
      | none => simp
      | some b => cases forceL ys <;> simp

end Workload
end Ruler

namespace Ruler
open Spec

/-! ### depth-free filters never panic -/

theorem Filter.test_depthFree {f : Filter} (h : DepthFree f) (s : Sexp) : f.test s = some (f.testT s) := by
  induction h with
  | metricLt m n hm => simp [Filter.test, Filter.testT, Sexp.measure_not_depth m s hm]
  | metricEq m n hm => simp [Filter.test, Filter.testT, Sexp.measure_not_depth m s hm]
  | contains p => rfl
  | excludes p => rfl
  | canon S =>
    obtain ⟨c, hc⟩ := Sexp.canon_total S s
    simp [Filter.test, Filter.testT, hc, eq_comm]
  | @and fs _ ih =>
    simp only [Filter.test, Filter.testT]
    clear * - ih
    induction fs with
    | nil => rfl
    | cons f fs ihf =>
      simp only [Filter.testAll, Filter.testTAll, ih f (by simp), Option.bind_some]
      rw [ihf (fun g hg => ih g (by simp [hg]))]
      cases Filter.testT f s <;> rfl
  | @or fs _ ih =>
    simp only [Filter.test, Filter.testT]
    clear * - ih
    induction fs with
    | nil => rfl
    | cons f fs ihf =>
      simp only [Filter.testAny, Filter.testTAny, ih f (by simp), Option.bind_some]
      rw [ihf (fun g hg => ih g (by simp [hg]))]
      cases Filter.testT f s <;> rfl
  | invert _ ih => simp [Filter.test, Filter.testT, ih]

theorem Filter.minimizeLoop_subset {fs acc : List Filter} :
    ∀ f ∈ Filter.minimizeLoop acc fs, f ∈ acc ∨ f ∈ fs := by
  induction fs generalizing acc with
  | nil => intro f hf; exact .inl hf
  | cons g fs ih =>
    intro f hf
    simp only [Filter.minimizeLoop] at hf
    split at hf
    · rcases ih f hf with h | h
      · exact .inl h
      · exact .inr (by simp [h])
    · rcases ih f hf with h | h
      · rcases List.mem_append.1 h with h | h
        · exact .inl h
        · simp at h; subst h; exact .inr (by simp)
      · exact .inr (by simp [h])

theorem DepthFree.and_iff {fs : List Filter} : DepthFree (.and fs) ↔ ∀ f ∈ fs, DepthFree f :=
  ⟨fun h => by cases h; assumption, .and⟩

theorem DepthFree.conj {f g : Filter} (hf : DepthFree f) (hg : DepthFree g) : DepthFree (f.conj g) := by
  refine .and fun h hh => ?_
  rcases Filter.minimizeLoop_subset h hh with h' | h'
  · simp at h'
  · unfold Filter.conjFlat at h'
    split at h'
    · rw [DepthFree.and_iff] at hf hg
      rcases List.mem_append.1 h' with h' | h'
      · exact hf h h'
      · exact hg h h'
    · rw [DepthFree.and_iff] at hf
      rcases List.mem_append.1 h' with h' | h'
      · exact hf h h'
      · simp at h'; exact h' ▸ hg
    · rw [DepthFree.and_iff] at hg
      rcases List.mem_append.1 h' with h' | h'
      · exact hg h h'
      · simp at h'; exact h' ▸ hf
    · simp at h'
      rcases h' with rfl | rfl
      · exact hf
      · exact hg

namespace Workload

theorem AllFilters.addFilter {w : Workload} (h : AllFilters DepthFree w) {f : Filter} (hf : DepthFree f) :
    AllFilters DepthFree (w.addFilter f) := by
  induction h generalizing f with
  | set xs => exact .filter hf (.set xs)
  | plug hw hp _ ihp =>
    simp only [Workload.addFilter]
    split
    · exact .filter hf (.plug hw (ihp hf))
    · exact .filter hf (.plug hw hp)
  | filter hg _ ih => exact ih (DepthFree.conj hg hf)
  | append h => exact .filter hf (.append h)

theorem retain_depthFree {f : Filter} (hf : DepthFree f) (l : List Sexp) :
    retain f l = some (l.filter (f.testT ·)) := by
  induction l with
  | nil => rfl
  | cons s l ih =>
    simp only [retain, Filter.test_depthFree hf s, Option.bind_some, ih, Option.map_some, List.filter_cons]

theorem AllFilters.force {w : Workload} (h : AllFilters DepthFree w) : w.force = some w.forceT := by
  induction h with
  | set xs => rfl
  | plug _ _ ihw ihp => simp [Workload.force, ihw, ihp, forceT]
  | filter hf _ ih => simp [Workload.force, ih, retain_depthFree hf, forceT]
  | @append ws _ ih =>
    simp only [Workload.force, forceT]
    clear * - ih
    induction ws with
    | nil => rfl
    | cons w ws ihl => simp [forceL, forceTL, ih w (by simp), ihl fun v hv => ih v (by simp [hv])]

end Workload
end Ruler
