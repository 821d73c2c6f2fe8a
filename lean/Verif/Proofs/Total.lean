import Verif.Proofs.Basic
import Mathlib.Data.List.Forall2
/-! Total shadows of the partial (panicking) functions, and their relation to the real ones. -/
namespace Ruler
open Spec

/-! ### lists -/

theorem list_le_sum {l : List Nat} {x : Nat} (h : x ∈ l) : x ≤ l.sum := by
  induction l with
  | nil => cases h
  | cons a l ih =>
    rcases List.mem_cons.1 h with rfl | h
    · simp
    · have := ih h; simp; omega

theorem list_max?_eq_foldr (l : List Nat) (h : l ≠ []) : l.max? = some (l.foldr max 0) := by
  induction l with
  | nil => exact absurd rfl h
  | cons a l ih =>
    cases l with
    | nil => simp
    | cons b l =>
      have := ih (by simp)
      rw [List.max?_cons, this]
      simp

theorem list_le_foldr_max {l : List Nat} {x : Nat} (h : x ∈ l) : x ≤ l.foldr max 0 := by
  induction l with
  | nil => cases h
  | cons a l ih =>
    rcases List.mem_cons.1 h with rfl | h
    · simp; omega
    · have := ih h; simp; omega

theorem list_foldr_max_mem {l : List Nat} (h : l ≠ []) : l.foldr max 0 ∈ l := by
  induction l with
  | nil => exact absurd rfl h
  | cons a l ih =>
    cases l with
    | nil => simp
    | cons b l =>
      have := ih (by simp)
      rw [List.foldr_cons]
      rcases Nat.le_total a (List.foldr max 0 (b :: l)) with h | h
      · rw [Nat.max_eq_right h]; exact List.mem_cons_of_mem _ this
      · rw [Nat.max_eq_left h]; exact List.mem_cons_self ..

theorem option_mapM_map {α β : Type _} {f : α → Option β} {g : α → β} {l : List α}
    (h : ∀ a ∈ l, f a = some (g a)) : l.mapM f = some (l.map g) := by
  induction l with
  | nil => rfl
  | cons a l ih =>
    rw [List.mapM_cons, h a (by simp), ih (fun b hb => h b (List.mem_cons_of_mem _ hb))]
    rfl

theorem option_mapM_some {α β : Type _} {f : α → Option β} {l : List α} {r : List β}
    (h : l.mapM f = some r) : ∀ a ∈ l, ∃ b, f a = some b := by
  induction l generalizing r with
  | nil => simp
  | cons a l ih =>
    rw [List.mapM_cons] at h
    cases hf : f a with
    | none => simp [hf] at h
    | some b =>
      cases hl : l.mapM f with
      | none => simp [hf, hl] at h
      | some r' =>
        intro c hc
        rcases List.mem_cons.1 hc with rfl | hc
        · exact ⟨b, hf⟩
        · exact ih hl c hc

namespace Sexp

mutual
def measureT (m : Metric) : Sexp → Nat
  | atom _ => match m with
    | .lists => 0
    | .atoms | .depth => 1
  | list l => match m with
    | .atoms => (measureTL m l).sum
    | .lists => (measureTL m l).sum + 1
    | .depth => (measureTL m l).foldr max 0 + 1
def measureTL (m : Metric) : List Sexp → List Nat
  | [] => []
  | s :: l => measureT m s :: measureTL m l
end

theorem measureTL_eq (m : Metric) (l : List Sexp) : measureTL m l = l.map (measureT m) := by
  induction l with
  | nil => rfl
  | cons s l ih => simp [measureTL, ih]

theorem measure_noEmpty (m : Metric) (s : Sexp) (h : NoEmpty s) : s.measure m = some (measureT m s) := by
  induction s using Sexp.ind with
  | ha a => cases m <;> rfl
  | hl l ih =>
    rw [NoEmpty.list_iff] at h
    have : measureL m l = some (measureTL m l) := by
      rw [measureL_eq, measureTL_eq]
      exact option_mapM_map fun a ha => ih a ha (h.2 a ha)
    cases m with
    | atoms => simp [measure, measureT, this]
    | lists => simp [measure, measureT, this]
    | depth =>
      have hne : measureTL .depth l ≠ [] := by rw [measureTL_eq]; simpa using h.1
      simp [measure, measureT, this, list_max?_eq_foldr _ hne]

theorem measure_not_depth (m : Metric) (s : Sexp) (h : m ≠ .depth) : s.measure m = some (measureT m s) := by
  induction s using Sexp.ind with
  | ha a => cases m <;> rfl
  | hl l ih =>
    have : measureL m l = some (measureTL m l) := by
      rw [measureL_eq, measureTL_eq]
      exact option_mapM_map fun a ha => ih a ha
    cases m with
    | atoms => simp [measure, measureT, this]
    | lists => simp [measure, measureT, this]
    | depth => exact absurd rfl h

theorem measure_depth_noEmpty (s : Sexp) (k : Nat) (h : s.measure .depth = some k) : NoEmpty s := by
  induction s using Sexp.ind generalizing k with
  | ha a => exact NoEmpty.atom a
  | hl l ih =>
    simp only [measure, measureL_eq] at h
    cases hm : l.mapM (measure .depth) with
    | none => simp [hm] at h
    | some xs =>
      rw [NoEmpty.list_iff]
      constructor
      · rintro rfl
        simp at hm
        subst hm
        simp at h
      · intro t ht
        obtain ⟨b, hb⟩ := option_mapM_some hm t ht
        exact ih t ht b hb

theorem measure_some (m : Metric) (s : Sexp) (k : Nat) (h : s.measure m = some k) : k = measureT m s := by
  by_cases hm : m = .depth
  · subst hm
    rw [measure_noEmpty _ _ (measure_depth_noEmpty s k h)] at h
    injection h with h; exact h.symm
  · rw [measure_not_depth _ _ hm] at h
    injection h with h; exact h.symm

theorem measureT_child {m : Metric} {s : Sexp} {l : List Sexp} (h : s ∈ l) :
    measureT m s ≤ measureT m (list l) := by
  have hm : measureT m s ∈ measureTL m l := by rw [measureTL_eq]; exact List.mem_map_of_mem h
  cases m with
  | atoms => exact list_le_sum hm
  | lists => exact Nat.le_succ_of_le (list_le_sum hm)
  | depth => exact Nat.le_succ_of_le (list_le_foldr_max hm)

theorem measureT_mono {m : Metric} {s t : Sexp} (h : Subterm s t) : measureT m s ≤ measureT m t := by
  induction h with
  | refl => exact Nat.le_refl _
  | child hm _ ih => exact Nat.le_trans ih (measureT_child hm)

/-! ### canonicalisation never panics -/

theorem lookup_eq_none_iff {β : Type _} {σ : List (String × β)} {x : String} :
    σ.lookup x = none ↔ x ∉ σ.map Prod.fst := by
  induction σ with
  | nil => simp
  | cons p σ ih =>
    obtain ⟨k, v⟩ := p
    rw [List.lookup_cons]
    by_cases h : x = k
    · subst h; simp
    · have : (x == k) = false := by simpa using h
      rw [this]; simp only [List.map_cons, List.mem_cons, not_or]
      constructor
      · intro h'; exact ⟨h, ih.1 h'⟩
      · intro h'; exact ih.2 h'.2

theorem nodup_subset_length {α : Type _} [DecidableEq α] {k l : List α} (h : k.Nodup) (hs : ∀ x ∈ k, x ∈ l) :
    k.length ≤ l.length := by
  induction k generalizing l with
  | nil => simp
  | cons a k ih =>
    have ha : a ∈ l := hs a (by simp)
    have := ih (l := l.erase a) (List.nodup_cons.1 h).2 (by
      intro x hx
      have hne : x ≠ a := by
        rintro rfl; exact (List.nodup_cons.1 h).1 hx
      exact (List.mem_erase_of_ne hne).2 (hs x (by simp [hx])))
    rw [List.length_erase_of_mem ha] at this
    have hpos : 0 < l.length := List.length_pos_of_mem ha
    simp; omega

/-- Invariant of the substitution built by `mkCanon`. -/
structure CanonInv (symbols : List String) (idx : Nat) (σ : List (String × String)) : Prop where
  len : idx = σ.length
  nodup : (σ.map Prod.fst).Nodup
  keys : ∀ x ∈ σ.map Prod.fst, x ∈ symbols
  vals : σ.map Prod.snd = (symbols.take idx).reverse

theorem CanonInv.idx_le {symbols idx σ} (h : CanonInv symbols idx σ) : idx ≤ symbols.length := by
  have := nodup_subset_length h.nodup h.keys
  rw [h.len]; simpa using this

theorem mkCanon_inv (symbols : List String) (s : Sexp) (idx : Nat) (σ : List (String × String))
    (h : CanonInv symbols idx σ) :
    ∃ σ' idx', mkCanon symbols s idx σ = some (σ', idx') ∧ CanonInv symbols idx' σ' ∧
      (∃ τ, σ' = τ ++ σ) ∧
      (∀ x, x ∈ σ'.map Prod.fst ↔ x ∈ σ.map Prod.fst ∨ (x ∈ symbols ∧ Subterm (.atom x) s)) := by
  induction s using Sexp.ind generalizing idx σ with
  | ha a =>
    simp only [mkCanon]
    split
    next hc =>
      obtain ⟨hm, hn⟩ := hc
      rw [lookup_eq_none_iff] at hn
      have hlt : idx < symbols.length := by
        have := nodup_subset_length (k := a :: σ.map Prod.fst) (List.nodup_cons.2 ⟨hn, h.nodup⟩)
          (l := symbols) (by
            intro x hx
            rcases List.mem_cons.1 hx with rfl | hx
            · exact hm
            · exact h.keys x hx)
        rw [h.len]; simp at this; omega
      rw [List.getElem?_eq_getElem hlt]
      refine ⟨_, _, rfl, ⟨?_, ?_, ?_, ?_⟩, ⟨[(a, symbols[idx])], rfl⟩, ?_⟩
      · rw [List.length_cons, h.len]
      · rw [List.map_cons, List.nodup_cons]; exact ⟨hn, h.nodup⟩
      · intro x hx
        simp only [List.map_cons, List.mem_cons] at hx
        rcases hx with rfl | hx
        · exact hm
        · exact h.keys x hx
      · rw [List.map_cons, h.vals, List.take_add_one, List.getElem?_eq_getElem hlt,
          Option.toList_some, List.reverse_append]; rfl
      · intro x
        simp only [List.map_cons, List.mem_cons, Subterm.atom_iff, Sexp.atom.injEq]
        constructor
        · rintro (rfl | hx)
          · exact .inr ⟨hm, rfl⟩
          · exact .inl hx
        · rintro (hx | ⟨_, rfl⟩)
          · exact .inr hx
          · exact .inl rfl
    next hc =>
      refine ⟨σ, idx, rfl, h, ⟨[], rfl⟩, ?_⟩
      intro x
      constructor
      · exact .inl
      · rintro (hx | ⟨hx, hs⟩)
        · exact hx
        · simp only [Subterm.atom_iff, Sexp.atom.injEq] at hs
          subst hs
          by_cases hl : σ.lookup x = none
          · exact absurd ⟨hx, hl⟩ hc
          · rw [lookup_eq_none_iff] at hl
            exact Decidable.not_not.1 hl
  | hl l ih =>
    simp only [mkCanon]
    suffices H : ∀ (k : List Sexp), (∀ s ∈ k, s ∈ l) → ∀ idx σ, CanonInv symbols idx σ →
        ∃ σ' idx', mkCanonL symbols k idx σ = some (σ', idx') ∧ CanonInv symbols idx' σ' ∧
        (∃ τ, σ' = τ ++ σ) ∧
        (∀ x, x ∈ σ'.map Prod.fst ↔ x ∈ σ.map Prod.fst ∨ (x ∈ symbols ∧ ∃ t ∈ k, Subterm (.atom x) t)) by
      obtain ⟨σ', idx', h1, h2, h3, h4⟩ := H l (fun _ h => h) idx σ h
      refine ⟨σ', idx', h1, h2, h3, ?_⟩
      intro x
      rw [h4 x, Subterm.list_iff]; simp
    intro k
    induction k with
    | nil => intro _ idx σ h; exact ⟨σ, idx, rfl, h, ⟨[], rfl⟩, by simp⟩
    | cons t k ihk =>
      intro hk idx σ h
      obtain ⟨σ1, i1, e1, inv1, ⟨τ1, p1⟩, m1⟩ := ih t (hk t (by simp)) idx σ h
      obtain ⟨σ2, i2, e2, inv2, ⟨τ2, p2⟩, m2⟩ := ihk (fun s hs => hk s (by simp [hs])) i1 σ1 inv1
      refine ⟨σ2, i2, ?_, inv2, ⟨τ2 ++ τ1, by rw [p2, p1, List.append_assoc]⟩, ?_⟩
      · simp [mkCanonL, e1, e2]
      · intro x
        rw [m2 x, m1 x]
        simp only [List.mem_cons, exists_eq_or_imp]
        constructor
        · rintro ((h | ⟨h, h'⟩) | ⟨h, h'⟩)
          · exact .inl h
          · exact .inr ⟨h, .inl h'⟩
          · exact .inr ⟨h, .inr h'⟩
        · rintro (h | ⟨h, h' | h'⟩)
          · exact .inl (.inl h)
          · exact .inl (.inr ⟨h, h'⟩)
          · exact .inr ⟨h, h'⟩

theorem canonInv_nil (symbols : List String) : CanonInv symbols 0 [] :=
  ⟨rfl, by simp, by simp, by simp⟩

theorem canon_total (symbols : List String) (s : Sexp) : ∃ c, s.canon symbols = some c := by
  obtain ⟨σ, i, e, _⟩ := mkCanon_inv symbols s 0 [] (canonInv_nil symbols)
  exact ⟨applySubst σ s, by simp [canon, e]⟩

end Sexp

namespace Filter

mutual
def testT : Filter → Sexp → Bool
  | metricLt m n, s => decide (s.measureT m < n)
  | metricEq m n, s => decide (s.measureT m = n)
  | contains p, s => containsTest p s
  | excludes p, s => !containsTest p s
  | canon symbols, s => decide (s.canon symbols = some s)
  | and fs, s => testTAll fs s
  | or fs, s => testTAny fs s
  | invert f, s => !testT f s
def testTAll : List Filter → Sexp → Bool
  | [], _ => true
  | f :: fs, s => testT f s && testTAll fs s
def testTAny : List Filter → Sexp → Bool
  | [], _ => false
  | f :: fs, s => testT f s || testTAny fs s
end

theorem testTAll_eq (fs : List Filter) (s : Sexp) : testTAll fs s = fs.all (testT · s) := by
  induction fs with
  | nil => rfl
  | cons f fs ih => simp [testTAll, ih]

theorem testTAny_eq (fs : List Filter) (s : Sexp) : testTAny fs s = fs.any (testT · s) := by
  induction fs with
  | nil => rfl
  | cons f fs ih => simp [testTAny, ih]

theorem test_some (f : Filter) (s : Sexp) (b : Bool) (h : f.test s = some b) : b = testT f s := by
  induction f using Filter.ind generalizing b with
  | h1 m n =>
    simp only [test, Option.map_eq_some_iff] at h
    obtain ⟨k, hk, rfl⟩ := h
    rw [Sexp.measure_some m s k hk]; rfl
  | h2 m n =>
    simp only [test, Option.map_eq_some_iff] at h
    obtain ⟨k, hk, rfl⟩ := h
    rw [Sexp.measure_some m s k hk]; rfl
  | h3 p => simp [test] at h; simp [testT, h]
  | h4 p => simp only [test, Option.some.injEq] at h; exact h.symm
  | h5 p =>
    simp only [test, Option.map_eq_some_iff] at h
    obtain ⟨k, hk, rfl⟩ := h
    simp [testT, hk, eq_comm]
  | h6 fs ih =>
    simp only [test] at h
    simp only [testT]
    induction fs generalizing b with
    | nil => simp [testAll] at h; simp [testTAll, ← h]
    | cons f fs ihf =>
      simp only [testAll, Option.bind_eq_some_iff] at h
      obtain ⟨c, hc, h⟩ := h
      have := ih f (by simp) c hc
      simp only [testTAll, ← this]
      cases c with
      | false => simp at h; simp [h]
      | true =>
        simp at h
        simp [ihf (fun g hg => ih g (by simp [hg])) b h]
  | h7 fs ih =>
    simp only [test] at h
    simp only [testT]
    induction fs generalizing b with
    | nil => simp [testAny] at h; simp [testTAny, h]
    | cons f fs ihf =>
      simp only [testAny, Option.bind_eq_some_iff] at h
      obtain ⟨c, hc, h⟩ := h
      have := ih f (by simp) c hc
      simp only [testTAny, ← this]
      cases c with
      | true => simp at h; simp [h]
      | false =>
        simp at h
        simp [ihf (fun g hg => ih g (by simp [hg])) b h]
  | h8 f ih =>
    simp only [test, Option.map_eq_some_iff] at h
    obtain ⟨k, hk, rfl⟩ := h
    simp [testT, ih k hk]

theorem test_noEmpty (f : Filter) (s : Sexp) (h : NoEmpty s) : f.test s = some (testT f s) := by
  induction f using Filter.ind with
  | h1 m n => simp [test, testT, Sexp.measure_noEmpty m s h]
  | h2 m n => simp [test, testT, Sexp.measure_noEmpty m s h]
  | h3 p => rfl
  | h4 p => rfl
  | h5 p =>
    obtain ⟨c, hc⟩ := Sexp.canon_total p s
    simp [test, testT, hc, eq_comm]
  | h6 fs ih =>
    simp only [test, testT]
    induction fs with
    | nil => rfl
    | cons f fs ihf =>
      simp only [testAll, testTAll, ih f (by simp), Option.bind_some]
      rw [ihf (fun g hg => ih g (by simp [hg]))]
      cases testT f s <;> rfl
  | h7 fs ih =>
    simp only [test, testT]
    induction fs with
    | nil => rfl
    | cons f fs ihf =>
      simp only [testAny, testTAny, ih f (by simp), Option.bind_some]
      rw [ihf (fun g hg => ih g (by simp [hg]))]
      cases testT f s <;> rfl
  | h8 f ih => simp [test, testT, ih]

/-! ### monotonicity -/

theorem containsTest_iff (p : Pattern) (t : Sexp) :
    containsTest p t = true ↔ ∃ s, Subterm s t ∧ p.matches_ s = true := by
  induction t using Sexp.ind with
  | ha a =>
    simp only [containsTest, Subterm.atom_iff, exists_eq_left]
  | hl l ih =>
    simp only [containsTest, containsTestL_eq, Bool.or_eq_true, List.any_eq_true, Subterm.list_iff]
    constructor
    · rintro (h | ⟨t, ht, h⟩)
      · exact ⟨_, .inl rfl, h⟩
      · obtain ⟨s, hs, hp⟩ := (ih t ht).1 h
        exact ⟨s, .inr ⟨t, ht, hs⟩, hp⟩
    · rintro ⟨s, (rfl | ⟨t, ht, hs⟩), hp⟩
      · exact .inl hp
      · exact .inr ⟨t, ht, (ih t ht).2 ⟨s, hs, hp⟩⟩

theorem testT_mono (f : Filter) (hf : f.isMonotonic = true) {s t : Sexp} (hs : Subterm s t)
    (h : testT f t = true) : testT f s = true := by
  induction f using Filter.ind with
  | h1 m n =>
    simp only [testT, decide_eq_true_eq] at h ⊢
    exact Nat.lt_of_le_of_lt (Sexp.measureT_mono hs) h
  | h2 m n => simp [isMonotonic] at hf
  | h3 p => simp [isMonotonic] at hf
  | h4 p =>
    simp only [testT, Bool.not_eq_true'] at h ⊢
    rw [← Bool.not_eq_true, containsTest_iff] at h ⊢
    rintro ⟨r, hr, hp⟩
    exact h ⟨r, hr.trans hs, hp⟩
  | h5 p => simp [isMonotonic] at hf
  | h6 fs ih =>
    simp only [isMonotonic, isMonotonicL_eq, List.all_eq_true] at hf
    simp only [testT, testTAll_eq, List.all_eq_true] at h ⊢
    exact fun f hm => ih f hm (hf f hm) (h f hm)
  | h7 fs ih => simp [isMonotonic] at hf
  | h8 f ih => simp [isMonotonic] at hf

/-! ### conjunction -/

theorem subsumedBy_sound (f : Filter) (fs : List Filter) (s : Sexp) (h : f.subsumedBy fs = true)
    (ha : fs.all (testT · s) = true) : testT f s = true := by
  cases f with
  | metricLt m n =>
    simp only [subsumedBy, List.any_eq_true] at h
    obtain ⟨g, hg, h⟩ := h
    cases g with
    | metricLt m1 n1 =>
      simp only [Bool.and_eq_true, decide_eq_true_eq] at h
      obtain ⟨rfl, hn⟩ := h
      have := List.all_eq_true.1 ha _ hg
      simp only [testT, decide_eq_true_eq] at this ⊢
      omega
    | _ => simp at h
  | _ => simp [subsumedBy] at h

theorem minimizeLoop_all (s : Sexp) (fs acc : List Filter) :
    (minimizeLoop acc fs).all (testT · s) = (acc.all (testT · s) && fs.all (testT · s)) := by
  induction fs generalizing acc with
  | nil => simp [minimizeLoop]
  | cons f fs ih =>
    simp only [minimizeLoop]
    split
    next h =>
      rw [ih]
      by_cases ha : acc.all (testT · s) = true
      · simp [subsumedBy_sound f acc s h ha]
      · rw [Bool.not_eq_true] at ha
        rw [ha]; simp
    next h => rw [ih]; simp [Bool.and_assoc]

theorem conjFlat_all (f g : Filter) (s : Sexp) :
    (conjFlat f g).all (testT · s) = (testT f s && testT g s) := by
  unfold conjFlat
  split <;> simp [testT, testTAll_eq, Bool.and_comm]

theorem testT_conj (f g : Filter) (s : Sexp) : testT (conj f g) s = (testT f s && testT g s) := by
  simp [conj, testT, testTAll_eq, minimizeLoop_all, conjFlat_all]

end Filter

namespace Workload

theorem retain_some {f : Filter} {l r : List Sexp} (h : retain f l = some r) : r = l.filter (f.testT ·) := by
  induction l generalizing r with
  | nil => simp [retain] at h; simp [h]
  | cons s l ih =>
    simp only [retain, Option.bind_eq_some_iff, Option.map_eq_some_iff] at h
    obtain ⟨b, hb, r', hr, rfl⟩ := h
    rw [List.filter_cons, ← Filter.test_some f s b hb, ih hr]

theorem retain_noEmpty {f : Filter} {l : List Sexp} (h : ∀ s ∈ l, NoEmpty s) :
    retain f l = some (l.filter (f.testT ·)) := by
  induction l with
  | nil => rfl
  | cons s l ih =>
    simp only [retain, Filter.test_noEmpty f s (h s (by simp)), Option.bind_some,
      ih (fun t ht => h t (by simp [ht])), Option.map_some, List.filter_cons]

mutual
def forceT : Workload → List Sexp
  | set xs => xs
  | plug w name pegs => (forceT w).flatMap (Sexp.plug name (forceT pegs))
  | filter f w => (forceT w).filter (f.testT ·)
  | append ws => forceTL ws
def forceTL : List Workload → List Sexp
  | [] => []
  | w :: ws => forceT w ++ forceTL ws
end

theorem forceTL_eq (ws : List Workload) : forceTL ws = ws.flatMap forceT := by
  induction ws with
  | nil => rfl
  | cons w ws ih => simp [forceTL, ih]

theorem force_some (w : Workload) (l : List Sexp) (h : w.force = some l) : l = w.forceT := by
  induction w using Workload.ind generalizing l with
  | h1 xs => simp [force] at h; simp [forceT, h]
  | h2 w n p ihw ihp =>
    simp only [force, Option.bind_eq_some_iff, Option.map_eq_some_iff] at h
    obtain ⟨ps, hp, ts, ht, rfl⟩ := h
    simp [forceT, ihw ts ht, ihp ps hp]
  | h3 f w ih =>
    simp only [force, Option.bind_eq_some_iff] at h
    obtain ⟨ts, ht, h⟩ := h
    rw [retain_some h, ih ts ht]; rfl
  | h4 ws ih =>
    simp only [force] at h
    simp only [forceT]
    induction ws generalizing l with
    | nil => simp [forceL] at h; simp [forceTL, h]
    | cons w ws ihw =>
      simp only [forceL, Option.bind_eq_some_iff, Option.map_eq_some_iff] at h
      obtain ⟨xs, hx, ys, hy, rfl⟩ := h
      simp [forceTL, ih w (by simp) xs hx, ihw (fun v hv => ih v (by simp [hv])) ys hy]

end Workload

/-! ### products -/

namespace Sexp

theorem mem_prods {α : Type _} {xss : List (List α)} {ys : List α} :
    ys ∈ prods xss ↔ List.Forall₂ (fun y xs => y ∈ xs) ys xss := by
  induction xss generalizing ys with
  | nil =>
    constructor
    · intro h; simp [prods] at h; subst h; exact .nil
    · intro h; cases h; simp [prods]
  | cons xs rest ih =>
    simp only [prods, List.mem_flatMap, List.mem_map]
    constructor
    · rintro ⟨x, hx, zs, hz, rfl⟩
      exact .cons hx (ih.1 hz)
    · intro h
      cases h with
      | cons hx hz => exact ⟨_, hx, _, ih.2 hz, rfl⟩

theorem filter_flatMap' {α β : Type _} (p : β → Bool) (f : α → List β) (l : List α) :
    (l.flatMap f).filter p = l.flatMap fun a => (f a).filter p := by
  induction l with
  | nil => rfl
  | cons a l ih => simp [ih]

theorem filter_all_prods {α : Type _} (F : α → Bool) (xss : List (List α)) :
    (prods xss).filter (·.all F) = prods (xss.map (·.filter F)) := by
  induction xss with
  | nil => simp [prods]
  | cons xs rest ih =>
    simp only [prods, List.map_cons]
    rw [filter_flatMap']
    have : ∀ x, ((prods rest).map (x :: ·)).filter (·.all F)
        = if F x then (prods (rest.map (·.filter F))).map (x :: ·) else [] := by
      intro x
      rw [List.filter_map, ← ih]
      cases hx : F x with
      | true => simp [Function.comp_def, hx]
      | false => simp [Function.comp_def, hx]
    simp only [this]
    clear this
    induction xs with
    | nil => rfl
    | cons a xs iha =>
      simp only [List.flatMap_cons, List.filter_cons, iha]
      cases F a <;> simp

theorem filter_prods_congr {α : Type _} (F : α → Bool) (G : List α → Bool)
    (hG : ∀ l, G l = true → l.all F = true) (xss yss : List (List α))
    (h : xss.map (·.filter F) = yss.map (·.filter F)) :
    (prods xss).filter G = (prods yss).filter G := by
  have key : ∀ zss : List (List α), (prods zss).filter G = (prods (zss.map (·.filter F))).filter G := by
    intro zss
    rw [← filter_all_prods, List.filter_filter]
    apply List.filter_congr
    intro l _
    cases hg : G l with
    | false => simp
    | true => simp [hG l hg]
  rw [key, key yss, h]

theorem filter_plug (F : Sexp → Bool) (hF : ∀ s t, Subterm s t → F t = true → F s = true)
    (name : String) (pegs : List Sexp) (t : Sexp) :
    (plug name (pegs.filter F) t).filter F = (plug name pegs t).filter F := by
  induction t using Sexp.ind with
  | ha a =>
    simp only [plug]
    split <;> simp
  | hl l ih =>
    simp only [plug, plugL_eq, List.filter_map]
    congr 1
    cases l with
    | nil => rfl
    | cons s l =>
      simp only [List.map_cons, multiCartesianProduct]
      apply filter_prods_congr F
      · intro k hk
        rw [List.all_eq_true]
        intro x hx
        exact hF x (.list k) (.child hx (.refl x)) hk
      · simp only [List.map_cons]
        rw [ih s (by simp)]
        congr 1
        simp only [List.map_map]
        apply List.map_congr_left
        intro x hx
        exact ih x (by simp [hx])

end Sexp

namespace Workload

theorem forceT_addFilter (w : Workload) (f : Filter) :
    (w.addFilter f).forceT = w.forceT.filter (f.testT ·) := by
  induction w using Workload.ind generalizing f with
  | h1 xs => rfl
  | h2 w n p ihw ihp =>
    simp only [addFilter]
    split
    next hm =>
      simp only [forceT, ihp, Sexp.filter_flatMap']
      congr 1
      funext t
      exact Sexp.filter_plug _ (fun s t hs h => Filter.testT_mono f hm hs h) n _ t
    next => rfl
  | h3 g w ih =>
    simp only [addFilter, ih, forceT, List.filter_filter]
    apply List.filter_congr
    intro s _
    rw [Filter.testT_conj, Bool.and_comm]
  | h4 ws ih => rfl

end Workload
end Ruler
