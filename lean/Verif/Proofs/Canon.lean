import Verif.Proofs.Total
import Mathlib.Logic.Equiv.Basic
import Mathlib.Data.List.Nodup
/-! Helper lemmas about canonicalisation. -/
namespace Ruler
open Spec

theorem exists_perm_of_pairs (S : List String) (σ : List (String × String))
    (hk : (σ.map Prod.fst).Nodup) (hv : (σ.map Prod.snd).Nodup)
    (hkS : ∀ x ∈ σ.map Prod.fst, x ∈ S) (hvS : ∀ x ∈ σ.map Prod.snd, x ∈ S) :
    ∃ π : Equiv.Perm String, (∀ a, a ∉ S → π a = a) ∧ (∀ k v, σ.lookup k = some v → π k = v) ∧
      (∀ a ∈ S, π a ∈ S) := by
  induction σ with
  | nil => exact ⟨Equiv.refl _, by simp, by simp, by simp⟩
  | cons p σ ih =>
    obtain ⟨k, v⟩ := p
    simp only [List.map_cons, List.nodup_cons, List.mem_cons, forall_eq_or_imp] at hk hv hkS hvS
    obtain ⟨π, h1, h2, h3⟩ := ih hk.2 hv.2 hkS.2 hvS.2
    have hlook : ∀ k' v', σ.lookup k' = some v' → k' ∈ σ.map Prod.fst ∧ v' ∈ σ.map Prod.snd := by
      clear * -
      intro k' v' h
      induction σ with
      | nil => simp at h
      | cons p σ ih =>
        obtain ⟨a, b⟩ := p
        rw [List.lookup_cons] at h
        by_cases e : k' = a
        · subst e; simp at h; simp [h]
        · have : (k' == a) = false := by simpa using e
          rw [this] at h
          obtain ⟨h1, h2⟩ := ih h
          exact ⟨List.mem_cons_of_mem _ h1, List.mem_cons_of_mem _ h2⟩
    have hπk : π k ∈ S := h3 k hkS.1
    refine ⟨π.trans (Equiv.swap (π k) v), ?_, ?_, ?_⟩
    · intro a ha
      rw [Equiv.trans_apply, h1 a ha]
      refine Equiv.swap_apply_of_ne_of_ne ?_ ?_
      · rintro rfl; exact ha hπk
      · rintro rfl; exact ha hvS.1
    · intro k' v' h
      rw [List.lookup_cons] at h
      by_cases e : k' = k
      · subst e; simp at h; subst h
        simp
      · have : (k' == k) = false := by simpa using e
        rw [this] at h
        have hm := hlook k' v' h
        rw [Equiv.trans_apply, h2 k' v' h]
        refine Equiv.swap_apply_of_ne_of_ne ?_ ?_
        · intro e'
          rw [← h2 k' v' h] at e'
          exact e (π.injective e')
        · rintro rfl; exact hv.1 hm.2
    · intro a ha
      rw [Equiv.trans_apply]
      by_cases e1 : π a = π k
      · rw [e1, Equiv.swap_apply_left]; exact hvS.1
      · by_cases e2 : π a = v
        · rw [e2, Equiv.swap_apply_right]; exact hπk
        · rw [Equiv.swap_apply_of_ne_of_ne e1 e2]; exact h3 a ha

namespace SameUpToRenaming

theorem rename_comp (ρ τ : String → String) (s : Sexp) :
    rename ρ (rename τ s) = rename (fun a => ρ (τ a)) s := by
  induction s using Sexp.ind with
  | ha a => rfl
  | hl l ih =>
    simp only [rename, renameL_eq, List.map_map, Sexp.list.injEq]
    exact List.map_congr_left fun t ht => ih t ht

theorem rename_congr {ρ τ : String → String} {s : Sexp}
    (h : ∀ a, Subterm (.atom a) s → ρ a = τ a) : rename ρ s = rename τ s := by
  induction s using Sexp.ind with
  | ha a => simp [rename, h a (.refl _)]
  | hl l ih =>
    simp only [rename, renameL_eq, Sexp.list.injEq]
    exact List.map_congr_left fun t ht => ih t ht fun a ha => h a (.child ht ha)

theorem rename_id (s : Sexp) : rename (fun a => a) s = s := by
  induction s using Sexp.ind with
  | ha a => rfl
  | hl l ih =>
    simp only [rename, renameL_eq, Sexp.list.injEq]
    conv_rhs => rw [← List.map_id l]
    exact List.map_congr_left fun t ht => ih t ht

theorem refl (S : List String) (s : Sexp) : SameUpToRenaming S s s :=
  ⟨fun a => a, fun _ _ h => h, fun b => ⟨b, rfl⟩, fun _ _ => rfl, (rename_id s).symm⟩

theorem symm {S : List String} {s t : Sexp} (h : SameUpToRenaming S s t) : SameUpToRenaming S t s := by
  obtain ⟨ρ, hi, hs, hf, rfl⟩ := h
  choose τ hτ using hs
  refine ⟨τ, ?_, ?_, ?_, ?_⟩
  · intro a b e; rw [← hτ a, ← hτ b, e]
  · intro b; exact ⟨ρ b, hi _ _ (hτ _)⟩
  · intro a ha
    exact hi _ _ ((hτ a).trans (hf a ha).symm)
  · rw [rename_comp]
    conv_lhs => rw [← rename_id s]
    exact rename_congr fun a _ => (hi _ _ (hτ (ρ a))).symm

theorem trans {S : List String} {s t u : Sexp} (h : SameUpToRenaming S s t) (h' : SameUpToRenaming S t u) :
    SameUpToRenaming S s u := by
  obtain ⟨ρ, hi, hs, hf, rfl⟩ := h
  obtain ⟨τ, ti, ts, tf, rfl⟩ := h'
  refine ⟨fun a => τ (ρ a), fun a b e => hi _ _ (ti _ _ e), ?_, ?_, rename_comp _ _ _⟩
  · intro b
    obtain ⟨c, rfl⟩ := ts b
    obtain ⟨a, rfl⟩ := hs c
    exact ⟨a, rfl⟩
  · intro a ha
    show τ (ρ a) = a
    rw [hf a ha, tf a ha]

end SameUpToRenaming

namespace Sexp

theorem applySubst_eq_rename (σ : List (String × String)) (ρ : String → String) (s : Sexp)
    (h : ∀ a, Subterm (.atom a) s → (σ.lookup a).getD a = ρ a) : applySubst σ s = rename ρ s := by
  induction s using Sexp.ind with
  | ha a =>
    have := h a (.refl _)
    simp only [applySubst, rename]
    cases hl : σ.lookup a with
    | none => simp [hl] at this; simp [← this]
    | some v => simp [hl] at this; simp [← this]
  | hl l ih =>
    simp only [applySubst, applySubstL_eq, rename, renameL_eq, Sexp.list.injEq]
    exact List.map_congr_left fun t ht => ih t ht fun a ha => h a (.child ht ha)

theorem lookup_map_key {ρ : String → String} (hi : ∀ a b, ρ a = ρ b → a = b) (σ : List (String × String))
    (x : String) : (σ.map fun p => (ρ p.1, p.2)).lookup (ρ x) = σ.lookup x := by
  induction σ with
  | nil => rfl
  | cons p σ ih =>
    obtain ⟨k, v⟩ := p
    simp only [List.map_cons, List.lookup_cons]
    by_cases e : x = k
    · subst e; simp
    · have h1 : (x == k) = false := by simpa using e
      have h2 : (ρ x == ρ k) = false := by simpa using fun e' => e (hi _ _ e')
      rw [h1, h2]; exact ih

theorem mkCanon_rename (S : List String) (ρ : String → String) (hi : ∀ a b, ρ a = ρ b → a = b)
    (hS : ∀ a, ρ a ∈ S ↔ a ∈ S) (s : Sexp) (idx : Nat) (σ : List (String × String)) :
    mkCanon S (rename ρ s) idx (σ.map fun p => (ρ p.1, p.2)) =
      (mkCanon S s idx σ).map fun q => (q.1.map fun p => (ρ p.1, p.2), q.2) := by
  induction s using Sexp.ind generalizing idx σ with
  | ha a =>
    simp only [rename, mkCanon, lookup_map_key hi, hS]
    split
    · cases S[idx]? <;> simp
    · simp
  | hl l ih =>
    simp only [rename, mkCanon]
    induction l generalizing idx σ with
    | nil => simp [renameL, mkCanonL]
    | cons t l ihl =>
      simp only [renameL, mkCanonL, ih t (by simp)]
      cases mkCanon S t idx σ with
      | none => simp
      | some q => simpa using ihl (fun u hu => ih u (by simp [hu])) q.2 q.1

theorem canon_rename (S : List String) (ρ : String → String) (hi : ∀ a b, ρ a = ρ b → a = b)
    (hS : ∀ a, ρ a ∈ S ↔ a ∈ S) (hf : ∀ a, a ∉ S → ρ a = a) (s : Sexp) :
    canon S (rename ρ s) = canon S s := by
  unfold canon
  have := mkCanon_rename S ρ hi hS s 0 []
  simp only [List.map_nil] at this
  rw [this]
  obtain ⟨σ, i, e, inv, _, hk⟩ := mkCanon_inv S s 0 [] (canonInv_nil S)
  simp only [e, Option.map_some, Option.some.injEq]
  have hval : ∀ a, Subterm (.atom a) s →
      ((σ.map fun p => (ρ p.1, p.2)).lookup (ρ a)).getD (ρ a) = (σ.lookup a).getD a := by
    intro a ha
    rw [lookup_map_key hi]
    cases hl : σ.lookup a with
    | some v => rfl
    | none =>
      rw [lookup_eq_none_iff, hk] at hl
      simp only [Option.getD_none]
      refine hf a fun hm => hl (.inr ⟨hm, ha⟩)
  clear * - hval
  induction s using Sexp.ind with
  | ha a =>
    have := hval a (.refl _)
    rw [rename, applySubst, applySubst]
    cases h1 : (σ.map fun p => (ρ p.1, p.2)).lookup (ρ a) <;> cases h2 : σ.lookup a <;>
      simp [h1, h2] at this ⊢ <;> exact this
  | hl l ih =>
    simp only [rename, applySubst, applySubstL_eq, renameL_eq, List.map_map, Sexp.list.injEq]
    exact List.map_congr_left fun t ht => ih t ht fun a ha => hval a (.child ht ha)

theorem canon_same (S : List String) (hS : S.Nodup) (s c : Sexp) (h : canon S s = some c) :
    SameUpToRenaming S s c := by
  obtain ⟨σ, i, e, inv, _, hk⟩ := mkCanon_inv S s 0 [] (canonInv_nil S)
  simp only [canon, e, Option.map_some, Option.some.injEq] at h
  subst h
  have hv : (σ.map Prod.snd).Nodup := by
    rw [inv.vals, List.nodup_reverse]
    exact hS.sublist (List.take_sublist _ _)
  have hvS : ∀ x ∈ σ.map Prod.snd, x ∈ S := by
    intro x hx
    rw [inv.vals, List.mem_reverse] at hx
    exact List.mem_of_mem_take hx
  obtain ⟨π, h1, h2, _⟩ := exists_perm_of_pairs S σ inv.nodup hv inv.keys hvS
  refine ⟨π, fun a b e => π.injective e, fun b => ⟨π.symm b, by simp⟩, h1, ?_⟩
  apply applySubst_eq_rename
  intro a ha
  cases hl : σ.lookup a with
  | some v => simp [h2 a v hl]
  | none =>
    rw [lookup_eq_none_iff, hk] at hl
    simp only [Option.getD_none]
    exact (h1 a fun hm => hl (.inr ⟨hm, ha⟩)).symm

theorem canon_eq_of_same {S : List String} {s t : Sexp} (h : SameUpToRenaming S s t) :
    canon S t = canon S s := by
  obtain ⟨ρ, hi, hs, hf, rfl⟩ := h
  refine canon_rename S ρ hi ?_ hf s
  intro a
  constructor
  · intro h
    refine Decidable.byContradiction fun hn => ?_
    rw [hf a hn] at h; exact hn h
  · intro h
    refine Decidable.byContradiction fun hn => ?_
    have := hf (ρ a) hn
    have := hi _ _ this
    rw [this] at hn; exact hn h

end Sexp
end Ruler
