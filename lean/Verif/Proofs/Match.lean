import Verif.Proofs.Total
/-! Helper lemmas about pattern matching. -/
namespace Ruler
open Spec

/-- The total substitution `τ` extends the partial one. -/
def Extends (τ : String → Sexp) (σ : List (String × Sexp)) : Prop :=
  ∀ v x, σ.lookup v = some x → τ v = x

theorem Extends.nil (τ : String → Sexp) : Extends τ [] := by
  intro v x h; simp at h

theorem Extends.cons_iff {τ : String → Sexp} {σ : List (String × Sexp)} {v : String} {s : Sexp}
    (hn : σ.lookup v = none) : Extends τ ((v, s) :: σ) ↔ τ v = s ∧ Extends τ σ := by
  constructor
  · intro h
    refine ⟨h v s (by simp), ?_⟩
    intro u x hu
    apply h
    rw [List.lookup_cons]
    by_cases e : u = v
    · subst e; rw [hn] at hu; cases hu
    · have : (u == v) = false := by simpa using e
      rw [this]; exact hu
  · rintro ⟨h1, h2⟩ u x hu
    rw [List.lookup_cons] at hu
    by_cases e : u = v
    · subst e; simp at hu; rw [h1, hu]
    · have : (u == v) = false := by simpa using e
      rw [this] at hu; exact h2 u x hu

theorem matchesWith_iff (p : Pattern) (s : Sexp) (σ : List (String × Sexp)) (τ : String → Sexp) :
    (∃ σ', p.matchesWith s σ = some σ' ∧ Extends τ σ') ↔ (Extends τ σ ∧ Instance τ p s) := by
  induction p using Pattern.ind generalizing s σ with
  | hw => simp [Pattern.matchesWith, Instance.wild]
  | hv v =>
    simp only [Pattern.matchesWith]
    cases hl : σ.lookup v with
    | some x =>
      simp only
      constructor
      · rintro ⟨σ', h, he⟩
        split at h
        next e =>
          injection h with h; subst h; subst e
          have := he v s hl
          exact ⟨he, this ▸ .var v⟩
        next => cases h
      · rintro ⟨he, hi⟩
        have hv := he v x hl
        cases hi
        exact ⟨σ, by simp [hv], he⟩
    | none =>
      simp only [Option.some.injEq, exists_eq_left', Extends.cons_iff hl]
      constructor
      · rintro ⟨e, he⟩; exact ⟨he, e ▸ .var v⟩
      · rintro ⟨he, hi⟩; cases hi; exact ⟨rfl, he⟩
  | ha a =>
    cases s with
    | atom b =>
      simp only [Pattern.matchesWith]
      by_cases e : a = b
      · subst e; simp [Instance.lit]
      · simp only [e, if_false]
        constructor
        · rintro ⟨_, h, _⟩; cases h
        · rintro ⟨_, hi⟩; cases hi; exact absurd rfl e
    | list l =>
      simp only [Pattern.matchesWith]
      constructor
      · rintro ⟨_, h, _⟩; cases h
      · rintro ⟨_, hi⟩; cases hi
  | hl ps ih =>
    cases s with
    | atom b =>
      simp only [Pattern.matchesWith]
      constructor
      · rintro ⟨_, h, _⟩; cases h
      · rintro ⟨_, hi⟩; cases hi
    | list l =>
      simp only [Pattern.matchesWith]
      by_cases hlen : ps.length = l.length
      · simp only [hlen, if_true]
        have : Instance τ (.list ps) (.list l) ↔ InstanceL τ ps l :=
          ⟨fun h => by cases h; assumption, .list⟩
        rw [this]
        clear this
        induction ps generalizing l σ with
        | nil =>
          cases l with
          | nil => simp [Pattern.matchesWithL, InstanceL.nil]
          | cons => simp at hlen
        | cons p ps ihp =>
          cases l with
          | nil => simp at hlen
          | cons s l =>
            have hp := ih p (by simp) s σ
            simp only [Pattern.matchesWithL]
            cases hm : p.matchesWith s σ with
            | none =>
              simp only
              constructor
              · rintro ⟨_, h, _⟩; cases h
              · rintro ⟨he, hi⟩
                cases hi with
                | cons h1 h2 =>
                  obtain ⟨_, h, _⟩ := hp.2 ⟨he, h1⟩
                  rw [hm] at h; cases h
            | some σ1 =>
              simp only
              refine (ihp (fun q hq => ih q (by simp [hq])) σ1 l (by simpa using hlen)).trans ?_
              constructor
              · rintro ⟨he, hi⟩
                obtain ⟨h1, h2⟩ := hp.1 ⟨σ1, hm, he⟩
                exact ⟨h1, .cons h2 hi⟩
              · rintro ⟨he, hi⟩
                cases hi with
                | cons h1 h2 =>
                  obtain ⟨σ', h, he'⟩ := hp.2 ⟨he, h1⟩
                  rw [hm] at h; injection h with h; subst h
                  exact ⟨he', h2⟩
      · simp only [hlen, if_false]
        constructor
        · rintro ⟨_, h, _⟩; cases h
        · rintro ⟨_, hi⟩
          cases hi with
          | list hi =>
            exfalso; apply hlen
            clear * - hi
            induction ps generalizing l with
            | nil => cases hi; rfl
            | cons p ps ih => cases hi with | cons _ h => simp [ih _ h]

theorem exists_extends (σ : List (String × Sexp)) : ∃ τ, Extends τ σ :=
  ⟨fun v => (σ.lookup v).getD (.atom ""), fun v x h => by simp [h]⟩

theorem matches_iff (p : Pattern) (s : Sexp) : p.matches_ s = true ↔ ∃ τ, Instance τ p s := by
  unfold Pattern.matches_
  rw [Option.isSome_iff_exists]
  constructor
  · rintro ⟨σ, h⟩
    obtain ⟨τ, ht⟩ := exists_extends σ
    exact ⟨τ, ((matchesWith_iff p s [] τ).1 ⟨σ, h, ht⟩).2⟩
  · rintro ⟨τ, h⟩
    obtain ⟨σ, h, _⟩ := (matchesWith_iff p s [] τ).2 ⟨Extends.nil τ, h⟩
    exact ⟨σ, h⟩

end Ruler
