import Verif.Model.Conditional
import Verif.Spec.Conditional
import Verif.Proofs.Rational
import Verif.Props.Inference
/-!
# Lemmas on conditional rules
-/
namespace Ruler
open Spec
variable {K : Type} [Field K] [LinearOrder K]

mutual
theorem mem_denominators {d : Pat MathOp} : ∀ {p : Pat MathOp}, d ∈ denominators p ↔ Denominator d p
  | .var v => by
    simp only [denominators, List.not_mem_nil, false_iff]
    intro h
    cases h
  | .node o args => by
    have hL := mem_denominatorsL (d := d) (l := args)
    unfold denominators
    split
    · rename_i a b
      simp only [denominatorsL, List.append_nil] at hL
      rw [List.mem_cons, hL]
      constructor
      · rintro (rfl | ⟨p, hp, h⟩)
        · exact .here
        · exact .inside hp h
      · intro h
        cases h with
        | here => exact .inl rfl
        | inside hp h => exact .inr ⟨_, hp, h⟩
    · rename_i hne
      rw [hL]
      constructor
      · rintro ⟨p, hp, h⟩
        exact .inside hp h
      · intro h
        cases h with
        | here => exact (hne _ _ rfl rfl).elim
        | inside hp h => exact ⟨_, hp, h⟩
theorem mem_denominatorsL {d : Pat MathOp} : ∀ {l : List (Pat MathOp)}, d ∈ denominatorsL l ↔ ∃ p ∈ l, Denominator d p
  | [] => by simp [denominatorsL]
  | p :: l => by
    rw [denominatorsL, List.mem_append, mem_denominators, mem_denominatorsL]
    simp
end

theorem mem_ownDenominators {r : Rule MathOp} {d : Pat MathOp} : d ∈ ownDenominators r ↔ OwnDenominator r.lhs r.rhs d := by
  simp only [ownDenominators, mem_dedup, List.mem_filter, List.mem_append, mem_denominators, OwnDenominator, Bool.not_eq_true',
    Bool.and_eq_false_iff, decide_eq_false_iff_not]
  by_cases h1 : Denominator d r.lhs <;> by_cases h2 : Denominator d r.rhs <;> simp [h1, h2]

theorem mathPat_args {o : MathOp} {l : List (Pat MathOp)} (h : MathPat (.node o l)) : l.length = o.arity ∧ ∀ a ∈ l, MathPat a := by
  cases h with
  | node h1 _ h2 => exact ⟨h1, h2⟩

theorem Denominator.mathPat {d p : Pat MathOp} (h : Denominator d p) : MathPat p → MathPat d := by
  induction h with
  | here => exact fun h => (mathPat_args h).2 _ (by simp)
  | inside hp _ ih => exact fun h => ih ((mathPat_args h).2 _ hp)

/-- Variables of a denominator are variables of the pattern. -/
theorem mem_varsL {v : String} : ∀ {l : List (Pat MathOp)} {p}, p ∈ l → v ∈ p.vars → v ∈ Pat.varsL l
  | q :: l, p, hp, hv => by
    rw [Pat.varsL, List.mem_append]
    rcases List.mem_cons.1 hp with rfl | hp
    · exact .inl hv
    · exact .inr (mem_varsL hp hv)

theorem Denominator.vars {d p : Pat MathOp} (h : Denominator d p) : ∀ v ∈ d.vars, v ∈ p.vars := by
  induction h with
  | here => exact fun v hv => mem_varsL (p := d) (by simp) hv
  | inside hp _ ih => exact fun v hv => mem_varsL hp (ih v hv)

/-- A pattern without `if` is defined iff none of its denominators is zero or undefined. -/
theorem ratVal_defined (ρ : String → K) {p : Pat MathOp} (hs : MathPat p) :
    OnlyOps (· ≠ MathOp.ite) p → ((∃ v, ratVal ρ p = some v) ↔ ∀ d, Denominator d p → ∃ v, ratVal ρ d = some v ∧ v ≠ 0) := by
  induction hs with
  | var _ => exact fun _ => ⟨fun _ d h => (by cases h), fun _ => ⟨_, rfl⟩⟩
  | @node o args ha hv hargs ih =>
    intro hi
    cases hi with
    | node hne hi =>
    have key : (∀ a ∈ args, ∃ v, ratVal ρ a = some v) ↔
        ∀ a ∈ args, ∀ d, Denominator d a → ∃ v, ratVal ρ d = some v ∧ v ≠ 0 :=
      forall_congr' fun a => forall_congr' fun hm => ih a hm (hi a hm)
    have inner : (∀ d, Denominator d (.node o args) → ∃ v, ratVal ρ d = some v ∧ v ≠ 0) →
        ∀ a ∈ args, ∃ v, ratVal ρ a = some v := fun h => key.2 fun a hm d hd => h d (.inside hm hd)
    have outer : o ≠ .div → (∀ a ∈ args, ∃ v, ratVal ρ a = some v) →
        ∀ d, Denominator d (.node o args) → ∃ v, ratVal ρ d = some v ∧ v ≠ 0 := by
      intro hd h d hden
      cases hden with
      | here => exact (hd rfl).elim
      | inside hm h' => exact key.1 h _ hm _ h'
    cases o with
    | var x => exact (hv x rfl).elim
    | ite => exact (hne rfl).elim
    | lit c =>
      obtain rfl := list_len0 ha
      exact ⟨fun _ => outer (by simp) (by simp), fun _ => ⟨c, rfl⟩⟩
    | neg | abs =>
      obtain ⟨a, rfl⟩ := list_len1 ha
      have e : ∀ o, o = MathOp.neg ∨ o = .abs → ((∃ v, ratVal ρ (.node o [a]) = some v) ↔ ∃ v, ratVal ρ a = some v) := by
        simp only [ratVal, patVal, patValL]
        rintro o (rfl | rfl) <;> cases patVal (fun x => some (ρ x)) mathOpVal a <;> simp [mathOpVal]
      rw [e _ (by simp)]
      exact ⟨fun h => outer (by simp) (by simpa using h), fun h => by simpa using inner h⟩
    | add | sub | mul =>
      obtain ⟨a, b, rfl⟩ := list_len2 ha
      have e : ∀ o, o = MathOp.add ∨ o = .sub ∨ o = .mul → ((∃ v, ratVal ρ (.node o [a, b]) = some v) ↔
          (∃ v, ratVal ρ a = some v) ∧ ∃ v, ratVal ρ b = some v) := by
        simp only [ratVal, patVal, patValL]
        rintro o (rfl | rfl | rfl) <;> cases patVal (fun x => some (ρ x)) mathOpVal a <;>
          cases patVal (fun x => some (ρ x)) mathOpVal b <;> simp [mathOpVal]
      rw [e _ (by simp)]
      exact ⟨fun h => outer (by simp) (by simpa using h), fun h => by simpa using inner h⟩
    | div =>
      obtain ⟨a, b, rfl⟩ := list_len2 ha
      have e : (∃ v, ratVal ρ (.node .div [a, b]) = some v) ↔
          (∃ v, ratVal ρ a = some v) ∧ ∃ v, ratVal ρ b = some v ∧ v ≠ 0 := by
        simp only [ratVal, patVal, patValL]
        cases patVal (fun x => some (ρ x)) mathOpVal a <;> cases patVal (fun x => some (ρ x)) mathOpVal b <;> simp [mathOpVal]
      rw [e]
      constructor
      · rintro ⟨h1, v, h2, h3⟩ d hd
        cases hd with
        | here => exact ⟨v, h2, h3⟩
        | inside hm h' => exact key.1 (by simpa using ⟨h1, v, h2⟩) _ hm _ h'
      · intro h
        have := inner h
        simp only [List.mem_cons, List.not_mem_nil, or_false, forall_eq_or_imp, forall_eq] at this
        exact ⟨this.1, h b .here⟩

/-- The value of a conditional. -/
theorem ratVal_ite (ρ : String → K) (d y z : Pat MathOp) : ratVal ρ (.node .ite [d, y, z]) =
    (ratVal ρ d).bind fun c => if c = 0 then ratVal ρ z else ratVal ρ y := by
  simp only [ratVal, patVal, patValL]
  cases patVal (fun x => some (ρ x)) mathOpVal d <;> simp [mathOpVal]

end Ruler
