import Verif.Props.Rational
/-!
# Property C49, continued: which rules the validator cannot translate
-/
namespace Ruler
open Spec

namespace Spec
/-- A literal whose numerator and denominator are 32-bit integers, or another operator than a variable. -/
def Lit32 (o : MathOp) : Prop := (∀ x, o ≠ .var x) ∧
  ∀ c, o = .lit c → -(2 ^ 31) ≤ c.num ∧ c.num < 2 ^ 31 ∧ c.den < 2 ^ 31
end Spec

theorem lit32_iff (c : Rat) : (MathOp.inI32 c.num && MathOp.inI32 c.den) = true ↔ Lit32 (.lit c) := by
  simp only [MathOp.inI32, Bool.and_eq_true, decide_eq_true_eq, Lit32]
  constructor
  · rintro ⟨⟨h1, h2⟩, -, h4⟩
    refine ⟨fun x h => (by cases h), fun c' h => ?_⟩
    cases h
    exact ⟨by omega, by omega, by omega⟩
  · rintro ⟨-, h⟩
    obtain ⟨h1, h2, h3⟩ := h c rfl
    exact ⟨⟨by omega, by omega⟩, by omega, by omega⟩

theorem toSmt_isSome {o : MathOp} (ho : ∀ x, o ≠ .var x) {l : List (Option (SmtTm Rat))} (ha : l.length = o.arity) :
    (o.toSmt l).isSome = true ↔ Lit32 o ∧ ∀ x ∈ l, x.isSome = true := by
  cases o with
  | var x => exact absurd rfl (ho x)
  | lit c =>
    have := list_len0 ha
    subst this
    have := lit32_iff c
    simp only [MathOp.toSmt]
    split
    · rename_i h
      simp [this.1 h]
    · rename_i h
      have : ¬ Lit32 (.lit c) := fun hl => h (this.2 hl)
      simp [this]
  | neg | abs =>
    obtain ⟨a, rfl⟩ := list_len1 ha
    cases a <;> simp [MathOp.toSmt, Lit32]
  | ite =>
    obtain ⟨a, b, c, rfl⟩ := list_len3 ha
    cases a <;> cases b <;> cases c <;> simp [MathOp.toSmt, Lit32]
  | _ =>
    obtain ⟨a, b, rfl⟩ := list_len2 ha
    cases a <;> cases b <;> simp [MathOp.toSmt, Lit32]

theorem ratPatSmt_isSome {p : Pat MathOp} (hs : MathSorted p) : (ratPatSmt p).isSome = true ↔ PatSorted MathOp.arity Lit32 p := by
  induction p using Pat.ind with
  | hv v =>
    cases hs with
    | var h => rw [ratPatSmt_var]; exact ⟨fun _ => .var h, fun _ => rfl⟩
  | hn o l ih =>
    cases hs with
    | node ha ho hargs =>
    rw [ratPatSmt_node, toSmt_isSome ho (by simpa using ha)]
    simp only [List.forall_mem_map]
    constructor
    · rintro ⟨h1, h2⟩
      exact .node ha h1 fun a hm => (ih a hm (hargs a hm)).1 (h2 a hm)
    · intro h
      cases h with
      | node _ h1 h2 => exact ⟨h1, fun a hm => (ih a hm (hargs a hm)).2 (h2 a hm)⟩

theorem lit32_sorted {p : Pat MathOp} (h : PatSorted MathOp.arity Lit32 p) : MathSorted p := by
  induction h with
  | var h => exact .var h
  | node h1 h2 _ ih => exact .node h1 h2.1 ih

theorem errorConditions_isSome {p : Pat MathOp} (hs : PatSorted MathOp.arity Lit32 p) :
    ∀ path, (errorConditions p path).isSome = true := by
  induction p using Pat.ind with
  | hv v => intro path; rfl
  | hn o l ih =>
    intro path
    cases hs with
    | node ha ho hargs =>
    have smt : ∀ a ∈ l, ∃ s, ratPatSmt a = some s := fun a hm =>
      Option.isSome_iff_exists.1 ((ratPatSmt_isSome (lit32_sorted (hargs a hm))).2 (hargs a hm))
    have err : ∀ a ∈ l, ∀ path, ∃ s, errorConditions a path = some s := fun a hm path =>
      Option.isSome_iff_exists.1 (ih a hm (hargs a hm) path)
    by_cases h1 : o = .div
    · subst h1
      obtain ⟨a, b, rfl⟩ := list_len2 ha
      obtain ⟨d, hd⟩ := smt b (by simp)
      obtain ⟨x, hx⟩ := err a (by simp) path
      obtain ⟨y, hy⟩ := err b (by simp) path
      simp [errorConditions, hd, hx, hy]
    by_cases h2 : o = .ite
    · subst h2
      obtain ⟨a, b, c, rfl⟩ := list_len3 ha
      obtain ⟨d, hd⟩ := smt a (by simp)
      obtain ⟨x, hx⟩ := err b (by simp) (.and path (.not (.eq d (.num 0))))
      obtain ⟨y, hy⟩ := err c (by simp) (.and path (.eq d (.num 0)))
      simp [errorConditions, hd, hx, hy]
    rw [errorConditions_other ha h1 h2]
    clear ha hargs smt ih
    induction l with
    | nil => rfl
    | cons a l ihl =>
      obtain ⟨x, hx⟩ := err a (by simp) path
      obtain ⟨y, hy⟩ := Option.isSome_iff_exists.1 (ihl fun b hb => err b (by simp [hb]))
      simp [errorConditionsL, hx, hy]

/-- **C49.** Validation of rational rules does not panic exactly when all numerators and denominators of literals are 32-bit integers.
The other literals of the language, of 64 bits, make it panic. -/
theorem C49_literals (check : SmtFm Rat → SatResult) {lhs rhs : PatternAst MathOp} {lp rp : Pat MathOp} (hl : FlatOf lhs lp)
    (hr : FlatOf rhs rp) (hli : lhs.instantiate.isSome = true) (hri : rhs.instantiate.isSome = true)
    (ls : PatSorted MathOp.arity (fun o => ∀ x, o ≠ .var x) lp) (rs : PatSorted MathOp.arity (fun o => ∀ x, o ≠ .var x) rp) :
    (ratValidate check lhs rhs).isSome = true ↔ PatSorted MathOp.arity Lit32 lp ∧ PatSorted MathOp.arity Lit32 rp := by
  obtain ⟨li, hli⟩ := Option.isSome_iff_exists.1 hli
  obtain ⟨ri, hri⟩ := Option.isSome_iff_exists.1 hri
  have e : ratValidate check lhs rhs = (ratPatSmt lp).bind fun l => (ratPatSmt rp).bind fun r =>
      (errorConditions lp (.lit true)).bind fun ls => (errorConditions rp (.lit true)).map fun rs =>
        (check (.not (ratAssertion l r ls rs))).toValidation := by
    unfold ratValidate
    rw [hl.1, hr.1, hli, hri]
    simp only [Option.bind_some, run_instantiate _ hl hli, run_instantiate _ hr hri, Option.join_some]
    rfl
  rw [e]
  constructor
  · intro h
    obtain ⟨v, hv⟩ := Option.isSome_iff_exists.1 h
    obtain ⟨a, ha, hv⟩ := Option.bind_eq_some_iff.1 hv
    obtain ⟨b, hb, -⟩ := Option.bind_eq_some_iff.1 hv
    exact ⟨(ratPatSmt_isSome ls).1 (by rw [ha]; rfl), (ratPatSmt_isSome rs).1 (by rw [hb]; rfl)⟩
  · rintro ⟨h1, h2⟩
    obtain ⟨a, ha⟩ := Option.isSome_iff_exists.1 ((ratPatSmt_isSome ls).2 h1)
    obtain ⟨b, hb⟩ := Option.isSome_iff_exists.1 ((ratPatSmt_isSome rs).2 h2)
    obtain ⟨c, hc⟩ := Option.isSome_iff_exists.1 (errorConditions_isSome h1 (.lit true))
    obtain ⟨d, hd⟩ := Option.isSome_iff_exists.1 (errorConditions_isSome h2 (.lit true))
    simp [ha, hb, hc, hd]

/-- Test: `2147483648` can be read and cannot be validated. -/
example (check : SmtFm Rat → SatResult) : (Lang.fromOp "2147483648" 0 : Option MathOp) = some (.lit 2147483648) ∧
    ¬ (ratValidate check [⟨.op (.lit 2147483648), []⟩] [⟨.op (.lit 2147483648), []⟩]).isSome = true ∧
    (ratValidate check [⟨.op (.lit (-2147483648)), []⟩] [⟨.op (.lit 2147483647), []⟩]).isSome = true := by
  have fl : ∀ c, FlatOf (O := MathOp) [⟨.op (.lit c), []⟩] (.node (.lit c) []) := fun c => ⟨rfl, by simp⟩
  have ps : ∀ c, PatSorted MathOp.arity (fun o => ∀ x, o ≠ MathOp.var x) (.node (.lit c) []) := fun c =>
    .node rfl (by simp) (by simp)
  refine ⟨by decide +kernel, ?_, ?_⟩
  · rw [C49_literals check (fl _) (fl _) rfl rfl (ps _) (ps _)]
    rintro ⟨h, -⟩
    cases h with
    | node _ h _ => exact absurd (h.2 _ rfl).2.1 (by decide +kernel)
  · rw [C49_literals check (fl _) (fl _) rfl rfl (ps _) (ps _)]
    refine ⟨.node rfl ⟨by simp, fun c h => ?_⟩ (by simp), .node rfl ⟨by simp, fun c h => ?_⟩ (by simp)⟩
    · cases h; decide +kernel
    · cases h; decide +kernel

end Ruler
