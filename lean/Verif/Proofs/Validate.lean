import Verif.Spec.DomInt
import Verif.Proofs.Domain
/-! Helper lemmas about validation by a solver. -/
namespace Ruler
open Spec
variable {O S V : Type}

/-- If the translation is compositional, a rule accepted by a sound solver holds. -/
theorem validateEq_sound [Lang O] {arity : O → Nat} {P : O → Prop} {tr : O → List S → S} {opVal : O → List V → V}
    (val : (String → V) → S → V) {check : S → S → SatResult}
    (hc : ∀ a b, check a b = .unsat → ∀ env, val env a = val env b)
    (hvar : ∀ env x, val env (tr (Lang.mkVar x) []) = env x)
    (hop : ∀ env o args, P o → args.length = arity o → val env (tr o args) = opVal o (args.map (val env)))
    {lhs rhs : PatternAst O} {lp rp : Pat O} (hl : FlatOf lhs lp) (hr : FlatOf rhs rp)
    (ls : PatSorted arity P lp) (rs : PatSorted arity P rp)
    (hv : validateEq tr check lhs rhs = some .valid) (ρ : String → V) : patVal ρ opVal lp = patVal ρ opVal rp := by
  unfold validateEq at hv
  cases hli : lhs.instantiate with
  | none => rw [hli] at hv; cases hv
  | some l =>
  cases hri : rhs.instantiate with
  | none => rw [hli, hri] at hv; cases hv
  | some r =>
  rw [hli, hri] at hv
  simp only [Option.bind_some, run_instantiate _ hl hli, run_instantiate _ hr hri, Option.map_some,
    Option.some.injEq] at hv
  have hun : check (Tm.fold tr lp.instantiate) (Tm.fold tr rp.instantiate) = .unsat := by
    cases hch : check (Tm.fold tr lp.instantiate) (Tm.fold tr rp.instantiate) <;> rw [hch] at hv <;>
      first | rfl | cases hv
  have := hc _ _ hun fun x => ρ ("?" ++ x)
  rwa [fold_instantiate (val := val fun x => ρ ("?" ++ x)) (env := fun x => ρ ("?" ++ x))
      (hvar _) (hop _) ls (fun _ => rfl),
    fold_instantiate (val := val fun x => ρ ("?" ++ x)) (env := fun x => ρ ("?" ++ x))
      (hvar _) (hop _) rs (fun _ => rfl)] at this

/-- Meaning of the arithmetic operators over the integers. -/
def natOpInt : NatOp → List Int → Int
  | .z, [] => 0
  | .s, [a] => a + 1
  | .add, [a, b] => a + b
  | .mul, [a, b] => a * b
  | _, _ => 0

theorem nat_toSmt_val (d0 : Int → Int) (env : String → Int) (o : NatOp) (args : List (SmtTm Int))
    (hv : ∀ x, o ≠ .var x) (ha : args.length = o.arity) :
    intVal d0 env (o.toSmt args) = natOpInt o (args.map (intVal d0 env)) := by
  cases o with
  | var x => exact absurd rfl (hv x)
  | z => have := list_len0 ha; subst this; simp [NatOp.toSmt, intVal, natOpInt]
  | s => obtain ⟨a, rfl⟩ := list_len1 ha; simp [NatOp.toSmt, intVal, natOpInt]
  | add | mul => obtain ⟨a, b, rfl⟩ := list_len2 ha; simp [NatOp.toSmt, intVal, natOpInt]

theorem natOp_cast (o : NatOp) (args : List Nat) (ha : args.length = o.arity) :
    natOpInt o (args.map Nat.cast) = (natOpVal o args : Nat) := by
  cases o with
  | var x => have := list_len0 ha; subst this; rfl
  | z => have := list_len0 ha; subst this; rfl
  | s => obtain ⟨a, rfl⟩ := list_len1 ha; simp [natOpInt, natOpVal]
  | add | mul => obtain ⟨a, b, rfl⟩ := list_len2 ha; simp [natOpInt, natOpVal]

theorem pat_toSmt_val (d0 : Int → Int) (env : String → Int) (o : PredOp) (args : List (SmtTm Int))
    (hv : ∀ x, o ≠ .var x) (ha : args.length = o.arity) :
    intVal d0 env (o.toSmt args) = predOpVal o (args.map (intVal d0 env)) := by
  cases o with
  | var x => exact absurd rfl (hv x)
  | lit c => have := list_len0 ha; subst this; simp [PredOp.toSmt, intVal, predOpVal]
  | not =>
    obtain ⟨a, rfl⟩ := list_len1 ha
    simp only [PredOp.toSmt, intVal, intHolds, predOpVal, List.map_cons, List.map_nil]
    by_cases h1 : intVal d0 env a = 0 <;> simp [h1]
  | neg =>
    obtain ⟨a, rfl⟩ := list_len1 ha
    simp [PredOp.toSmt, intVal, predOpVal]
  | select =>
    obtain ⟨a, b, c, rfl⟩ := list_len3 ha
    simp only [PredOp.toSmt, PredOp.notZero, intVal, intHolds, predOpVal, List.map_cons, List.map_nil]
    by_cases h1 : intVal d0 env a = 0 <;> simp [h1]
  | min =>
    obtain ⟨a, b, rfl⟩ := list_len2 ha
    simp [PredOp.toSmt, intVal, intHolds, predOpVal, min_def]
  | max =>
    obtain ⟨a, b, rfl⟩ := list_len2 ha
    simp [PredOp.toSmt, intVal, intHolds, predOpVal, max_def]
  | add | sub | mul =>
    obtain ⟨a, b, rfl⟩ := list_len2 ha
    simp [PredOp.toSmt, intVal, predOpVal]
  | lt | leq | eq | neq =>
    obtain ⟨a, b, rfl⟩ := list_len2 ha
    simp [PredOp.toSmt, intVal, intHolds, predOpVal]
  | _ =>
    obtain ⟨a, b, rfl⟩ := list_len2 ha
    simp only [PredOp.toSmt, PredOp.notZero, intVal, intHolds, predOpVal, List.map_cons, List.map_nil]
    by_cases h1 : intVal d0 env a = 0 <;> by_cases h2 : intVal d0 env b = 0 <;> simp [h1, h2]

end Ruler
