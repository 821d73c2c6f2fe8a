import Verif.Proofs.Tables
import Lean.Elab.Term
/-!
# Reading tables of texts

The characters of a list of string literals, so that the kernel need not decode the literals.
-/
namespace Ruler
open Lean Elab Term Meta

/-- The characters of the texts of a table, which is given by its name. -/
elab "chars_of% " x:ident : term => do
  let e ← elabTerm x none
  let rec strings (fuel : Nat) (e : Expr) : MetaM (List String) := do
    match fuel with
    | 0 => throwError "too many texts"
    | fuel + 1 =>
      let e ← whnf e
      match e.getAppFnArgs with
      | (``List.nil, _) => return []
      | (``List.cons, #[_, a, l]) =>
        let a ← whnf a
        let .lit (.strVal s) := a | throwError "no literal: {a}"
        return s :: (← strings fuel l)
      | _ => throwError "no list: {e}"
  return toExpr ((← strings 1000 e).map String.toList)

variable {O : Type} [Lang O]

theorem tableSides_chars (cs : List (List Char)) : tableSides (O := O) (cs.map String.ofList) =
    (cs.mapM Rule.fromString).map fun l => l.flatMap sidesOf := by
  rw [tableSides, List.map_map]
  congr 2
  exact List.map_id'' (fun _ => String.toList_ofList) cs

end Ruler
