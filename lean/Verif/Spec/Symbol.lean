import Verif.Model.DomSymbol
/-!
# Specification: symbols that are not the name of a variable
-/
namespace Ruler
namespace Spec

/-- No constant symbol of the pattern is in `X`. -/
inductive Avoids (X : String → Prop) : Pat SymOp → Prop
  | var {v : String} : Avoids X (.var v)
  | const {o : SymOp} : ¬ X o.name → Avoids X (.node o [])
  | node {o : SymOp} {a : Pat SymOp} {args : List (Pat SymOp)} : (∀ b ∈ a :: args, Avoids X b) → Avoids X (.node o (a :: args))

/-- `x` is the name, without question mark, of a variable of the rule. -/
def VarOf (r : Rule SymOp) (x : String) : Prop := "?" ++ x ∈ r.lhs.vars ∨ "?" ++ x ∈ r.rhs.vars

end Spec
end Ruler
