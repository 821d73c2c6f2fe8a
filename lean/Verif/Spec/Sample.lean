import Verif.Model.Term
/-!
# A small language used only for examples and counterexamples
-/
namespace Ruler
namespace Sample

/-- An operator is its text. -/
structure Sym where
  name : String
deriving DecidableEq

/-- Variables are the texts `x`, `y`, `z`, `a`, `b`, `c`; constants are `0` and `1`; `sin` is not allowed in rules. -/
instance : Lang Sym where
  decEq := inferInstance
  display o := o.name
  fromOp s _ := some ⟨s⟩
  toVar o := if o.name ∈ ["x", "y", "z", "a", "b", "c"] then some o.name else none
  mkVar s := ⟨s⟩
  isConst o := decide (o.name ∈ ["0", "1"])
  allowed o := decide (o.name ≠ "sin")

/-- Shorthand for a pattern node. -/
def nd (s : String) (l : List (Pat Sym)) : Pat Sym := .node ⟨s⟩ l
/-- Shorthand for a pattern variable. -/
def pv (s : String) : Pat Sym := .var s

/-- `(+ ?a ?b)` -/
def ab : Pat Sym := nd "+" [pv "?a", pv "?b"]
/-- `(+ ?b ?a)` -/
def ba : Pat Sym := nd "+" [pv "?b", pv "?a"]
/-- `(* ?a 0)` -/
def a0 : Pat Sym := nd "*" [pv "?a", nd "0" []]
/-- `0` -/
def zero : Pat Sym := nd "0" []

end Sample
end Ruler
