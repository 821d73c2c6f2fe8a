import Verif.Model.Term
/-!
# Flat expressions

egg's `RecExpr<L>`: a vector of nodes whose children are positions in the same vector; the last node is the root.
-/
namespace Ruler

/-- One entry of a flat expression: operator and positions of the children. -/
structure FNode (A : Type) where
  op : A
  children : List Nat
deriving DecidableEq

/-- `egg::RecExpr`. -/
abbrev RecExpr (A : Type) := List (FNode A)

namespace RecExpr
variable {A B : Type}

/-- Bottom-up evaluation with a buffer of results, one per node: the loop `for node in expr { buf.push(..) }` of every
`egg_to_z3` (src/bv.rs:248-267, tests/nat.rs:150-170, tests/halide.rs:164-282, tests/rational.rs:430-480) and of egg's
`CostFunction::cost_rec`. `none`: a child position is not yet in the buffer (index out of bounds panic). -/
def foldBuf (f : A → List B → B) : RecExpr A → List B → Option (List B)
  | [], buf => some buf
  | n :: rest, buf =>
    (n.children.mapM fun c => buf[c]?).bind fun args => foldBuf f rest (buf ++ [f n.op args])

/-- Result at the root: `buf.pop().unwrap()`. -/
def run (f : A → List B → B) (e : RecExpr A) : Option B := (foldBuf f e []).bind List.getLast?

/-- The tree a flat expression stands for. -/
def tree (e : RecExpr A) : Option (Tm A) := run Tm.node e

end RecExpr

mutual
/-- Bottom-up evaluation of a tree. -/
def Tm.fold {A B : Type} (f : A → List B → B) : Tm A → B
  | .node o args => f o (Tm.foldL f args)
/-- Bottom-up evaluation of argument lists. -/
def Tm.foldL {A B : Type} (f : A → List B → B) : List (Tm A) → List B
  | [] => []
  | t :: l => Tm.fold f t :: Tm.foldL f l
end

/-- `egg::ENodeOrVar`. -/
inductive POp (O : Type) where
  | var (v : String)
  | op (o : O)
deriving DecidableEq

/-- `egg::PatternAst`. -/
abbrev PatternAst (O : Type) := RecExpr (POp O)

variable {O : Type}

/-- One level of a pattern tree. -/
def POp.pat : POp O → List (Pat O) → Pat O
  | .var v, _ => .var v
  | .op o, args => .node o args

/-- The pattern tree of a flat pattern. -/
def PatternAst.pat (e : PatternAst O) : Option (Pat O) := RecExpr.run POp.pat e

/-- Drop the leading question mark (`s[1..]`), src/language.rs:286. -/
def dropQ (v : String) : String := String.ofList (v.toList.drop 1)

/-- One node of `instantiate`, src/language.rs:281-288; `none` is the failing assertion of line 285. -/
def POp.instantiate [Lang O] : POp O → Option O
  | .op o => some o
  | .var v => if v.toList.head? = some '?' then some (Lang.mkVar (dropQ v)) else none

/-- `instantiate`, src/language.rs:276-292, on flat patterns. -/
def PatternAst.instantiate [Lang O] (e : PatternAst O) : Option (RecExpr O) :=
  e.mapM fun n => n.op.instantiate.map fun o => ⟨o, n.children⟩

mutual
/-- `instantiate` on pattern trees. -/
def Pat.instantiate [Lang O] : Pat O → Tm O
  | .var v => .node (Lang.mkVar (dropQ v)) []
  | .node o args => .node o (Pat.instantiateL args)
/-- Element-wise. -/
def Pat.instantiateL [Lang O] : List (Pat O) → List (Tm O)
  | [] => []
  | p :: l => Pat.instantiate p :: Pat.instantiateL l
end

end Ruler
