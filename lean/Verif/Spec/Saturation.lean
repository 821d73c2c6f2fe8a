import Verif.Spec.EGraph
import Verif.Model.Derive
/-!
# E-graphs that arise in a run of ruler
-/
namespace Ruler
namespace Spec
open EGraph
variable {O C V : Type} [Lang O] [LinearOrder C]

/-- E-graphs obtained from the empty one by setting the vector length, adding terms, overwriting the vector of a class, initializing a variable, rebuilding, and running rules that satisfy `R` under any scheduler — with any choices of egg in every
step. Terms satisfy the arity relation `ar`. -/
inductive Reach (D : Domain O C) (ar : O → Nat → Prop) (R : Rule O → Prop) : EGraph O C → Prop
  | empty : Reach D ar R EGraph.empty
  | setLen {g : EGraph O C} (k : Nat) : Reach D ar R g → Reach D ar R { g with cvecLen := k }
  | addTm {g g' : EGraph O C} {E : Egg} {t : Tm O} {i : Nat} : Reach D ar R g → TmOk ar t →
      EGraph.addTm D E t g = some (g', i) → Reach D ar R g'
  | setCvec {g : EGraph O C} (i : Nat) (cv : CVec C) : Reach D ar R g → Reach D ar R (g.setCvec i cv)
  | initVar {g g' : EGraph O C} {E : Egg} {p : String × CVec C} : Reach D ar R g → ar (Lang.mkVar p.1) 0 →
      Ruler.initVar D E g p = some g' → Reach D ar R g'
  | rebuild {g g' : EGraph O C} {E : Egg} {steps : List Repair} : Reach D ar R g →
      EGraph.rebuild D E steps g = some g' → Reach D ar R g'
  | run {g g' : EGraph O C} {E : Egg} {isSat : Rule O → Bool} {s : Scheduler} {rules : Ruleset O} {t : SchedTrace} :
      Reach D ar R g → (∀ r ∈ Ruleset.iter rules, R r) → Scheduler.run D E isSat s rules t g = some g' → Reach D ar R g'

/-- Every history, with any rules whatsoever. -/
def AnyHistory (D : Domain O C) (g : EGraph O C) : Prop := Reach D (fun _ _ => True) (fun _ => True) g

/-- `val` gives every class a value in the algebra: ids of one class have the same value, and every e-node evaluates to the
value of its class. -/
structure Evaluates (I : O → List V → V) (g : EGraph O C) (val : Nat → V) : Prop where
  find : ∀ i, i < g.n → val (g.find i) = val i
  node : ∀ e ∈ g.nodes, val e.2 = I e.1.op (e.1.children.map val)

/-- Variables and constants have no children. -/
def LeafAr (ar : O → Nat → Prop) : Prop :=
  ∀ o k, ar o k → ((Lang.toVar o).isSome || Lang.isConst o) = true → k = 0

/-- The algebra `I` with the variable operators of the language interpreted by `env`. -/
def withVars (env : String → V) (I : O → List V → V) (o : O) (vs : List V) : V :=
  match Lang.toVar o with
  | some x => env x
  | none => I o vs

/-- A pattern as ruler builds them: its variables are pattern variables (with question mark), and it contains no variable
operators of the language. -/
inductive Schematic : Pat O → Prop
  | var {v : String} : v.toList.head? = some '?' → Schematic (.var v)
  | node {o : O} {args : List (Pat O)} : Lang.toVar o = none → (∀ a ∈ args, Schematic a) → Schematic (.node o args)

/-- Well-sorted schematic rule. -/
def GoodRule (ar : O → Nat → Prop) (r : Rule O) : Prop := RuleOk ar r ∧ Schematic r.lhs ∧ Schematic r.rhs

/-- `mk_var` makes variables, and they have no children. -/
def VarsOk (ar : O → Nat → Prop) : Prop := ∀ s, Lang.toVar (Lang.mkVar s : O) = some s ∧ ar (Lang.mkVar s) 0

/-- One iteration of equality saturation: rules from `R` are applied, one match after another, to matches found *before* the
iteration (in `g`); `h` is the e-graph so far. -/
inductive Applies (D : Domain O C) (R : Rule O → Prop) (g : EGraph O C) : EGraph O C → EGraph O C → Prop
  | refl {h : EGraph O C} : Applies D R g h h
  | step {h h1 h2 : EGraph O C} {E : Egg} {r : Rule O} {m : Nat × Subst} : R r → m ∈ g.search r.lhs →
      applyOne D E r.rhs h m = some h1 → Applies D R g h1 h2 → Applies D R g h h2

/-- `Iterates D A B n g g'`: `g'` arises from `g` by rebuilding, any number of iterations with rules from `A` and at most `n`
iterations with rules from `B`. -/
inductive Iterates (D : Domain O C) (A B : Rule O → Prop) : Nat → EGraph O C → EGraph O C → Prop
  | refl {n : Nat} {g : EGraph O C} : Iterates D A B n g g
  | rebuild {n : Nat} {g g1 g2 : EGraph O C} {E : Egg} {steps : List Repair} : EGraph.rebuild D E steps g = some g1 →
      Iterates D A B n g1 g2 → Iterates D A B n g g2
  | free {n : Nat} {g g1 g2 : EGraph O C} : Applies D A g g g1 → Iterates D A B n g1 g2 → Iterates D A B n g g2
  | counted {n : Nat} {g g1 g2 : EGraph O C} : Applies D B g g g1 → Iterates D A B n g1 g2 → Iterates D A B (n + 1) g g2

end Spec
end Ruler
