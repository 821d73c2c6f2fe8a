import Verif.Spec.Saturation
import Verif.Spec.Domain
/-!
# Specification vocabulary for the characteristic vectors of an e-graph
-/
namespace Ruler
namespace Spec
variable {O C V : Type} [Lang O]

/-- Position `j` of a vector of length `n` holds a sample that fits the value. -/
def EntryFits (n j : Nat) (fits : Option C → V → Prop) (a : CVec C) (v : V) : Prop :=
  a.length = n ∧ ∃ e, a[j]? = some e ∧ fits e v

/-- `eval` works position by position: if at one position the samples of the children fit their values, the sample of the
node fits the value of the node. For variables `eval` returns the empty vector. -/
structure Computes (D : Domain O C) (ar : O → Nat → Prop) (I : O → List V → V) (fits : Option C → V → Prop) : Prop where
  node : ∀ n j (o : O) (args : List (CVec C)) (vs : List V) cv, j < n → Lang.toVar o = none → ar o vs.length →
    List.Forall₂ (EntryFits n j fits) args vs → D.eval n o args = some cv → EntryFits n j fits cv (I o vs)
  var : ∀ n (o : O) args cv, (Lang.toVar o).isSome → D.eval n o args = some cv → cv = []

/-- A domain without hooks of its own: only constants are folded, into terms without variables, and variables are not
constants. -/
structure PlainFolding (D : Domain O C) (ar : O → Nat → Prop) : Prop where
  custom : ∀ nodes i, D.custom nodes i = []
  varTerms : ∀ x, D.varTerms x = []
  const : ∀ c t, D.mkConst c = some t → ∀ x, ¬ HasVar x t
  varInterval : ∀ x J c, D.mkInterval (Lang.mkVar x) [] = some J → J ≠ ⟨some c, some c⟩

/-- `initialize_vars` gives every variable one vector, and all vectors have the announced length. -/
def InitOk (D : Domain O C) : Prop :=
  ∀ vars n tbl, vars.Nodup → D.initVars vars = some (n, tbl) →
    tbl.map Prod.fst = vars ∧ ∀ p ∈ tbl, p.2.length = n

/-- `mk_var` and `to_var` are inverse to each other; variables have no children. -/
def VarOps (ar : O → Nat → Prop) : Prop :=
  (∀ s, Lang.toVar (Lang.mkVar s : O) = some s ∧ ar (Lang.mkVar s) 0) ∧
    ∀ (o : O) x, Lang.toVar o = some x → o = Lang.mkVar x ∧ ∀ k, ar o k → k = 0

/-- At position `j` the vectors of the variables hold samples of the values that `env` gives them. -/
def SampleAt (fits : Option C → V → Prop) (tbl : List (String × CVec C)) (j : Nat) (env : String → V) : Prop :=
  ∀ p ∈ tbl, ∃ e, p.2[j]? = some e ∧ fits e (env p.1)

/-- The variables of the terms, each once, in some order. -/
def VarsOf (ts : List (Tm O)) (X : List String) : Prop := X.Nodup ∧ ∀ x, x ∈ X ↔ ∃ t ∈ ts, HasVar x t

variable [LinearOrder C]

/-- E-graphs obtained from `g` by adding well-sorted terms with variables from `X`, rebuilding, and running rules that
satisfy `R` under any scheduler — with any choices of egg in every step. -/
inductive Grows (D : Domain O C) (ar : O → Nat → Prop) (R : Rule O → Prop) (X : List String) (g : EGraph O C) :
    EGraph O C → Prop
  | refl : Grows D ar R X g g
  | addTm {g1 g2 : EGraph O C} {E : Egg} {t : Tm O} {i : Nat} : Grows D ar R X g g1 → TmOk ar t →
      (∀ x, HasVar x t → x ∈ X) → EGraph.addTm D E t g1 = some (g2, i) → Grows D ar R X g g2
  | rebuild {g1 g2 : EGraph O C} {E : Egg} {steps : List EGraph.Repair} : Grows D ar R X g g1 →
      EGraph.rebuild D E steps g1 = some g2 → Grows D ar R X g g2
  | run {g1 g2 : EGraph O C} {E : Egg} {isSat : Rule O → Bool} {s : Scheduler} {rules : Ruleset O} {t : SchedTrace} :
      Grows D ar R X g g1 → (∀ r ∈ Ruleset.iter rules, R r) → Scheduler.run D E isSat s rules t g1 = some g2 →
      Grows D ar R X g g2

end Spec
end Ruler
