import Verif.Spec.Progress
import Verif.Spec.Candidates
import Verif.Model.DomPos
/-!
# Specification vocabulary for progress of fast-forwarding
-/
namespace Ruler
namespace Spec
variable {O C V : Type}

/-- As `RunEnv.Goes`, for `run_fast_forwarding`. -/
def FastEnv.Goes (a b : FastEnv O C) : Prop :=
  ∃ (t1 t2 t3 : SchedTrace) (mtr : Nat → SchedTrace), SchedTrace.Goes a.trAllowed t1 ∧ SchedTrace.Goes a.trDenote t2 ∧
    SchedTrace.Goes a.trFinal t3 ∧ (∀ k, SchedTrace.Goes (a.min.tr k) (mtr k)) ∧
    b = { a with trAllowed := t1, trDenote := t2, trFinal := t3, min := { a.min with tr := mtr } }

/-- As `RunEnv.Deep`, for `run_fast_forwarding`. -/
def FastEnv.Deep (a : FastEnv O C) : Prop :=
  2 ≤ a.build.depth ∧ (2 ≤ a.egAllowed.depth ∧ 2 ≤ a.trAllowed.clone.depth) ∧
    (2 ≤ a.egDenote.depth ∧ 2 ≤ a.trDenote.clone.depth) ∧ (2 ≤ a.egFinal.depth ∧ 2 ≤ a.trFinal.clone.depth) ∧
    ∀ k, 2 ≤ (a.min.eg k).depth ∧ 2 ≤ (a.min.tr k).clone.depth

variable [Lang O]

/-- The hook of the domain at most adds constants of a certain kind to a class, and only if the class has none yet. -/
def HookAdds (D : Domain O C) (ar : O → Nat → Prop) (mark : O → Bool) : Prop :=
  (∀ nodes i, (∃ nd ∈ nodes i, mark nd.op = true) → D.custom nodes i = []) ∧
    ∀ nodes i, ∀ t ∈ D.custom nodes i, ∃ o, t = .node o [] ∧ mark o = true ∧ ar o 0 ∧ Lang.toVar o = none

/-- A domain without samples and without intervals, whose hook at most adds missing constants; what `initialize_vars` unites
with a variable has no other variable. -/
structure Blind (D : Domain O C) (ar : O → Nat → Prop) : Prop where
  eval : ∀ n o args, D.eval n o args = some []
  interval : ∀ o Js, D.mkInterval o Js = some ⟨none, none⟩
  hook : ∃ mark, HookAdds D ar mark
  init : ∀ X, ∃ tbl, D.initVars X = some (0, tbl) ∧ ∀ p ∈ tbl, p.1 ∈ X ∧ p.2 = []
  varTerms : ∀ x, ∀ t ∈ D.varTerms x, TmOk ar t ∧ ∀ y, HasVar y t → y = x

/-- Variables and constants have no children; nothing else is asked. -/
def LeafSort (o : O) (k : Nat) : Prop := ((Lang.toVar o).isSome || Lang.isConst o) = true → k = 0

/-- As `LeafSort`; and the variables of the language are among the given ones. -/
def LeafIn (X : List String) (o : O) (k : Nat) : Prop := LeafSort o k ∧ ∀ x, Lang.toVar o = some x → x ∈ X

/-- A rule that can be applied: its variables and constants of the language have no children, its variables of the language
are among the given ones, and every pattern variable of the right-hand side occurs on the left. Nothing is said about its
meaning. -/
def UsableRule (X : List String) (r : Rule O) : Prop := RuleOk (LeafIn X) r ∧ BoundRhs r

/-- The expressions of the workload can be read as terms, with variables among the given ones. -/
def ReadsIn (O : Type) [Lang O] (X : List String) (w : Workload) : Prop :=
  ∃ ts : List (Tm O), TermsOf w ts ∧ ∀ t ∈ ts, ∀ x, HasVar x t → x ∈ X

/-- What is assumed of egg in a fast-forwarding run: the extractor returns represented terms of least cost, the classes are
visited in some order, and there is enough stack for adding a constant. -/
def FastOk [LinearOrder C] (D : Domain O C) (F : FastEnv O C) : Prop :=
  (∀ g, AnyHistory D g → ExtractsCost g (F.best g)) ∧ (∀ g, (F.ids g).Perm g.classes) ∧ FastEnv.Deep F

/-- The same step of a recipe, in which the rebuilds go on. -/
def FastStep.Goes (a b : FastStep O C) : Prop := ∃ F, FastEnv.Goes a.env F ∧ b = { a with env := F }

end Spec
end Ruler
