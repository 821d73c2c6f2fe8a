import Verif.Spec.Sexp
/-!
# Independent specification of grammars, derivations and substitution
-/
namespace Ruler
namespace Spec

/-- Complete derivations of the grammar with productions `G` and non-terminal `hole`: pick a production and fill
every hole with a complete derivation. -/
inductive Derives (G : List Sexp) (hole : String) : Sexp → Prop
  | mk {g t : Sexp} : g ∈ G → Fills hole (Derives G hole) g t → Derives G hole t

/-- Every production that mentions the hole makes the term strictly larger than what is put into the hole:
it is not the bare hole, and for the atoms metric it has at least one more leaf. -/
def Guarded (met : Metric) (hole : String) (G : List Sexp) : Prop :=
  ∀ g ∈ G, Subterm (.atom hole) g → g ≠ .atom hole ∧
    (met = .atoms → 2 ≤ (occurrences g).countP isAtom)

/-- Operator skeletons with operators of arity `1..k`: the intended language of the built-in grammar. -/
inductive Skeleton (k : Nat) : Sexp → Prop
  | var : Skeleton k (.atom "VAR")
  | val : Skeleton k (.atom "VAL")
  | op {i : Nat} {args : List Sexp} : 1 ≤ i → i ≤ k → args.length = i → (∀ a ∈ args, Skeleton k a) →
      Skeleton k (.list (.atom ("OP" ++ toString i) :: args))

mutual
/-- Replace every occurrence of the atom `name` by the same term `s`. -/
def replaceAll (name : String) (s : Sexp) : Sexp → Sexp
  | .atom a => if a = name then s else .atom a
  | .list l => .list (replaceAllL name s l)
/-- Replace in every element of a list. -/
def replaceAllL (name : String) (s : Sexp) : List Sexp → List Sexp
  | [] => []
  | t :: l => replaceAll name s t :: replaceAllL name s l
end

end Spec
end Ruler
