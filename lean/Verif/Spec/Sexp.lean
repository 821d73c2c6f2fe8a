import Verif.Model.Workload
/-!
# Independent specification vocabulary for s-expressions, patterns and workloads

Nothing here refers to the algorithms of the model, only to the data types.
-/
namespace Ruler
namespace Spec

/-- `Subterm s t`: `s` occurs in `t` (reflexively). -/
inductive Subterm : Sexp → Sexp → Prop
  | refl (s : Sexp) : Subterm s s
  | child {s t : Sexp} {l : List Sexp} : t ∈ l → Subterm s t → Subterm s (.list l)

/-- A term without any empty list inside. -/
def NoEmpty (t : Sexp) : Prop := ¬ Subterm (.list []) t

mutual
/-- All sub-term occurrences of a term, with multiplicity. -/
def occurrences : Sexp → List Sexp
  | .atom a => [.atom a]
  | .list l => .list l :: occurrencesL l
/-- All sub-term occurrences in a list of terms. -/
def occurrencesL : List Sexp → List Sexp
  | [] => []
  | s :: l => occurrences s ++ occurrencesL l
end

/-- Is this term a leaf? -/
def isAtom : Sexp → Bool
  | .atom _ => true
  | .list _ => false

/-- `Path t n`: there is a path with `n` nodes from the root of `t` to one of its leaves (atoms). -/
inductive Path : Sexp → Nat → Prop
  | atom (a : String) : Path (.atom a) 1
  | child {t : Sexp} {l : List Sexp} {n : Nat} : t ∈ l → Path t n → Path (.list l) (n + 1)

/-- Number of occurrences of the atom `name` in `t`. -/
def holeCount (name : String) (t : Sexp) : Nat := (occurrences t).count (.atom name)

mutual
/-- `Fills name pegs t t'`: `t'` is `t` with every occurrence of the atom `name` replaced, independently,
by some term satisfying `pegs`. -/
inductive Fills (name : String) (pegs : Sexp → Prop) : Sexp → Sexp → Prop
  | hole {p : Sexp} : pegs p → Fills name pegs (.atom name) p
  | other {a : String} : a ≠ name → Fills name pegs (.atom a) (.atom a)
  | list {l l' : List Sexp} : FillsL name pegs l l' → Fills name pegs (.list l) (.list l')
/-- Pointwise extension of `Fills` to lists of terms. -/
inductive FillsL (name : String) (pegs : Sexp → Prop) : List Sexp → List Sexp → Prop
  | nil : FillsL name pegs [] []
  | cons {s s' : Sexp} {l l' : List Sexp} :
      Fills name pegs s s' → FillsL name pegs l l' → FillsL name pegs (s :: l) (s' :: l')
end

mutual
/-- `Instance σ p s`: `s` is `p` with every variable replaced according to `σ` and every wildcard replaced by
an arbitrary term. -/
inductive Instance (σ : String → Sexp) : Pattern → Sexp → Prop
  | wild (s : Sexp) : Instance σ .wild s
  | var (v : String) : Instance σ (.var v) (σ v)
  | lit (a : String) : Instance σ (.lit a) (.atom a)
  | list {ps : List Pattern} {l : List Sexp} : InstanceL σ ps l → Instance σ (.list ps) (.list l)
/-- Pointwise extension of `Instance`. -/
inductive InstanceL (σ : String → Sexp) : List Pattern → List Sexp → Prop
  | nil : InstanceL σ [] []
  | cons {p : Pattern} {s : Sexp} {ps : List Pattern} {l : List Sexp} :
      Instance σ p s → InstanceL σ ps l → InstanceL σ (p :: ps) (s :: l)
end

mutual
/-- Apply an atom renaming everywhere in a term. -/
def rename (ρ : String → String) : Sexp → Sexp
  | .atom a => .atom (ρ a)
  | .list l => .list (renameL ρ l)
/-- Apply an atom renaming everywhere in a list of terms. -/
def renameL (ρ : String → String) : List Sexp → List Sexp
  | [] => []
  | s :: l => rename ρ s :: renameL ρ l
end

/-- `t` is obtained from `s` by a bijective renaming of atoms that moves only atoms listed in `S`. -/
def SameUpToRenaming (S : List String) (s t : Sexp) : Prop :=
  ∃ ρ : String → String, (∀ a b, ρ a = ρ b → a = b) ∧ (∀ b, ∃ a, ρ a = b) ∧
    (∀ a, a ∉ S → ρ a = a) ∧ t = rename ρ s

/-- Every term in every literal set inside the workload satisfies `P`. -/
inductive AllSets (P : Sexp → Prop) : Workload → Prop
  | set {xs : List Sexp} : (∀ x ∈ xs, P x) → AllSets P (.set xs)
  | plug {w pegs : Workload} {name : String} : AllSets P w → AllSets P pegs → AllSets P (.plug w name pegs)
  | filter {f : Filter} {w : Workload} : AllSets P w → AllSets P (.filter f w)
  | append {ws : List Workload} : (∀ w ∈ ws, AllSets P w) → AllSets P (.append ws)

/-- The filter does not use the depth metric. -/
inductive DepthFree : Filter → Prop
  | metricLt (m : Metric) (n : Nat) : m ≠ .depth → DepthFree (.metricLt m n)
  | metricEq (m : Metric) (n : Nat) : m ≠ .depth → DepthFree (.metricEq m n)
  | contains (p : Pattern) : DepthFree (.contains p)
  | excludes (p : Pattern) : DepthFree (.excludes p)
  | canon (S : List String) : DepthFree (.canon S)
  | and {fs : List Filter} : (∀ f ∈ fs, DepthFree f) → DepthFree (.and fs)
  | or {fs : List Filter} : (∀ f ∈ fs, DepthFree f) → DepthFree (.or fs)
  | invert {f : Filter} : DepthFree f → DepthFree (.invert f)

/-- Every filter inside the workload satisfies `P`. -/
inductive AllFilters (P : Filter → Prop) : Workload → Prop
  | set (xs : List Sexp) : AllFilters P (.set xs)
  | plug {w pegs : Workload} {name : String} :
      AllFilters P w → AllFilters P pegs → AllFilters P (.plug w name pegs)
  | filter {f : Filter} {w : Workload} : P f → AllFilters P w → AllFilters P (.filter f w)
  | append {ws : List Workload} : (∀ w ∈ ws, AllFilters P w) → AllFilters P (.append ws)

/-- An atom name that a pattern parser reads as a literal (neither the wildcard nor a `?` variable). -/
def LiteralName (name : String) : Prop := name ≠ "*" ∧ name.toList.head? ≠ some '?'

instance (name : String) : Decidable (LiteralName name) := by unfold LiteralName; infer_instance

end Spec
end Ruler
