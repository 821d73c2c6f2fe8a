/-!
# Model of `src/enumo/sexp.rs` and `src/enumo/metric.rs`

A Rust panic is modelled by `none`.
-/
namespace Ruler

/-- `enum Sexp { Atom(String), List(Vec<Sexp>) }`, src/enumo/sexp.rs:7-10. -/
inductive Sexp where
  | atom (s : String)
  | list (l : List Sexp)

/-- `enum Metric`, src/enumo/metric.rs:1-12. -/
inductive Metric where
  | atoms
  | lists
  | depth
  deriving DecidableEq, Repr

namespace Sexp

mutual
/-- Boolean equality of s-expressions: derived `PartialEq`, src/enumo/sexp.rs:6. -/
def beq : Sexp → Sexp → Bool
  | atom a, atom b => a == b
  | list l, list m => beqL l m
  | _, _ => false
/-- Pointwise derived equality of `Vec<Sexp>`, src/enumo/sexp.rs:6. -/
def beqL : List Sexp → List Sexp → Bool
  | [], [] => true
  | a :: l, b :: m => beq a b && beqL l m
  | _, _ => false
end

mutual
theorem beq_iff : ∀ (a b : Sexp), beq a b = true ↔ a = b
  | atom a, atom b => by simp [beq]
  | list l, list m => by simp [beq, beqL_iff l m]
  | atom a, list m => by simp [beq]
  | list l, atom b => by simp [beq]
theorem beqL_iff : ∀ (l m : List Sexp), beqL l m = true ↔ l = m
  | [], [] => by simp [beqL]
  | a :: l, b :: m => by simp [beqL, beq_iff a b, beqL_iff l m]
  | [], b :: m => by simp [beqL]
  | a :: l, [] => by simp [beqL]
end

instance : DecidableEq Sexp := fun a b =>
  if h : beq a b = true then isTrue ((beq_iff a b).1 h)
  else isFalse (fun e => h ((beq_iff a b).2 e))

mutual
/-- `Sexp::measure`, src/enumo/sexp.rs:103-116. `none` is the panic of `max().unwrap()` on an empty
list under the depth metric (line 112). `usize` overflow is not modelled. -/
def measure (m : Metric) : Sexp → Option Nat
  | atom _ => match m with
    | .lists => some 0
    | .atoms | .depth => some 1
  | list l => match m with
    | .atoms => (measureL m l).map (fun xs => xs.sum)
    | .lists => (measureL m l).map (fun xs => xs.sum + 1)
    | .depth => (measureL m l).bind (fun xs => xs.max?.map (· + 1))
/-- The `s.iter().map(|x| x.measure(metric))` of src/enumo/sexp.rs:110-112. -/
def measureL (m : Metric) : List Sexp → Option (List Nat)
  | [] => some []
  | s :: l => (measure m s).bind fun x => (measureL m l).map (x :: ·)
end

/-- itertools 0.9 `multi_cartesian_product` on at least one factor: rightmost factor varies fastest.
Used at src/enumo/sexp.rs:97. -/
def prods {α : Type _} : List (List α) → List (List α)
  | [] => [[]]
  | xs :: rest => xs.flatMap fun x => (prods rest).map (x :: ·)

/-- itertools 0.9 `multi_cartesian_product` (src/enumo/sexp.rs:97): the product of *no* factors yields nothing. -/
def multiCartesianProduct {α : Type _} : List (List α) → List (List α)
  | [] => []
  | xss => prods xss

mutual
/-- `Sexp::plug`, src/enumo/sexp.rs:89-101. -/
def plug (name : String) (pegs : List Sexp) : Sexp → List Sexp
  | atom s => if s = name then pegs else [atom s]
  | list l => (multiCartesianProduct (plugL name pegs l)).map list
/-- `sexps.iter().map(|x| x.plug(name, pegs))`, src/enumo/sexp.rs:94-96. -/
def plugL (name : String) (pegs : List Sexp) : List Sexp → List (List Sexp)
  | [] => []
  | s :: l => plug name pegs s :: plugL name pegs l
end

mutual
/-- `Sexp::mk_canon`, src/enumo/sexp.rs:51-69. The hash map is an association list (keys are inserted
only when absent). `none` is the index panic of `symbols[idx]` (line 60). -/
def mkCanon (symbols : List String) : Sexp → Nat → List (String × String) →
    Option (List (String × String) × Nat)
  | atom x, idx, subst =>
    if x ∈ symbols ∧ subst.lookup x = none then
      match symbols[idx]? with
      | some y => some ((x, y) :: subst, idx + 1)
      | none => none
    else some (subst, idx)
  | list l, idx, subst => mkCanonL symbols l idx subst
/-- The fold over list elements, src/enumo/sexp.rs:65-67. -/
def mkCanonL (symbols : List String) : List Sexp → Nat → List (String × String) →
    Option (List (String × String) × Nat)
  | [], idx, subst => some (subst, idx)
  | s :: l, idx, subst =>
    match mkCanon symbols s idx subst with
    | some (subst', idx') => mkCanonL symbols l idx' subst'
    | none => none
end

mutual
/-- `Sexp::apply_subst`, src/enumo/sexp.rs:71-82. -/
def applySubst (subst : List (String × String)) : Sexp → Sexp
  | atom s => match subst.lookup s with
    | some v => atom v
    | none => atom s
  | list l => list (applySubstL subst l)
/-- Element-wise `apply_subst`, src/enumo/sexp.rs:80. -/
def applySubstL (subst : List (String × String)) : List Sexp → List Sexp
  | [] => []
  | s :: l => applySubst subst s :: applySubstL subst l
end

/-- `Sexp::canon`, src/enumo/sexp.rs:84-87. `none` is a panic. -/
def canon (symbols : List String) (s : Sexp) : Option Sexp :=
  (mkCanon symbols s 0 []).map fun p => applySubst p.1 s

end Sexp
end Ruler
