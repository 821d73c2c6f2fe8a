import Verif.Model.Sexp
/-!
# Model of `src/enumo/pattern.rs`
-/
namespace Ruler

/-- `enum Pattern`, src/enumo/pattern.rs:7-12. Variable names include the leading `?` (line 28). -/
inductive Pattern where
  | wild
  | var (v : String)
  | lit (s : String)
  | list (l : List Pattern)

namespace Pattern

/-- The atom case of `Pattern::from_symbolic_expr`, src/enumo/pattern.rs:27-29. -/
def ofAtom (s : String) : Pattern :=
  if s = "*" then wild
  else if s.toList.head? = some '?' then var s
  else lit s

mutual
/-- `Pattern::from_symbolic_expr`, src/enumo/pattern.rs:25-37, applied to the parsed text (`FromStr`, 14-22).
The crate's `Sexp::Empty` and an empty list both become the empty list pattern. -/
def ofSexp : Sexp → Pattern
  | .atom s => ofAtom s
  | .list l => list (ofSexpL l)
/-- Element-wise conversion, src/enumo/pattern.rs:30-34. -/
def ofSexpL : List Sexp → List Pattern
  | [] => []
  | s :: l => ofSexp s :: ofSexpL l
end

mutual
/-- `Pattern::matches_with`, src/enumo/pattern.rs:43-97. -/
def matchesWith : Pattern → Sexp → List (String × Sexp) → Option (List (String × Sexp))
  | wild, _, subst => some subst
  | var v, s, subst => match subst.lookup v with
    | some x => if s = x then some subst else none
    | none => some ((v, s) :: subst)
  | lit p, .atom a, subst => if p = a then some subst else none
  | lit _, .list _, _ => none
  | list _, .atom _, _ => none
  | list ps, .list l, subst => if ps.length = l.length then matchesWithL ps l subst else none
/-- The zip/fold over list elements, src/enumo/pattern.rs:81-91 (`zip` stops at the shorter side; the
lengths are equal when it is called). -/
def matchesWithL : List Pattern → List Sexp → List (String × Sexp) → Option (List (String × Sexp))
  | p :: ps, s :: l, subst => match matchesWith p s subst with
    | some subst' => matchesWithL ps l subst'
    | none => none
  | _, _, subst => some subst
end

/-- `Pattern::matches`, src/enumo/pattern.rs:39-41. -/
def matches_ (p : Pattern) (s : Sexp) : Bool := (matchesWith p s []).isSome

end Pattern
end Ruler
