import Verif.Model.LogRows
import Verif.Spec.Logger
import Verif.Spec.Ruleset
/-!
# Specification vocabulary for the result tables
-/
namespace Ruler
namespace Spec
variable {O C : Type}

/-- The value found in a row under a path of keys. -/
def field : Json → List String → Option Json
  | v, [] => some v
  | .obj l, k :: ks =>
    match l.find? fun e => e.1 == k.toList with
    | some e => field e.2 ks
    | none => none
  | _, _ :: _ => none

/-- The row has this text under the path. -/
def HasText (row : Json) (path : List String) (s : List Char) : Prop := field row path = some (.str s)

/-- The row has this list of texts under the path. -/
def HasTexts (row : Json) (path : List String) (l : List (List Char)) : Prop := field row path = some (.arr (l.map .str))

/-- The row has this number under the path. -/
def HasNum (row : Json) (path : List String) (s : List Char) : Prop := field row path = some (.num s)

/-- Under the path the row reports which rules of `against` can be derived: the texts under "can" and "cannot" are together the
texts of these rules, each once; those under "can" are the rules for which the search `found` an equation, those under
"cannot" are the rules for which it ended without one. -/
def Reports [Lang O] (row : Json) (path : List String) (against : Ruleset O) (found : Rule O → Option Bool) : Prop :=
  ∃ can cannot, HasTexts row (path ++ ["can"]) can ∧ HasTexts row (path ++ ["cannot"]) cannot ∧
    (can ++ cannot).Perm ((Ruleset.iter against).map Rule.name) ∧
    ∀ r ∈ Ruleset.iter against, (r.name ∈ can → found r = some true) ∧ (r.name ∈ cannot → found r = some false)

/-- The rules whose texts the row has under the path. -/
def Listed [Lang O] (row : Json) (path : List String) (rs : Ruleset O) (r : Rule O) : Prop :=
  r ∈ Ruleset.iter rs ∧ ∃ l, HasTexts row path l ∧ r.name ∈ l

/-- The comparisons that take too long: Herbie's rules are not used to derive those of the two recipes for rationals. -/
def TooSlow (a b : List Char) : Prop :=
  a = "herbie".toList ∧ (b = "rational_replicate".toList ∨ b = "rational_best".toList)

/-- Number of the lines of a text: line breaks, and one more if the text does not end with one. -/
def lineCount (s : List Char) : Nat := s.count '\n' + if s.getLast?.getD '\n' = '\n' then 0 else 1

/-- The operators of bit vectors of one width as operators of another; a literal keeps its number. -/
def widen {M N : Nat} : BvOp M → BvOp N
  | .add => .add | .sub => .sub | .mul => .mul | .neg => .neg | .not => .not | .shl => .shl | .shr => .shr
  | .and => .and | .or => .or | .xor => .xor
  | .lit n => .lit ⟨n.val⟩
  | .var x => .var x

mutual
/-- Replace the operators of a pattern. -/
def patMap {O' : Type} (f : O → O') : Pat O → Pat O'
  | .var v => .var v
  | .node o args => .node (f o) (patMapL f args)
/-- Replace the operators of patterns. -/
def patMapL {O' : Type} (f : O → O') : List (Pat O) → List (Pat O')
  | [] => []
  | p :: l => patMap f p :: patMapL f l
end

/-- The same rule for another width. -/
def widenRule {M N : Nat} (r : Rule (BvOp M)) : Rule (BvOp N) := ⟨r.name, patMap widen r.lhs, patMap widen r.rhs⟩

end Spec
end Ruler
