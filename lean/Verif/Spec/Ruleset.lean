import Verif.Model.Rule
import Verif.Spec.Text
/-!
# Independent specification vocabulary for rules and rulesets
-/
namespace Ruler
namespace Spec
variable {O : Type}

/-- How a ruleset can come about: any nesting of the mutating operations of the API. -/
inductive History (O : Type) where
  | empty
  | add (h : History O) (r : Rule O)
  | addAll (h : History O) (rs : List (Rule O))
  | extend (h other : History O)
  | union (h other : History O)
  | removeAll (h other : History O)

/-- The ruleset built by a history of API calls. -/
def History.run : History O → Ruleset O
  | empty => []
  | add h r => Ruleset.add h.run r
  | addAll h rs => Ruleset.addAll h.run rs
  | extend h g => Ruleset.extend h.run g.run
  | union h g => Ruleset.union h.run g.run
  | removeAll h g => Ruleset.removeAll h.run g.run

/-- Update of a finite map. -/
def update (m : List Char → Option (Rule O)) (r : Rule O) : List Char → Option (Rule O) :=
  fun n => if n = r.name then some r else m n

/-- What the ruleset *means*: a partial map from names to rules; later insertions win. -/
def History.meaning : History O → List Char → Option (Rule O)
  | empty => fun _ => none
  | add h r => update h.meaning r
  | addAll h rs => rs.foldl update h.meaning
  | extend h g => fun n => (g.meaning n).or (h.meaning n)
  | union h g => fun n => (g.meaning n).or (h.meaning n)
  | removeAll h g => fun n => if (g.meaning n).isSome then none else h.meaning n

/-- No removal anywhere in the history. -/
def History.NoRemoval : History O → Prop
  | empty => True
  | add h _ => h.NoRemoval
  | addAll h _ => h.NoRemoval
  | extend h g => h.NoRemoval ∧ g.NoRemoval
  | union h g => h.NoRemoval ∧ g.NoRemoval
  | removeAll _ _ => False

/-- All names in the order in which they are inserted, with repetitions. -/
def History.insertions : History O → List (List Char)
  | empty => []
  | add h r => h.insertions ++ [r.name]
  | addAll h rs => h.insertions ++ rs.map Rule.name
  | extend h g => h.insertions ++ g.insertions
  | union h g => h.insertions ++ g.insertions
  | removeAll h _ => h.insertions

/-- Keep the first occurrence of every element. -/
def firstOcc {α : Type} [DecidableEq α] : List α → List α
  | [] => []
  | x :: l => x :: (firstOcc l).filter fun y => decide (y ≠ x)

/-- A ruleset as produced by the API: entries are keyed by the rule's name and names are unique. -/
def WellFormed (rs : Ruleset O) : Prop := (∀ e ∈ rs, e.1 = e.2.name) ∧ (rs.map Prod.fst).Nodup

/-- The text contains an arrow `=>`. -/
def HasArrow (s : List Char) : Prop := ['=', '>'] <:+: s

/-- A name of a pattern variable: a question mark followed by at least one character. -/
def VarName (v : String) : Prop := ∃ c r, v.toList = '?' :: c :: r

/-- A pattern whose text determines it: printable operators that the language reads back with the right arity, and
printable variables. -/
inductive Readable [Lang O] : Pat O → Prop
  | var {v : String} : Plain v → VarName v → Readable (.var v)
  | node {o : O} {args : List (Pat O)} : Plain (Lang.display o) → ¬ VarName (Lang.display o) →
      Lang.fromOp (Lang.display o) args.length = some o → (∀ a ∈ args, Readable a) → Readable (.node o args)

/-- A rule as the library constructs it: named by its two sides, with all variables bound on the left. -/
def Rule.Proper [Lang O] (r : Rule O) : Prop :=
  r.name = ruleName r.lhs r.rhs ∧ ∀ v ∈ r.rhs.vars, v ∈ r.lhs.vars

/-- A rule that can be written as text: both sides readable and free of arrows. -/
def Rule.Textual [Lang O] (r : Rule O) : Prop :=
  Rule.Proper r ∧ Readable r.lhs ∧ Readable r.rhs ∧ ¬ HasArrow r.lhs.print ∧ ¬ HasArrow r.rhs.print

/-- The rules a line of text gives, forward direction first. -/
def lineRules : Option (Rule O × Option (Rule O)) → List (Rule O)
  | none => []
  | some (fwd, none) => [fwd]
  | some (fwd, some bwd) => [fwd, bwd]

/-- A printed line stands for a rule: it is the rule's own text, or the two-directional text of it in either order. -/
def Represents [Lang O] (line : List Char) (r : Rule O) : Prop :=
  line = r.name ∨ line = r.lhs.print ++ " <=> ".toList ++ r.rhs.print ∨
    line = r.rhs.print ++ " <=> ".toList ++ r.lhs.print

end Spec
end Ruler
