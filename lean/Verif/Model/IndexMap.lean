/-!
# Model of `indexmap::IndexMap` (version 1)

An insertion-ordered map as the list of its entries. Used by `Ruleset`, src/enumo/ruleset.rs:15.
-/
namespace Ruler

/-- Entries in iteration order. -/
abbrev IndexMap (K V : Type) := List (K × V)

namespace IndexMap
variable {K V : Type} [DecidableEq K]

/-- Keys in iteration order. -/
def keys (m : IndexMap K V) : List K := m.map Prod.fst

/-- `contains_key`. -/
def containsKey (m : IndexMap K V) (k : K) : Bool := m.any fun e => decide (e.1 = k)

/-- `get`. -/
def get? (m : IndexMap K V) (k : K) : Option V := (m.find? fun e => decide (e.1 = k)).map Prod.snd

/-- `insert`: an existing key keeps its position and gets the new value, a new key goes to the end. -/
def insert (m : IndexMap K V) (k : K) (v : V) : IndexMap K V :=
  if containsKey m k then m.map fun e => if e.1 = k then (k, v) else e else m ++ [(k, v)]

/-- `extend`: insert one entry after another. -/
def extend (m : IndexMap K V) (es : List (K × V)) : IndexMap K V :=
  es.foldl (fun m e => insert m e.1 e.2) m

/-- `remove`, which in version 1 is `swap_remove`: the last entry takes the place of the removed one. -/
def remove (m : IndexMap K V) (k : K) : IndexMap K V :=
  match m.findIdx? fun e => decide (e.1 = k) with
  | none => m
  | some i => match m.getLast? with
    | none => m
    | some e => (m.set i e).dropLast

end IndexMap
end Ruler
