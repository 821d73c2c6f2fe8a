import Verif.Model.Logger
/-!
# Specification vocabulary for the result log
-/
namespace Ruler
namespace Spec

mutual
/-- How deep arrays and objects are nested. -/
def nesting : Json → Nat
  | .arr l => nestingL l + 1
  | .obj l => nestingM l + 1
  | _ => 0
/-- How deep arrays and objects are nested in a list. -/
def nestingL : List Json → Nat
  | [] => 0
  | v :: l => max (nesting v) (nestingL l)
/-- How deep arrays and objects are nested in the members of an object. -/
def nestingM : List (List Char × Json) → Nat
  | [] => 0
  | (_, v) :: l => max (nesting v) (nestingM l)
end

/-- One or more decimal digits. -/
def Digits (s : List Char) : Prop := s ≠ [] ∧ ∀ c ∈ s, c.isDigit = true

/-- The numbers of JSON (RFC 8259): an optional sign, an integer without superfluous zeros, an optional fraction and an optional
exponent. -/
def Numeral (t : List Char) : Prop := ∃ sign whole fraction exponent, t = sign ++ (whole ++ (fraction ++ exponent)) ∧
  (sign = [] ∨ sign = ['-']) ∧ Digits whole ∧ (whole = ['0'] ∨ whole.head? ≠ some '0') ∧
  (fraction = [] ∨ ∃ d, fraction = '.' :: d ∧ Digits d) ∧
  (exponent = [] ∨ ∃ e s d, exponent = e :: (s ++ d) ∧ (e = 'e' ∨ e = 'E') ∧ (s = [] ∨ s = ['+'] ∨ s = ['-']) ∧ Digits d)

/-- Values of the type `serde_json::Value`: numbers are written as numbers, and the members of objects have distinct
keys. -/
inductive JsonOk : Json → Prop
  | null : JsonOk .null
  | bool (b : Bool) : JsonOk (.bool b)
  | num {t : List Char} : Numeral t → JsonOk (.num t)
  | str (s : List Char) : JsonOk (.str s)
  | arr {l : List Json} : (∀ v ∈ l, JsonOk v) → JsonOk (.arr l)
  | obj {l : List (List Char × Json)} : (l.map Prod.fst).Nodup → (∀ e ∈ l, JsonOk e.2) → JsonOk (.obj l)

/-- A row that can be logged: a JSON value that is not nested more than 126 deep. -/
def RowOk (v : Json) : Prop := JsonOk v ∧ nesting v < 127

/-- The file holds the rows: it is absent or empty and there are none, or it is the JSON text of their list. -/
def Logged (f : LogFile) (rows : List Json) : Prop :=
  (f.getD [] = [] ∧ rows = []) ∨ ∃ s, f = some s ∧ s ≠ [] ∧ Json.parse s = some (.arr rows)

end Spec
end Ruler
