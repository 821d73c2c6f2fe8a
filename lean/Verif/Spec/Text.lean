import Verif.Spec.Sexp
/-!
# Independent specification: printable atoms
-/
namespace Ruler
namespace Spec

/-- The 25 characters with the Unicode property White_Space. -/
def blanks : List Nat :=
  [9, 10, 11, 12, 13, 32, 0x85, 0xA0, 0x1680, 0x2000, 0x2001, 0x2002, 0x2003, 0x2004, 0x2005, 0x2006, 0x2007,
   0x2008, 0x2009, 0x200A, 0x2028, 0x2029, 0x202F, 0x205F, 0x3000]

/-- A printable symbol: at least one character, no blank, parenthesis or double quote. -/
def Plain (a : String) : Prop :=
  a.toList ≠ [] ∧ ∀ c ∈ a.toList, c.toNat ∉ blanks ∧ c ≠ '(' ∧ c ≠ ')' ∧ c ≠ '"'

instance (a : String) : Decidable (Plain a) := by unfold Plain; infer_instance

/-- Every atom of the term is a printable symbol. -/
def PlainTerm (t : Sexp) : Prop := ∀ a, Subterm (.atom a) t → Plain a

end Spec
end Ruler
