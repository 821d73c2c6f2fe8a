import Verif.Model.BV
/-!
# Terms and formulas handed to the solver by the integer and rational domains

Built through the z3 bindings in tests/nat.rs:155-176, tests/halide.rs:165-282 and tests/rational.rs:160-480. The type
of numerals is a parameter (integers or rationals). The list forms of `add`, `and`, `or` are used with two operands or
folded.
-/
namespace Ruler

mutual
/-- Arithmetic terms. -/
inductive SmtTm (Λ : Type) where
  | const (x : String)
  | num (c : Λ)
  | add (a b : SmtTm Λ) | sub (a b : SmtTm Λ) | mul (a b : SmtTm Λ) | div (a b : SmtTm Λ)
  | neg (a : SmtTm Λ)
  | ite (c : SmtFm Λ) (a b : SmtTm Λ)
  /-- Not a term: stands for a wrong number of children, which Rust cannot express. -/
  | junk
/-- Formulas. -/
inductive SmtFm (Λ : Type) where
  | lit (b : Bool)
  | lt (a b : SmtTm Λ) | le (a b : SmtTm Λ) | eq (a b : SmtTm Λ)
  | not (p : SmtFm Λ)
  | and (p q : SmtFm Λ) | or (p q : SmtFm Λ) | xor (p q : SmtFm Λ) | implies (p q : SmtFm Λ) | iff (p q : SmtFm Λ)
end

/-- Parsing of signed machine or big integers as by `str::parse` (standard library): an optional sign and at least one
decimal digit. `bound` is the range check. -/
def parseInt (bound : Int → Bool) (s : List Char) : Option Int :=
  let digits (cs : List Char) : Option Nat :=
    if cs.isEmpty then none
    else cs.foldlM (fun acc c => (BV.digitVal 10 c).map fun d => acc * 10 + d) 0
  let r : Option Int := match s with
    | '-' :: cs => (digits cs).map fun n => -(n : Int)
    | '+' :: cs => (digits cs).map fun n => (n : Int)
    | cs => (digits cs).map fun n => (n : Int)
  r.bind fun i => if bound i then some i else none

/-- `i64` range. -/
def inI64 (i : Int) : Bool := decide (-9223372036854775808 ≤ i ∧ i ≤ 9223372036854775807)

/-- Decimal text of an integer. -/
def showInt (i : Int) : List Char := if i < 0 then '-' :: BV.decimal i.natAbs else BV.decimal i.natAbs

/-- `Display for Ratio` (crate num). -/
def ratText (x : Rat) : List Char := if x.den = 1 then showInt x.num else showInt x.num ++ '/' :: showInt x.den

/-- `FromStr for Ratio` (crate num) over integers within `bound`: the text is split at the first slash, a missing
denominator is one; `none` is an error (a part is no integer, or the denominator is zero). -/
def ratOfTextIn (bound : Int → Bool) (s : List Char) : Option Rat :=
  let n := s.takeWhile (· ≠ '/')
  let d := match s.dropWhile (· ≠ '/') with
    | [] => ['1']
    | _ :: rest => rest
  (parseInt bound n).bind fun n => (parseInt bound d).bind fun d => if d = 0 then none else some ((n : Rat) / d)

end Ruler
