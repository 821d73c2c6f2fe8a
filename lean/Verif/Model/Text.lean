import Verif.Model.Workload
/-!
# Model of text input and output: s-expressions and workload files

A text is a list of characters. The s-expression reader is the crate `symbolic_expressions` (version 5, not part
of the repository); it is modelled by its documented behaviour: blanks separate, parentheses nest, one expression is
read and what follows it is ignored (the code relies on the latter: `Rule::from_string` parses `"(* a b) ="`,
src/enumo/rule.rs:28-29 and the test at 164-191). Double-quoted strings are *not* modelled: a text with a `"` is
rejected (`none`).
-/
namespace Ruler

/-- Rust's `char::is_whitespace` (the Unicode property White_Space). -/
def isBlank (c : Char) : Bool :=
  let n := c.toNat
  (9 ≤ n && n ≤ 13) || n == 32 || n == 0x85 || n == 0xA0 || n == 0x1680 || (0x2000 ≤ n && n ≤ 0x200A) ||
    n == 0x2028 || n == 0x2029 || n == 0x202F || n == 0x205F || n == 0x3000

/-- Tokens of the s-expression reader. -/
inductive Tok where
  | op
  | cl
  | quote
  | atom (s : String)
  deriving DecidableEq

/-- Finish the atom whose (reversed) characters have been collected. -/
def flushTok (acc : List Char) : List Tok :=
  if acc = [] then [] else [.atom (String.ofList acc.reverse)]

/-- Lexer of the reader (crate `symbolic_expressions`, used at src/enumo/sexp.rs:16). `acc` holds the characters of
the atom being read, last one first. -/
def tokenize : List Char → List Char → List Tok
  | [], acc => flushTok acc
  | c :: cs, acc =>
    if isBlank c then flushTok acc ++ tokenize cs []
    else if c = '(' then flushTok acc ++ .op :: tokenize cs []
    else if c = ')' then flushTok acc ++ .cl :: tokenize cs []
    else if c = '"' then flushTok acc ++ .quote :: tokenize cs []
    else tokenize cs (c :: acc)

/-- Parser of the reader: a stack of unfinished lists, each reversed. Returns as soon as one expression is complete.
`none` is a parse error, which every caller unwraps (src/enumo/sexp.rs:16, src/enumo/pattern.rs:19). -/
def parseToks : List Tok → List (List Sexp) → Option Sexp
  | [], _ => none
  | .atom a :: _, [] => some (.atom a)
  | .atom a :: ts, f :: st => parseToks ts ((.atom a :: f) :: st)
  | .op :: ts, st => parseToks ts ([] :: st)
  | .cl :: _, [] => none
  | .cl :: _, [f] => some (.list f.reverse)
  | .cl :: ts, f :: g :: st => parseToks ts ((.list f.reverse :: g) :: st)
  | .quote :: _, _ => none

/-- `Sexp::from_str` with `from_symbolic_expr`, src/enumo/sexp.rs:12-19 and 39-49. The empty text is the crate's
`Sexp::Empty`, which becomes the empty list. -/
def Sexp.parse (s : List Char) : Option Sexp :=
  if s = [] then some (.list []) else parseToks (tokenize s []) []

mutual
/-- `Display for Sexp`, src/enumo/sexp.rs:21-36: every list element is followed by a blank. -/
def Sexp.print : Sexp → List Char
  | .atom a => a.toList
  | .list l => '(' :: (Sexp.printL l ++ [')'])
/-- The loop over list elements, src/enumo/sexp.rs:27-29. -/
def Sexp.printL : List Sexp → List Char
  | [] => []
  | s :: l => Sexp.print s ++ ' ' :: Sexp.printL l
end

/-- Remove one trailing carriage return (`BufRead::lines`). -/
def chompCr (acc : List Char) : List Char :=
  match acc with
  | '\r' :: r => r
  | r => r

/-- `BufRead::lines` (standard library; used at src/enumo/workload.rs:51, src/enumo/ruleset.rs:194): split at line
feeds, drop one carriage return before each of them, an unterminated last line is a line. `acc` is the reversed
current line. -/
def linesAux : List Char → List Char → List (List Char)
  | [], acc => if acc = [] then [] else [acc.reverse]
  | c :: cs, acc => if c = '\n' then (chompCr acc).reverse :: linesAux cs [] else linesAux cs (c :: acc)

/-- All lines of a text. -/
def textLines (s : List Char) : List (List Char) := linesAux s []

/-- `writeln!` for each line (src/enumo/workload.rs:42-44, src/enumo/ruleset.rs:185-187). -/
def unlines (ls : List (List Char)) : List Char := ls.flatMap fun l => l ++ ['\n']

/-- Text written by `Workload::to_file`, src/enumo/workload.rs:39-45; `none` is a panic while forcing. -/
def Workload.toFile (w : Workload) : Option (List Char) :=
  w.force.map fun ts => unlines (ts.map Sexp.print)

/-- `Workload::from_file`, src/enumo/workload.rs:47-55, on the text of the file; `none` is a parse panic. -/
def Workload.fromFile (s : List Char) : Option Workload :=
  ((textLines s).mapM Sexp.parse).map Workload.set

/-- `Workload::new`, src/enumo/workload.rs:23-33; `none` is a parse panic. -/
def Workload.ofTexts (vals : List (List Char)) : Option Workload :=
  (vals.mapM Sexp.parse).map Workload.set

/-- `Workload::plug` with an arbitrary text as hole name, src/enumo/workload.rs:126-134. The text is parsed as a
pattern only when the plugged workload is the empty set (line 130). -/
def Workload.doPlugText (w : Workload) (name : String) (pegs : Workload) : Option Workload :=
  match pegs with
  | .set [] => (Sexp.parse name.toList).map fun s => w.addFilter (.excludes (Pattern.ofSexp s))
  | _ => some (.plug w name pegs)

end Ruler
