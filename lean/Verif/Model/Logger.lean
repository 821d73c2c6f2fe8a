/-!
# Model of `src/logger.rs` and of the parts of `serde_json` it uses

`serde_json::to_string_pretty` and `serde_json::from_str` are modelled on characters. Numbers are kept as their text, so the
rounding of floating point numbers when they are read back is not modelled; surrogate pairs in `\u` escapes are not read.
Neither is ever written (src/logger.rs writes only `time.as_secs_f64()` as number).
-/
namespace Ruler

/-- `serde_json::Value`. The members of an object are listed in the order of their insertion (`IndexMap`: Cargo.toml:14 turns on
`preserve_order`). -/
inductive Json where
  | null
  | bool (b : Bool)
  | num (text : List Char)
  | str (s : List Char)
  | arr (l : List Json)
  | obj (l : List (List Char × Json))

namespace Json

/-! ## Writing -/

/-- A hexadecimal digit. -/
def hexDigit (n : Nat) : Char := "0123456789abcdef".toList.getD n '0'

/-- `format_escaped_str_contents`. -/
def escape (c : Char) : List Char :=
  if c = '"' then ['\\', '"']
  else if c = '\\' then ['\\', '\\']
  else if c = Char.ofNat 8 then ['\\', 'b']
  else if c = Char.ofNat 12 then ['\\', 'f']
  else if c = '\n' then ['\\', 'n']
  else if c = '\r' then ['\\', 'r']
  else if c = '\t' then ['\\', 't']
  else if c.toNat < 32 then ['\\', 'u', '0', '0', hexDigit (c.toNat / 16), hexDigit (c.toNat % 16)]
  else [c]

/-- `format_escaped_str`. -/
def writeStr (s : List Char) : List Char := '"' :: (s.flatMap escape ++ ['"'])

/-- `indent` of the `PrettyFormatter`. -/
def indent (n : Nat) : List Char := List.replicate (2 * n) ' '

mutual
/-- `to_string_pretty` at an indentation. -/
def pretty (n : Nat) : Json → List Char
  | .null => "null".toList
  | .bool true => "true".toList
  | .bool false => "false".toList
  | .num t => t
  | .str s => writeStr s
  | .arr [] => ['[', ']']
  | .arr (v :: l) => '[' :: '\n' :: (indent (n + 1) ++ (pretty (n + 1) v ++ (prettyL (n + 1) l ++ '\n' :: (indent n ++ [']']))))
  | .obj [] => ['{', '}']
  | .obj ((k, v) :: l) =>
    '{' :: '\n' :: (indent (n + 1) ++ (writeStr k ++ (':' :: ' ' :: (pretty (n + 1) v ++
      (prettyM (n + 1) l ++ '\n' :: (indent n ++ ['}']))))))
/-- Further elements of an array. -/
def prettyL (n : Nat) : List Json → List Char
  | [] => []
  | v :: l => ',' :: '\n' :: (indent n ++ (pretty n v ++ prettyL n l))
/-- Further members of an object. -/
def prettyM (n : Nat) : List (List Char × Json) → List Char
  | [] => []
  | (k, v) :: l => ',' :: '\n' :: (indent n ++ (writeStr k ++ (':' :: ' ' :: (pretty n v ++ prettyM n l))))
end

/-! ## Reading -/

/-- `parse_whitespace`. -/
def skipWs : List Char → List Char
  | [] => []
  | c :: s => if c = ' ' ∨ c = '\n' ∨ c = '\t' ∨ c = '\r' then skipWs s else c :: s

/-- Value of a hexadecimal digit. -/
def hexVal (c : Char) : Option Nat :=
  if '0' ≤ c ∧ c ≤ '9' then some (c.toNat - 48)
  else if 'a' ≤ c ∧ c ≤ 'f' then some (c.toNat - 87)
  else if 'A' ≤ c ∧ c ≤ 'F' then some (c.toNat - 55)
  else none

/-- `decode_hex_escape`, without surrogates. -/
def hex4 (a b c d : Char) : Option Char :=
  (hexVal a).bind fun a => (hexVal b).bind fun b => (hexVal c).bind fun c => (hexVal d).bind fun d =>
    let n := ((a * 16 + b) * 16 + c) * 16 + d
    if 0xD800 ≤ n ∧ n < 0xE000 then none else some (Char.ofNat n)

/-- `parse_escape` for one-letter escapes. -/
def unescape (c : Char) : Option Char :=
  if c = '"' then some '"'
  else if c = '\\' then some '\\'
  else if c = '/' then some '/'
  else if c = 'b' then some (Char.ofNat 8)
  else if c = 'f' then some (Char.ofNat 12)
  else if c = 'n' then some '\n'
  else if c = 'r' then some '\r'
  else if c = 't' then some '\t'
  else none

/-- `parse_str`, after the opening quotation mark. -/
def parseStr : List Char → Option (List Char × List Char)
  | [] => none
  | c :: s =>
    if c = '"' then some ([], s)
    else if c = '\\' then
      match s with
      | [] => none
      | e :: s' =>
        if e = 'u' then
          match s' with
          | a :: b :: x :: d :: s'' => (hex4 a b x d).bind fun ch => (parseStr s'').map fun r => (ch :: r.1, r.2)
          | _ => none
        else (unescape e).bind fun ch => (parseStr s').map fun r => (ch :: r.1, r.2)
    else if c.toNat < 32 then none
    else (parseStr s).map fun r => (c :: r.1, r.2)

/-- A character that occurs in numbers. -/
def numChar (c : Char) : Bool := c.isDigit || c = '-' || c = '+' || c = '.' || c = 'e' || c = 'E'

/-- The exponent of a number, or nothing. -/
def exponentOk : List Char → Bool
  | [] => true
  | e :: s => (e = 'e' || e = 'E') &&
    let s := match s with
      | '+' :: r => r
      | '-' :: r => r
      | _ => s
    !s.isEmpty && s.all Char.isDigit

/-- The fraction and the exponent of a number. -/
def fractionOk : List Char → Bool
  | '.' :: s => !(s.takeWhile Char.isDigit).isEmpty && exponentOk (s.dropWhile Char.isDigit)
  | s => exponentOk s

/-- A number without sign. -/
def unsignedOk (s : List Char) : Bool :=
  let d := s.takeWhile Char.isDigit
  !d.isEmpty && (d.length = 1 || d.head? ≠ some '0') && fractionOk (s.dropWhile Char.isDigit)

/-- `parse_any_number`: the grammar of numbers. -/
def isNumber : List Char → Bool
  | '-' :: s => unsignedOk s
  | s => unsignedOk s

/-- `IndexMap::insert`; a key that is present keeps its place and gets the new value. -/
def insertKey (k : List Char) (v : Json) : List (List Char × Json) → List (List Char × Json)
  | [] => [(k, v)]
  | (k', v') :: l => if k = k' then (k', v) :: l else (k', v') :: insertKey k v l

/-- The words `null`, `true` and `false`. -/
def parseWord (s : List Char) : Option (Json × List Char) :=
  if "null".toList.isPrefixOf s then some (.null, s.drop 4)
  else if "true".toList.isPrefixOf s then some (.bool true, s.drop 4)
  else if "false".toList.isPrefixOf s then some (.bool false, s.drop 5)
  else none

/-- A number, as long as possible. -/
def parseNum (s : List Char) : Option (Json × List Char) :=
  let t := s.takeWhile numChar
  if isNumber t then some (.num t, s.dropWhile numChar) else none

mutual
/-- `deserialize_any`. `fuel` bounds the number of calls; `d` is `remaining_depth` (128 at the start; arrays and objects fail
where it would become 0). -/
def parseValue : Nat → Nat → List Char → Option (Json × List Char)
  | 0, _, _ => none
  | fuel + 1, d, s =>
    match skipWs s with
    | [] => none
    | c :: s =>
      if c = '"' then (parseStr s).map fun r => (.str r.1, r.2)
      else if c = '[' then
        if d ≤ 1 then none
        else match skipWs s with
          | [] => none
          | c' :: s' =>
            if c' = ']' then some (.arr [], s')
            else (parseItems fuel (d - 1) (c' :: s')).map fun r => (.arr r.1, r.2)
      else if c = '{' then
        if d ≤ 1 then none
        else match skipWs s with
          | [] => none
          | c' :: s' =>
            if c' = '}' then some (.obj [], s')
            else (parseMembers fuel (d - 1) [] (c' :: s')).map fun r => (.obj r.1, r.2)
      else if c = '-' || c.isDigit then parseNum (c :: s)
      else parseWord (c :: s)
/-- The elements of a nonempty array. -/
def parseItems : Nat → Nat → List Char → Option (List Json × List Char)
  | 0, _, _ => none
  | fuel + 1, d, s =>
    (parseValue fuel d s).bind fun r =>
      match skipWs r.2 with
      | [] => none
      | c :: s' =>
        if c = ']' then some ([r.1], s')
        else if c = ',' then (parseItems fuel d s').map fun q => (r.1 :: q.1, q.2)
        else none
/-- The members of a nonempty object; `acc` are those read so far. -/
def parseMembers : Nat → Nat → List (List Char × Json) → List Char → Option (List (List Char × Json) × List Char)
  | 0, _, _, _ => none
  | fuel + 1, d, acc, s =>
    match skipWs s with
    | [] => none
    | c :: s =>
      if c = '"' then
        (parseStr s).bind fun k =>
          match skipWs k.2 with
          | [] => none
          | c' :: s' =>
            if c' = ':' then
              (parseValue fuel d s').bind fun r =>
                match skipWs r.2 with
                | [] => none
                | c'' :: s'' =>
                  if c'' = '}' then some (insertKey k.1 r.1 acc, s'')
                  else if c'' = ',' then parseMembers fuel d (insertKey k.1 r.1 acc) s''
                  else none
            else none
      else none
end

/-- `serde_json::from_str`: one value, and nothing but white space after it. Every call but the first is made for at least
one character. -/
def parse (s : List Char) : Option Json :=
  (parseValue (2 * s.length + 1) 128 s).bind fun r => if skipWs r.2 = [] then some r.1 else none

end Json

/-! ## The log file -/

/-- The file `nightly/data/output.json`; `none`: it does not exist. -/
abbrev LogFile := Option (List Char)

/-- The text that is written, given the text that was read, src/logger.rs:29-37; `none`: panic. -/
def logText (s : List Char) (row : Json) : Option (List Char) :=
  if s = [] then some (Json.pretty 0 (.arr [row]))
  else match Json.parse s with
    | some (.arr l) => some (Json.pretty 0 (.arr (l ++ [row])))
    | _ => none

/-- `add_json_to_file`, src/logger.rs:16-39: the file afterwards; `none`: panic (the file is as before, or empty if it did
not exist). Errors of the file system are not modelled. -/
def addJsonToFile (f : LogFile) (row : Json) : Option LogFile := (logText (f.getD []) row).map some

/-- The steps of a call, for calls that overlap and for calls that are interrupted: opening the file (lines 20-25), reading
it (line 27), and in `fs::write` (line 37) opening with truncation and writing some of the remaining characters. -/
inductive LogStep where
  | openFile
  | read
  | truncate
  | write (chars : Nat)

/-- The local state of a call: the text to be written, once known, and how much of it has been written. -/
structure LogCall where
  text : Option (List Char)
  written : Nat

/-- Overwrite a file from a position on. -/
def overlay (f : List Char) (pos : Nat) (s : List Char) : List Char :=
  (f ++ List.replicate (pos - f.length) (Char.ofNat 0)).take pos ++ (s ++ f.drop (pos + s.length))

/-- One step of the call with the given row; `none`: panic, or a step that is not possible. -/
def logStep (row : Json) (f : LogFile) (k : LogCall) : LogStep → Option (LogFile × LogCall)
  | .openFile => some (some (f.getD []), k)
  | .read => f.bind fun s => (logText s row).map fun t => (f, { k with text := some t })
  | .truncate => k.text.map fun _ => (some [], { k with written := 0 })
  | .write n => f.bind fun s => k.text.map fun t =>
      (some (overlay s k.written ((t.drop k.written).take n)), { k with written := min (k.written + n) t.length })

/-- A schedule of steps of several calls, each step labelled with its call. -/
def logSchedule (rows : Nat → Json) : List (Nat × LogStep) → LogFile × (Nat → LogCall) → Option (LogFile × (Nat → LogCall))
  | [], st => some st
  | (i, a) :: rest, (f, ks) => (logStep (rows i) f (ks i) a).bind fun r =>
      logSchedule rows rest (r.1, fun j => if j = i then r.2 else ks j)

end Ruler
