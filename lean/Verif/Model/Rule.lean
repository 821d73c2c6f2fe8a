import Verif.Model.Term
import Verif.Model.IndexMap
/-!
# Model of `src/enumo/rule.rs` (construction and text) and of the container part of `src/enumo/ruleset.rs`
-/
namespace Ruler
variable {O : Type}

/-- `struct Rule`, src/enumo/rule.rs:9-18, without the compiled egg rewrite (which is determined by the two sides). -/
structure Rule (O : Type) where
  name : List Char
  lhs : Pat O
  rhs : Pat O
deriving DecidableEq

/-- `format!("{} ==> {}", l, r)`, src/enumo/rule.rs:33 and 104, and `Display for Rule` (20-24). -/
def ruleName [Lang O] (l r : Pat O) : List Char := l.print ++ " ==> ".toList ++ r.print

/-- Does `Rewrite::new` (egg) succeed: every variable of the right side occurs on the left. -/
def bindsAll (l r : Pat O) : Bool := r.vars.all fun v => decide (v ∈ l.vars)

/-- `Rule::new`, src/enumo/rule.rs:103-114. -/
def Rule.new [Lang O] (l r : Pat O) : Option (Rule O) :=
  if bindsAll l r then some ⟨ruleName l r, l, r⟩ else none

/-- `str::split_once("=>")`: text before and after the first occurrence. `acc` is the reversed text before. -/
def splitArrow : List Char → List Char → Option (List Char × List Char)
  | '=' :: '>' :: rest, acc => some (acc.reverse, rest)
  | c :: rest, acc => splitArrow rest (c :: acc)
  | [], _ => none

/-- `str::contains("<=>")`. -/
def hasBiArrow : List Char → Bool
  | '<' :: '=' :: '>' :: _ => true
  | _ :: rest => hasBiArrow rest
  | [] => false

/-- `Rule::from_string`, src/enumo/rule.rs:27-63. Outer `none`: a panic of one of the `unwrap`s (a side does not
parse, 29-30, or has unbound variables, 41 and 52); `some none`: the `Err` of line 61. -/
def Rule.fromString [Lang O] (s : List Char) : Option (Option (Rule O × Option (Rule O))) :=
  match splitArrow s [] with
  | none => some none
  | some (l, r) =>
    (Pat.parse l).bind fun lp => (Pat.parse r).bind fun rp =>
      (Rule.new lp rp).bind fun fwd =>
        if hasBiArrow s then (Rule.new rp lp).map fun bwd => some (fwd, some bwd)
        else some (some (fwd, none))

/-- `struct Ruleset`, src/enumo/ruleset.rs:15. -/
abbrev Ruleset (O : Type) := IndexMap (List Char) (Rule O)

namespace Ruleset

/-- `Ruleset::add`, src/enumo/ruleset.rs:128-130. -/
def add (rs : Ruleset O) (r : Rule O) : Ruleset O := IndexMap.insert rs r.name r

/-- `Ruleset::add_all`, src/enumo/ruleset.rs:152-156. -/
def addAll (rs : Ruleset O) (rules : List (Rule O)) : Ruleset O := rules.foldl add rs

/-- `Ruleset::extend`, src/enumo/ruleset.rs:164-166. -/
def extend (rs other : Ruleset O) : Ruleset O := IndexMap.extend rs other

/-- `Ruleset::union`, src/enumo/ruleset.rs:82-86. -/
def union (rs other : Ruleset O) : Ruleset O := IndexMap.extend rs other

/-- `Ruleset::remove_all`, src/enumo/ruleset.rs:158-162. -/
def removeAll (rs other : Ruleset O) : Ruleset O := other.foldl (fun m e => IndexMap.remove m e.1) rs

/-- `Ruleset::contains`, src/enumo/ruleset.rs:124-126. -/
def contains (rs : Ruleset O) (r : Rule O) : Bool := IndexMap.containsKey rs r.name

/-- `Ruleset::iter`, src/enumo/ruleset.rs:88-90. -/
def iter (rs : Ruleset O) : List (Rule O) := rs.map Prod.snd

/-- `Ruleset::to_str_vec`, src/enumo/ruleset.rs:96-100. -/
def toStrVec (rs : Ruleset O) : List (List Char) := rs.map Prod.fst

/-- `Ruleset::eq`, src/enumo/ruleset.rs:17-29: same length and the same names in order. -/
def eq (a b : Ruleset O) : Bool :=
  if a.length ≠ b.length then false
  else (a.zip b).all fun p => decide (p.1.1 = p.2.1)

/-- The loop shared by `Ruleset::new` (src/enumo/ruleset.rs:70-79) and `from_file` (193-203); `none` is a panic of
`Rule::from_string`. -/
def ofLines [Lang O] : List (List Char) → Ruleset O → Option (Ruleset O)
  | [], m => some m
  | l :: ls, m => (Rule.fromString l).bind fun r => match r with
    | none => ofLines ls m
    | some (fwd, none) => ofLines ls (add m fwd)
    | some (fwd, some bwd) => ofLines ls (add (add m fwd) bwd)

/-- `Ruleset::new`, src/enumo/ruleset.rs:65-80. -/
def new [Lang O] (vals : List (List Char)) : Option (Ruleset O) := ofLines vals []

/-- Text written by `Ruleset::to_file`, src/enumo/ruleset.rs:182-188. -/
def toFile (rs : Ruleset O) : List Char := unlines (toStrVec rs)

/-- `Ruleset::from_file`, src/enumo/ruleset.rs:190-204. -/
def fromFile [Lang O] (text : List Char) : Option (Ruleset O) := ofLines (textLines text) []

/-- How rayon splits the work of a parallel iterator: sequentially, or at some position into two halves whose
results are concatenated. -/
inductive Split where
  | leaf
  | fork (at_ : Nat) (left right : Split)

/-- `into_par_iter().partition(f)` (rayon), src/enumo/ruleset.rs:174: fork/join over contiguous pieces; each leaf
partitions its piece sequentially. -/
def parPartition {α : Type} (f : α → Bool) : Split → List α → List α × List α
  | .leaf, l => (l.filter f, l.filter fun x => !f x)
  | .fork n a b, l =>
    let p := parPartition f a (l.take n)
    let q := parPartition f b (l.drop n)
    (p.1 ++ q.1, p.2 ++ q.2)

/-- `Ruleset::partition`, src/enumo/ruleset.rs:169-180, under the work-splitting `t`. -/
def partition (t : Split) (f : Rule O → Bool) (rs : Ruleset O) : Ruleset O × Ruleset O :=
  let p := parPartition f t (iter rs)
  (addAll [] p.1, addAll [] p.2)

/-- The reverse of a rule if it exists and is contained in the set: the condition of src/enumo/ruleset.rs:114-115
and 209-210. -/
def hasReverse [Lang O] (rs : Ruleset O) (r : Rule O) : Bool :=
  match Rule.new r.rhs r.lhs with
  | some rev => contains rs rev
  | none => false

/-- `Ruleset::bidir_len`, src/enumo/ruleset.rs:110-122. -/
def bidirLen [Lang O] (rs : Ruleset O) : Nat :=
  let bidir := (iter rs).countP fun r => hasReverse rs r
  let unidir := (iter rs).countP fun r => !hasReverse rs r
  unidir + bidir / 2

/-- `format!("{} <=> {}", l, r)`, src/enumo/ruleset.rs:211 and 213. -/
def biName [Lang O] (l r : Pat O) : List Char := l.print ++ " <=> ".toList ++ r.print

/-- The loop of `Ruleset::pretty_print`, src/enumo/ruleset.rs:207-218. -/
def prettyLoop [Lang O] (rs : Ruleset O) : List (List Char × Rule O) → List (List Char) → List (List Char)
  | [], strs => strs
  | (name, r) :: rest, strs =>
    if hasReverse rs r then
      if biName r.rhs r.lhs ∈ strs then prettyLoop rs rest strs
      else prettyLoop rs rest (strs ++ [biName r.lhs r.rhs])
    else prettyLoop rs rest (strs ++ [name])

/-- The lines printed by `Ruleset::pretty_print`, src/enumo/ruleset.rs:206-223. -/
def prettyLines [Lang O] (rs : Ruleset O) : List (List Char) := prettyLoop rs rs []

end Ruleset
end Ruler
