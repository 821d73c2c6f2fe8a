import Verif.Model.Generalize
import Verif.Model.EGraph
/-!
# Model of the generation of candidate rules

`Ruleset::extract_candidates`, `cvec_match` and `fast_cvec_match` (src/enumo/ruleset.rs:225-356). egg's `Extractor` is a
parameter: the term it returns for each class (and its cost). The order in which egg enumerates the classes and in which a
`HashMap` enumerates its values are parameters as well. `none` is a panic.
-/
namespace Ruler
variable {O C : Type}

/-- All pairs of positions `i < j`, in the order of the two nested loops of src/enumo/ruleset.rs:310-311 and 349-350. -/
def pairsUp {α : Type} : List α → List (α × α)
  | [] => []
  | a :: l => l.map (fun b => (a, b)) ++ pairsUp l

/-- `map.entry(k).or_insert_with(Vec::new).push(a)`. -/
def pushGroup {K α : Type} [DecidableEq K] (m : IndexMap K (List α)) (k : K) (a : α) : IndexMap K (List α) :=
  IndexMap.insert m k ((IndexMap.get? m k).getD [] ++ [a])

/-- The loop that groups values by key, src/enumo/ruleset.rs:297-302 and 337-341. -/
def groups {K α : Type} [DecidableEq K] (l : List (K × α)) : IndexMap K (List α) :=
  l.foldl (fun m e => pushGroup m e.1 e.2) []

variable [Lang O]

/-- `add_from_recexprs` for a list of pairs of terms. -/
def Ruleset.addPairs (rs : Ruleset O) (ps : List (Tm O × Tm O)) : Option (Ruleset O) :=
  ps.foldlM (fun rs p => rs.addFromTerms p.1 p.2) rs

/-- The closure `compare`, src/enumo/ruleset.rs:283-291. -/
def compareCvec [DecidableEq C] (a b : CVec C) : Bool :=
  (a.zip b).all fun p => match p with
    | (some x, some y) => decide (x = y)
    | _ => true

/-- The vector of a class: `egraph[id].data.cvec`. -/
def EGraph.cvecOf (g : EGraph O C) (i : Nat) : CVec C := (g.data (g.find i)).cvec

/-- The pairs of classes for which `cvec_match` calls `add_from_recexprs`, src/enumo/ruleset.rs:278-318; `none`: the
indexing of line 299 panics. `order` is the order of `egraph.classes()`. -/
def cvecPairs [DecidableEq C] (cv : Nat → CVec C) (order : List Nat) : Option (List (Nat × Nat)) :=
  ((order.filter fun i => (cv i).any Option.isSome).mapM fun i => ((cv i)[0]?).map fun v => (v, i)).map fun keyed =>
    let byFirst := groups keyed
    let firstNone := (IndexMap.get? byFirst none).getD []
    byFirst.flatMap fun e =>
      (pairsUp (if e.1.isSome then e.2 ++ firstNone else e.2)).filter fun p => compareCvec (cv p.1) (cv p.2)

/-- `Ruleset::cvec_match`, src/enumo/ruleset.rs:265-329. -/
def cvecMatch [DecidableEq C] (g : EGraph O C) (order : List Nat) (best : Nat → Tm O) : Option (Ruleset O) :=
  (cvecPairs g.cvecOf order).bind fun ps => Ruleset.addPairs [] (ps.map fun p => (best p.1, best p.2))

/-- `Signature::is_defined`, src/language.rs:34-36. -/
def cvecDefined (v : CVec C) : Bool := v.isEmpty || v.any Option.isSome

/-- The pairs of classes for which `fast_cvec_match` calls `add_from_recexprs`, src/enumo/ruleset.rs:335-354. -/
def fastPairs [DecidableEq C] (cv : Nat → CVec C) (order : List Nat) : List (Nat × Nat) :=
  (groups ((order.filter fun i => cvecDefined (cv i)).map fun i => (cv i, i))).flatMap fun e => pairsUp e.2

/-- `Ruleset::fast_cvec_match`, src/enumo/ruleset.rs:331-356. -/
def fastCvecMatch [DecidableEq C] (g : EGraph O C) (order : List Nat) (best : Nat → Tm O) : Option (Ruleset O) :=
  Ruleset.addPairs [] ((fastPairs g.cvecOf order).map fun p => (best p.1, best p.2))

/-- The pairs of classes visited by `extract_candidates`, src/enumo/ruleset.rs:237-253: `ids` are the classes of `eg1`,
grouped by their class in `eg2`; `keys` is the order of `unions.values()`. -/
def extractPairs (g2 : EGraph O C) (ids keys : List Nat) : List (Nat × Nat) :=
  keys.flatMap fun k =>
    let grp := ids.filter fun i => decide (g2.find i = k)
    grp.flatMap fun i => grp.map fun j => (i, j)

/-- `Ruleset::extract_candidates`, src/enumo/ruleset.rs:225-263; `best` gives the cost and the term `find_best` returns
for each class of `eg1`. -/
def extractCandidates (g2 : EGraph O C) (ids keys : List Nat) (best : Nat → Nat × Tm O) : Option (Ruleset O) :=
  Ruleset.addPairs [] (((extractPairs g2 ids keys).filter fun p =>
    decide ((best p.1).1 ≠ usizeMax) && decide ((best p.2).1 ≠ usizeMax) && decide ((best p.1).2 ≠ (best p.2).2)).map
      fun p => ((best p.1).2, (best p.2).2))

end Ruler
