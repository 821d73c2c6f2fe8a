import Verif.Model.Rule
import Verif.Model.RecExpr
/-!
# Model of `generalize` and of the creation of candidate rules

`SynthLanguage::generalize` (src/language.rs:254-274), `letter` (src/util.rs:7-10), `Ruleset::add_from_recexprs`
(src/enumo/ruleset.rs:132-150), `score` (src/language.rs:294-326) and `is_allowed_rewrite` (src/language.rs:240-252).
-/
namespace Ruler
variable {O : Type}

/-- `letter`, src/util.rs:7-10; `none` is the panic of slicing beyond the end of the alphabet. -/
def letter (i : Nat) : Option String := ("abcdefghijklmnopqrstuvwxyz".toList[i]?).map fun c => String.ofList [c]

/-- The map from program variables to pattern variables, src/language.rs:254, as the list of its entries in the order of
insertion. -/
abbrev VarMap := List (String × String)

/-- `map.entry(sym).or_insert_with(..)`, src/language.rs:257-260: the map afterwards and the variable. The letter is
computed only for a new entry. -/
def VarMap.name (m : VarMap) (x : String) : Option (VarMap × String) :=
  match m.lookup x with
  | some v => some (m, v)
  | none => (letter m.length).map fun a => (m ++ [(x, "?" ++ a)], "?" ++ a)

mutual
/-- `generalize`, src/language.rs:254-274, on trees. egg's `build_recexpr` visits the nodes with a stack, so children are
renamed from the last to the first; only variables touch the map. A renamed variable is turned into a pattern variable by
`to_enode_or_var` (src/language.rs:180-186) because `to_var (mk_var s) = Some s`. The sharing of equal subterms introduced
by `build_recexpr` is not visible in trees. -/
def generalize [Lang O] : Tm O → VarMap → Option (VarMap × Pat O)
  | .node o args, m => match Lang.toVar o with
    | some x => (m.name x).map fun r => (r.1, .var r.2)
    | none => (generalizeL args m).map fun r => (r.1, .node o r.2)
/-- The arguments, from the last to the first. -/
def generalizeL [Lang O] : List (Tm O) → VarMap → Option (VarMap × List (Pat O))
  | [], m => some (m, [])
  | t :: l, m => (generalizeL l m).bind fun r => (generalize t r.1).map fun s => (s.1, s.2 :: r.2)
end

/-- The two patterns of src/enumo/ruleset.rs:139-141: both terms are generalized with one map. -/
def generalizePair [Lang O] (e1 e2 : Tm O) : Option (Pat O × Pat O) :=
  (generalize e1 []).bind fun l => (generalize e2 l.1).map fun r => (l.2, r.2)

/-- `if let Some(rule) = rule { self.add(rule) }`, src/enumo/ruleset.rs:144-149. -/
def Ruleset.addOpt (rs : Ruleset O) : Option (Rule O) → Ruleset O
  | some r => Ruleset.add rs r
  | none => rs

/-- `Ruleset::add_from_recexprs`, src/enumo/ruleset.rs:138-150. `none` is a panic. -/
def Ruleset.addFromTerms [Lang O] (rs : Ruleset O) (e1 e2 : Tm O) : Option (Ruleset O) :=
  (generalizePair e1 e2).map fun p => (rs.addOpt (Rule.new p.1 p.2)).addOpt (Rule.new p.2 p.1)

mutual
/-- The closure `pattern_is_extractable` of `is_allowed_rewrite`, src/language.rs:245-250, on trees: all operators of the
pattern are allowed. (The code looks at all nodes of the flat pattern; all of them are reachable from the root.) -/
def Pat.allowed [Lang O] : Pat O → Bool
  | .var _ => true
  | .node o args => Lang.allowed o && Pat.allowedL args
/-- Element-wise. -/
def Pat.allowedL [Lang O] : List (Pat O) → Bool
  | [] => true
  | p :: l => Pat.allowed p && Pat.allowedL l
end

/-- `is_allowed_rewrite`, src/language.rs:244-252. -/
def isAllowedRewrite [Lang O] (l r : Pat O) : Bool := l.allowed && r.allowed

/-- Elements without repetitions: a `HashSet`. -/
def dedup {α : Type} [DecidableEq α] (l : List α) : List α :=
  l.foldl (fun s a => if a ∈ s then s else s ++ [a]) []

/-- `Display` of a node of a pattern. -/
def POp.display [Lang O] : POp O → String
  | .var v => v
  | .op o => Lang.display o

/-- Is the node a constant, src/language.rs:313-316. -/
def POp.isConst [Lang O] : POp O → Bool
  | .var _ => false
  | .op o => Lang.isConst o

/-- The variable at a node. -/
def POp.var? : POp O → Option String
  | .var v => some v
  | .op _ => none

/-- `AstSize.cost_rec` (egg): number of nodes of the tree (shared nodes count every time). `none` on ill-formed or empty
expressions (egg panics). -/
def astSize (e : PatternAst O) : Option Nat := RecExpr.run (fun _ ns => 1 + ns.sum) e

/-- `score`, src/language.rs:294-326, on flat patterns, where constants and operators are counted per stored node.
Integers instead of `i32`: the casts are exact as long as patterns have fewer than 2³⁰ nodes. -/
def score [Lang O] (l r : PatternAst O) : Option (List Int) :=
  (astSize l).bind fun (ls : Nat) => (astSize r).map fun (rs : Nat) =>
    let nodes := l ++ r
    let vars := dedup (l.filterMap fun n => n.op.var?) ++ (dedup (r.filterMap fun n => n.op.var?))
    let ops := dedup ((nodes.filter fun n => !n.children.isEmpty).map fun n => n.op.display)
    let consts := nodes.countP fun n => n.op.isConst
    [((dedup vars).length : Int), -(consts : Int), -(max (ls : Int) rs), -((ls : Int) + rs), -(ops.length : Int)]

/-- `Ord` for `[i32; 5]`: lexicographic. -/
def lexLe : List Int → List Int → Bool
  | [], _ => true
  | _ :: _, [] => false
  | a :: l, b :: m => if a < b then true else if b < a then false else lexLe l m

end Ruler
