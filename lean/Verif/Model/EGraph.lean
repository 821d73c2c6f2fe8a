import Verif.Model.Analysis
/-!
# Model of the e-graph (crate `egg` 0.9) with ruler's analysis

`egg` is not part of the repository; this is a reference implementation of the operations ruler calls, with the places
where egg's answer depends on hash order, sizes or time left open (`Egg`, `Repair`, and the traces of
`Verif/Model/Scheduler.lean`). Statements about it quantify over all of them. `none` is a panic (or an incomplete
trace, see `rebuild`).
-/
namespace Ruler

/-- Choices egg makes that do not follow from the calls. -/
structure Egg where
  /-- Which of two roots survives a union (egg keeps the class with more parents). A pair of roots is united at most
  once, so a function of the pair covers every behaviour of one e-graph. -/
  keep : Nat → Nat → Bool
  /-- Nesting depth available for `add` → `modify` → `add` → …; exceeding it is a stack overflow (`none`). -/
  depth : Nat

/-- `egg::EGraph` with ruler's analysis data. -/
structure EGraph (O C : Type) where
  /-- Number of ids handed out (`unionfind.make_set`). -/
  n : Nat
  /-- `EGraph::find`. -/
  find : Nat → Nat
  /-- The hash-cons `memo`: e-nodes with the id they were given. Between a union and the next rebuild the children may
  be stale, as in egg. -/
  nodes : List (FNode O × Nat)
  /-- Analysis data of the root ids. -/
  data : Nat → Signature O C
  /-- `SynthAnalysis::cvec_len`, src/language.rs:14-16. -/
  cvecLen : Nat

namespace EGraph
variable {O C : Type}

/-- `EGraph::default()`, src/language.rs:18-25: no ids, length of vectors zero. -/
def empty : EGraph O C := ⟨0, id, [], fun _ => ⟨[], [], ⟨none, none⟩⟩, 0⟩

/-- `egraph[id].data`. -/
def dataOf (g : EGraph O C) (i : Nat) : Signature O C := g.data (g.find i)

/-- Replace children by their roots. -/
def canon (g : EGraph O C) (nd : FNode O) : FNode O := ⟨nd.op, nd.children.map g.find⟩

/-- `egraph[id].nodes`. -/
def classNodes (g : EGraph O C) (i : Nat) : List (FNode O) :=
  (g.nodes.filter fun e => decide (g.find e.2 = g.find i)).map Prod.fst

/-- Roots, in the order of their ids: `egraph.classes().map(|c| c.id)` up to order. -/
def classes (g : EGraph O C) : List Nat := (List.range g.n).filter fun i => decide (g.find i = i)

/-- `EGraph::number_of_classes`. -/
def numClasses (g : EGraph O C) : Nat := g.classes.length

variable [Lang O]

/-- `EGraph::lookup`: canonicalise the children and look the node up in the hash-cons. -/
def lookup (g : EGraph O C) (nd : FNode O) : Option Nat :=
  (g.nodes.find? fun e => decide (e.1 = g.canon nd)).map fun e => g.find e.2

mutual
/-- `EGraph::lookup_expr`. -/
def lookupTm (g : EGraph O C) : Tm O → Option Nat
  | .node o args => (lookupTmL g args).bind fun ids => g.lookup ⟨o, ids⟩
/-- Element-wise. -/
def lookupTmL (g : EGraph O C) : List (Tm O) → Option (List Nat)
  | [] => some []
  | t :: l => (lookupTm g t).bind fun i => (lookupTmL g l).map (i :: ·)
end

variable [LinearOrder C] (D : Domain O C) (E : Egg)

/-- `EGraph::add`: the existing class if the canonical node is known, otherwise a new id with the data computed by
`make`, followed by the analysis hook (`mod`). -/
def addWith (mod : EGraph O C → Nat → Option (EGraph O C)) (g : EGraph O C) (nd : FNode O) :
    Option (EGraph O C × Nat) :=
  match g.lookup nd with
  | some i => some (g, i)
  | none =>
    let nd' := g.canon nd
    (makeSig D g.cvecLen nd' g.dataOf).bind fun s =>
      let g' : EGraph O C := { g with
        n := g.n + 1
        find := fun i => if i = g.n then g.n else g.find i
        nodes := g.nodes ++ [(nd', g.n)]
        data := fun i => if i = g.n then s else g.data i }
      (mod g' g.n).map fun g'' => (g'', g''.find g.n)

mutual
/-- `EGraph::add_expr` on a tree: children from left to right, then the node. (The flat expression adds shared nodes
once; adding them again finds them.) -/
def addTmWith (mod : EGraph O C → Nat → Option (EGraph O C)) : Tm O → EGraph O C → Option (EGraph O C × Nat)
  | .node o args, g => (addTmWithL mod args g).bind fun r => addWith D mod r.1 ⟨o, r.2⟩
/-- Element-wise. -/
def addTmWithL (mod : EGraph O C → Nat → Option (EGraph O C)) :
    List (Tm O) → EGraph O C → Option (EGraph O C × List Nat)
  | [], g => some (g, [])
  | t :: l, g => (addTmWith mod t g).bind fun r => (addTmWithL mod l r.1).map fun q => (q.1, r.2 :: q.2)
end

/-- Make `r` the root of the class of `s` and join their data; the flags decide only which nodes egg re-analyses. -/
def link (g : EGraph O C) (r s : Nat) : Option (EGraph O C) :=
  (mergeSig (g.data r) (g.data s)).map fun m =>
    { g with
      find := fun i => if g.find i = s then r else g.find i
      data := fun i => if i = r then m.1 else g.data i }

/-- `EGraph::union`: nothing if already equal; otherwise one root absorbs the other and the analysis hook runs. -/
def unionWith (mod : EGraph O C → Nat → Option (EGraph O C)) (g : EGraph O C) (i j : Nat) : Option (EGraph O C) :=
  if g.find i = g.find j then some g
  else if E.keep (g.find i) (g.find j) then (link g (g.find i) (g.find j)).bind fun g' => mod g' (g.find i)
  else (link g (g.find j) (g.find i)).bind fun g' => mod g' (g.find j)

/-- Add a term and unite it with a class: `let id = egraph.add(..); egraph.union(..)`. -/
def addUnionWith (mod : EGraph O C → Nat → Option (EGraph O C)) (i : Nat) (g : EGraph O C) (t : Tm O) :
    Option (EGraph O C) :=
  (addTmWith D mod t g).bind fun r => unionWith E mod r.1 i r.2

/-- `modify`, src/language.rs:132-147: the domain's hook, then constant folding; `depth` bounds the nesting. -/
def modifyD : Nat → EGraph O C → Nat → Option (EGraph O C)
  | 0, _, _ => none
  | d + 1, g, i =>
    ((D.custom g.classNodes (g.find i)).foldlM (addUnionWith D E (modifyD d) i) g).bind fun g =>
    match (g.dataOf i).interval with
    | ⟨some lo, some hi⟩ =>
      if lo = hi then (D.mkConst lo).bind (addUnionWith D E (modifyD d) i g)
      else some g
    | _ => some g

/-- The analysis hook. -/
def modify : EGraph O C → Nat → Option (EGraph O C) := modifyD D E E.depth

/-- `EGraph::add`. -/
def add (g : EGraph O C) (nd : FNode O) : Option (EGraph O C × Nat) := addWith D (modify D E) g nd

/-- `EGraph::add_expr`. -/
def addTm (t : Tm O) (g : EGraph O C) : Option (EGraph O C × Nat) := addTmWith D (modify D E) t g

/-- `EGraph::union`. -/
def union (g : EGraph O C) (i j : Nat) : Option (EGraph O C) := unionWith E (modify D E) g i j

/-- One step of `EGraph::rebuild`: which hash-cons entry is processed next, for congruence or for its analysis data. -/
inductive Repair where
  | congr (i : Nat)
  | analyse (i : Nat)
deriving DecidableEq

/-- One step of `EGraph::rebuild` (`process_unions`). `congr`: the entry is canonicalised and put back into the
hash-cons; if the canonical node is already there the two classes are united. `analyse`: the data of the entry's class
is joined with what `make` computes for the node now, and the hook runs if it changed. Steps that do not exist do
nothing. -/
def repair (g : EGraph O C) : Repair → Option (EGraph O C)
  | .congr i => match g.nodes[i]? with
    | none => some g
    | some (nd, c) =>
      let rest := g.nodes.eraseIdx i
      match rest.find? fun e => decide (e.1 = g.canon nd) with
      | some (_, c') => union D E { g with nodes := rest } c' c
      | none => some { g with nodes := rest ++ [(g.canon nd, c)] }
  | .analyse i => match g.nodes[i]? with
    | none => some g
    | some (nd, c) =>
      (makeSig D g.cvecLen nd g.dataOf).bind fun s =>
        (mergeSig (g.dataOf c) s).bind fun m =>
          let r := g.find c
          let g' : EGraph O C := { g with data := fun i => if i = r then m.1 else g.data i }
          if m.2.1 then modify D E g' r else some g'

/-- All entries are canonical and no node occurs in two different classes: what `rebuild` establishes. -/
def closed (g : EGraph O C) : Bool :=
  g.nodes.all fun e => decide (g.canon e.1 = e.1) &&
    g.nodes.all fun e' => if e.1 = e'.1 then decide (g.find e.2 = g.find e'.2) else true

/-- `EGraph::rebuild`: egg's order of work is the list of steps. egg stops when nothing is left to do, so the result
must be closed; otherwise the list is not a complete run (`none`). -/
def rebuild (steps : List Repair) (g : EGraph O C) : Option (EGraph O C) :=
  (steps.foldlM (repair D E) g).bind fun g => if g.closed then some g else none

/-- Substitution found by e-matching: pattern variable to class. -/
abbrev Subst := List (String × Nat)

mutual
/-- E-matching of a pattern against a class (egg's pattern machine), given the bindings so far: all resulting
substitutions. -/
def ematch (g : EGraph O C) : Pat O → Nat → Subst → List Subst
  | .var v, i, σ => match σ.lookup v with
    | some j => if g.find j = g.find i then [σ] else []
    | none => [(v, g.find i) :: σ]
  | .node o args, i, σ =>
    (g.nodes.filter fun e => decide (e.1.op = o) && decide (e.1.children.length = args.length) &&
      decide (g.find e.2 = g.find i)).flatMap fun e => ematchL g args e.1.children σ
/-- Arguments from left to right. -/
def ematchL (g : EGraph O C) : List (Pat O) → List Nat → Subst → List Subst
  | [], [], σ => [σ]
  | p :: l, i :: is, σ => (ematch g p i σ).flatMap fun σ' => ematchL g l is σ'
  | _, _, _ => []
end

/-- `Rewrite::search`: matched classes with substitutions. -/
def search (g : EGraph O C) (p : Pat O) : List (Nat × Subst) :=
  g.classes.flatMap fun i => (ematch g p i []).map fun σ => (i, σ)

mutual
/-- `apply_pat`, src/enumo/rule.rs:142-161, on a tree. `none`: unbound variable. -/
def addPat (σ : Subst) : Pat O → EGraph O C → Option (EGraph O C × Nat)
  | .var v, g => (σ.lookup v).map fun i => (g, i)
  | .node o args, g => (addPatL σ args g).bind fun r => add D E r.1 ⟨o, r.2⟩
/-- Element-wise. -/
def addPatL (σ : Subst) : List (Pat O) → EGraph O C → Option (EGraph O C × List Nat)
  | [], g => some (g, [])
  | p :: l, g => (addPat σ p g).bind fun r => (addPatL σ l r.1).map fun q => (q.1, r.2 :: q.2)
end

/-- `Rhs::apply_one`, src/enumo/rule.rs:76-99: right-hand side, matched class, substitution. -/
def applyOne (rhs : Pat O) (g : EGraph O C) (m : Nat × Subst) : Option (EGraph O C) :=
  if !(g.dataOf m.1).isDefined then some g
  else (addPat D E m.2 rhs g).bind fun r =>
    if r.2 = m.1 then some r.1
    else if !(r.1.dataOf r.2).isDefined then some r.1
    else union D E r.1 r.2 m.1

end EGraph
end Ruler
