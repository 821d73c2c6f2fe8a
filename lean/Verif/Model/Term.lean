import Verif.Model.Text
/-!
# Terms, patterns and languages

egg's `RecExpr<L>` (a term) and `PatternAst<L>` (a pattern) as trees. The flat node vector, with its sharing, is
modelled in `Verif/Model/RecExpr.lean` where it is observable.
-/
namespace Ruler

/-- A term of a language with operators `O` (program variables and literals are operators without arguments). -/
inductive Tm (O : Type) where
  | node (o : O) (args : List (Tm O))

/-- A pattern: `ENodeOrVar<L>` trees. The name of a pattern variable includes the leading `?`. -/
inductive Pat (O : Type) where
  | var (v : String)
  | node (o : O) (args : List (Pat O))

/-- The parts of `SynthLanguage` (src/language.rs:157-329), `egg::FromOp` and `Display` that concern single nodes. -/
class Lang (O : Type) where
  /-- Nodes can be compared. -/
  decEq : DecidableEq O
  /-- `Display` of a node (its operator). -/
  display : O → String
  /-- `FromOp::from_op` on the operator text and the number of children; `none` is an error. -/
  fromOp : String → Nat → Option O
  /-- `to_var`, src/language.rs:189. -/
  toVar : O → Option String
  /-- `mk_var`, src/language.rs:192. -/
  mkVar : String → O
  /-- `is_constant`, src/language.rs:200. -/
  isConst : O → Bool
  /-- `is_allowed_op`, src/language.rs:236-238. -/
  allowed : O → Bool

instance (priority := low) {O : Type} [Lang O] : DecidableEq O := Lang.decEq

section
variable {O : Type}

mutual
/-- Boolean equality of terms (derived `PartialEq`). -/
def Tm.beq [DecidableEq O] : Tm O → Tm O → Bool
  | .node o l, .node o' l' => decide (o = o') && Tm.beqL l l'
/-- Boolean equality of argument lists. -/
def Tm.beqL [DecidableEq O] : List (Tm O) → List (Tm O) → Bool
  | [], [] => true
  | a :: l, b :: m => Tm.beq a b && Tm.beqL l m
  | _, _ => false
end

mutual
theorem Tm.beq_iff [DecidableEq O] : ∀ (a b : Tm O), Tm.beq a b = true ↔ a = b
  | .node o l, .node o' l' => by simp [Tm.beq, Tm.beqL_iff l l']
theorem Tm.beqL_iff [DecidableEq O] : ∀ (l m : List (Tm O)), Tm.beqL l m = true ↔ l = m
  | [], [] => by simp [Tm.beqL]
  | a :: l, b :: m => by simp [Tm.beqL, Tm.beq_iff a b, Tm.beqL_iff l m]
  | [], b :: m => by simp [Tm.beqL]
  | a :: l, [] => by simp [Tm.beqL]
end

instance [DecidableEq O] : DecidableEq (Tm O) := fun a b =>
  if h : Tm.beq a b = true then isTrue ((Tm.beq_iff a b).1 h)
  else isFalse (fun e => h ((Tm.beq_iff a b).2 e))

mutual
/-- Boolean equality of patterns (derived `PartialEq`). -/
def Pat.beq [DecidableEq O] : Pat O → Pat O → Bool
  | .var a, .var b => decide (a = b)
  | .node o l, .node o' l' => decide (o = o') && Pat.beqL l l'
  | _, _ => false
/-- Boolean equality of argument lists. -/
def Pat.beqL [DecidableEq O] : List (Pat O) → List (Pat O) → Bool
  | [], [] => true
  | a :: l, b :: m => Pat.beq a b && Pat.beqL l m
  | _, _ => false
end

mutual
theorem Pat.beq_iff [DecidableEq O] : ∀ (a b : Pat O), Pat.beq a b = true ↔ a = b
  | .var a, .var b => by simp [Pat.beq]
  | .node o l, .node o' l' => by simp [Pat.beq, Pat.beqL_iff l l']
  | .var a, .node o' l' => by simp [Pat.beq]
  | .node o l, .var b => by simp [Pat.beq]
theorem Pat.beqL_iff [DecidableEq O] : ∀ (l m : List (Pat O)), Pat.beqL l m = true ↔ l = m
  | [], [] => by simp [Pat.beqL]
  | a :: l, b :: m => by simp [Pat.beqL, Pat.beq_iff a b, Pat.beqL_iff l m]
  | [], b :: m => by simp [Pat.beqL]
  | a :: l, [] => by simp [Pat.beqL]
end

instance [DecidableEq O] : DecidableEq (Pat O) := fun a b =>
  if h : Pat.beq a b = true then isTrue ((Pat.beq_iff a b).1 h)
  else isFalse (fun e => h ((Pat.beq_iff a b).2 e))

mutual
/-- Variables of a pattern, egg's `Pattern::vars` (which also removes duplicates; only membership is used). -/
def Pat.vars : Pat O → List String
  | .var v => [v]
  | .node _ args => Pat.varsL args
/-- Variables of an argument list. -/
def Pat.varsL : List (Pat O) → List String
  | [] => []
  | p :: l => Pat.vars p ++ Pat.varsL l
end

mutual
/-- egg's `RecExpr::to_sexp` on patterns: leaves are atoms, other nodes lists headed by the operator. -/
def Pat.toSexp [Lang O] : Pat O → Sexp
  | .var v => .atom v
  | .node o [] => .atom (Lang.display o)
  | .node o (a :: args) => .list (.atom (Lang.display o) :: Pat.toSexp a :: Pat.toSexpL args)
/-- Element-wise `to_sexp`. -/
def Pat.toSexpL [Lang O] : List (Pat O) → List Sexp
  | [] => []
  | p :: l => Pat.toSexp p :: Pat.toSexpL l
end

/-- Does this text denote a pattern variable (`ENodeOrVar::from_op`: starts with `?` and is longer than that)? -/
def isVarName (s : String) : Bool :=
  match s.toList with
  | '?' :: _ :: _ => true
  | _ => false

/-- `ENodeOrVar::from_op` on parsed children; `none` is an error. -/
def Pat.fromOp [Lang O] (s : String) (args : List (Pat O)) : Option (Pat O) :=
  if isVarName s then (if args.isEmpty then some (.var s) else none)
  else (Lang.fromOp s args.length).map fun o => .node o args

mutual
/-- `RecExpr::from_str` for `ENodeOrVar` on the parsed s-expression (egg); the empty expression and a list headed by
a list are errors (`none`). -/
def Pat.ofSexp [Lang O] : Sexp → Option (Pat O)
  | .atom s => Pat.fromOp s []
  | .list (.atom s :: args) => (Pat.ofSexpL args).bind fun as => Pat.fromOp s as
  | .list _ => none
/-- Element-wise parsing. -/
def Pat.ofSexpL [Lang O] : List Sexp → Option (List (Pat O))
  | [] => some []
  | s :: l => (Pat.ofSexp s).bind fun p => (Pat.ofSexpL l).map (p :: ·)
end

mutual
/-- `Display` of the reader's s-expressions (crate `symbolic_expressions`): elements separated by one blank.
Quoting of atoms that are not printable symbols is not modelled. -/
def Sexp.printEgg : Sexp → List Char
  | .atom a => a.toList
  | .list [] => ['(', ')']
  | .list (s :: l) => '(' :: (Sexp.printEgg s ++ Sexp.printEggL l)
/-- The remaining elements and the closing parenthesis. -/
def Sexp.printEggL : List Sexp → List Char
  | [] => [')']
  | s :: l => ' ' :: (Sexp.printEgg s ++ Sexp.printEggL l)
end

/-- `Display for Pattern` (egg): the text of a pattern. -/
def Pat.print [Lang O] (p : Pat O) : List Char := Sexp.printEgg p.toSexp

/-- `Pattern::from_str` (egg): `none` is an error, which every caller in the repository unwraps. -/
def Pat.parse [Lang O] (s : List Char) : Option (Pat O) := (Sexp.parse s).bind Pat.ofSexp

end
end Ruler
