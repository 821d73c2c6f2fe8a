import Verif.Model.Derive
import Verif.Model.Generalize
import Mathlib.Data.List.Sort
/-!
# Model of rule selection

`Ruleset::select` and `Ruleset::minimize` (src/enumo/ruleset.rs:358-439). The validator may answer differently when asked
again (time-outs, random testing), so its answer may depend on all rules it was asked about before.
-/
namespace Ruler
open EGraph
variable {O C : Type} [Lang O]

/-- What `select` and `minimize` keep track of besides the candidates: the rules the validator was asked about
(the latest first; the code does not store them), the selected rules and the invalid ones. -/
structure Sel (O : Type) where
  asked : List (Rule O)
  selected : Ruleset O
  invalid : Ruleset O

/-- `if rule.is_valid() { selected.add(..) } else { invalid.add(..) }`, src/enumo/ruleset.rs:368-372. -/
def Sel.judge (valid : List (Rule O) → Rule O → Bool) (st : Sel O) (r : Rule O) : Sel O :=
  if valid st.asked r then { st with asked := r :: st.asked, selected := Ruleset.add st.selected r }
  else { st with asked := r :: st.asked, invalid := Ruleset.add st.invalid r }

/-- What happens to one popped rule, src/enumo/ruleset.rs:368-382; `rest` are the candidates that remain. -/
def Sel.take (valid : List (Rule O) → Rule O → Bool) (rest : Ruleset O) (st : Sel O) (rule : Rule O) : Sel O :=
  let st := st.judge valid rule
  match Rule.new rule.rhs rule.lhs with
  | none => st
  | some rev =>
    if Ruleset.contains rest rev then st.judge valid rev
    else { st with invalid := Ruleset.add st.invalid rev }

/-- The loop of `select`, src/enumo/ruleset.rs:365-386. The candidates are given in the order in which they are popped, that
is reversed. -/
def selectLoop (valid : List (Rule O) → Rule O → Bool) (step : Nat) : Ruleset O → Sel O → Ruleset O × Sel O
  | [], st => ([], st)
  | e :: rest, st =>
    if st.selected.length < step then selectLoop valid step rest (st.take valid rest.reverse e.2)
    else (e :: rest, st)

/-- `self.0.sort_by(..)`, src/enumo/ruleset.rs:360-361: a stable sort by score, worst first (insertion sort is
stable). -/
def Ruleset.sortByScore (score : Rule O → List Int) (rs : Ruleset O) : Ruleset O :=
  rs.insertionSort fun a b => lexLe (score a.2) (score b.2) = true

/-- `Ruleset::select`, src/enumo/ruleset.rs:358-391: the remaining candidates, the chosen rules and the bookkeeping. -/
def Ruleset.select (score : Rule O → List Int) (valid : List (Rule O) → Rule O → Bool) (step : Nat) (cands : Ruleset O)
    (asked : List (Rule O)) (invalid : Ruleset O) : Ruleset O × Sel O :=
  let r := selectLoop valid step (Ruleset.sortByScore score cands).reverse ⟨asked, [], invalid⟩
  (r.1.reverse, { r.2 with selected := Ruleset.extend [] r.2.selected })

/-- Outcome of the loop of `minimize`: the chosen (including prior) and the invalid rules and the
rules the validator was asked about, a panic during saturation, or the
given number of rounds was not enough. -/
inductive MinResult (O : Type) where
  | done (chosen invalid : Ruleset O) (asked : List (Rule O))
  | panic
  | running

variable [LinearOrder C] (D : Domain O C)

/-- The parameters of a call of `minimize`: the scheduler, egg's choices in each round, the score and the validator. -/
structure MinEnv (O : Type) where
  sched : Scheduler
  isSat : Rule O → Bool
  eg : Nat → Egg
  tr : Nat → SchedTrace
  score : Rule O → List Int
  valid : List (Rule O) → Rule O → Bool

/-- The loop of `minimize`, src/enumo/ruleset.rs:430-434, for at most `fuel` rounds. -/
def minimizeLoop (M : MinEnv O) : Nat → Nat → Ruleset O → Ruleset O → List (Rule O) → Ruleset O → MinResult O
  | 0, _, cands, chosen, asked, invalid => if cands.isEmpty then .done chosen invalid asked else .running
  | fuel + 1, round, cands, chosen, asked, invalid =>
    if cands.isEmpty then .done chosen invalid asked
    else
      let s := Ruleset.select M.score M.valid 1 cands asked invalid
      let chosen := Ruleset.extend chosen s.2.selected
      match Ruleset.shrink D (M.eg round) M.isSat M.sched (M.tr round) s.1 chosen with
      | none => .panic
      | some rest => minimizeLoop M fuel (round + 1) rest chosen s.2.asked s.2.invalid

/-- `Ruleset::minimize`, src/enumo/ruleset.rs:426-439, for at most `fuel` rounds. -/
def Ruleset.minimize (M : MinEnv O) (fuel : Nat) (cands prior : Ruleset O) : MinResult O :=
  match minimizeLoop D M fuel 0 cands prior [] [] with
  | .done chosen invalid asked => .done (Ruleset.removeAll chosen prior) invalid asked
  | r => r

end Ruler
