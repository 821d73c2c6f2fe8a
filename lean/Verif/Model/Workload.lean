import Verif.Model.Filter
/-!
# Model of `src/enumo/workload.rs`

File input/output (lines 39-55) is in `Verif/Model/Text.lean`; `to_egraph` (59-91) in
`Verif/Model/Derive.lean`.
-/
namespace Ruler

/-- `enum Workload`, src/enumo/workload.rs:9-14. -/
inductive Workload where
  | set (xs : List Sexp)
  | plug (w : Workload) (name : String) (pegs : Workload)
  | filter (f : Filter) (w : Workload)
  | append (ws : List Workload)

namespace Workload

/-- `set.retain(|sexp| f.test(sexp))`, src/enumo/workload.rs:107; a panicking test panics. -/
def retain (f : Filter) : List Sexp → Option (List Sexp)
  | [] => some []
  | s :: l => (f.test s).bind fun b => (retain f l).map fun r => if b then s :: r else r

mutual
/-- `Workload::force`, src/enumo/workload.rs:94-118. In the `Plug` case the pegs are forced first (line 99).
`none` is a panic. -/
def force : Workload → Option (List Sexp)
  | set xs => some xs
  | plug w name pegs =>
    (force pegs).bind fun ps => (force w).map fun ts => ts.flatMap (Sexp.plug name ps)
  | filter f w => (force w).bind (retain f)
  | append ws => forceL ws
/-- The loop over appended workloads, src/enumo/workload.rs:110-116. -/
def forceL : List Workload → Option (List Sexp)
  | [] => some []
  | w :: ws => (force w).bind fun xs => (forceL ws).map (xs ++ ·)
end

/-- `Workload::filter`, src/enumo/workload.rs:167-176 (named `addFilter`; `Workload.filter` is the constructor). -/
def addFilter : Workload → Filter → Workload
  | plug w name pegs, f =>
    if f.isMonotonic then filter f (plug w name (addFilter pegs f))
    else filter f (plug w name pegs)
  | filter g w, f => addFilter w (g.conj f)
  | w, f => filter f w

/-- `Workload::plug`, src/enumo/workload.rs:126-134, for a hole name that is a single atom of text
(the pattern is then the atom pattern of `name`; the text parser is modelled in `Verif/Model/Text.lean`). -/
def doPlug (w : Workload) (name : String) (pegs : Workload) : Workload :=
  match pegs with
  | set [] => addFilter w (.excludes (Pattern.ofAtom name))
  | _ => plug w name pegs

/-- `Workload::append`, src/enumo/workload.rs:136-165. -/
def doAppend : Workload → Workload → Workload
  | set xs, set ys => set (xs ++ ys)
  | append xs, append ys => append (xs ++ ys)
  | append xs, y => append (xs ++ [y])
  | x, append ys => append (ys ++ [x])
  | x, y => append [x, y]

end Workload
end Ruler
