import Verif.Model.Pattern
/-!
# Model of `src/enumo/filter.rs`
-/
namespace Ruler

/-- `enum Filter`, src/enumo/filter.rs:5-14. -/
inductive Filter where
  | metricLt (m : Metric) (n : Nat)
  | metricEq (m : Metric) (n : Nat)
  | contains (p : Pattern)
  | excludes (p : Pattern)
  | canon (symbols : List String)
  | and (fs : List Filter)
  | or (fs : List Filter)
  | invert (f : Filter)

namespace Filter

mutual
/-- `Filter::Contains(pat).test(sexp)`, src/enumo/filter.rs:22-28. -/
def containsTest (p : Pattern) : Sexp → Bool
  | .atom a => p.matches_ (.atom a)
  | .list l => p.matches_ (.list l) || containsTestL p l
/-- `args.iter().any(|s| self.test(s))`, src/enumo/filter.rs:26. -/
def containsTestL (p : Pattern) : List Sexp → Bool
  | [] => false
  | s :: l => containsTest p s || containsTestL p l
end

mutual
/-- `Filter::test`, src/enumo/filter.rs:18-35. `none` is a panic of the underlying `measure`/`canon`. -/
def test : Filter → Sexp → Option Bool
  | metricLt m n, s => (s.measure m).map fun k => decide (k < n)
  | metricEq m n, s => (s.measure m).map fun k => decide (k = n)
  | contains p, s => some (containsTest p s)
  | excludes p, s => some (!containsTest p s)
  | canon symbols, s => (s.canon symbols).map fun c => decide (s = c)
  | and fs, s => testAll fs s
  | or fs, s => testAny fs s
  | invert f, s => (test f s).map (! ·)
/-- `fs.iter().all(|f| f.test(sexp))` (short-circuits), src/enumo/filter.rs:31. -/
def testAll : List Filter → Sexp → Option Bool
  | [], _ => some true
  | f :: fs, s => (test f s).bind fun b => if b then testAll fs s else some false
/-- `fs.iter().any(|f| f.test(sexp))` (short-circuits), src/enumo/filter.rs:32. -/
def testAny : List Filter → Sexp → Option Bool
  | [], _ => some false
  | f :: fs, s => (test f s).bind fun b => if b then some true else testAny fs s
end

/-- `Filter::subsumed_by`, src/enumo/filter.rs:38-51. -/
def subsumedBy : Filter → List Filter → Bool
  | metricLt m n, fs => fs.any fun f => match f with
    | metricLt m1 n1 => decide (m = m1) && decide (n1 ≤ n)
    | _ => false
  | _, _ => false

/-- The flattening `match` of `Filter::and`, src/enumo/filter.rs:57-74. Note that `(f, And fs)` appends `f`
*after* `fs` (lines 68-72). -/
def conjFlat : Filter → Filter → List Filter
  | and f1s, and f2s => f1s ++ f2s
  | and fs, f => fs ++ [f]
  | f, and fs => fs ++ [f]
  | f1, f2 => [f1, f2]

/-- The minimising loop of `Filter::and`, src/enumo/filter.rs:75-80. -/
def minimizeLoop : List Filter → List Filter → List Filter
  | minimized, [] => minimized
  | minimized, f :: rest =>
    if f.subsumedBy minimized then minimizeLoop minimized rest
    else minimizeLoop (minimized ++ [f]) rest

/-- `Filter::and`, src/enumo/filter.rs:56-83. -/
def conj (f g : Filter) : Filter := and (minimizeLoop [] (conjFlat f g))

mutual
/-- `Filter::is_monotonic`, src/enumo/filter.rs:90-98. -/
def isMonotonic : Filter → Bool
  | metricLt _ _ => true
  | excludes _ => true
  | and fs => isMonotonicL fs
  | _ => false
/-- `fs.iter().all(|f| f.is_monotonic())`, src/enumo/filter.rs:95. -/
def isMonotonicL : List Filter → Bool
  | [] => true
  | f :: fs => isMonotonic f && isMonotonicL fs
end

end Filter
end Ruler
