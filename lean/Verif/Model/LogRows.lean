import Verif.Model.Logger
import Verif.Model.Derive
import Verif.Model.Recipes
/-!
# Model of the rows of the result tables

`write_baseline`, `write_bv_derivability`, `write_ff_phase` and `get_derivability` of src/logger.rs, `count_lines` of
src/util.rs, and `Display for Phase` of src/lib.rs. Measured times are parameters (their text as JSON number). Names are
lists of characters. `none` is a panic.
-/
namespace Ruler
variable {O C : Type} [Lang O]

/-- `Limits::deriving()`, src/lib.rs:109-115. -/
def Limits.forDeriving : Limits := ⟨5, 100000, 1000⟩

/-- What egg, the parallel iterator and the clock do in one call of `derive`. -/
structure DeriveEnv (O : Type) where
  isSat : Rule O → Bool
  split : Ruleset.Split
  eg : Rule O → Egg
  tr : Rule O → SchedTrace
  time : List Char

/-- A `Vec<String>` as JSON value. -/
def Json.texts (l : List (List Char)) : Json := .arr (l.map .str)

/-- `json!({ .. })` with literal keys. -/
def Json.object (l : List (String × Json)) : Json := .obj (l.map fun e => (e.1.toList, e.2))

/-- The derived `Serialize for DeriveType`, src/lib.rs:79-87. -/
def DeriveType.text : DeriveType → List Char
  | .lhs => "Lhs".toList
  | .lhsAndRhs => "LhsAndRhs".toList

/-- `count_lines`, src/util.rs:67-74; `files` gives the contents of tests/recipes/NAME.rs, if it can be opened. -/
def countLines (files : List Char → Option (List Char)) (name : List Char) : Option Nat :=
  (files name).map fun s => (textLines s).length

/-- `skip_derive`, src/logger.rs:63-66. -/
def skipDerive : List (List Char × List Char) :=
  [("herbie".toList, "rational_replicate".toList), ("herbie".toList, "rational_best".toList)]

/-- `scheduler_name`, src/lib.rs:160-164. -/
def schedulerName : Scheduler → List Char
  | .simple _ => "eqsat".toList
  | .saturating _ => "sat".toList
  | .compress _ => "compress".toList

/-- `Display for Phase`, src/lib.rs:158-167, of a phase with the given schedule and name. -/
def phaseText (s : Scheduler) (name : List Char) : List Char := schedulerName s ++ (" (".toList ++ (name ++ ")".toList))

/-- `write_ff_phase`, src/logger.rs:165-180. -/
def writeFfPhase (p1 p2 p3 : Scheduler × List Char) (time : List Char) (rules : Ruleset O) (f : LogFile) : Option LogFile :=
  addJsonToFile f (.object [("TYPE", .str "ff_phases".toList), ("phase1", .str (phaseText p1.1 p1.2)),
    ("phase2", .str (phaseText p2.1 p2.2)), ("phase3", .str (phaseText p3.1 p3.2)), ("time", .num time),
    ("rules", .texts (Ruleset.toStrVec rules))])

variable [LinearOrder C] (D : Domain O C)

/-- `get_derivability`, src/logger.rs:187-202. -/
def getDerivability (E : DeriveEnv O) (ruleset against : Ruleset O) (ty : DeriveType) : Option Json :=
  (Ruleset.derive D E.isSat ty .forDeriving E.split E.eg E.tr ruleset against).map fun r =>
    .object [("derive_type", .str ty.text), ("can", .texts (Ruleset.toStrVec r.1)), ("cannot", .texts (Ruleset.toStrVec r.2)),
      ("time", .num E.time)]

/-- Both derive types, unless the pair is to be skipped, src/logger.rs:72-88. -/
def derivabilityUnless (skip : Bool) (E : DeriveType → DeriveEnv O) (ruleset against : Ruleset O) : Option Json :=
  if skip then some (.object [])
  else (getDerivability D (E .lhs) ruleset against .lhs).bind fun a =>
    (getDerivability D (E .lhsAndRhs) ruleset against .lhsAndRhs).map fun b => .object [("lhs", a), ("lhs_rhs", b)]

/-- The row of `write_baseline`, src/logger.rs:51-102; `E` for the calls in which the recipe's rules derive the others, `E'` for the other direction. -/
def baselineRow (E E' : DeriveType → DeriveEnv O) (files : List Char → Option (List Char)) (ruleset : Ruleset O)
    (specName : List Char) (baseline : Ruleset O) (baselineName time : List Char) : Option Json :=
  (derivabilityUnless D (skipDerive.contains (specName, baselineName)) E ruleset baseline).bind fun a =>
    (derivabilityUnless D (skipDerive.contains (baselineName, specName)) E' baseline ruleset).map fun b =>
      .object [("TYPE", .str "baseline".toList), ("spec_name", .str specName), ("baseline_name", .str baselineName),
        ("loc", .str (match countLines files specName with | some n => Nat.toDigits 10 n | none => ['-'])),
        ("rules", .texts (Ruleset.toStrVec ruleset)), ("time", .num time),
        ("derivability", .object [("enumo_derives_baseline", a), ("baseline_derives_enumo", b)])]

/-- `write_baseline`, src/logger.rs:51-105. -/
def writeBaseline (E E' : DeriveType → DeriveEnv O) (files : List Char → Option (List Char)) (ruleset : Ruleset O)
    (specName : List Char) (baseline : Ruleset O) (baselineName time : List Char) (f : LogFile) : Option LogFile :=
  (baselineRow D E E' files ruleset specName baseline baselineName time).bind (addJsonToFile f)

/-- The row of `write_bv_derivability`, src/logger.rs:115-157. `valid` is the answer of `is_valid`, `split` how `partition` divides the
work, `vtime` the time the validation took. -/
def bvRow (E : DeriveType → DeriveEnv O) (valid : Rule O → Bool) (split : Ruleset.Split) (vtime domain : List Char)
    (gen : Ruleset O) (genTime : List Char) (ported : Ruleset O) : Option Json :=
  let sound := (Ruleset.partition split valid ported).1
  (Ruleset.derive D (E .lhsAndRhs).isSat .lhsAndRhs .forDeriving (E .lhsAndRhs).split (E .lhsAndRhs).eg (E .lhsAndRhs).tr sound
      gen).bind fun b =>
    (Ruleset.derive D (E .lhs).isSat .lhs .forDeriving (E .lhs).split (E .lhs).eg (E .lhs).tr sound gen).map fun a =>
      .object [("TYPE", .str "bv".toList), ("domain", .str domain),
        ("direct_gen", .object [("rules", .texts (Ruleset.toStrVec gen)), ("time", .num genTime)]),
        ("from_bv4", .object [("rules", .texts (Ruleset.toStrVec sound)), ("time", .num vtime)]),
        ("derivability", .object [
          ("lhs", .object [("can", .texts (Ruleset.toStrVec a.1)), ("cannot", .texts (Ruleset.toStrVec a.2)),
            ("time", .num (E .lhs).time)]),
          ("lhs_rhs", .object [("can", .texts (Ruleset.toStrVec b.1)), ("cannot", .texts (Ruleset.toStrVec b.2)),
            ("time", .num (E .lhsAndRhs).time)])])]

/-- `write_bv_derivability`, src/logger.rs:115-157. -/
def writeBvDerivability (E : DeriveType → DeriveEnv O) (valid : Rule O → Bool) (split : Ruleset.Split) (vtime domain : List Char)
    (gen : Ruleset O) (genTime : List Char) (ported : Ruleset O) (f : LogFile) : Option LogFile :=
  (bvRow D E valid split vtime domain gen genTime ported).bind (addJsonToFile f)

/-! ## The comparison of bit-vector rules -/

/-- `gen`, tests/bv8.rs:25-62 and likewise tests/bv16.rs, bv32.rs, bv64.rs. The sizes are 5 and 6 there. -/
def bvGenSized {N : Nat} (m n : Nat) (E : Nat → Nat → RunEnv (BvOp N) (BV N)) : Option (Ruleset (BvOp N)) := do
  let rules := Ruleset.extend [] (← recursiveRules (bvDomain N) (E 0) .atoms bv4Lang [] m).1
  let new ← runWorkload (bvDomain N) (E 1 0) (← bv4Canon n) rules .synthesis .minimize true
  return Ruleset.extend rules new.1

/-- `gen` of tests/bv128.rs:22-59: the first search only. The size is 5 there. -/
def bvGenFirst {N : Nat} (m : Nat) (E : Nat → RunEnv (BvOp N) (BV N)) : Option (Ruleset (BvOp N)) := do
  return Ruleset.extend [] (← recursiveRules (bvDomain N) E .atoms bv4Lang [] m).1

/-- Porting rules to another width, tests/bv8.rs:69: their texts are read again. -/
def portRules {M N : Nat} (rs : Ruleset (BvOp M)) : Option (Ruleset (BvOp N)) := Ruleset.new (Ruleset.toStrVec rs)

/-- `compare`, tests/bv8.rs:65-75 and likewise for the other widths: the file afterwards. -/
def bvCompare {N : Nat} (m n m' n' : Nat) (E4 : Nat → Nat → RunEnv (BvOp 4) (BV 4)) (EN : Nat → Nat → RunEnv (BvOp N) (BV N))
    (E : DeriveType → DeriveEnv (BvOp N)) (valid : Rule (BvOp N) → Bool) (split : Ruleset.Split)
    (vtime domain genTime : List Char) (f : LogFile) : Option LogFile :=
  (bv4FancySized m n E4).bind fun actual => (portRules actual).bind fun ported => (bvGenSized m' n' EN).bind fun gen =>
    writeBvDerivability (bvDomain N) E valid split vtime domain gen genTime ported f

/-- `compare` of tests/bv128.rs:61-74. -/
def bvCompareFirst {N : Nat} (m n m' : Nat) (E4 : Nat → Nat → RunEnv (BvOp 4) (BV 4)) (EN : Nat → RunEnv (BvOp N) (BV N))
    (E : DeriveType → DeriveEnv (BvOp N)) (valid : Rule (BvOp N) → Bool) (split : Ruleset.Split)
    (vtime domain genTime : List Char) (f : LogFile) : Option LogFile :=
  (bv4FancySized m n E4).bind fun actual => (portRules actual).bind fun ported => (bvGenFirst m' EN).bind fun gen =>
    writeBvDerivability (bvDomain N) E valid split vtime domain gen genTime ported f

end Ruler
