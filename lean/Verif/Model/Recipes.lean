import Verif.Model.Conditional
import Verif.Model.DomBool
import Verif.Model.DomExp
import Verif.Model.DomHalide
import Verif.Model.DomTrig
import Verif.Model.DomPos
import Verif.Model.Text
/-!
# Model of the recipes in tests/recipes

`none` is a panic. Printing is left out. The choices of the `i`-th run of a recipe are an argument.
-/
namespace Ruler

/-- `Workload::new` with string literals, src/enumo/workload.rs:23-33. -/
def Workload.new (l : List String) : Option Workload := Workload.ofTexts (l.map String.toList)

/-- `w.plug(name, &Workload::new(pegs))`. -/
def Workload.plugNew (w : Workload) (name : String) (pegs : List String) : Option Workload :=
  (Workload.new pegs).map fun p => w.doPlug name p

/-- `Lang::new`, src/recipe_utils.rs:151-162. -/
def RecipeLang.new (vals vars : List String) (ops : List (List String)) : RecipeLang :=
  ⟨vals.map String.toList, vars.map String.toList, ops.map fun o => o.map String.toList⟩

/-- `text.parse().unwrap()` for a pattern, src/enumo/pattern.rs:14-22. -/
def Pattern.new (text : String) : Option Pattern := (Sexp.parse text.toList).map Pattern.ofSexp

/-- `Filter::Invert(Box::new(Filter::Or(vec![Filter::Contains(..), ..])))`, as in tests/recipes/trig.rs:19-23. -/
def Filter.containsNone (texts : List String) : Option Filter :=
  (texts.mapM Pattern.new).map fun ps => .invert (.or (ps.map .contains))

/-- `Filter::Invert(Box::new(Filter::Contains(..)))`, as in tests/recipes/trig.rs:24-26. -/
def Filter.containsNot (text : String) : Option Filter := (Pattern.new text).map fun p => .invert (.contains p)

/-! ## Booleans and bit vectors -/

/-- The language of `bool_rules`, tests/recipes/bool.rs:12-16. -/
def boolLang : RecipeLang := .new ["true", "false"] ["a", "b", "c"] [["~"], ["&", "|", "^"]]

/-- `a7_canon` of `bool_rules`, tests/recipes/bool.rs:21-30 (there for `n = 7`). -/
def boolCanon (n : Nat) : Option Workload := do
  let w ← ((iterMetric (baseLang 2) "EXPR" .atoms n).doPlug "VAL" (.set [])).plugNew "VAR" ["a", "b", "c"]
  let w ← w.plugNew "OP1" ["~"]
  let w ← w.plugNew "OP2" ["&", "|", "^"]
  return w.addFilter (.canon ["a", "b", "c"])

/-- `bool_rules`, tests/recipes/bool.rs:7-41. The sizes are 5 and 7 there. -/
def boolRulesSized (m n : Nat) (E : Nat → Nat → RunEnv BoolOp Bool) : Option (Ruleset BoolOp) := do
  let r5 ← recursiveRules boolDomain (E 0) .atoms boolLang [] m
  let all := Ruleset.extend [] r5.1
  let r7 ← runWorkload boolDomain (E 1 0) (← boolCanon n) all .synthesis .minimize true
  return Ruleset.extend all r7.1

/-- `bool_rules`, tests/recipes/bool.rs:7-41. -/
def boolRules (E : Nat → Nat → RunEnv BoolOp Bool) : Option (Ruleset BoolOp) := boolRulesSized 5 7 E

/-- The language of `bv32_rules`, tests/recipes/bv32.rs:11-15. -/
def bv32Lang : RecipeLang := .new ["0"] ["a", "b", "c"] [["~", "-"], ["&", "|", "*", "--", "+", "<<", ">>"]]

/-- `bv32_rules`, tests/recipes/bv32.rs:7-18. -/
def bv32Rules (E : Nat → RunEnv (BvOp 32) (BV 32)) : Option (Ruleset (BvOp 32)) :=
  (recursiveRules (bvDomain 32) E .atoms bv32Lang [] 5).map Prod.fst

/-- The language of `bv4_rules` and `bv4_fancy_rules`, tests/recipes/bv4_base.rs:12-16, bv4_fancy.rs:10-14. -/
def bv4Lang : RecipeLang := .new ["0", "1"] ["a", "b", "c"] [["~", "-"], ["&", "|", "*", "--", "+", "<<", ">>"]]

/-- `bv4_rules`, tests/recipes/bv4_base.rs:8-19. -/
def bv4Rules (E : Nat → RunEnv (BvOp 4) (BV 4)) : Option (Ruleset (BvOp 4)) :=
  (recursiveRules (bvDomain 4) E .atoms bv4Lang [] 5).map Prod.fst

/-- `wkld` of `bv4_fancy_rules`, tests/recipes/bv4_fancy.rs:22-33 (there for `n = 6`). -/
def bv4Canon (n : Nat) : Option Workload := do
  let w ← (iterMetric (baseLang 2) "EXPR" .atoms n).plugNew "VAR" ["a", "b", "c"]
  let w ← (w.doPlug "VAL" (.set [])).plugNew "OP1" ["~", "-"]
  let w ← w.plugNew "OP2" ["&", "|", "*", "--", "+", "<<", ">>"]
  let consts ← Workload.new ["0", "1"]
  return .append [w.addFilter (.canon ["a", "b", "c"]), consts]

/-- `bv4_fancy_rules`, tests/recipes/bv4_fancy.rs:8-43. The sizes are 5 and 6 there. -/
def bv4FancySized (m n : Nat) (E : Nat → Nat → RunEnv (BvOp 4) (BV 4)) : Option (Ruleset (BvOp 4)) := do
  let rules := Ruleset.extend [] (← recursiveRules (bvDomain 4) (E 0) .atoms bv4Lang [] m).1
  let new ← runWorkload (bvDomain 4) (E 1 0) (← bv4Canon n) rules .synthesis .minimize true
  return Ruleset.extend rules new.1

/-- `bv4_fancy_rules`, tests/recipes/bv4_fancy.rs:8-43. -/
def bv4FancyRules (E : Nat → Nat → RunEnv (BvOp 4) (BV 4)) : Option (Ruleset (BvOp 4)) := bv4FancySized 5 6 E

/-! ## Halide -/

/-- The language of `bool_only`, tests/recipes/halide.rs:14. -/
def halideBoolLang : RecipeLang := .new ["0", "1"] ["a", "b", "c"] [["!"], ["&&", "||", "^"]]
/-- The language of `rat_only`, tests/recipes/halide.rs:21-25. -/
def halideRatLang : RecipeLang := .new ["-1", "0", "1"] ["a", "b", "c"] [["-"], ["+", "-", "*", "min", "max"]]
/-- The language of `pred_only`, tests/recipes/halide.rs:32-36. -/
def halidePredLang : RecipeLang := .new ["-1", "0", "1"] ["a", "b", "c"] [["-"], ["<", "<=", "==", "!="], ["select"]]
/-- The language of `full`, tests/recipes/halide.rs:44-54. -/
def halideFullLang : RecipeLang := .new ["-1", "0", "1"] ["a", "b", "c"]
  [["-", "!"], ["&&", "||", "^", "+", "-", "*", "min", "max", "<", "<=", "==", "!="], ["select"]]

/-- `nested_bops_arith` and `nested_bops_full`, tests/recipes/halide.rs:59-68, 77-89. -/
def halideNested (bops : List String) : Option Workload := do
  let w ← (← Workload.new ["(bop e e)", "v"]).plugNew "e" ["(bop v v)", "(uop v)", "v"]
  let w ← w.plugNew "bop" bops
  let w ← w.plugNew "uop" ["-", "!"]
  let w ← w.plugNew "v" ["a", "b", "c"]
  return w.addFilter (.canon ["a", "b", "c"])

/-- The operators of `nested_bops_arith`, tests/recipes/halide.rs:61. -/
def halideArith : List String := ["+", "-", "*", "<", "max", "min"]
/-- The operators of `nested_bops_full`, tests/recipes/halide.rs:81. -/
def halideFull : List String := ["&&", "||", "!=", "<=", "==", "<", "max", "min"]

/-- `select_base` with operators, tests/recipes/halide.rs:101-112, 127. -/
def halideSelect (ops : List String) : Option Workload := do
  let w ← Workload.new ["(select V V V)", "(select V (OP V V) V)", "(select V V (OP V V))",
    "(select V (OP V V) (OP V V))", "(OP V (select V V V))"]
  let w ← w.plugNew "V" ["a", "b", "c", "d"]
  w.plugNew "OP" ops

/-- The limits of the last two runs of `halide_rules`, tests/recipes/halide.rs:117-121. -/
def halideLimits : Limits := ⟨1, 100000, 100000⟩

/-- `halide_rules`, tests/recipes/halide.rs:9-141. The sizes are 5 and 4 there. -/
def halideRulesSized (m n : Nat) (E : Nat → Nat → RunEnv PredOp Int) : Option (Ruleset PredOp) := do
  let boolOnly ← recursiveRules halideDomain (E 0) .atoms halideBoolLang [] m
  let all := Ruleset.extend [] boolOnly.1
  let ratOnly ← recursiveRules halideDomain (E 1) .atoms halideRatLang all m
  let all := Ruleset.extend all ratOnly.1
  let predOnly ← recursiveRules halideDomain (E 2) .atoms halidePredLang all m
  let all := Ruleset.extend all predOnly.1
  let full ← recursiveRules halideDomain (E 3) .atoms halideFullLang all n
  let all := Ruleset.extend all full.1
  let new ← runWorkload halideDomain (E 4 0) (← halideNested halideArith) all .synthesis .minimize true
  let all := Ruleset.extend all new.1
  let new ← runWorkload halideDomain (E 5 0) (← halideNested halideFull) all .synthesis .minimize true
  let all := Ruleset.extend all new.1
  let new ← runWorkload halideDomain (E 6 0) (← halideSelect ["+", "-", "*"]) ratOnly.1 .synthesis halideLimits true
  let all := Ruleset.extend all new.1
  let new ← runWorkload halideDomain (E 7 0) (← halideSelect ["min", "max"]) ratOnly.1 .synthesis halideLimits true
  return Ruleset.extend all new.1

/-- `halide_rules`, tests/recipes/halide.rs:9-141. -/
def halideRules (E : Nat → Nat → RunEnv PredOp Int) : Option (Ruleset PredOp) := halideRulesSized 5 4 E

/-! ## Rational numbers -/

/-- `lang` of `replicate_ruler1_recipe`, tests/recipes/rational_replicate.rs:12-15. -/
def rationalGrammar : Option Workload := do
  let w ← (baseLang 2).plugNew "OP1" ["~", "fabs"]
  w.plugNew "OP2" ["+", "-", "*", "/"]

/-- `layer1`, tests/recipes/rational_replicate.rs:19-23. -/
def rationalLayer1 : Option Workload := do
  let lang ← rationalGrammar
  let vars ← Workload.new ["a", "b", "c"]
  let consts ← Workload.new ["0", "-1", "1"]
  return ((lang.doPlug "VAL" consts).doPlug "VAR" vars).doPlug "EXPR" (vars.doAppend consts)

/-- `layer2`, tests/recipes/rational_replicate.rs:36-46. -/
def rationalLayer2 : Option Workload := do
  let lang ← rationalGrammar
  let layer1 ← rationalLayer1
  let ps ← ["a", "b", "c"].mapM Pattern.new
  return (((lang.doPlug "EXPR" layer1).addFilter (.or (ps.map .contains))).doPlug "VAL" (.set [])).doPlug "VAR" (.set [])

/-- `replicate_ruler1_recipe`, tests/recipes/rational_replicate.rs:7-57. -/
def replicateRules (ck : Checked) (E : Nat → RunEnv MathOp Rat) : Option (Ruleset MathOp) := do
  let rules1 ← runWorkload (rationalDomain ck) (E 0) (← rationalLayer1) [] .synthesis .minimize false
  let rules := Ruleset.extend [] rules1.1
  let rules2 ← runWorkload (rationalDomain ck) (E 1) (← rationalLayer2) rules .synthesis .minimize true
  return Ruleset.extend rules rules2.1

/-- `factor_div`, tests/recipes/rational_best.rs:16-33. -/
def rationalFactors : Option Workload := do
  let variablesMultiplied ← (iterMetric (← Workload.new ["var", "(* expr expr)"]) "expr" .atoms 3).plugNew "var" ["a", "b"]
  let factorTerm ← ((iterMetric (← Workload.new ["var", "(bop expr expr)"]) "expr" .depth 2).doPlug "var"
    variablesMultiplied).plugNew "bop" ["+", "-"]
  return (← Workload.new ["(/ v v)"]).doPlug "v" factorTerm

/-- `best_enumo_recipe`, tests/recipes/rational_best.rs:9-52. `E 2` are the choices of the first selection of the conditional
run, `M` those of the second. -/
def bestRules (ck : Checked) (E : Nat → RunEnv MathOp Rat) (M : MinEnv MathOp) : Option (Ruleset MathOp) := do
  let rules ← replicateRules ck E
  let factor ← runWorkloadConditional (rationalDomain ck) (E 2) M (← rationalFactors) rules .synthesis false
  return Ruleset.extend rules (factor.1.filter fun r => !r.2.lhs.print.contains '/')

/-! ## Fast-forwarding recipes -/

variable {O C : Type} [Lang O] [LinearOrder C]

/-- The runs of a fast-forwarding recipe: each has the rules known so far as prior; its rules are added to them and to those
returned, tests/recipes/trig.rs:54-74, 136-159, tests/recipes/exponential.rs:155-186. -/
def fastRuns (D : Domain O C) (exploratory : Ruleset O) (limits : Limits) :
    List (FastEnv O C × Workload) → Ruleset O → Ruleset O → Option (Ruleset O)
  | [], _, new => some new
  | (F, w) :: steps, all, new =>
    (runFastForwarding D F w all exploratory limits limits).bind fun r =>
      fastRuns D exploratory limits steps (Ruleset.extend all r.1) (Ruleset.extend new r.1)

/-- The limits of the fast-forwarding recipes, tests/recipes/trig.rs:10-14, tests/recipes/exponential.rs:13-19. -/
def fastLimits : Limits := ⟨3, 2000000, 200000⟩

/-- The three workloads of the first half of `trig_rules`, tests/recipes/trig.rs:18-52, 57, 63, 69-70. -/
def trigWorkloads1 : Option (List Workload) := do
  let noTrig2x ← Filter.containsNone ["(sin (+ ?a ?a))", "(cos (+ ?a ?a))", "(tan (+ ?a ?a))"]
  let validTrig ← Filter.containsNot "(tan (/ PI 2))"
  let tOps ← Workload.new ["sin", "cos", "tan"]
  let consts ← Workload.new ["0", "(/ PI 6)", "(/ PI 4)", "(/ PI 3)", "(/ PI 2)", "PI", "(* PI 2)"]
  let app ← Workload.new ["(op v)"]
  let trigConstants := ((app.doPlug "op" tOps).doPlug "v" consts).addFilter validTrig
  let simpleTerms ← (app.doPlug "op" tOps).plugNew "v" ["a", "(~ a)", "(+ PI a)", "(- PI a)", "(+ a a)"]
  let negTerms := (← Workload.new ["(~ x)"]).doPlug "x" simpleTerms
  let squares ← (((← Workload.new ["(sqr x)"]).doPlug "x" app).doPlug "op" tOps).plugNew "v" ["a", "b"]
  let add ← Workload.new ["(+ e e)", "(- e e)"]
  let sumOfSquares := add.doPlug "e" squares
  let wkld2 := Workload.append [trigConstants, simpleTerms, negTerms]
  return [trigConstants, wkld2, .append [wkld2.addFilter noTrig2x, sumOfSquares]]

/-- The four workloads of the second half of `trig_rules`, tests/recipes/trig.rs:76-134, 137, 143, 149, 155. -/
def trigWorkloads2 : Option (List Workload) := do
  let nonSquare ← Filter.containsNone ["(* (cos ?x) (cos ?x))", "(* (sin ?x) (sin ?x))"]
  let twoX ← Filter.containsNot "(+ ?x ?x)"
  let trivialTrig ← Filter.containsNone ["(cos (?op ?a ?b))", "(sin (?op ?a ?b))"]
  let trigNoSub ← Filter.containsNone ["(cos (- ?a ?b))", "(sin (- ?a ?b))"]
  let tOps ← Workload.new ["sin", "cos"]
  let app ← Workload.new ["(op v)"]
  let shift ← Workload.new ["x", "(- 1 x)", "(+ 1 x)"]
  let scaleDown ← Workload.new ["x", "(/ x 2)"]
  let consts ← Workload.new ["-2", "-1", "0", "1", "2"]
  let simple ← (app.doPlug "op" tOps).plugNew "v" ["a", "(- (/ PI 2) a)", "(+ (/ PI 2) a)", "(* 2 a)"]
  let trivialSquares ← (((← Workload.new ["(sqr x)"]).doPlug "x" app).doPlug "op" tOps).plugNew "v" ["a"]
  let twoVar ← (app.doPlug "op" tOps).plugNew "v" ["a", "b", "(+ a b)", "(- a b)"]
  let sumTwoVars := ((← Workload.new ["(+ x y)", "(- x y)"]).doPlug "x" twoVar).doPlug "y" twoVar
  let prodTwoVars := (((← Workload.new ["(* x y)"]).doPlug "x" twoVar).doPlug "y" twoVar).addFilter nonSquare
  let sumOfProd := ((((← Workload.new ["(+ x y)", "(- x y)"]).doPlug "x" prodTwoVars).doPlug "y" prodTwoVars).addFilter
    twoX).addFilter trivialTrig
  let shiftedSimple := shift.doPlug "x" simple
  let sumAndProd := Workload.append [sumTwoVars, prodTwoVars]
  let shiftedSimpleSqrs := Workload.append [shiftedSimple, trivialSquares]
  let scaledShiftedSqrs := scaleDown.doPlug "x" shiftedSimpleSqrs
  let scaledSumProd := scaleDown.doPlug "x" sumAndProd
  let twoVarNoSub := twoVar.addFilter trigNoSub
  return [.append [simple, consts], .append [scaledShiftedSqrs, consts], .append [scaledSumProd, consts],
    .append [twoVarNoSub, sumOfProd, consts]]

/-- `trig_rules`, tests/recipes/trig.rs:9-160; `exploratory` is `Trig::get_exploratory_rules()`. -/
def trigRules (exploratory : Ruleset TrigOp) (F : Nat → FastEnv TrigOp Rat) : Option (Ruleset TrigOp) := do
  let complex ← Ruleset.new (TrigOp.complexTexts.map String.toList)
  let prior := Ruleset.extend complex (← Ruleset.new (TrigOp.priorTexts.map String.toList))
  let ws := (← trigWorkloads1) ++ (← trigWorkloads2)
  fastRuns trigDomain exploratory fastLimits (ws.mapIdx fun i w => (F i, w)) prior []

/-- `terms` of `constant_rules`, tests/recipes/exponential.rs:22-30. -/
def expConstants : Option Workload :=
  Workload.new ["(exp 0)", "(exp 1)", "(log 1)", "(sqrt 1)", "(cbrt 1)", "(pow a 1)", "(pow 1 a)"]

/-- The two filters of the layers, tests/recipes/exponential.rs:45-50. -/
def expFilter (w : Workload) : Option Workload := do
  return (w.addFilter (← Filter.containsNot "(exp (exp ?a))")).addFilter (← Filter.containsNot "(log (log ?a))")

/-- `upper_layer` of `exp_rules` and `log_rules`, tests/recipes/exponential.rs:36-50, 56-70. `hole` is the name of the hole that the
binary operators of the lower layer are plugged into; it is `"bup"` in the code. -/
def expLayer (hole uop : String) (lower upper : List String) : Option Workload := do
  let l ← (← Workload.new ["v", "(uop v)", "(bop v v)"]).plugNew "v" ["a", "b", "c"]
  let l ← l.plugNew "uop" [uop]
  let lowerLayer ← l.plugNew hole lower
  let u ← ((← Workload.new ["(uop v)", "(bop v v)"]).doPlug "v" lowerLayer).plugNew "uop" [uop]
  expFilter (← u.plugNew "bop" upper)

/-- `upper_layer` of `no_pow_rules`, `simple_rules` and `div_rules` before its filter,
tests/recipes/exponential.rs:76-90, 102-116, 128-142. -/
def expLang (vars uops bops : List String) : Option Workload := do
  let vars ← Workload.new vars
  let uops ← Workload.new uops
  let bops ← Workload.new bops
  let lang ← Workload.new ["v", "(uop v)", "(bop v v)"]
  let lowerLayer := ((lang.doPlug "v" vars).doPlug "uop" uops).doPlug "bup" bops
  return ((lang.doPlug "v" (.append [lowerLayer, vars])).doPlug "uop" uops).doPlug "bop" bops

/-- `upper_layer` of `log_rules`, tests/recipes/exponential.rs:56-70. -/
def logLayer (hole : String) : Option Workload := expLayer hole "log" ["*"] ["+"]

/-- The workloads of `make_rules`, tests/recipes/exponential.rs:155-183. -/
def expWorkloads : Option (List Workload) := do
  let noPow ← expLang ["a", "b", "c"] ["exp", "log", "sqrt", "cbrt"] ["+", "*"]
  let simple ← expLang ["a", "b", "c"] ["exp", "log", "sqrt", "cbrt"] ["+", "*", "pow"]
  let div ← expLang ["a", "b"] ["sqrt", "cbrt"] ["/"]
  return [← expConstants, ← expLayer "bup" "exp" ["+", "*"] ["+", "*"], ← logLayer "bup", ← expFilter noPow,
    ← expFilter simple, div.addFilter (.canon ["a", "b"])]

/-- `make_rules`, tests/recipes/exponential.rs:148-187; `exploratory` is `Exponential::get_exploratory_rules()`. -/
def expRules (exploratory : Ruleset ExpOp) (F : Nat → FastEnv ExpOp Rat) : Option (Ruleset ExpOp) := do
  let starting ← Ruleset.new (ExpOp.startingTexts.map String.toList)
  let all := Ruleset.extend (← Ruleset.new (ExpOp.rationalTexts.map String.toList)) starting
  fastRuns expDomain exploratory fastLimits ((← expWorkloads).mapIdx fun i w => (F i, w)) all (Ruleset.extend [] starting)

end Ruler
