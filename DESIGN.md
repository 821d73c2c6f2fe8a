# Formal model of uwplse/ruler in Lean 4 — design

Source: /repo (pinned commit, read as text only). Model and proofs: /verif/lean (Lean 4.33.0, Mathlib
modules imported one by one). Properties: properties.jsonl; status of each: MANIFEST.json; experiments with wrong
models: seeded/LOG.jsonl. How to read it: `first_failing_lemmas` are the declarations at which the edited model stopped
building; `theorems_failed` are the property theorems that depend on one of them. A build that stops shows that the proofs
do not carry over; it does not show that each listed statement is false for the edited model, since a proof can also break
because the definition has another shape. That the claim named in `claim_broken` excludes the edit was judged by reading the
statement. Lines with a `note` are those found only by a lemma that unfolds the definition.

## 0. Trusted base

* Lean's kernel. No axioms are added; every property theorem depends at most on
  `propext`, `Classical.choice`, `Quot.sound` (`Verif/Axioms.lean` prints the axioms of each of them).
  No `sorry`, `admit`, `native_decide`, `bv_decide`, `implemented_by`, `unsafe`.
* The hand-written correspondence Rust → Lean. Every definition in `Verif/Model` cites file and lines.
* Third-party crates are *modelled by their documented behaviour*, not verified:
  * egg 0.9: `add`, `union`, `rebuild`, `find`, `lookup_expr`, e-matching, `Runner` (Model/EGraph, Model/Scheduler) and
    `Extractor` (Model/Extract) as reference implementations in which everything that depends on hash order, sizes or
    time is a parameter. In particular `rebuild` is a sequence of repairs in any order that ends in a congruent
    state. That egg also re-analyses until no data changes is not demanded (more runs are covered than egg has); the one
    theorem that needs it states it as a hypothesis (`AndFolded` in C82).
  * z3: an `Unsat` answer means that the asserted formula has no model under SMT-LIB semantics (`SoundSolver`); where
    a property needs it, a solver that also answers `Unsat` only and always when right (`complete`/`exact` solver in the
    negative results).
  * symbolic_expressions 5: one expression is read, what follows it is ignored; double-quoted strings are not modelled.
  * itertools 0.9 `multi_cartesian_product` (the product of zero iterators yields nothing); indexmap 1 (`remove` is
    `swap_remove`); rayon `partition` (fork/join over contiguous splits); serde_json (pretty printer and reader on
    characters, recursion limit 128); the file system (truncate, then writes in any portions).

## 1. Conventions

* A Rust panic is an explicit `none` (or `.panic`). Non-termination is excluded because Lean functions are total;
  where the code loops until nothing changes the model has a bound on the number of rounds and a theorem says the bound is
  not reached (C21, C55).
* `usize`, `i32` are unbounded except where overflow or saturation is observable (`ExtractableAstSize`, `BV`, `i64` in the
  Halide domain, `Ratio<i64>` via `Checked`).
* Hash map iteration order, parallel work splitting, e-matching order, match limits, time-outs, choices of
  canonical ids and the behaviour of the validator are *parameters*; the theorems quantify over all of them. Traces that are
  no complete run give `none`, so the theorems are about the runs that end, and say something for every prefix too.
* Tables of rules are read by the kernel (`decide +kernel`) from their texts; `chars_of%` (Proofs/Chars) is an elaborator that
  writes the characters of the texts out, the kernel checks that they are.
* Directories: `Model/` (code, about one file per Rust file), `Spec/` (specifications that do not use the model's helpers),
  `Proofs/` (helper lemmas), `Props/` (the property theorems, each followed by `example`s that meet its hypotheses).

## 2. What is modelled

| code | model |
|------|-------|
| src/enumo/sexp.rs, metric.rs | Sexp |
| src/enumo/pattern.rs, filter.rs | Pattern, Filter |
| src/enumo/workload.rs | Workload, Text (files), Derive (`to_egraph`) |
| src/enumo/rule.rs | Rule (construction, text), Derive (`is_saturating`), EGraph (`apply_one` with the check of samples) |
| src/enumo/ruleset.rs | Rule, IndexMap (container, text), Candidates, Minimize, Derive (`shrink`, `can_derive`, `derive`) |
| src/enumo/scheduler.rs | Scheduler |
| src/language.rs | Analysis (`Signature`, `make`, `merge`, `modify`), Generalize, Term, Domain |
| src/lib.rs, src/util.rs | Interval, Domain (`selfProduct`), Generalize (`letter`), Inference (`Limits`) |
| src/bv.rs | BV |
| src/recipe_utils.rs | Recipe, Inference |
| src/logger.rs:16-39 | Logger (objects keep the order of insertion: Cargo.toml:14 enables `preserve_order`) |
| src/logger.rs:51-202, src/util.rs:67-74, tests/bv8.rs, bv16.rs, bv32.rs, bv64.rs, bv128.rs | LogRows: the rows of all tables, `count_lines`, the comparison of ported and generated rules; measured times are parameters |
| src/enumo/ruleset.rs:481-496 | Report: the text printed by `print_derive` |
| tests/recipes/*.rs | Recipes: every recipe, with its workloads, priors and limits |
| tests/bool.rs, nat.rs, bv*.rs, halide.rs, rational.rs | DomBool, DomNat, BV, DomHalide, DomRational, Domains: evaluator, intervals, samples, translation to SMT, validator |
| tests/rational.rs:239-312, 373-437 | Conditional |
| tests/pos.rs, tests/bv-bool.rs | DomPos, DomBvBool: languages, exploratory and starting rules, `custom_modify`, `initialize_vars`, allowed operators |
| tests/trig.rs, scripts/oopsla21/trig/complex.rules | DomTrig: language, all three tables line by line, constant folding with the texts of fractions |
| tests/exponential.rs | DomExp: language, all three tables line by line, `initialize_vars` |
| tests/szalinski.rs | DomCad: language, prior, exploratory and expected rules line by line, allowed operators |
| tests/maxmin.rs | DomMaxMin: language, prior and exploratory rules line by line, allowed operators |
| src/lib.rs:169-210 | DomSymbol: `SymbolLang` as a language |

Not modelled: progress messages and timing, the
command line and environment, random sampling
(samples are parameters), the printing test of tests/maxmin.rs (`rule_lifting_recipe`), the
reading of floating-point numbers in serde_json, splitting of a UTF-8 character by an interrupted write.

Simplifications: terms and patterns are trees except where sharing in egg's flat expressions is observable (`RecExpr`:
analysis, `score`); `HashMap`s keyed by strings in `generalize` are association lists; the optional rule of `run_internal` is
covered by traces that stop early. What `custom_modify` does is a function from the nodes of the classes to a list of terms to be
added and united (`Domain.custom`); what `initialize_vars` does beyond adding the variables is a list of terms to be united with
each variable (`Domain.varTerms`).

## 3. Per property

| id | model | proof |
|----|-------|-------|
| C01 | `Workload.addFilter/force/doPlug/doAppend`, `Filter` | induction on the workload; total shadow of the partial measure |
| C02 | `Filter.isMonotonic`, `Filter.test` | induction on filter and sub-term |
| C03 | `Filter.conj`, `subsumedBy` | induction over the minimising loop |
| C04, C05 | `Sexp.plug` | relation `Fills`; membership iff and counting by mutual induction |
| C06 | `Workload.doPlug` with empty pegs | exact for names that read as a literal; negation for `*` and `?x` |
| C07 | `Workload.doAppend` | permutation |
| C08 | `Pattern.matchesWith` | sound and most general against `∃ substitution` |
| C09 | `Sexp.canon` | invariant on the growing substitution; renaming classes |
| C10 | `Sexp.measure` | induction |
| C11 | `iterMetric` | induction on the bound against derivations of the grammar |
| C12 | `baseLang` | injectivity of plugging, C11 |
| C13 | `substitute` | fold induction |
| C14, C15 | character-level printer and reader | induction on terms |
| C16 | `IndexMap` with `swap_remove` | refinement to a finite map over operation histories |
| C17 | fork/join tree of the parallel partition | induction on trees |
| C18–C20 | text of rules and rulesets | C14 lemmas; involution counting |
| C21–C24 | `select`, `minimize` | measure, loop invariants; sorting by score |
| C25, C26 | `cvecMatch`, `fastCvecMatch` | grouping lemma, membership in pairs |
| C27, C28 | `generalize`, `Rule.new`, histories of ruleset operations | invariant of the variable map; induction on histories |
| C29, C30 | e-graph with traces, all schedulers | invariant: an evaluation of the classes; represented terms; extension order |
| C31 | `runCompress` | classes of the clone vs classes of the output |
| C32–C34 | `canDerive`, `derive`, `shrink` | C29 |
| C35 | `isSaturating`, `applyOne` | free e-graph of the left-hand side; sub-patterns; negation with folding |
| C36 | `extractCandidates` | C29, C30 |
| C37, C38 | `mergeSig`, `makeSig`, `mkSimplest` | case analysis; invariant over histories |
| C39, C44 | `Interval.new`, `selfProduct` | digits |
| C40–C43 | `BV`, `BvOp` | against `BitVec N` |
| C45–C50 | evaluators, intervals and validators of the domains | induction on terms; SMT semantics |
| C51–C53 | `runWorkloadInternal`, `recursiveRules`, `runFastForwarding` | composition of C21–C36; completeness of C51 from C25/C26_complete and C23_follows (a rule is determined by its name) |
| C54 | `addJsonToFile`, steps of a call, schedules of calls | printer/reader round trip; prefixes of a JSON text do not parse; the number reader is compared with a grammar of numbers (`Numeral`) |
| C55 | `findCosts`, `buildBest` | termination measure; stable costs are minimal |
| C56 | `Scheduler.run` and its traces | induction on iterations; definitions unfolded against small specifications |
| C57 | DomPos, `fastRecipe` | C53 along chains of runs; tables hold in the positive binary numbers |
| C58 | DomBvBool | C53; two-bit vectors as pairs of truth values |
| C59 | DomTrig | C53 for complex functions; every table line proved in Mathlib's ℂ; contradiction derived in any algebra |
| C60 | DomExp | restricted form of C53 (`HoldsOn`); every table line proved in ℝ; contradiction derived in any algebra |
| C61 | DomCad | functions on space as a relation `FRep`; a one-sorted algebra with coded vectors satisfies every line; C57_recipe |
| C62 | Conditional | a pattern without `if` is defined iff no denominator in it is zero or undefined; then C22, C23, C49 along the two selections |
| C63 | `initializeVars`, `makeSig`, `mergeSig`, e-graph with traces | invariant of C29 strengthened: nodes of initialised variables are present, so `make` never runs for them again; one position at a time |
| C64 | `runWorkloadInternal`, `recursiveRules` over `boolDomain` | soundness: C63 (vectors are truth tables) + C25/C26 + C22; completeness: C63_bool_iff, C25/C26_complete, C23_follows |
| C65 | the same over `natDomain`, `bvDomain`, `halideDomain`, `rationalDomain` (texts of rational literals are modelled: `ratText`, `MathOp.leaf`) | shape: constant folding is sound for the one-element algebra, so every represented term is well-sorted; then C22 and the validators' theorems C42, C47, C49, C50; completeness: C51_complete with equal vectors from C63; inconsistency: derivation of 0 = 1 from five accepted rules |
| C66 | Recipes: every workload of tests/recipes, `recursiveWorkload` | levels: C12_base_lang and a simulation between skeletons and terms through the plugs (`Maps`, `plugAll_spec`); canonical forms: C11; readability: the signature of a workload bounds the words and arities of all its terms (`sig_kinded`); exact terms of the exponential and trigonometric workloads: a calculus of term predicates for plug, filter and append (`Sem`, `Fill`) |
| C67 | Recipes: the rulesets `boolRulesSized`, `bv32Rules`, `bv4Rules`, `bv4FancySized`, `halideRulesSized`, `replicateRules`, `bestRules` | an invariant on rulesets (`AllRules`) kept by every step of a recipe: runs by C64/C65 and `C67_signature` (the operators of a run come from its workload, prior and constants, by the invariant of C63 with a narrower sort), conditional runs by C62 and a second look at the selection, filters and unions directly; operators of workloads from C66 |
| C68 | the same functions as C29, C33–C36, C51, C52; a trace that ends too early is a `none` that an extension of the trace (`Goes`) repairs, a panic is a `none` that no extension repairs | invariant: every class has samples and interval of one value per position (C63) of an algebra in which all rules used hold, so `merge` finds equal samples and intersecting intervals; hence every primitive is total, and the number of classes bounds repairs; then operation by operation up to `run_workload`, with C65 for the rules found on the way |
| C69 | the same over `halideDomain` | operators without negation and division as a narrower sort; two computed panics |
| C70 | equational proofs (`Provable`), constant folding (`Decided`), formulas; `recursiveRules`, `boolRules` | terms up to provable equality form an algebra in which the rules and the folding hold, so C64 applies to it; every formula is compared with a smallest equal representative, whose variables occur in all others |
| C71 | `fastRuns`, `trigRules`, `expRules`, `boolRulesSized`, `bv4FancySized`, `halideRulesSized` | induction over the runs with C53: names are new, so `extend` appends; textual rules with the same name are equal, so `extend` is a union |
| C72 | the recipes of C67 for Booleans and bit vectors; `EmptyLevel`, `EmptyRun` | C68 for each run, with the terms of each workload read once and for all (`wordCheck`); composition over levels and the second run |
| C73 | `Provable` from the rules of `recursiveRules`/`boolRulesSized`, formulas of any size | seventeen equations of at most five atoms (`SmallLaws`) make the quotient of formulas by provability a Boolean ring, with distributivity derived; they are provable by C70; provability is closed under substitution; a formula equals its expansion at a variable, so induction over the variables reduces every valid equation to constants |
| C74 | sides of the rules that `runWorkload`, `recursiveRules` and the recipes return, counted by `patSize` | invariant: every class of the e-graph has a term of at most `n` nodes; insertion keeps it, the compressing run keeps it because it only unites classes that exist and folds constants of one node; the extracted term is smallest, so has at most `n` nodes, and a rule is its generalisation |
| C75 | `EmptyLevel` (the failing assertion of `recursive_rules`) over `boolLangOf vars` | if level `k` were empty, its valid equations could be proved from the lower levels (C70), whose rules have fewer than `k` atoms (C74); for `k` = 3, 4, 5 an algebra on triples of truth values in which only conjunction is changed satisfies all valid rules with fewer atoms (checked on truth tables: a rule of at most four atoms has at most two variables) but not commutativity, `x & ~x = F`, De Morgan |
| C76 | rows as JSON objects, read by key (`field`); `write_ff_phase`, `write_baseline`, `write_bv_derivability` | the row satisfies `RowOk`, so C54 appends it; the parts are read back key by key; `derive` splits its argument (C33), so the texts under "can" and "cannot" are a partition with the results of the searches; a listed rule holds by C32 |
| C77 | `portRules` reads the texts of rules of width M at width N; `bvGenSized`, `bvCompare`, `bvGenFirst`, `bvCompareFirst` | a readable rule is read back as the same rule with literals kept (C19); generated rules hold by C65/C67; ported rules are filtered by the validator (C76), whose answers are right (C42); witness `(>> ?a 4) ==> 0` shows that the filter is needed |
| C78 | DomMaxMin: tables of tests/maxmin.rs | two instances of the reordering rule make every equation provable (`C78_inconsistent`); C53_allowed; right lines hold for truth values, comparing with a threshold carries this over to every linear order. Partial: false with the lines for reordering and pruning |
| C79 | e-graph, search, apply_one, can_derive, shrink as above | e-matching is complete in a closed e-graph (every represented instance is found with bindings that represent its parts); an application that adds no id found every node of the right side; so each rewriting step stays within a class. Converse by the algebra of provable equality. That runs saturate is a hypothesis (limits may stop them before); for rules all classified as saturating it follows if the last iteration of the last run applied all matches and changed nothing (`C79_decides`) |
| C80 | select, shrink, minimize as above | induction over the rounds: the candidates left by a round do not meet under the rules chosen so far (C79), the next selection takes only such candidates. Saturation of each round is a hypothesis. Partial: false for the first selection (`C80_first`) |
| C81 | the same over `rationalDomain`, arithmetic exact or failing | the domain of C68 restricted to fewer operators and to defined values (`safeDomain_restrict`); accepted rules hold by C49/C65. Partial: false with negation, absolute value, or division without the test of variables (two computed panics) |
| C82 | iterations of rules classified as saturating (`Works`: how many change something), `runRules`, `runOne` | every id made by an application is equal to an old id once the e-graph is rebuilt (`iteration_old`), and an iteration that changes something makes a further fact about old ids true — two are equal, or a class has a node (`busy_known`); there are finitely many facts. Partial: false with constant folding; an algebra in which all negations of a variable differ shows that a Boolean rule never saturates. `C82_decides_partial` builds the run of `can_derive` that is not cut off (progress, C68, and the bound) |
| C83 | `printDerive`: two files read, the second's rules partitioned, the text printed | `C17_partition` gives the two lists as filters, `C19_load_printed` and `C20_exactly_one_line` the lines of the missing rules; soundness of unlisted rules from `C32_sound` |
| C84 | `SymbolLang`: language, domain, validator | as C32, in the algebra in which the constants named like the rule's variables get the variables' values (`withConsts`); the others from C22 and the model of `to_egraph`. Partial: false when such constants occur (`C84_derive_clash`) |
| C85 | `run_fast_forwarding` and chains of it as in C51, C57, C61, C66, C78; `Goes` as in C68 | as C68. Without samples and intervals the invariant is that of an algebra with one element (`unitAlg`), in which all rules hold; a hook that adds missing constants (`HookAdds`) reduces the number of classes without one, so rebuilding ends by the lexicographic order of that number, the number of classes, of entries and of entries that are not canonical; only the variables of the language must be watched, since generalising a rule has 26 names. The tables are checked by evaluation, the workloads of the exponential recipe read once and for all |
| C86 | `Workload.doPlug`, `doAppend`, `force` | plugging twice is one simultaneous filling up to permutation (`fillAll_bind`, from exchanging nested products), then comparison atom by atom |
| C87 | `runFastForwarding`, `extractCandidates`, `minimize` | both extractions propose every merged pair of allowed terms (C36), names survive `extend`, rules with equal names are equal, selection loses no candidate (C23); sorts of terms from the one-element algebra, so the exploratory rules need not hold |
| C88 | `cvecMatch`, `fastCvecMatch`, `extractCandidates`, `minimize`, two runs | soundness of matching for one order and completeness for the other (C25, C26, C36), then selection loses no candidate (C23); `SameVerdicts` relates the validators |
| C89 | `runFastForwarding` from the workload's terms | terms of the workload are represented before the exploratory phase, saturation merges what the rules rewrite to a common term (C79), cheapest extraction gives allowed representatives (C55), C87 for these; domains without samples (`Blind`), where no class is undefined |
| C90 | two runs of `runWorkloadInternal` | invariant: every class has a term that occurs in the workload or in a constant (`Proofs/Size.lean`, for any set of terms closed under arguments; C74 is its instance for sizes); both sides of a found rule are equal to such terms by the prior (C29, C51); these are represented in the second run, where C65 applies |

Properties that the code does not satisfy in full are kept as stated; the development then has a proved negation (a
concrete witness) and a `_partial` theorem with the side condition.

## 4. Disagreements between code and intent found on the way

1. **Plugging an empty workload into a hole called `*` or `?x`** removes terms that do not mention the hole
   (`C06_not_for_wildcards`): the name is parsed as a pattern. src/enumo/workload.rs.
2. **Filtering by depth can panic** in pegs that contribute no term (`C01_filter_may_panic`); empty lists disappear
   under every plug (`C04_empty_list_vanishes`).
3. **Append reorders** when only the right operand is an append node (`C07_append_reorders`).
4. **Canonical symbols must be distinct** (`C09_needs_distinct`).
5. **`iter_metric` with 0** returns the unfinished grammar (`C11_zero`); `recursive_rules` with 0 drops the prior (`C52_zero`);
   `recursive_rules` for languages with a number of operator lists other than 2 or 3 leaves placeholders in the terms.
6. **Operators containing `=>`** make a rule's own text unreadable (`C18_needs_no_arrow`); unbound variables panic
   instead of giving an error (`C18_unbound_panics`).
7. **`bidir_len` counts an identity rule as half a rule** (`C20_identity_differs`).
8. **Removing a rule reorders the ruleset** (`C16_removal_reorders`).
9. **`select` records a reverse rule that is no candidate as invalid without asking the validator**, and leaves a
   selected reverse rule among the candidates, so the validator can be asked twice about a rule and, if it changes its mind, a rule
   can be both returned and reported invalid (Model/Minimize, C22, C23).
10. **`cvec_match` does not check the condition of its comment** that some sample is defined on both sides
    (`C25_no_overlap`); `fast_cvec_match` also pairs classes with empty vectors.
11. **More than 26 variables panic** in `generalize` (`C27_total`); a workload without variables panics in `initialize_vars` of
    the domains (`C68_no_variables`).
12. **Rules valid for numbers only merge undefined with defined terms** (`C29_rational_undefined`).
13. **`is_saturating` is wrong with constant folding** (`C35_folding`) and for undefined samples (`C35_undefined`).
14. **`merge` loses samples and reports no change** when the first vector is empty (`C37_empty`,
    `C37_flags_inexact_on_empty`).
15. **Bit-vector literals are cut to 64 bits** for the solver: at width 128 a false rule is accepted (`C42_wide_literals`)
    and a rule that holds is rejected (`C42_wide_rejected`); `C42_cut` says what is accepted at every width, `C77_compare_wide` what this means for
    tests/bv128.rs.
16. **Malformed `#b` numerals panic** instead of giving a parse error (`C43_binary`).
17. **Interval absolute value** panics or misses members (`C48_abs_wrong`).
18. **The rational validator ignores divisions inside conditions** (`C49_condition_errors`).
19. **Halide: evaluator truncates, the solver divides Euclidean** (`C50_division_differs`): valid-for-the-solver rules are
    false for the evaluator.
20. **`extract_candidates` visits each pair in both orders**, so alpha-equivalent duplicates of a rule can be proposed.
21. **The log**: a crash between truncation and the end of the write loses all rows (`C54_interruption_loses`) or makes all later calls
    panic (`C54_interrupted`); overlapping calls lose rows or panic (`C54_overlap_*`); a deeply nested row makes
    the log unreadable (`C54_nesting_limit`).
22. **The trigonometric recipe starts from a contradiction**: scripts/oopsla21/trig/complex.rules holds both `(/ ?a ?a) ==> 1` and
    `(/ 0 ?a) ==> 0`; only a one-element algebra satisfies the file (`C59_inconsistent`) and a run can yield `1 ==> 0`
    (`C59_unsound`). The domain has no validator that would stop it.
23. **The exponential recipe starts from a contradiction**: `(exp (log ?a)) ==> ?a` at `0` makes all terms equal
    (`C60_inconsistent`), and a run can yield `(exp ?a) ==> 0` (`C60_unsound`). `initialize_vars` asserts `(exp (log x)) = x`, which
    is right for positive variables only (`C60_variables`).
24. **tests/recipes/exponential.rs plugs a hole that does not occur** (`"bup"` for `"bop"`), so the lower layers keep the
    placeholder, which the plug of the upper layer fills afterwards: products disappear from `log_rules` (`C66_log`).
25. **Conditional rules**: `add_condition` gives up if several expressions are denominators on one side only, so
    `(/ (/ ?a ?b) ?c) ==> (/ ?a (* ?b ?c))` never gets a condition; for rules that contain `if` the added condition is not enough
    (`C62_if`); and as `select` files the reverse of every chosen rule that is not itself a candidate under "invalid", valid rules
    can be given conditions too (example in Props/ConditionalRun).
26. **Accepted rational rules can contradict each other** (`C65_rational_inconsistent`): the validator compares partial functions of
    defined values, but rules such as `(* ?x 0) ==> 0` are applied to every term, also to `(/ 0 0)`. Together with four other
    accepted equations they prove `0 = 1`. Rules without `if` and with the same variables on both sides are safe
    (`C65_rational_functions`).
27. **Equalities between terms with incomparable variables are never proposed** (`x & ~x` and `y & ~y`): neither direction binds all
    variables, and no rule to a constant is tried. Hence the side condition of `C64_complete` and `C65_complete`.
28. **`recursive_rules` expects two or three operator lists**: any other number selects `base_lang(3)`. With one list the holes `OP2` and
    `OP3` are never filled, and a language that does not read them as variables panics at size three; a fourth list is ignored
    (`C66_arities`).
29. **The Halide domain can panic on its own terms and rules**: `-x` overflows at `i64::MIN` where overflow is checked (as in the test
    profile; `C69_negation_panics`), and a rule that is right for the solver's division unites classes with different
    samples, so `merge` panics (`C69_division_panics`; compare 19).
30. **A filter on products cannot be written**: `*` is the wildcard in every position of a pattern, so `(* ?x ?x)` also rejects `(+ a a)`
    (`C08_star_rejects_sums`). The trigonometric recipe filters squares this way (tests/recipes/trig.rs:76-79); its terms contain no
    other operator with two equal functions, so the result is the intended one (`C66_trig_exact2`). src/enumo/pattern.rs:27.
31. **The second run of the Boolean recipe adds nothing that could not be derived**: the rules of the search with five atoms already
    prove all Boolean equations (`C73_second_run`), so the rules of the run on seven atoms are found only because saturation
    with the earlier rules is limited; `bool_rules` panics if this run finds none (`EmptyRun` in `C72_bool`), and nothing else
    in the code ensures that it finds some. tests/recipes/bool.rs:20-39, src/recipe_utils.rs:50-52.
32. **The prior rules of tests/maxmin.rs are contradictory**: `(case c t rest)` chooses the first case whose condition is true, but the
    rule for reordering exchanges any two cases, so `(case true t (case true u u))` is both `t` and `u` and every equation
    follows (`C78_inconsistent`). Without that line and the one for pruning, lifted rules hold in every linear order
    (`C78_order_partial`). The file calls itself "Very experimental. Doesn't work". tests/maxmin.rs:32-128.
33. **`minimize` does not compare candidates with the prior rules before its first selection**: its comment promises that redundant
    candidates are filtered out "given the addition of the selected rule", and the first call of `shrink` comes after the first
    `select`, so the first selected rule may follow from the prior rules alone (`C80_first`). Later ones do not
    (`C80_irredundant_partial`). src/enumo/ruleset.rs:426-439.
34. **The rational domain can panic on accepted rules**: the rules `(* (- (fabs ?x) ?x) (+ (fabs ?x) ?x)) ==> 0`, `(/ 0 ?x) ==> (* (/ 1 ?x) 0)`,
    `(* ?x 0) ==> 0` and `(/ (* ?x ?y) ?x) ==> (+ ?y (/ 0 ?x))` are all accepted, but together they unite `(+ (fabs a) a)` with `0`,
    whose samples differ, so `merge` panics (`C81_division_panics`). With the test of variables that is commented out in
    `validate` this cannot happen in terms without `if` (`C81_same_variables_partial`). Negation overflows as in 29
    (`C81_negation_panics`). tests/rational.rs:159-165.
35. **The saturating phase of the scheduler need not end**: `Scheduler::Saturating` runs the rules accepted by `is_saturating` without iteration and node
    limit. With constant folding a sound rule such as `(^ (& ?y false) (^ ?z ?z)) ==> (& (~ ?y) false)` is accepted (the new class `(~ ?y)` is offset by merging
    the left side with `false`) and adds a negation in every iteration, so `can_derive` on a query with this left side only stops by the time limit of
    600 seconds or when the query is answered (`C82_endless`, `C82_endless_derive`). Without constant folding the phase ends within a bound
    (`C82_ends_partial`, `C82_saturates_partial`). src/enumo/rule.rs:117-134, src/enumo/scheduler.rs:96-119.
36. **The rational validator panics on literals that the language accepts**: literals are rationals of 64-bit integers, but the translation to the solver
    unwraps their conversion to 32 bits. A rule with the literal `2147483648` can be read and cannot be validated; `C49_literals` says that
    translation fails exactly on literals whose numerator or denominator does not fit. tests/rational.rs:470-474.
37. **Rules that mention a variable of the language are derived from nothing**: to derive a rule, its pattern variable `?a` is replaced by the
    variable `a`, which may already occur in the rule. `(~ ?a) ==> (~ a)`, read from a file, is derived from the empty ruleset
    (`C32_needs_schematic`, for symbols `C84_derive_clash`). src/enumo/ruleset.rs:441-475, src/language.rs:275-290.
