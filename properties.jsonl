{"id": "C01", "title": "Filtering a workload keeps exactly the terms that pass the filter", "statement": "For every workload w and filter f, `w.filter(f).force()` is `w.force()` with the terms that fail f removed: same terms, same order, same multiplicities, although the library may push the filter into plugged sub-workloads or fuse it with an existing filter. (The only permitted deviation is a panic of the depth metric on an empty list.)", "quantifier": "all workload trees built by new/plug/filter/append, all filters, all nested combinations", "why_tests_cant": "The optimisation rewrites the workload tree recursively; correctness is an induction over arbitrary trees and filters, tests only sample a handful.", "anchors": ["src/enumo/workload.rs: Workload::filter, Workload::force", "src/enumo/filter.rs: Filter::test, Filter::and, Filter::is_monotonic"]}
{"id": "C02", "title": "Filters reported monotonic are downward closed", "statement": "Whenever the library treats a filter as monotonic (and therefore prunes sub-terms early), any term that passes it has only sub-terms that pass it.", "quantifier": "all filters classified monotonic, all terms, all sub-terms", "why_tests_cant": "Requires an argument over all terms and all nested conjunctions; a single missed filter constructor silently drops terms.", "anchors": ["src/enumo/filter.rs: Filter::is_monotonic, Filter::test", "src/enumo/sexp.rs: Sexp::measure"]}
{"id": "C03", "title": "Chained filters mean conjunction", "statement": "Filtering by f and then by g keeps exactly the terms that pass both, although metric bounds may be merged and redundant conjuncts discarded.", "quantifier": "all workloads, all pairs of filters, including arbitrarily nested conjunctions", "why_tests_cant": "The simplifier drops conjuncts it considers subsumed; whether it ever drops a needed one is a universally quantified statement.", "anchors": ["src/enumo/filter.rs: Filter::and, Filter::subsumed_by", "src/enumo/workload.rs: Workload::filter"]}
{"id": "C04", "title": "Plugging enumerates exactly the hole fillings", "statement": "The terms of `w.plug(h, pegs)` are exactly the terms obtained from a term of w by replacing every occurrence of the atom h, independently, by some term of pegs; nothing else appears and none is missing.", "quantifier": "all workloads w, hole names h, peg workloads", "why_tests_cant": "Set of results is a Cartesian product of unbounded width/depth.", "anchors": ["src/enumo/sexp.rs: Sexp::plug", "src/enumo/workload.rs: Workload::plug, Workload::force"]}
{"id": "C05", "title": "Plugging yields the expected number of terms", "statement": "For a workload w without empty-list terms, the number of terms produced by `w.plug(h,pegs)` is the sum over the terms t of w of |pegs| raised to the number of occurrences of h in t; if w and pegs have no repeated terms and no peg makes two different templates collide (h-templates that differ at a non-hole position), each filling of one template is produced exactly once.", "quantifier": "all workloads without empty-list terms, all holes and pegs", "why_tests_cant": "Counting statement over unbounded products.", "anchors": ["src/enumo/sexp.rs: Sexp::plug", "src/enumo/workload.rs: Workload::plug"]}
{"id": "C06", "title": "Plugging an empty workload deletes the terms that mention the hole", "statement": "`w.plug(h, {})` keeps exactly the terms of w in which the atom h does not occur.", "quantifier": "all workloads, all hole names", "why_tests_cant": "Implemented by a different route (a pattern filter built from the hole name) than ordinary plugging; agreement must hold for every name.", "anchors": ["src/enumo/workload.rs: Workload::plug", "src/enumo/filter.rs: Filter::Excludes", "src/enumo/pattern.rs: Pattern::from_str"]}
{"id": "C07", "title": "Appending workloads is multiset union", "statement": "`a.append(b)` contains every term of a and every term of b with multiplicities added, whatever nesting of appends is flattened.", "quantifier": "all workloads a and b", "why_tests_cant": "Flattening has several cases that depend on the shapes of both sides.", "anchors": ["src/enumo/workload.rs: Workload::append, Workload::force"]}
{"id": "C08", "title": "Pattern filters: contains means some sub-term is an instance", "statement": "A term passes Contains(p) iff some sub-term equals p under one consistent assignment of terms to p's variables and arbitrary terms to its wildcards; Excludes(p) is its negation.", "quantifier": "all patterns, all terms", "why_tests_cant": "The matcher threads a partial substitution; equivalence with the existential definition is for all patterns, including non-linear ones.", "anchors": ["src/enumo/pattern.rs: Pattern::matches, Pattern::matches_with", "src/enumo/filter.rs: Filter::test"]}
{"id": "C09", "title": "Canonical filter keeps one representative per renaming class", "statement": "For a list of distinct symbols, canonicalising a term is idempotent, is a bijective renaming of listed symbols, and two terms have the same canonical form iff they differ by a bijective renaming of the listed symbols; hence the Canon filter keeps exactly one representative of every renaming class. It never indexes outside the symbol list.", "quantifier": "all symbol lists, all terms", "why_tests_cant": "Renaming classes are infinite families; needs an inductive invariant on the partially built substitution.", "anchors": ["src/enumo/sexp.rs: Sexp::canon, Sexp::mk_canon, Sexp::apply_subst", "src/enumo/filter.rs: Filter::Canon"]}
{"id": "C10", "title": "Size metrics measure what they say and never fail without empty lists", "statement": "The atoms metric counts leaves, the lists metric counts list nodes, the depth metric is the length of the longest root-to-leaf path; no metric of a sub-term exceeds that of the whole term (depth is strictly smaller on proper sub-terms), and measuring fails only for the depth of a term containing an empty list.", "quantifier": "all terms, all metrics", "why_tests_cant": "Universal over terms.", "anchors": ["src/enumo/sexp.rs: Sexp::measure", "src/enumo/metric.rs: Metric"]}
{"id": "C11", "title": "Grammar iteration enumerates exactly the terms within the bound", "statement": "For a grammar whose recursive productions strictly increase the metric and n>=1, `iter_metric(grammar, hole, metric, n).force()` contains a term iff it is a complete (hole-free) derivation of the grammar with metric at most n.", "quantifier": "all such grammars, holes, metrics, bounds n", "why_tests_cant": "Completeness over all derivations of unbounded size needs induction; the aggressive pruning could drop derivations.", "anchors": ["src/recipe_utils.rs: iter_metric", "src/enumo/workload.rs: Workload::plug, Workload::filter"]}
{"id": "C12", "title": "Built-in grammars are enumerated without duplicates", "statement": "For the built-in grammars with operators of arity up to k, iteration up to bound n yields each term exactly once and yields exactly all operator/variable/value skeletons with metric at most n.", "quantifier": "all k, all n>=1, all three metrics", "why_tests_cant": "Tests check a few counts for k<=3, n<=7.", "anchors": ["src/recipe_utils.rs: base_lang, iter_metric"]}
{"id": "C13", "title": "Substitution in a workload replaces the atom uniformly", "statement": "`substitute(w, s, a)` contains exactly the terms obtained by choosing one term of s and replacing every occurrence of a in a term of w by that same term.", "quantifier": "all workloads w and s, all atoms", "why_tests_cant": "Uniform-vs-independent replacement is a property of all inputs.", "anchors": ["src/recipe_utils.rs: substitute", "src/enumo/workload.rs: Workload::append"]}
{"id": "C14", "title": "Printing and parsing terms round-trips", "statement": "Parsing the printed form of any term whose atoms are printable symbols gives back the same term.", "quantifier": "all terms with well-formed atoms", "why_tests_cant": "Unbounded nesting and arbitrary atom text.", "anchors": ["src/enumo/sexp.rs: Display, FromStr"]}
{"id": "C15", "title": "Workload files round-trip", "statement": "Writing a workload to a file and reading it back gives a workload with the same terms in the same order.", "quantifier": "all workloads with well-formed atoms", "why_tests_cant": "Depends on no printed term spanning lines or being trimmed; for all workloads.", "anchors": ["src/enumo/workload.rs: Workload::to_file, Workload::from_file"]}
{"id": "C16", "title": "A ruleset is an insertion-ordered map with unique rule names", "statement": "After any sequence of add, add_all, extend, union and remove_all operations the set of rules is exactly what set algebra on names predicts, names are unique, and (without removals) iteration order is first-insertion order.", "quantifier": "all finite operation histories", "why_tests_cant": "History property.", "anchors": ["src/enumo/ruleset.rs: Ruleset::{add,add_all,remove_all,extend,union,contains,len}"]}
{"id": "C17", "title": "Partition splits a ruleset exactly, for any parallel schedule", "statement": "`partition(f)` puts each rule in exactly one of the two outputs, first output gets the rules satisfying f, relative order is preserved, and the result does not depend on how the parallel iterator splits the work.", "quantifier": "all rulesets, predicates, all work-splitting trees", "why_tests_cant": "Parallel schedules cannot be enumerated by tests.", "anchors": ["src/enumo/ruleset.rs: Ruleset::partition"]}
{"id": "C18", "title": "Rule text round-trips", "statement": "Reading back the printed name of a rule yields the same left- and right-hand sides; a line with <=> yields both directions, a line with => only the forward one, a line without => is an error.", "quantifier": "all rules whose pattern text is well-formed and does not contain the arrow", "why_tests_cant": "All patterns.", "anchors": ["src/enumo/rule.rs: Rule::from_string"]}
{"id": "C19", "title": "Ruleset files round-trip", "statement": "Saving a ruleset to a file and loading it gives an equal ruleset (same rules, same order).", "quantifier": "all rulesets with well-formed patterns", "why_tests_cant": "All rulesets.", "anchors": ["src/enumo/ruleset.rs: Ruleset::{to_file,from_file,to_str_vec,new,eq}"]}
{"id": "C20", "title": "Bidirectional counting and printing agree", "statement": "pretty_print prints exactly bidir_len lines for rulesets without identity rules; every rule is represented by exactly one printed line (as itself or as the reverse of a printed <=> line).", "quantifier": "all rulesets", "why_tests_cant": "Combinatorial statement about arbitrary reverse-pairings.", "anchors": ["src/enumo/ruleset.rs: Ruleset::{bidir_len,pretty_print}"]}
{"id": "C21", "title": "Minimisation terminates", "statement": "`minimize` returns for every candidate set, every prior ruleset and every outcome of equality saturation and validation.", "quantifier": "all candidate sets, priors, scheduler and validator behaviours", "why_tests_cant": "Loop termination under adversarial sub-procedures.", "anchors": ["src/enumo/ruleset.rs: Ruleset::{minimize,select,shrink}"]}
{"id": "C22", "title": "Minimisation returns only validated candidates, none already known", "statement": "Every rule returned by `minimize` passed the validator, is one of the candidates and is not in the prior ruleset.", "quantifier": "all candidate sets, priors, scheduler and validator behaviours", "why_tests_cant": "Invariant across all loop iterations and scheduler outcomes.", "anchors": ["src/enumo/ruleset.rs: Ruleset::{minimize,select}"]}
{"id": "C23", "title": "Minimisation loses nothing", "statement": "Every candidate that is not returned was either in the prior ruleset, rejected by the validator (or withheld together with its other direction), or had both sides merged by saturation with the prior and rules chosen so far.", "quantifier": "all runs", "why_tests_cant": "Invariant across all iterations.", "anchors": ["src/enumo/ruleset.rs: Ruleset::{minimize,select,shrink}"]}
{"id": "C24", "title": "Selection picks a best-scoring candidate first", "statement": "Each selection step takes a candidate of maximal score among the remaining ones; the score order is a total preorder and is the same for both directions of a rule.", "quantifier": "all candidate sets", "why_tests_cant": "Ordering statement over all sets.", "anchors": ["src/enumo/ruleset.rs: Ruleset::select", "src/enumo/rule.rs: Rule::score", "src/language.rs: SynthLanguage::score"]}
{"id": "C25", "title": "Characteristic-vector matching is exact", "statement": "`cvec_match` proposes a rule between the representatives of two classes iff their sample vectors are non-empty and agree wherever both are defined (classes without any defined sample excluded); one direction per orientation whose variables permit it.", "quantifier": "all e-graphs (sets of classes with vectors)", "why_tests_cant": "The implementation uses a grouping optimisation whose equivalence to the pairwise definition is universal.", "anchors": ["src/enumo/ruleset.rs: Ruleset::cvec_match, compare"]}
{"id": "C26", "title": "Fast matching agrees with exact matching", "statement": "`fast_cvec_match` proposes only rules between classes with identical vectors, hence (on non-empty vectors) only rules that `cvec_match` also considers; both agree when every sample is defined.", "quantifier": "all e-graphs", "why_tests_cant": "Universal over e-graphs.", "anchors": ["src/enumo/ruleset.rs: Ruleset::fast_cvec_match, Ruleset::cvec_match"]}
{"id": "C27", "title": "Generalisation is a consistent injective renaming", "statement": "Turning two terms into a candidate rule renames variables injectively and consistently on both sides, so the rule is valid iff the original equation is valid for all variable values; instantiating a pattern and generalising it again only renames.", "quantifier": "all pairs of terms with at most 26 distinct variables", "why_tests_cant": "All terms; needs an invariant on the shared renaming map.", "anchors": ["src/language.rs: SynthLanguage::{generalize,instantiate,to_enode_or_var}", "src/enumo/ruleset.rs: Ruleset::add_from_recexprs", "src/util.rs: letter"]}
{"id": "C28", "title": "Candidate rules never invent variables", "statement": "Every rule in any ruleset has all right-hand side variables occurring on its left-hand side.", "quantifier": "all rules constructible through the API", "why_tests_cant": "All construction paths.", "anchors": ["src/enumo/rule.rs: Rule::new, Rule::from_string", "src/enumo/ruleset.rs: Ruleset::add_from_recexprs"]}
{"id": "C29", "title": "Equality saturation is sound for every schedule", "statement": "If every rule holds in a model (algebra), then after any scheduler run (any limits, any match order, any time-outs) only terms equal in that model are merged, and terms represented by a class still denote the class value.", "quantifier": "all e-graphs, rulesets, algebras, schedules and limits", "why_tests_cant": "Schedules and models are infinite.", "anchors": ["src/enumo/scheduler.rs: Scheduler::run", "src/enumo/rule.rs: Rhs::apply_one, apply_pat"]}
{"id": "C30", "title": "Saturation never un-merges", "statement": "Terms merged before a scheduler run are merged afterwards; terms represented before are represented afterwards.", "quantifier": "all e-graphs, rulesets, schedules", "why_tests_cant": "All schedules.", "anchors": ["src/enumo/scheduler.rs: Scheduler::run"]}
{"id": "C31", "title": "Compress never grows the e-graph", "statement": "The result of the Compress scheduler has no e-class and no e-node that was not in the input (domains without constant folding), and merges two input classes iff the Simple scheduler merged them.", "quantifier": "all e-graphs, rulesets, schedules", "why_tests_cant": "All runs; needs congruence argument.", "anchors": ["src/enumo/scheduler.rs: Scheduler::run_internal (Compress)"]}
{"id": "C32", "title": "Derivability answers are sound", "statement": "If `can_derive` (either derive type) reports a rule derivable from a ruleset then the rule is an equational consequence of the ruleset: it holds in every algebra in which the ruleset holds.", "quantifier": "all rulesets, rules, limits, schedules", "why_tests_cant": "Quantifies over all algebras and schedules.", "anchors": ["src/enumo/ruleset.rs: Ruleset::{can_derive,derive}", "src/enumo/scheduler.rs: Scheduler::run_derive"]}
{"id": "C33", "title": "Derivability report partitions the target rules", "statement": "`derive` splits the given rules into derivable and non-derivable, each rule in exactly one part.", "quantifier": "all rulesets, all schedules", "why_tests_cant": "Parallel evaluation.", "anchors": ["src/enumo/ruleset.rs: Ruleset::derive"]}
{"id": "C34", "title": "Shrink removes only rules that follow from the chosen ones", "statement": "A candidate removed by shrink is an equational consequence of the chosen rules.", "quantifier": "all candidate sets, all schedules", "why_tests_cant": "All schedules and algebras.", "anchors": ["src/enumo/ruleset.rs: Ruleset::shrink"]}
{"id": "C35", "title": "Saturating rules add no e-classes", "statement": "If a rule is classified as saturating then applying it to any match in any e-graph adds no new e-class (when samples are defined).", "quantifier": "all rules, all e-graphs, all matches", "why_tests_cant": "The classification is done on one tiny e-graph, the claim is about all.", "anchors": ["src/enumo/rule.rs: Rule::is_saturating"]}
{"id": "C36", "title": "Extracted candidates use only allowed operators", "statement": "Every rule produced by `extract_candidates` contains only allowed operators and relates terms that were merged by the second e-graph.", "quantifier": "all pairs of e-graphs", "why_tests_cant": "All e-graphs.", "anchors": ["src/enumo/ruleset.rs: Ruleset::extract_candidates", "src/lib.rs: ExtractableAstSize", "src/language.rs: is_allowed_rewrite"]}
{"id": "C37", "title": "Merging analysis data is a join", "statement": "Merging class data keeps every defined sample and the intersection of the intervals, fails only on contradictory data, and the returned change flags are exact (non-empty vectors).", "quantifier": "all pairs of class data", "why_tests_cant": "All data.", "anchors": ["src/language.rs: SynthAnalysis::merge"]}
{"id": "C38", "title": "Representative terms are well-formed and denote the class", "statement": "The stored simplest expression for a class is always well-formed and evaluates to the same value as the class.", "quantifier": "all e-graph histories", "why_tests_cant": "History invariant.", "anchors": ["src/language.rs: SynthAnalysis::make"]}
{"id": "C39", "title": "Interval construction rejects inverted bounds", "statement": "Interval construction fails iff both bounds are present and low > high; otherwise it stores the bounds unchanged, and the represented set is non-empty.", "quantifier": "all intervals over any ordered domain", "why_tests_cant": "All values.", "anchors": ["src/lib.rs: Interval::new"]}
{"id": "C40", "title": "Bit-vector arithmetic is arithmetic modulo 2^N", "statement": "For every width 1..128, add/sub/mul/neg and bitwise operations on BV<N> coincide with the N-bit SMT-LIB operations, and every result is a proper N-bit value.", "quantifier": "all widths N in 1..=128, all operand values", "why_tests_cant": "2^256 operand pairs per operation.", "anchors": ["src/bv.rs: BV::{new,wrapping_add,wrapping_sub,wrapping_mul,wrapping_neg,not,bitand,bitor,bitxor}"]}
{"id": "C41", "title": "Bit-vector shifts follow SMT-LIB", "statement": "my_shl/my_shr coincide with bvshl/bvlshr including shift amounts >= N.", "quantifier": "all widths, all values", "why_tests_cant": "All values.", "anchors": ["src/bv.rs: BV::{my_shl,my_shr}"]}
{"id": "C42", "title": "Bit-vector evaluation and the validator agree", "statement": "The evaluator on samples and the SMT translation compute the same function on every expression, so a rule the validator accepts never changes the value of an expression.", "quantifier": "all expressions, all widths for which it holds, all assignments", "why_tests_cant": "All expressions.", "anchors": ["src/bv.rs: impl_bv! eval, egg_to_z3, validate"]}
{"id": "C43", "title": "Bit-vector literals round-trip", "statement": "Printing a BV<N> and parsing it gives the same value; parsing reduces modulo 2^N.", "quantifier": "all values", "why_tests_cant": "All values.", "anchors": ["src/bv.rs: Display, FromStr"]}
{"id": "C44", "title": "Sample vectors enumerate every combination exactly once", "statement": "`self_product(samples, k)` produces k vectors of length |samples|^k such that reading position i across them enumerates every k-tuple of samples exactly once.", "quantifier": "all sample lists, all k", "why_tests_cant": "All sizes.", "anchors": ["src/util.rs: self_product"]}
{"id": "C45", "title": "Boolean domain: equal sample vectors mean equivalent formulas", "statement": "In the Bool domain two expressions have equal sample vectors iff they are equal for every assignment, so rules accepted by the (trivially accepting) validator are still sound.", "quantifier": "all Bool expressions over any set of variables", "why_tests_cant": "All expressions.", "anchors": ["tests/bool.rs: eval, initialize_vars, validate"]}
{"id": "C46", "title": "Boolean and natural interval analyses are sound", "statement": "The interval computed for a node contains its value for every assignment.", "quantifier": "all expressions, all assignments", "why_tests_cant": "All expressions.", "anchors": ["tests/bool.rs: mk_interval", "tests/nat.rs: mk_interval"]}
{"id": "C47", "title": "Natural-number validation is sound", "statement": "A rule accepted by the Nat validator holds for all natural numbers; constants added by folding denote their value.", "quantifier": "all rules, all assignments", "why_tests_cant": "All expressions.", "anchors": ["tests/nat.rs: validate, egg_to_z3, mk_constant, eval"]}
{"id": "C48", "title": "Rational interval arithmetic is sound", "statement": "Interval negation, addition, multiplication, reciprocal, absolute value contain all results of the operation on members of the argument intervals.", "quantifier": "all intervals (with infinite end-points), all members", "why_tests_cant": "All rationals.", "anchors": ["tests/recipes/rational*.rs / tests/rational.rs: neg, add, mul, recip, _abs, sign, mk_interval"]}
{"id": "C49", "title": "Rational validation is sound up to division by zero conditions", "statement": "A rule accepted by the rational validator gives equal values on every assignment on which both sides are defined, and is not accepted if the left side can be defined where the right is not.", "quantifier": "all rules, all assignments", "why_tests_cant": "All rules.", "anchors": ["tests/rational.rs: validate, error_conditions, egg_to_z3"]}
{"id": "C50", "title": "Halide evaluation and validation agree", "statement": "The Halide predicate evaluator and its SMT translation compute the same function wherever the evaluator is defined.", "quantifier": "all expressions, all assignments", "why_tests_cant": "All expressions.", "anchors": ["tests/halide.rs: eval, egg_to_z3"]}
{"id": "C51", "title": "Rule inference only returns valid new rules", "statement": "`run_workload` returns only rules that passed the validator and are not in the prior; it panics rather than returning an empty ruleset. Every returned rule relates the representatives of two classes of the compressed e-graph whose vectors match. Conversely nothing found is lost: for two classes whose vectors match and whose representatives have comparable variables, either the validator rejected the rule between the representatives or the equality of all terms of the two classes follows from the prior and the returned rules.", "quantifier": "all workloads, priors, limits, schedules", "why_tests_cant": "End-to-end, all workloads and all schedules of egg; which rules are kept depends on the selection rounds, and what follows from the kept rules is a statement about all algebras.", "anchors": ["src/recipe_utils.rs: run_workload, run_workload_internal"]}
{"id": "C52", "title": "Recursive rule inference accumulates", "statement": "`recursive_rules` with n>=1 returns a ruleset containing the prior; all others passed the validator; n=0 returns the empty ruleset.", "quantifier": "all n, languages, priors, schedules", "why_tests_cant": "Recursion.", "anchors": ["src/recipe_utils.rs: recursive_rules"]}
{"id": "C53", "title": "Fast-forwarding returns only allowed rules", "statement": "`run_fast_forwarding` returns only rules over allowed operators that follow equationally from the prior and exploratory rules, and not in the prior.", "quantifier": "all workloads, priors, limits, schedules", "why_tests_cant": "All runs.", "anchors": ["src/recipe_utils.rs: run_fast_forwarding"]}
{"id": "C54", "title": "Result log is append-only", "statement": "Every successful logging call preserves all earlier rows and appends its own; a crash between truncation and completion of the write may lose them.", "quantifier": "all histories of calls and crash points", "why_tests_cant": "Crash points and histories.", "anchors": ["src/logger.rs: add_json_to_file"]}
{"id": "C55", "title": "Representatives are cheapest terms", "statement": "The extraction used to pick representatives ends for every e-graph, and for every class of an e-graph that arises in a run it returns a term of that class, with its cost, such that no term of the class costs less; with the cost function that penalises disallowed operators it returns a term over allowed operators whenever the class has one.", "quantifier": "all e-graphs that arise in a run, all classes, all visiting orders", "why_tests_cant": "Cyclic e-graphs have infinitely many represented terms; minimality and termination are statements about all of them and all hash orders.", "anchors": ["src/lib.rs: ExtractableAstSize", "src/enumo/ruleset.rs: cvec_match, fast_cvec_match, extract_candidates"]}
{"id": "C56", "title": "Schedulers keep their iteration limits", "statement": "`Scheduler::Simple` takes at most `limits.iter` iterations, each of which applies only rules of the given ruleset to matches found at its beginning. `Scheduler::Saturating` applies the rules not classified as saturating in at most `limits.iter` iterations and uses only saturating rules in all others. `Scheduler::Compress` unites exactly the classes that a Simple run within the limit unites.", "quantifier": "all e-graphs, rulesets, limits and choices of egg", "why_tests_cant": "Quantifies over all rulesets and all ways a run can be cut short.", "anchors": ["src/enumo/scheduler.rs: run_internal"]}
{"id": "C57", "title": "Rule lifting by chains of fast-forwarding runs is sound; rules for positive numbers", "statement": "A recipe that calls run_fast_forwarding repeatedly, each time with everything found so far as prior, only ever collects rules that hold in every algebra in which the initial prior and the exploratory rules hold and constant folding is correct; rules it adds use allowed operators only. In the Pos domain the exploratory rules and the natural-number rules hold for all naturals (XH = 1, XO n = 2n, XI n = 2n+1), mk_constant(n) builds a term of value n, so every rule any such recipe returns is true for all naturals and the new ones do not mention Z or S.", "quantifier": "all domains and algebras, all workloads, limits, numbers of steps and choices made by egg in each run; all naturals", "why_tests_cant": "tests/pos.rs runs one recipe with one set of limits and only counts rules; that no reachable recipe collects a false rule quantifies over all workloads, limits, match orders and numbers.", "anchors": ["tests/pos.rs:11-103", "tests/pos.rs:132-221", "src/recipe_utils.rs:100-142"]}
{"id": "C58", "title": "Two-bit vector rules lifted from Boolean rules are true", "statement": "In the BvBool domain, starting from any prior of well-sorted rules true of Booleans and two-bit vectors, every rule collected by any chain of fast-forwarding runs is true of all Booleans/two-bit vectors under every sorting that makes it well-sorted (in particular rules over and/or/xor/not/numbers hold for all two-bit vectors); the exploratory rules are true, and the constant that custom_modify builds from two Boolean constants is the vector with exactly these bits (first is the upper one).", "quantifier": "all priors, workloads, limits, numbers of steps and choices made by egg; all vectors", "why_tests_cant": "tests/bv-bool.rs has no tests at all; soundness of unioning variables with (bv (first x) (second x)), of def-bv and of constant folding under every interleaving with rewriting is a statement about all runs.", "anchors": ["tests/bv-bool.rs:8-64", "tests/bv-bool.rs:88-151", "src/recipe_utils.rs:100-142"]}
{"id": "C59", "title": "Rules lifted to trigonometric functions are true, provided the rules to start from are", "statement": "In tests/trig.rs the exploratory rules and `prior_rules` hold for all complex numbers; every line of scripts/oopsla21/trig/complex.rules holds wherever both its sides are defined, and (with 0 for quotients by zero) holds totally except for exactly four lines. Constant folding computes exact fractions and writes them so that they are read back, in lowest terms, with decimal digits and a minus sign only for negative numbers. Any chain of fast-forwarding runs from rules that hold totally yields only rules that hold totally and (apart from the initial ones) use no `cis`, `I`, `sqr`. The recipe's own prior violates the condition: only a one-element algebra satisfies all its lines, and a run with these lines can yield `1 ==> 0`.", "quantifier": "for all complex values of the variables, all rules of the tables, all workloads, limits, numbers of runs, e-graph contents and choices of the runs; for all algebras in the inconsistency claim", "why_tests_cant": "The domain has no evaluator and its `validate` accepts everything, so no test ever evaluates a trigonometric rule; identities over the complex numbers cannot be checked by sampling with fractions, and the contradiction in the prior only shows for particular workloads.", "anchors": ["tests/trig.rs:104-114", "tests/trig.rs:154-190", "tests/trig.rs:229-312", "tests/trig.rs:328-350", "tests/recipes/trig.rs:9-160", "scripts/oopsla21/trig/complex.rules:1-57", "src/recipe_utils.rs:100-142"]}
{"id": "C60", "title": "Rules lifted to exponentials, logarithms and roots hold for positive numbers, provided the rules to start from hold for all numbers", "statement": "In tests/exponential.rs every rule of the three tables holds for real numbers wherever both sides are defined, and for total functions every rule but `(exp (log ?a)) ==> ?a` holds for all numbers. `initialize_vars` equates a variable with `(exp (log x))`, which is right if and only if its value is positive. One fast-forwarding run from rules that hold for all numbers therefore yields only rules that hold for positive values of their variables. The recipe's own prior violates the condition: only a one-element algebra satisfies all lines of `rational_rules` and `starting_exponential_rules`, and a run with some of these lines can yield `(exp ?a) ==> 0`.", "quantifier": "for all real values of the variables, all rules of the tables, all workloads, limits, e-graph contents and choices of the run; for all algebras in the inconsistency claim", "why_tests_cant": "The domain has no evaluator (`eval` yields empty vectors) and `validate` accepts every rule, so no test evaluates one; the contradiction shows only for workloads that mention `(log 0)`, or a term that some rules make equal to it.", "anchors": ["tests/exponential.rs:45-66", "tests/exponential.rs:89-121", "tests/exponential.rs:123-136", "tests/exponential.rs:138-283", "tests/recipes/exponential.rs:13-19", "src/recipe_utils.rs:100-142"]}
{"id": "C61", "title": "Rules for solids found by lowering to functions on space never change a solid", "statement": "In tests/szalinski.rs the two sides of every prior rule and every exploratory rule describe the same partial function of the coordinates, defined at the same points; boxes, cylinders and balls with positive measures are lowered to functions that are non-negative exactly on the shape. Every chain of `run_fast_forwarding` calls from (some of) these rules, as in `rule_lifting`, yields only rules whose two sides describe the same function whenever they describe functions, and a rule that is not among the prior ones mentions no coordinate, substitution, `Scalar`, `max` or `min`. The nine bidirectional rules the test expects are true.", "quantifier": "for all functions and operators the variables stand for, all points, all measures, all workloads, limits, e-graph contents and choices of the runs, any number of runs", "why_tests_cant": "The domain has no evaluator (`eval` yields empty vectors) and `validate` accepts every rule, so nothing in the program checks a rule; the only test is ignored and checks that nine expected rules can be derived, not that the derived rules are true.", "anchors": ["tests/szalinski.rs:50-67", "tests/szalinski.rs:69-89", "tests/szalinski.rs:91-111", "tests/szalinski.rs:113-142", "tests/szalinski.rs:144-204", "tests/szalinski.rs:267-301", "src/recipe_utils.rs:100-142"]}
{"id": "C62", "title": "Conditional rules are exactly as right as the rules they come from, and runs with conditions lose nothing", "statement": "`add_condition` turns a rule `l ==> r` into `l ==> (if d r l)` exactly if `d` is the only expression that is a denominator on one side and not on the other, otherwise it yields nothing; it never panics on rules with bound variables. Without other `if`s the two sides of the result are the same partial function of the variables if and only if `l` and `r` are equal wherever both are defined (with `if`s this fails, but equality where defined is kept). Every rule `run_workload_conditional` returns is new, properly named, bound and was accepted by the validator, hence is true wherever both sides are defined if the solver is right; and every invalid candidate that gets a condition is covered: prior, returned, rejected as invalid, or discarded as equal under prior and returned rules.", "quantifier": "for all rules, all ordered fields and values of the variables, all workloads, priors, limits, solver answers and choices of the run", "why_tests_cant": "A test asks a solver or compares finitely many sample vectors for some candidates; that one guard is enough for definedness on both sides is a statement about all expressions and all values, including those where the guard itself is undefined.", "anchors": ["tests/rational.rs:239-259", "tests/rational.rs:261-312", "tests/rational.rs:373-437"]}
{"id": "C63", "title": "The characteristic vectors of an e-graph are the values of its terms", "statement": "Take the e-graph made from a workload and let it grow by adding terms over the same variables, by rebuilding, and by saturation with rules that hold in the domain, under any scheduler and with constant folding. Then in every class, position j of the class's vector agrees with the value of every term of the class under the assignment that the vectors of the variables hold at position j: for Booleans, natural numbers and bit vectors the entry is defined and equal to the value; for rationals and Halide expressions it is the value wherever it is defined. For Booleans two classes have the same vector if and only if their formulas are equivalent. Merging the data of two classes whose terms are equal never fails with \"cvecs do not match\".", "quantifier": "for all workloads, variables, positions, assignments, histories of additions, rebuilds and runs, all sound rulesets and all choices of egg", "why_tests_cant": "Vectors are computed once when a node is made and afterwards only merged, and a merge keeps one of two entries (or a whole vector if the other is empty), so an entry can come from any node that was ever in the class; a test sees some histories, the property is about all of them.", "anchors": ["src/language.rs:42-99", "src/enumo/workload.rs:59-95", "tests/bool.rs:21-95", "src/bv.rs:163-240", "tests/rational.rs:45-147", "tests/halide.rs:34-125", "tests/nat.rs:32-110"]}
{"id": "C64", "title": "Boolean synthesis is sound and complete up to the workload", "statement": "For the Boolean domain, whose validator accepts everything, every rule that `run_workload` or `recursive_rules` returns is a tautology, well-sorted and readable from its text, with fast or slow matching and for every behaviour of egg, if the prior rules are tautologies. Any two formulas represented in the compressed e-graph (in particular all formulas of the workload) that are logically equivalent, and whose classes have representatives with comparable variables, are equal in every algebra in which the prior and the returned rules hold and constants are folded rightly.", "quantifier": "for all workloads, priors of tautologies, limits, both matching modes, all egg behaviours, all levels of recursion, all algebras", "why_tests_cant": "Nothing checks the rules that the Boolean domain returns (its validator says yes to everything), so soundness rests on vectors being complete truth tables through every merge; the tests compare numbers of rules with a saved run.", "anchors": ["src/recipe_utils.rs:29-89", "src/recipe_utils.rs:166-203", "tests/bool.rs:21-120", "src/enumo/ruleset.rs: fast_cvec_match, cvec_match, minimize"]}
{"id": "C65", "title": "Synthesis runs of the solver-backed domains return well-formed theorems, and lose nothing", "statement": "For every domain whose parser checks arity, whose operators can be read back and whose constant folding makes well-sorted terms, each rule returned by `run_workload` or `recursive_rules` is well-sorted, contains only pattern variables and operators, is equal to what its text parses to, was accepted by the validator and is not named in the prior. If z3 is right when it says unsat, then over natural numbers, bit vectors of up to 64 bits and Halide integers (solver division) every returned rule holds for all values, and over rationals both sides agree wherever both are defined; without divisions in conditions they are the same partial function, and without `if` and with the same variables on both sides they hold for undefined values too. If the validator accepts every rule that holds, then (natural numbers, bit vectors) two terms of the workload that are equal for all values, in classes whose representatives have comparable variables, are equal in every algebra of the prior and returned rules. Rational rules accepted one by one can however contradict each other.", "quantifier": "for all workloads, well-sorted priors, limits, both matching modes, all egg behaviours, all sound solvers, all levels of recursion, all values of the variables and all algebras", "why_tests_cant": "Tests compare the number of rules with a stored run; whether each rule of every possible run is a theorem, and whether an equality of the workload was lost on the way through compression, matching and selection, depends on unboundedly many workloads, solver answers and hash orders.", "anchors": ["src/recipe_utils.rs:29-89", "src/recipe_utils.rs:166-203", "src/enumo/rule.rs:137-139", "src/bv.rs:242-281", "tests/nat.rs", "tests/halide.rs:126-200", "tests/rational.rs:148-213"]}
{"id": "C66", "title": "Recipes explore exactly the terms they describe", "statement": "Level n of `recursive_rules` is built without a panic and lists, each once, exactly the terms over the given values, variables and operators that have a variable and whose metric (atoms, depth or list length) is at most n, provided the language has two or three lists of operators, no text is a hole name and all words are atoms. The hand-written workloads of the recipes list exactly what their comments and names say: all canonical Boolean or 4-bit terms without constants up to a size (hence each such term up to renaming of variables), nested Halide operators, selections, one or two layers of rational operators and quotients of factors, one or two layers of exponential operators without doubled `exp` or `log`, and the named sums, products, squares and halves of trigonometric functions. Every term of every workload of every recipe can be read in its domain's language, so no recipe panics on its own terms. With one list of operators unfilled holes remain, a fourth list is never used, and the misspelt hole of `log_rules` in the exponential recipe removes all products from its workload.", "quantifier": "for all languages, metrics, levels and sizes; for all terms of the named workloads", "why_tests_cant": "Tests look at the number of rules found by one run of one recipe; a term that was never listed, or a hole that was never filled, leaves no trace in that number, and the claim is about all terms of a size and about all languages a user may give.", "anchors": ["src/recipe_utils.rs:144-203", "src/enumo/workload.rs:23-33", "src/enumo/workload.rs:99-126", "tests/recipes/bool.rs", "tests/recipes/bv4_fancy.rs", "tests/recipes/halide.rs", "tests/recipes/rational_best.rs", "tests/recipes/exponential.rs:35-80", "tests/recipes/trig.rs:12-130"]}
{"id": "C67", "title": "Every rule a recipe returns holds", "statement": "For the Boolean, bit-vector, Halide and rational recipes: if the recipe finishes, then every rule in the ruleset it returns holds for all values of its variables (all truth values, all words of the width, all integers, all elements of an ordered field), provided z3 is right when it answers unsat; the rules are well-sorted, can be read back from their text and have distinct names. A rule contains only operators that occur in the workload, in the prior rules or in constants: Boolean rules have no implication, bit-vector rules no exclusive or, Halide rules no division (so they hold both for z3's integers and for the evaluator of the domain), and rules of the rational replication recipe no conditional. Hence the two sides of every rational rule, the conditional ones of the second recipe included, are the same partial function: they are defined for the same arguments and equal there; and the rules the second recipe adds have sides that are defined everywhere.", "quantifier": "for all sizes, all choices of egg (order of classes, extraction, limits, stop reasons), all orders of scoring and all solvers that are right when they say unsat", "why_tests_cant": "The tests of the recipes count rules and check derivability against stored rulesets; they never evaluate the rules, and no finite set of values shows that a rule holds for all of them, nor that no choice of egg lets an unsound or partially defined rule through.", "anchors": ["tests/recipes/bool.rs", "tests/recipes/bv32.rs", "tests/recipes/bv4_base.rs", "tests/recipes/bv4_fancy.rs", "tests/recipes/halide.rs", "tests/recipes/rational_replicate.rs", "tests/recipes/rational_best.rs", "src/recipe_utils.rs:9-142"]}
{"id": "C68", "title": "Inference over sound domains never panics", "statement": "Take a domain whose analysis is correct and total (Booleans, naturals, bit vectors of up to 64 bits). Building the e-graph of a workload of readable terms with at least one and at most 26 variables does not panic; afterwards adding terms, rebuilding and running any ruleset of rules that hold, under any scheduler, never panics, whatever was done before and whatever egg chooses. Neither do `can_derive`, `derive`, `is_saturating` and `minimize` with a validator that accepts only rules that hold. Hence `run_workload` and `recursive_rules`, from prior rules that hold, never get stuck: however far a run has come, whatever classes, matches, merges and extractions egg has chosen, it can be continued to its end, and the result again consists of rules that hold. The only exceptions are the explicit assertion of `recursive_rules` that a level of three or more atoms yields rules, and workloads without any variable, which panic in the product domains.", "quantifier": "for all workloads, prior rulesets that hold, sizes, schedulers, limits, traces of egg's choices and solvers that are right when they say unsat", "why_tests_cant": "A panic in `merge` (characteristic vectors that do not match, intervals that do not intersect), in an evaluator or in rule construction depends on the order in which egg merges classes and on rules found half an hour into a run; tests see one order on one workload.", "anchors": ["src/recipe_utils.rs:9-203", "src/language.rs:42-160", "src/language.rs:254-274", "src/enumo/ruleset.rs:138-480", "src/enumo/workload.rs:59-92", "src/enumo/scheduler.rs:26-165", "src/enumo/rule.rs:76-165"]}
{"id": "C69", "title": "Halide inference never panics", "statement": "A synthesis run of `run_workload` over the Halide language with one to 26 variables, from prior rules that hold for all integers and with a solver that is right when it says unsat, never panics. This holds for terms without negation and division (and prior rules without them). With negation it does not: the workload `(+ x (- -9223372036854775808))` overflows when its e-graph is built. With division it does not either: a rule that holds for the solver's division, `(< (- ?a (* 2 (/ ?a 2))) 0) ==> 0`, unites classes whose samples were computed with truncating division and differ, so `merge` panics.", "quantifier": "for all workloads without negation and division, prior rulesets, limits, traces of egg's choices and solvers that are right when they say unsat; the two panics are concrete", "why_tests_cant": "The overflow and the mismatch need particular literals and samples; that nothing else can panic is a statement about all terms, samples and orders of merging.", "anchors": ["tests/halide.rs:20-140", "src/language.rs:77-131", "src/recipe_utils.rs:9-88"]}
{"id": "C70", "title": "The Boolean recipe finds all equations up to its size", "statement": "After `recursive_rules` over the Boolean language with any variables up to size n (at least 3), every valid equation between two formulas with at most n operators, constants and variables can be proved from the returned rules and constant folding by replacing equals by equals, and no other equation can. The same holds for `bool_rules` with size 5 and the variables a, b, c. If `recursive_rules` instead panics because a level found no rule, all valid equations between formulas of that level already follow from the rules of the lower levels. This needs an extractor that returns smallest terms (the recipes use `AstSize`): rules are only proposed between representatives with comparable variables, and a smallest representative has no superfluous variable.", "quantifier": "for all variable names, sizes, prior rulesets of tautologies, orders of classes, choices of egg and of the rules' ranking; for all pairs of formulas of the size", "why_tests_cant": "The number of equations grows exponentially with the size and which rules are returned depends on hash order; tests compare against one reference ruleset under resource limits.", "anchors": ["tests/recipes/bool.rs:7-41", "src/recipe_utils.rs:29-67", "src/recipe_utils.rs:166-198", "src/enumo/ruleset.rs:331-356", "src/enumo/ruleset.rs:426-470"]}
{"id": "C71", "title": "Recipes return exactly the rules that their runs found", "statement": "A fast-forwarding recipe (`trig_rules`, `make_rules` of the exponential domain) makes one run per workload, in order. The prior of each run is the initial ruleset followed by everything the earlier runs found; the result is the starting ruleset followed by all rules found, in this order, with nothing lost, overwritten or added. Every rule found was accepted by the validator of its run, has only allowed operators on both sides (so no `cis`, `I` and `sqr` for trigonometry), has the name that its sides give it, and this name is not that of any rule known before. `trig_rules` returns none of the rules of complex.rules and of its `prior_rules`. `bool_rules`, `bv4_fancy_rules` and `halide_rules` return the union of the rules of all their searches and runs, each of which knows those found before it; only the last two runs of `halide_rules` know just the rules of `rat_only`.", "quantifier": "for all exploratory rules, limits, choices of egg, validators and numbers of runs", "why_tests_cant": "The recipes take hours and the tests look at the number of rules and a few expected ones; a run whose rules are dropped, or that does not know the earlier rules, gives a ruleset that looks plausible.", "anchors": ["tests/recipes/trig.rs:54-74", "tests/recipes/trig.rs:136-159", "tests/recipes/exponential.rs:148-187", "tests/recipes/bool.rs:7-41", "tests/recipes/bv4_fancy.rs:8-43", "tests/recipes/halide.rs:9-141", "src/recipe_utils.rs:29-142"]}
{"id": "C72", "title": "The Boolean and bit-vector recipes do not panic except by the assertion that a run found rules", "statement": "`bool_rules`, `bv4_rules`, `bv32_rules` and `bv4_fancy_rules` read all terms of their workloads, never merge two different constants, never index outside a vector of samples and never meet a class without data. When the rebuilds of egg go on long enough the recipe returns, or a level of its search of three or more atoms, or its run on canonical terms, found no rule; then `run_workload` panics on purpose. For bit vectors this needs a solver that is right when it answers unsatisfiable.", "quantifier": "for all orders of classes, choices of matches, scores, extractions that return members of the class, validator answers and (Boolean recipe) sizes of the two runs", "why_tests_cant": "A test of a recipe takes minutes and follows one schedule of egg; panics in the analysis depend on which classes are merged and in which order.", "anchors": ["tests/recipes/bool.rs:7-41", "tests/recipes/bv4_base.rs:8-19", "tests/recipes/bv32.rs:1-18", "tests/recipes/bv4_fancy.rs:8-43", "src/recipe_utils.rs:29-67", "src/recipe_utils.rs:166-203", "src/language.rs:42-160"]}
{"id": "C73", "title": "The Boolean recipe is complete for all Boolean formulas", "statement": "An equation between two formulas over negation, conjunction, disjunction, exclusive or, constants and variables, of any size and with any number of variables, can be proved from the rules that `bool_rules` returns and constant folding, by replacing equals by equals, iff it is valid. This already holds for the rules of the search (five atoms, variables a, b, c): every instance of every rule found by the second run (canonical formulas of seven atoms) can be proved from them, so that run only makes proofs shorter. It holds as well for `recursive_rules` with any prior tautologies, variables that include a, b, c and size at least five.", "quantifier": "for all formulas; for all choices of egg, orders, rankings, prior rulesets; for all sizes of the search of at least five; extraction returns smallest terms", "why_tests_cant": "There are infinitely many formulas; tests compare the derived rules with one reference ruleset under limits on the number of iterations.", "anchors": ["tests/recipes/bool.rs:7-41", "src/recipe_utils.rs:166-198", "src/recipe_utils.rs:29-67", "src/enumo/ruleset.rs:331-356"]}
{"id": "C74", "title": "Found rules are not larger than the terms of the workload", "statement": "If extraction returns smallest terms and the domain adds nothing but constants that are single nodes (Boolean, bit-vector, rational, Halide), then a run on terms with at most n operators, constants and variables finds only rules whose sides have at most n operators, constants and variables, although the candidates are made from an e-graph that was first rewritten with the prior rules. So every rule of `recursive_rules` up to size n (counted in atoms) has at most n atoms on either side or was given as a prior rule; the rules of `bool_rules` have at most 7 atoms, those of `bv4_rules` and `bv32_rules` at most 5, those of `bv4_fancy_rules` at most 6.", "quantifier": "for all workloads, sizes, prior rulesets and limits; for all choices of egg, orders, rankings and validators", "why_tests_cant": "Rewriting the e-graph with prior rules could make terms of any size; tests only see the rules of particular runs.", "anchors": ["src/recipe_utils.rs:29-67", "src/recipe_utils.rs:166-198", "src/enumo/ruleset.rs:331-356", "src/enumo/scheduler.rs:46-70", "src/language.rs:88-128"]}
{"id": "C75", "title": "The assertion of recursive_rules cannot fail in the Boolean search up to size five", "statement": "`recursive_rules` asserts from size three on that every level finds a rule. Over the Boolean language with at least two variables and without prior rules this assertion holds at every level up to five, whatever egg, the orders and the ranking of rules do: the valid equations of three, four and five atoms never all follow from valid rules with fewer atoms. So the search of `bool_rules` returns (when rebuilds go on long enough), and `bool_rules` itself can only panic because its last run (canonical terms of seven atoms) finds no rule.", "quantifier": "for all choices of egg, orders of classes, rankings and resource limits reached; for all sets of at least two variables; extraction returns smallest terms", "why_tests_cant": "Which rules a level selects depends on egg's iteration limits and time limits and on hash orders; a test run shows that the assertion held once.", "anchors": ["src/recipe_utils.rs:166-198", "src/recipe_utils.rs:29-67", "tests/recipes/bool.rs:7-41"]}
{"id": "C76", "title": "The rows of the result tables say what was computed", "statement": "`write_baseline`, `write_bv_derivability` and `write_ff_phase` append one row and keep the earlier ones. Read back by its keys, the row has the names, times and rule texts it was given, in their order; the number of lines of the recipe (line breaks, plus one for an unfinished last line) or a dash if it cannot be read; the right word for the schedule of each phase. For each direction and each way to derive, the texts under \"can\" and \"cannot\" are together exactly the rules that were to be derived, each once, those under \"can\" being the ones for which the deriving rules found the equation; only Herbie's rules against the two rational recipes are left out. A rule listed under \"can\" holds in every model of the deriving rules. In the bit-vector table the ported rules are exactly those the validation accepts.", "quantifier": "for all rulesets with rules of any domain, names, times, logs and recipe files, and all choices of egg and of the parallel iterator", "why_tests_cant": "The code that writes the tables has no tests; a swap of two directions or of the two lists would give rows that look plausible.", "anchors": ["src/logger.rs:51-105", "src/logger.rs:115-157", "src/logger.rs:165-202", "src/util.rs:67-74", "src/lib.rs:158-167"]}
{"id": "C77", "title": "Rules for four bits are ported to other widths unchanged, and only correct ones are compared", "statement": "Reading the texts of rules of width M at width N (M at most N, N at most 128) never panics and gives the same rules in the same order, with the literals keeping their numbers. Validation afterwards is needed: `(>> ?a 4) ==> 0` holds for four bits and for no larger width. For widths 4 to 64, if z3 is right when it answers unsat, the comparison lists exactly the ported rules that validation accepts, and they and all directly generated rules hold for all words of the width; at width 128 this holds for the ported rules and for the generated rules without literals of 2^64 or more.", "quantifier": "for all rulesets found for four bits, all widths, all runs of both searches and all correct solvers", "why_tests_cant": "Whether porting keeps the meaning of a rule depends on every literal and width; the comparison runs for hours and is only done once per width.", "anchors": ["tests/bv8.rs:25-75", "tests/bv16.rs:65-75", "tests/bv64.rs:65-75", "src/enumo/ruleset.rs:66-86", "src/logger.rs:115-157", "src/bv.rs:242-281", "tests/bv128.rs:22-74"]}
{"id": "C78", "title": "Lifted rules for maximum and minimum hold in every ordered set, unless cases are reordered", "statement": "Whatever chain of fast-forwarding runs is made with the rules of tests/maxmin.rs, a resulting rule that is not in the prior is between terms of maximum, minimum, cheat and variables, and it holds in every linearly ordered set. The code violates the second part: every equation between any two terms follows from its prior, because two cases may be exchanged although the first true one is chosen. It is true if the prior consists of lines that are right for such a choice.", "quantifier": "for all workloads, limits, chains of runs, extractions and orders of matches, and all linearly ordered sets", "why_tests_cant": "The tests only print what is found; whether a prior proves false equations depends on all its consequences.", "anchors": ["tests/maxmin.rs:32-128", "tests/maxmin.rs:396-413", "tests/maxmin.rs:505-537", "src/recipe_utils.rs:100-142"]}
{"id": "C79", "title": "A saturated run answers every equation that rewriting can prove", "statement": "If applying any rule to any of its matches in the final e-graph neither adds nor unites a class, then looking up a term and anything it can be rewritten to gives the same class. Hence can_derive answers yes whenever the left side can be rewritten to the right side (or, when both are inserted, both to a common term), and shrink keeps no candidate whose sides can be rewritten to a common term. For domains without constant folding and rules that can be read in both directions, can_derive answers yes, and shrink removes, exactly the provable equations.", "quantifier": "for all domains, rulesets, rules, schedulers, limits and choices of egg whose run ends saturated, and all terms and rewriting sequences of any length", "why_tests_cant": "Tests check that particular equations are derived; that no derivable equation is missed ranges over unboundedly many proofs.", "anchors": ["src/enumo/ruleset.rs:394-424", "src/enumo/ruleset.rs:447-474", "src/enumo/rule.rs:76-99", "src/enumo/scheduler.rs:37-147"]}
{"id": "C80", "title": "What minimize returns is not redundant", "statement": "If running the chosen rules saturates in every round, minimize returns its rules in rounds (each a rule and possibly its reversal) such that the sides of a rule cannot be rewritten to a common term by the prior rules and the rules of earlier rounds; where these can be read in both directions, the rule is not provable from them. (False for the first round: candidates are not compared with the prior rules before the first selection.)", "quantifier": "for all domains without constant folding (for the simple scheduler all domains), candidate and prior rulesets, validators, scores, limits and choices of egg whose rounds saturate, any number of rounds", "why_tests_cant": "Tests compare the number of rules with recorded numbers; that none of them follows from the others ranges over all proofs.", "anchors": ["src/enumo/ruleset.rs:358-391", "src/enumo/ruleset.rs:393-439"]}
{"id": "C81", "title": "Rational inference does not panic", "statement": "A synthesis run over rational terms with identities as prior rules comes to an end, if z3 is right when it says unsatisfiable: for terms without negation, absolute value and division; and with division but without conditionals if rules must have the same variables on both sides. (False in general: four accepted rules together make merge panic, and negation of the least number overflows.)", "quantifier": "for all workloads of such terms, prior rules, solvers that are sound, limits, schedulers' choices, arithmetic that is exact or fails", "why_tests_cant": "Tests run one recipe; that no merge ever meets different samples ranges over all reachable e-graphs and all accepted rules.", "anchors": ["tests/rational.rs:43-127", "tests/rational.rs:129-205", "src/language.rs:60-131", "src/recipe_utils.rs:29-72"]}
{"id": "C82", "title": "The saturating phase ends", "statement": "Running only rules that is_saturating accepts comes to an end by itself: there is a bound, computable from the number of ids and the arities of the right sides, on the number of iterations that change the e-graph, and when all matches are applied the e-graph is saturated after that many iterations. Scheduler::Saturating relies on this: it runs these rules without iteration and node limit. (False with constant folding: a sound Boolean rule is classified as saturating and adds a class in every iteration.)", "quantifier": "for all e-graphs without samples, all lists of rules classified as saturating, all choices and orders of matches and all rebuild orders", "why_tests_cant": "A test sees finitely many runs end; that no run of any length goes on changing the e-graph needs an argument about all runs, and the failing case never ends.", "anchors": ["src/enumo/scheduler.rs:84-121", "src/enumo/rule.rs:117-134", "src/enumo/ruleset.rs:441-475"]}
{"id": "C83", "title": "What print_derive reports", "statement": "`Ruleset::print_derive` prints the sizes of the two files' rulesets, how many rules of the second can be derived from the first and how many cannot (these add up to the size of the second), and lines which read back as a ruleset give exactly the rules that cannot be derived. A rule of the second file that is not listed holds wherever the first file's rules hold.", "quantifier": "for all pairs of files, derivation types, schedulers' choices and orders of the parallel partition; soundness for all domains with sound constant folding and all interpretations", "why_tests_cant": "The function only prints; nothing compares the listing with the files, and soundness of what is not listed ranges over all rulesets and all e-graph runs.", "anchors": ["src/enumo/ruleset.rs:481-496", "src/enumo/ruleset.rs:190-223", "src/enumo/ruleset.rs:441-475"]}
{"id": "C84", "title": "SymbolLang: derivation over uninterpreted symbols", "statement": "For egg's SymbolLang, which the library makes a SynthLanguage for domain-agnostic use: a rule that can be derived holds in every interpretation of the symbols in which the ruleset holds; no rule is ever learnt (minimize returns no rules, because validate rejects all); and no workload can be made into an e-graph (initialize_vars is todo!()). (The first is false if a constant symbol is named like a variable of the rule: `(f ?a) ==> (f a)` is derived from the empty ruleset.)", "quantifier": "for all rulesets, rules, derive types, limits, schedulers' choices, interpretations; all candidates; all workloads", "why_tests_cant": "Soundness ranges over all interpretations of the symbols and all runs.", "anchors": ["src/lib.rs:169-210", "src/enumo/ruleset.rs:441-475", "src/enumo/workload.rs:57-91"]}
{"id": "C85", "title": "Fast-forwarding never panics", "statement": "`run_fast_forwarding` does not panic, whatever egg has chosen on the way, if the analysis of the domain is correct and total and the prior and exploratory rules hold; the rules found hold again, whatever the validator accepts. In the domains without samples and intervals, whose hook adds nothing but missing constants (exponentials, constructive solid geometry, binary numbers, maximum and minimum, two-bit vectors of Booleans), it does not panic even if the rules are wrong: it is enough that the right-hand sides have no free variables and that workload and rules together mention at most 26 variables of the language; the rules found again have this form and mention no variable of the language. Neither does deriving rules there. Hence a chain of such runs, each from all rules known so far, with the tables of tests/pos.rs, tests/szalinski.rs, tests/maxmin.rs and tests/bv-bool.rs, does not panic, and neither does `make_rules` of tests/recipes/exponential.rs.", "quantifier": "for all workloads, rulesets, subsets of the tables, validators, limits, traces of egg's choices", "why_tests_cant": "A panic in extraction, generalisation or merging depends on egg's choices and on the rules found in earlier runs; the exponential recipe is a run of hours.", "anchors": ["src/recipe_utils.rs:100-142", "src/enumo/ruleset.rs:233-275", "src/enumo/ruleset.rs:447-479", "tests/recipes/exponential.rs:148-170", "tests/pos.rs", "tests/szalinski.rs", "tests/maxmin.rs", "tests/bv-bool.rs:45-64,117-151"]}
{"id": "C86", "title": "Plugs into different holes do not interfere", "statement": "For workloads without empty lists: plugging a hole that no term mentions changes nothing, not even the order; plugs into two different holes can be exchanged if neither kind of pegs mentions the other hole; if the workload does not mention the second hole, that hole can be plugged in the pegs instead of in the result; plugging the same hole again changes nothing if the pegs did not mention it; plugging distributes over appending. In all cases the same terms arise, equally often. More pegs give more terms. If pegs mention the other hole, the order matters.", "quantifier": "all workloads (any nesting of sets, plugs, filters, appends), pegs and hole names", "why_tests_cant": "Recipes plug variables, constants and operators in various orders and nestings; a test compares a few forced workloads, in the order in which they happen to be written.", "anchors": ["src/enumo/workload.rs:93-134", "src/enumo/workload.rs:136-165", "src/enumo/sexp.rs:89-101", "tests/recipes/trig.rs:18-70"]}
{"id": "C87", "title": "Fast-forwarding loses nothing", "statement": "If running the exploratory rules merges two classes of the compressed e-graph, or running all rules merges two classes of the explored one, and the terms extracted for the two classes are made of allowed operators and the variables of one occur in the other, then the validator rejected the rule between the two terms, or their equality follows from the prior and the returned rules alone: it is true in every algebra in which these hold (and constant folding is correct), whether or not the exploratory rules hold there. For classes of the compressed e-graph this is true of all their terms. In domains without analysis the equality is hence a consequence of prior and result in every algebra.", "quantifier": "all workloads, rulesets, validators, limits, traces of egg's choices, algebras", "why_tests_cant": "Whether a rule that was not returned can still be derived is a question about all algebras; a test compares counts or derives a few rules under limits.", "anchors": ["src/recipe_utils.rs:100-142", "src/enumo/ruleset.rs:233-275", "src/enumo/ruleset.rs:358-445"]}
{"id": "C88", "title": "What is found does not depend on the order of enumeration", "statement": "Up to the names of variables, the candidates of both ways of matching do not depend on the order in which egg enumerates classes (literally they do). If the validator gives the same verdict to rules that differ in the names of variables only, then runs of rule inference from the same compressed e-graph, and runs of fast-forwarding from the same e-graphs, that differ in the order of enumeration, the ranking of candidates, the limits, scheduler and behaviour of egg during selection, return rules that follow from each other and the prior: in every algebra in which the prior and the rules of one run hold (and constant folding is correct) those of the other hold. The rules of a run with fast matching follow from those of a run with slow matching.", "quantifier": "all e-graphs, orders, rankings, schedulers, limits, traces of egg's choices, algebras", "why_tests_cant": "Each test run fixes one hash order and one ranking; equivalence of two rulesets is a statement about all algebras.", "anchors": ["src/enumo/ruleset.rs:233-356", "src/enumo/ruleset.rs:358-445", "src/recipe_utils.rs:29-67", "src/recipe_utils.rs:100-142"]}
{"id": "C89", "title": "Lifting finds the equations that the translation shows", "statement": "If the exploratory rules saturate in a run of run_fast_forwarding and rewrite two allowed terms of the workload to a common term, then the equation of the two terms follows from the prior and the returned rules alone (it is true in every algebra in which they hold, although the exploratory rules need not hold there), unless the validator rejected a rule between the two representatives or each representative has a variable which the other has not. Representatives are allowed terms, no larger than the terms and equal to them by the prior rules. In a recipe of such runs, what is shown in any step follows from the rules that the whole recipe returns.", "quantifier": "all workloads, prior rulesets, choices of egg, algebras; two terms of the workload; domains without samples and intervals, in particular tests/pos.rs with its exploratory rules", "why_tests_cant": "The tests of rule lifting check a few expected rules for derivability; that no equation shown by the translation is lost concerns all pairs of terms of all workloads.", "anchors": ["src/recipe_utils.rs:100-142", "src/enumo/ruleset.rs:233-266", "tests/pos.rs:53-62"]}
{"id": "C90", "title": "Found rules are about the workload, and a larger workload loses none", "statement": "Given the prior rules, every rule that a run of run_workload returns says that two terms are equal which occur in the workload (or in constants that folding adds): it holds in an algebra with the prior rules exactly if the two terms agree there. If every term that occurs in one workload occurs in another, and the prior of the second run contains that of the first, then a rule found for the first follows from the prior and the rules of the second run (it holds in every algebra in which they hold), unless it is about a constant that does not occur in the second workload, or about two terms whose classes in the second run have representatives each with a variable the other has not.", "quantifier": "all workloads, prior rulesets, limits and choices of egg in the two runs, algebras; domains that add only constants and whose samples determine values, with a validator that accepts what holds; in particular Booleans and bit vectors", "why_tests_cant": "Tests compare the rules of fixed recipes; a test cannot compare all pairs of workloads, nor show that a rule follows in every algebra.", "anchors": ["src/recipe_utils.rs:29-88", "src/enumo/workload.rs:57-91", "src/enumo/ruleset.rs:267-445", "src/language.rs:132-147"]}
