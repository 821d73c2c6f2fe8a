{
 "claims": [
  {
   "property": "C01",
   "status": "proved",
   "theorems": [
    "Ruler.C01_filter_exact",
    "Ruler.C01_filter_exact_depthFree",
    "Ruler.C01_filter_agree",
    "Ruler.C01_filter_may_panic"
   ],
   "note": "Exact for literal sets without empty lists and for depth-free filters; in general whenever nothing panics. C01_filter_may_panic shows pushing a depth filter into pegs can panic where filtering the result would not."
  },
  {
   "property": "C02",
   "status": "proved",
   "theorems": [
    "Ruler.C02_monotonic"
   ],
   "note": "For every filter that is_monotonic reports monotonic, including conjunctions; also that testing a sub-term does not panic."
  },
  {
   "property": "C03",
   "status": "proved",
   "theorems": [
    "Ruler.C03_filter_twice",
    "Ruler.C03_conj"
   ],
   "note": "Filtering twice, and the fused filter on a single term (C03_conj); order and multiplicity are kept."
  },
  {
   "property": "C04",
   "status": "proved",
   "theorems": [
    "Ruler.C04_plug_fills",
    "Ruler.C04_plug_only_fills",
    "Ruler.C04_empty_list_vanishes"
   ],
   "note": "Terms without empty lists (C04_empty_list_vanishes: the empty list disappears under any plug); soundness half for arbitrary terms (C04_plug_only_fills)."
  },
  {
   "property": "C05",
   "status": "proved",
   "theorems": [
    "Ruler.C05_plug_count",
    "Ruler.C05_plug_nodup"
   ],
   "note": "Count for every workload of well-formed terms, and distinctness of the fillings."
  },
  {
   "property": "C06",
   "status": "partial",
   "theorems": [
    "Ruler.C06_empty_plug_partial",
    "Ruler.C06_not_for_wildcards"
   ],
   "note": "Holds for hole names that are literal atoms; C06_not_for_wildcards shows the code treats `*` and `?x` names as patterns and drops more terms."
  },
  {
   "property": "C07",
   "status": "proved",
   "theorems": [
    "Ruler.C07_append",
    "Ruler.C07_append_order",
    "Ruler.C07_append_reorders"
   ],
   "note": "C07_append_reorders: appending a non-append workload to an Append puts it last, so the order of the two operands is not preserved there (membership is)."
  },
  {
   "property": "C08",
   "status": "proved",
   "theorems": [
    "Ruler.C08_star_rejects_sums",
    "Ruler.C08_contains",
    "Ruler.C08_excludes",
    "Ruler.C08_no_panic"
   ],
   "note": "Against an independent relation: some sub-term is the image of the pattern under one substitution. C08_star_rejects_sums is a finding: * is the wildcard also in operator position."
  },
  {
   "property": "C09",
   "status": "proved",
   "theorems": [
    "Ruler.C09_canon_is_renaming",
    "Ruler.C09_canon_complete_invariant",
    "Ruler.C09_canon_idempotent",
    "Ruler.C09_canon_filter_unique",
    "Ruler.C09_needs_distinct"
   ],
   "note": "Needs distinct canonical symbols (C09_needs_distinct)."
  },
  {
   "property": "C10",
   "status": "proved",
   "theorems": [
    "Ruler.C10_atoms",
    "Ruler.C10_lists",
    "Ruler.C10_depth",
    "Ruler.C10_panic_iff",
    "Ruler.C10_mono",
    "Ruler.C10_strict"
   ],
   "note": "All three metrics, monotonicity under sub-terms, and exactly when measuring panics."
  },
  {
   "property": "C11",
   "status": "proved",
   "theorems": [
    "Ruler.C11_iter_metric",
    "Ruler.C11_hole_free",
    "Ruler.C11_zero"
   ],
   "note": "n = 0 returns the grammar itself (C11_zero)."
  },
  {
   "property": "C12",
   "status": "proved",
   "theorems": [
    "Ruler.C12_base_lang"
   ],
   "note": "For every number of operators, metric and bound; skeleton grammar as specification."
  },
  {
   "property": "C13",
   "status": "proved",
   "theorems": [
    "Ruler.C13_substitute",
    "Ruler.C13_substitute_mem"
   ],
   "note": "For every workload of well-formed terms; order as well as membership."
  },
  {
   "property": "C14",
   "status": "proved",
   "theorems": [
    "Ruler.C14_print_parse",
    "Ruler.C14_print_injective",
    "Ruler.C14_needs_plain"
   ],
   "note": "On characters; atoms must be printable words (C14_needs_plain). Double-quoted strings of the reader are not modelled."
  },
  {
   "property": "C15",
   "status": "proved",
   "theorems": [
    "Ruler.C15_file_roundtrip",
    "Ruler.C15_new",
    "Ruler.C15_plug_name"
   ],
   "note": "File text with newlines; C15_plug_name relates text-level and term-level plugging."
  },
  {
   "property": "C16",
   "status": "proved",
   "theorems": [
    "Ruler.C16_lookup",
    "Ruler.C16_unique",
    "Ruler.C16_members",
    "Ruler.C16_order",
    "Ruler.C16_removal_reorders"
   ],
   "note": "For every history of add, add_all, extend, remove, remove_all, union; refinement to the map algebra. C16_removal_reorders: removal is swap_remove and changes the order."
  },
  {
   "property": "C17",
   "status": "proved",
   "theorems": [
    "Ruler.C17_partition",
    "Ruler.C17_exactly_one"
   ],
   "note": "Every fork/join tree of the parallel iterator."
  },
  {
   "property": "C18",
   "status": "proved",
   "theorems": [
    "Ruler.C18_roundtrip",
    "Ruler.C18_both",
    "Ruler.C18_forward",
    "Ruler.C18_no_arrow",
    "Ruler.C18_unbound_panics",
    "Ruler.C18_needs_no_arrow"
   ],
   "note": "Needs rule texts without arrows inside operators (C18_needs_no_arrow). C18_unbound_panics: an unbound variable on the right panics instead of giving an error."
  },
  {
   "property": "C19",
   "status": "proved",
   "theorems": [
    "Ruler.C19_file_roundtrip",
    "Ruler.C19_texts_roundtrip",
    "Ruler.C19_load",
    "Ruler.C19_load_printed",
    "Ruler.C19_equality"
   ],
   "note": "Through text, files, and pretty_print."
  },
  {
   "property": "C20",
   "status": "proved",
   "theorems": [
    "Ruler.C20_exactly_one_line",
    "Ruler.C20_no_spurious_line",
    "Ruler.C20_count",
    "Ruler.C20_count_no_identity",
    "Ruler.C20_identity_differs"
   ],
   "note": "Exact relation of count and printed lines; C20_identity_differs: identity rules are counted as half a pair (finding)."
  },
  {
   "property": "C21",
   "status": "proved",
   "theorems": [
    "Ruler.C21_terminates",
    "Ruler.C21_bound_irrelevant",
    "Ruler.C21_panic_only"
   ],
   "note": "As many rounds as candidates suffice, for every scheduler, validator (which may change its mind) and choices of egg."
  },
  {
   "property": "C22",
   "status": "proved",
   "theorems": [
    "Ruler.C22_validated",
    "Ruler.C22_candidates",
    "Ruler.C22_invalid"
   ],
   "note": "The validator may answer differently when asked again. Rules that can be written as text are candidates themselves (C22_candidates)."
  },
  {
   "property": "C23",
   "status": "proved",
   "theorems": [
    "Ruler.C23_covered",
    "Ruler.C23_follows",
    "Ruler.C23_consequence"
   ],
   "note": "C23_covered accounts for every candidate; C23_follows and C23_consequence: what is dropped follows from prior and result. The clause `withheld together with its other direction' of the statement is not needed."
  },
  {
   "property": "C24",
   "status": "proved",
   "theorems": [
    "Ruler.C24_best",
    "Ruler.C24_order",
    "Ruler.C24_lexicographic",
    "Ruler.C24_components",
    "Ruler.C24_symmetric"
   ],
   "note": "C24_best about one call of select with the score and validator as parameters; C24_order, C24_lexicographic, C24_symmetric about score itself on flat patterns."
  },
  {
   "property": "C25",
   "status": "proved",
   "theorems": [
    "Ruler.C25_sound",
    "Ruler.C25_complete",
    "Ruler.C25_total",
    "Ruler.C25_no_overlap"
   ],
   "note": "Soundness, completeness and totality (26 variables). C25_no_overlap: the condition of the source comment that some sample is defined on both sides is not checked (finding)."
  },
  {
   "property": "C26",
   "status": "proved",
   "theorems": [
    "Ruler.C26_sound",
    "Ruler.C26_complete",
    "Ruler.C26_subset",
    "Ruler.C26_agree"
   ],
   "note": "Soundness, completeness, inclusion in C25, and equality where all samples are defined."
  },
  {
   "property": "C27",
   "status": "proved",
   "theorems": [
    "Ruler.C27_renames",
    "Ruler.C27_total",
    "Ruler.C27_valid",
    "Ruler.C27_added",
    "Ruler.C27_instantiate",
    "Ruler.C27_canonical"
   ],
   "note": "Trees; C27_total: exactly the pairs with at most 26 variables, otherwise the code panics."
  },
  {
   "property": "C28",
   "status": "proved",
   "theorems": [
    "Ruler.C28_bound",
    "Ruler.C28_named",
    "Ruler.C28_new"
   ],
   "note": "For every way to build rulesets through the API (Spec/Built.lean), including inference results."
  },
  {
   "property": "C29",
   "status": "proved",
   "theorems": [
    "Ruler.C29_class_value",
    "Ruler.C29_sound",
    "Ruler.C29_lookup",
    "Ruler.C29_noFold",
    "Ruler.C29_workload",
    "Ruler.C29_bool",
    "Ruler.C29_nat",
    "Ruler.C29_bv",
    "Ruler.C29_halide",
    "Ruler.C29_rational",
    "Ruler.C29_rational_undefined"
   ],
   "note": "C29_class_value, C29_sound, C29_lookup, C29_workload: for every history, schedule, trace of egg's choices and every algebra in which the rules hold and constant folding is correct (FoldsIn). C29_bool/nat/bv/halide/rational discharge FoldsIn for the domains of the repository, C29_noFold for all domains without folding. C29_rational_undefined is a finding: rules valid for numbers only merge terms that differ where a division is undefined. egg itself is a reference model (Model/EGraph.lean)."
  },
  {
   "property": "C30",
   "status": "proved",
   "theorems": [
    "Ruler.C30_grows",
    "Ruler.C30_lookup"
   ],
   "note": "For arbitrary rules (sound or not), every scheduler and history; C30_lookup states it through lookup_expr."
  },
  {
   "property": "C31",
   "status": "proved",
   "theorems": [
    "Ruler.C31_compress"
   ],
   "note": "Also that no id is added, for every history, schedule and iteration order of the hash map."
  },
  {
   "property": "C32",
   "status": "proved",
   "theorems": [
    "Ruler.C32_sound",
    "Ruler.C32_consequence",
    "Ruler.C32_bv",
    "Ruler.C32_bool",
    "Ruler.C32_nat",
    "Ruler.C32_needs_schematic"
   ],
   "note": "C32_sound for every algebra in which folding is correct; C32_consequence: equational consequence for domains without folding; instances for bit-vectors, Booleans, naturals. Rules are schematic (no language variables inside patterns), as ruler builds them; C32_needs_schematic shows that a rule read from a file that mentions a variable of the language is derived from nothing."
  },
  {
   "property": "C33",
   "status": "proved",
   "theorems": [
    "Ruler.C33_partition"
   ],
   "note": "Uses C17 for the parallel partition; a rule is in the first set iff its can_derive run answers yes."
  },
  {
   "property": "C34",
   "status": "proved",
   "theorems": [
    "Ruler.C34_sound",
    "Ruler.C34_consequence"
   ],
   "note": "For every scheduler and trace; removed candidates hold in every algebra in which the chosen rules hold."
  },
  {
   "property": "C35",
   "status": "partial",
   "theorems": [
    "Ruler.C35_classified",
    "Ruler.C35_saturating_partial",
    "Ruler.C35_folding",
    "Ruler.C35_undefined"
   ],
   "note": "C35_classified: what the classification means, without constant folding. C35_saturating_partial: applying such a rule to any match adds no class when samples are defined. Missing: domains with constant folding, where the claim is false (C35_folding gives a valid Boolean rule that is classified as saturating and adds a class). C35_undefined: samples must be defined."
  },
  {
   "property": "C36",
   "status": "proved",
   "theorems": [
    "Ruler.C36_sound",
    "Ruler.C36_complete",
    "Ruler.C36_valid"
   ],
   "note": "The terms must be those of an extractor for ExtractableAstSize (provided by C55_extractors). Adds completeness and validity."
  },
  {
   "property": "C37",
   "status": "proved",
   "theorems": [
    "Ruler.C37_join",
    "Ruler.C37_flags",
    "Ruler.C37_fails",
    "Ruler.C37_empty",
    "Ruler.C37_flags_inexact_on_empty",
    "Ruler.C37_lengths",
    "Ruler.C37_simplest"
   ],
   "note": "C37_join: the merged signature agrees with both inputs on every sample and interval bound, keeps the cheaper expression; C37_flags: the reported change flags are exact; C37_fails: merging panics exactly on a contradiction; C37_empty, C37_flags_inexact_on_empty, C37_lengths: behaviour with an empty vector or different lengths, where flags are not exact and samples may be lost (outside the property's hypothesis)."
  },
  {
   "property": "C38",
   "status": "proved",
   "theorems": [
    "Ruler.C38_simplest",
    "Ruler.C38_simplest_rep"
   ],
   "note": "Well-formed (the flat expression has a tree) and its value is the value of the class, in every algebra in which rules hold and folding is correct."
  },
  {
   "property": "C39",
   "status": "proved",
   "theorems": [
    "Ruler.C39_rejects",
    "Ruler.C39_stores"
   ],
   "note": "Interval::new over any linear order."
  },
  {
   "property": "C40",
   "status": "proved",
   "theorems": [
    "Ruler.C40_operations",
    "Ruler.C40_proper",
    "Ruler.C40_representation",
    "Ruler.C40_constants"
   ],
   "note": "All widths up to 128; also the constants ZERO, ALL_ONES, MIN, MAX."
  },
  {
   "property": "C41",
   "status": "proved",
   "theorems": [
    "Ruler.C41_shifts",
    "Ruler.C41_numbers"
   ],
   "note": "Both as SMT-LIB shifts and in numbers."
  },
  {
   "property": "C42",
   "status": "proved",
   "theorems": [
    "Ruler.C42_eval",
    "Ruler.C42_translation",
    "Ruler.C42_valid",
    "Ruler.C42_wide_literals",
    "Ruler.C42_cut",
    "Ruler.C42_wide_rejected"
   ],
   "note": "Evaluator for all widths up to 128; validator for widths up to 64, relative to a sound solver. For wider vectors literals are cut to 64 bits: C42_wide_literals proves that a correct solver then accepts a false rule. C42_cut says exactly what is accepted at every width: the rules that hold with literals reduced to 64 bits. C42_wide_rejected: a rule that holds at width 128 and is never accepted."
  },
  {
   "property": "C43",
   "status": "proved",
   "theorems": [
    "Ruler.C43_roundtrip",
    "Ruler.C43_decimal",
    "Ruler.C43_binary"
   ],
   "note": "Decimal and #b numerals, overflow, and the panic on malformed #b numerals."
  },
  {
   "property": "C44",
   "status": "proved",
   "theorems": [
    "Ruler.C44_shape",
    "Ruler.C44_positions",
    "Ruler.C44_exactly_once"
   ],
   "note": "Shape, coverage, and uniqueness for distinct samples."
  },
  {
   "property": "C45",
   "status": "proved",
   "theorems": [
    "Ruler.C45_samples",
    "Ruler.C45_iff"
   ],
   "note": "Bool samples cover every assignment; vectors equal iff formulas equal for all assignments."
  },
  {
   "property": "C46",
   "status": "proved",
   "theorems": [
    "Ruler.C46_bool_node",
    "Ruler.C46_bool_exact",
    "Ruler.C46_bool",
    "Ruler.C46_nat_node",
    "Ruler.C46_nat"
   ],
   "note": "Bool and Nat, per node and per expression; also that no interval construction panics. C46_bool_exact: the Boolean intervals are exact for each node."
  },
  {
   "property": "C47",
   "status": "proved",
   "theorems": [
    "Ruler.C47_valid",
    "Ruler.C47_fold",
    "Ruler.C47_eval"
   ],
   "note": "Relative to a sound solver; the validator quantifies over all integers, which is sound for naturals. Constant folding and evaluator included."
  },
  {
   "property": "C48",
   "status": "partial",
   "theorems": [
    "Ruler.C48_neg",
    "Ruler.C48_add",
    "Ruler.C48_mul",
    "Ruler.C48_recip",
    "Ruler.C48_abs_partial",
    "Ruler.C48_abs_wrong",
    "Ruler.C48_fold"
   ],
   "note": "Negation, addition, multiplication and reciprocal are proved sound; absolute value only for intervals without negative members (C48_abs_partial): C48_abs_wrong shows the helper panics or misses members otherwise. C48_fold covers mk_interval."
  },
  {
   "property": "C49",
   "status": "partial",
   "theorems": [
    "Ruler.C49_equal",
    "Ruler.C49_defined_partial",
    "Ruler.C49_condition_errors",
    "Ruler.C49_eval",
    "Ruler.C49_literals"
   ],
   "note": "Equality of values is proved in full (C49_equal), over every linearly ordered field and relative to a sound solver. Definedness agreement holds when no `if` condition divides (C49_defined_partial); C49_condition_errors is an accepted rule that violates it. C49_literals: translation panics exactly for literals that are not made of 32-bit integers."
  },
  {
   "property": "C50",
   "status": "partial",
   "theorems": [
    "Ruler.C50_eval",
    "Ruler.C50_translation",
    "Ruler.C50_agree_partial",
    "Ruler.C50_valid",
    "Ruler.C50_division_differs"
   ],
   "note": "Agreement holds for expressions without division (C50_agree_partial). With division it fails: the evaluator truncates, SMT-LIB division is Euclidean (C50_division_differs). C50_eval and C50_translation characterise both functions exactly, C50_valid states what acceptance means."
  },
  {
   "property": "C51",
   "status": "proved",
   "theorems": [
    "Ruler.C51_validated",
    "Ruler.C51_valid",
    "Ruler.C51_origin",
    "Ruler.C51_allow_empty",
    "Ruler.C51_empty",
    "Ruler.C51_complete"
   ],
   "note": "Over the model of run_workload with every choice of egg, hash order and validator behaviour; C51_origin relates the returned rules to the workload's e-graph; C51_valid for validators that are right about an algebra; C51_complete: matched classes with comparable representatives are equal in every algebra where prior and result hold, unless the validator rejected the rule (needs operators that print readably, OpsReadable, and a parser that checks arities, ParsesSorted)."
  },
  {
   "property": "C52",
   "status": "proved",
   "theorems": [
    "Ruler.C52_validated",
    "Ruler.C52_prior",
    "Ruler.C52_zero",
    "Ruler.C52_grows",
    "Ruler.C52_valid"
   ],
   "note": "All n; validated, contains the prior, monotone in n, n = 0 gives nothing (so the prior is dropped: finding)."
  },
  {
   "property": "C53",
   "status": "proved",
   "theorems": [
    "Ruler.C53_is_allowed",
    "Ruler.C53_allowed",
    "Ruler.C53_follows"
   ],
   "note": "Equational consequence as validity in every algebra in which the rules hold and folding is correct."
  },
  {
   "property": "C54",
   "status": "proved",
   "theorems": [
    "Ruler.C54_repeated_key",
    "Ruler.C54_numbers",
    "Ruler.C54_append",
    "Ruler.C54_history",
    "Ruler.C54_determined",
    "Ruler.C54_serial",
    "Ruler.C54_interrupted",
    "Ruler.C54_interruption_loses",
    "Ruler.C54_overlap_loses_row",
    "Ruler.C54_overlap_panics",
    "Ruler.C54_nesting_limit"
   ],
   "note": "serde_json is modelled on characters. Histories, interruptions after any step, overlapping calls; C54_interruption_loses, C54_overlap_loses_row, C54_overlap_panics, C54_nesting_limit are findings outside or at the edge of the statement. C54_numbers: the numbers that can be read are those of RFC 8259 (Numeral, a specification of its own); C54_repeated_key: the last of several equal keys is read."
  },
  {
   "property": "C55",
   "status": "proved",
   "theorems": [
    "Ruler.C55_terminates",
    "Ruler.C55_cheapest",
    "Ruler.C55_smallest",
    "Ruler.C55_allowed",
    "Ruler.C55_extractors"
   ],
   "note": "egg's Extractor as a reference model; cost functions AstSize and ExtractableAstSize; every visiting order."
  },
  {
   "property": "C56",
   "status": "proved",
   "theorems": [
    "Ruler.C56_simple",
    "Ruler.C56_saturating",
    "Ruler.C56_compress",
    "Ruler.C56_zero"
   ],
   "note": "Independent description of runs (`Spec.Iterates`, `Spec.Applies`): matches are those found before the iteration. C56_compress for domains without constant folding (uses C31)."
  },
  {
   "property": "C57",
   "status": "proved",
   "theorems": [
    "Ruler.C57_recipe",
    "Ruler.C57_tables",
    "Ruler.C57_constant",
    "Ruler.C57_lifting",
    "Ruler.C57_nat_rules"
   ],
   "note": "Recipes of fast-forwarding runs over the model of run_fast_forwarding (C53); tests/pos.rs domain with its rule tables read from the texts."
  },
  {
   "property": "C58",
   "status": "proved",
   "theorems": [
    "Ruler.C58_tables",
    "Ruler.C58_constant",
    "Ruler.C58_lifting",
    "Ruler.C58_vectors"
   ],
   "note": "Proved through a one-sorted algebra of Boolean sequences in which a well-sorted rule holds iff it is true of Booleans and two-bit vectors. The condition of def-bv is not modelled; runs may skip matches."
  },
  {
   "property": "C59",
   "status": "partial",
   "theorems": [
    "Ruler.C59_tables",
    "Ruler.C59_division",
    "Ruler.C59_inconsistent",
    "Ruler.C59_folding",
    "Ruler.C59_added",
    "Ruler.C59_text",
    "Ruler.C59_integers",
    "Ruler.C59_fractions",
    "Ruler.C59_lifting_partial",
    "Ruler.C59_unsound"
   ],
   "note": "Tables, folding, texts and the contradiction are proved in full. Lifting is partial: it assumes prior rules that hold for all complex numbers (quotients by zero being zero); the recipe's own prior does not, and C59_unsound shows the conclusion fails for it."
  },
  {
   "property": "C60",
   "status": "partial",
   "theorems": [
    "Ruler.C60_restricted",
    "Ruler.C60_tables",
    "Ruler.C60_total",
    "Ruler.C60_inconsistent",
    "Ruler.C60_variables",
    "Ruler.C60_lifting_partial",
    "Ruler.C60_unsound"
   ],
   "note": "Tables, total functions, variables, the general restricted theorem and the contradiction are proved in full. Lifting is partial: one run, from prior rules that hold for all real numbers; the recipe's own prior contains (exp (log ?a)) ==> ?a, and C60_unsound shows the conclusion fails for it."
  },
  {
   "property": "C61",
   "status": "proved",
   "theorems": [
    "Ruler.C61_tables",
    "Ruler.C61_lifting",
    "Ruler.C61_expected",
    "Ruler.C61_shapes"
   ],
   "note": "Functions on space are partial (undefined for quotients by zero), the variable ?op is an operator, vectors and operators themselves describe no function. Proved through a one-sorted algebra in which vectors and operators are coded as constants. The text export (export_print) is not modelled."
  },
  {
   "property": "C62",
   "status": "proved",
   "theorems": [
    "Ruler.C62_condition",
    "Ruler.C62_defined",
    "Ruler.C62_exact",
    "Ruler.C62_equal",
    "Ruler.C62_if",
    "Ruler.C62_run",
    "Ruler.C62_sound",
    "Ruler.C62_covered"
   ],
   "note": "Texts of denominators are compared as patterns. Exactness (C62_exact) is for rules without if, as C62_if shows a rule with if where it fails; equality where both sides are defined (C62_equal) and all statements about runs are for all rules. Timing and printing are left out."
  },
  {
   "property": "C63",
   "status": "proved",
   "theorems": [
    "Ruler.C63_halide_samples",
    "Ruler.C63_bv_samples",
    "Ruler.C63_vectors",
    "Ruler.C63_merge",
    "Ruler.C63_bool",
    "Ruler.C63_bool_iff",
    "Ruler.C63_nat",
    "Ruler.C63_bv",
    "Ruler.C63_rational",
    "Ruler.C63_rational_samples",
    "Ruler.C63_halide",
    "Ruler.C63_bool_merge",
    "Ruler.C63_nat_merge",
    "Ruler.C63_bv_merge",
    "Ruler.C63_rational_merge",
    "Ruler.C63_halide_merge"
   ],
   "note": "C63_vectors is generic in the domain: FoldsIn, PlainFolding (no hooks that add variables), VarOps, Computes (eval works position by position) and InitOk; all five are proved for Bool, Nat, BV (width up to 128, literals within the width), Rational (checked arithmetic exact or none) and Halide (values with truncating division). Domains with hooks that add terms with variables (trigonometry, exponentials) are not covered: they have no evaluator. C63_rational_samples, C63_halide_samples, C63_bv_samples: every assignment of the sample numbers, which are named, is a position of the vectors."
  },
  {
   "property": "C64",
   "status": "proved",
   "theorems": [
    "Ruler.C64_sound",
    "Ruler.C64_recursive",
    "Ruler.C64_complete"
   ],
   "note": "RunOk is the only assumption about egg: classes() enumerates all classes and the extractor returns a term of the class. C64_complete assumes that the answers are those of the Boolean validator (BoolAnswers). Comparable variables are needed: rules between x & ~x and y & ~y are never proposed because neither direction binds all variables."
  },
  {
   "property": "C65",
   "status": "proved",
   "theorems": [
    "Ruler.C65_shape",
    "Ruler.C65_shape_recursive",
    "Ruler.C65_nat",
    "Ruler.C65_bv",
    "Ruler.C65_halide",
    "Ruler.C65_rational",
    "Ruler.C65_complete",
    "Ruler.C65_nat_complete",
    "Ruler.C65_bv_complete",
    "Ruler.C65_nat_recursive",
    "Ruler.C65_bv_recursive",
    "Ruler.C65_halide_recursive",
    "Ruler.C65_rational_recursive",
    "Ruler.C65_rational_functions",
    "Ruler.C65_rational_inconsistent"
   ],
   "note": "AnswersFrom says that an accepted rule was accepted by the domain's validate on flat forms of its sides with some sound solver; RunOk is the only assumption about egg. C65_rational_inconsistent is a finding: five accepted equations (x*0=0, x*1=x, x+0=x, (x/y)*z=(x*z)/y, 1+x/y=(y+x)/y) have no common model with two elements, because x*0=0 is also applied to terms without value. Completeness is not claimed for Halide (evaluator and solver divide differently) or rationals (samples may be undefined)."
  },
  {
   "property": "C66",
   "status": "proved",
   "theorems": [
    "Ruler.C66_exp_exact",
    "Ruler.C66_trig_exact1",
    "Ruler.C66_trig_exact2",
    "Ruler.C66_levels_readable",
    "Ruler.C66_level",
    "Ruler.C66_nodup",
    "Ruler.C66_arities",
    "Ruler.C66_bool_canon",
    "Ruler.C66_bv4_canon",
    "Ruler.C66_bool_canon_complete",
    "Ruler.C66_halide_nested",
    "Ruler.C66_halide_select",
    "Ruler.C66_rational_one",
    "Ruler.C66_rational_two",
    "Ruler.C66_rational_factors",
    "Ruler.C66_level_readable",
    "Ruler.C66_readable",
    "Ruler.C66_trig",
    "Ruler.C66_exp",
    "Ruler.C66_log"
   ],
   "note": "LangOk (spec) says that the words are atoms, differ from the hole names, and values and variables do not overlap with each other; every language of the recipes satisfies it (examples). Exactness for all sizes is proved for the generic levels and the two canonical workloads; C66_exp_exact, C66_trig_exact1 and C66_trig_exact2 give the exact terms of the exponential and trigonometric workloads, C66_trig and C66_exp their readability. C66_arities and C66_log are findings. C66_levels_readable: every term of every level of the searches can be read."
  },
  {
   "property": "C67",
   "status": "proved",
   "theorems": [
    "Ruler.C67_signature",
    "Ruler.C67_signature_recursive",
    "Ruler.C67_bool",
    "Ruler.C67_bv32",
    "Ruler.C67_bv4",
    "Ruler.C67_bv4_fancy",
    "Ruler.C67_halide",
    "Ruler.C67_replicate",
    "Ruler.C67_conditional",
    "Ruler.C67_best"
   ],
   "note": "Soundness of whole recipes under RunOk (egg) and AnswersFrom a solver that is right when it says unsat; sizes are parameters. No claim is made for the trigonometric and exponential recipes, whose priors are inconsistent (C59, C60). The Halide and bit-vector recipes are too large to compute in the kernel, so for them the examples show that the hypotheses are met; the Boolean recipe and a conditional run are computed."
  },
  {
   "property": "C68",
   "status": "proved",
   "theorems": [
    "Ruler.C68_egraph",
    "Ruler.C68_canDerive",
    "Ruler.C68_derive",
    "Ruler.C68_isSaturating",
    "Ruler.C68_minimize",
    "Ruler.C68_runWorkload",
    "Ruler.C68_recursive",
    "Ruler.C68_bool",
    "Ruler.C68_bool_recursive",
    "Ruler.C68_nat",
    "Ruler.C68_bv",
    "Ruler.C68_no_variables"
   ],
   "note": "`Completes` says: for every trace R there is an extension R' of it (Goes: same choices, continued) with which the run ends. Egg's union-find and hash-consing need a stack of depth two or more in the model (RunEnv.Deep). Proved for Bool, Nat, BV; C68_no_variables shows the condition on variables is needed (finding). Fast-forwarding is C85; the rational domain is C81. Domains with hooks that add terms (trig, bv-bool) are not covered."
  },
  {
   "property": "C69",
   "status": "partial",
   "theorems": [
    "Ruler.C69_halide_partial",
    "Ruler.C69_negation_panics",
    "Ruler.C69_division_panics"
   ],
   "note": "Proved for terms and priors without negation and division. C69_negation_panics (with overflow checks, as in the test profile of Cargo.toml) and C69_division_panics show that the full statement fails for the code."
  },
  {
   "property": "C70",
   "status": "proved",
   "theorems": [
    "Ruler.C70_level",
    "Ruler.C70_recursive",
    "Ruler.C70_empty",
    "Ruler.C70_bool"
   ],
   "note": "Provable is replacing equals by equals with the rules (in both directions, anywhere) and with constant folding (Decided). Assumes an extractor that returns smallest terms (C55 shows that egg's does for AstSize) and the Boolean validator (always valid). Formulas without variables are not in the workload but are covered by folding. The second stage of bool_rules (canonical formulas up to size 7) is sound (C67) but completeness at size 7 is not claimed."
  },
  {
   "property": "C71",
   "status": "proved",
   "theorems": [
    "Ruler.C71_runs",
    "Ruler.C71_trig",
    "Ruler.C71_exp",
    "Ruler.C71_bool",
    "Ruler.C71_bv4_fancy",
    "Ruler.C71_halide"
   ],
   "note": "Assumes that extraction returns terms of the class and that the classes are enumerated once each (as in C53). trig_rules returns its second ruleset, which starts empty; make_rules starts from the starting rules. Truth of the rules is C59/C60 (which fail in part) and C67."
  },
  {
   "property": "C72",
   "status": "proved",
   "theorems": [
    "Ruler.C72_bool",
    "Ruler.C72_bv4",
    "Ruler.C72_bv32",
    "Ruler.C72_bv4_fancy"
   ],
   "note": "Panics are explicit in the model (none). 'The rebuilds go on' is RunEnv.Goes: same choices, longer repair lists; the model has no bound on repairs. Which case occurs is not decided here. Deep: the recursion of modify has at least two levels. bv4 and bv32 take the solver's soundness as a hypothesis."
  },
  {
   "property": "C73",
   "status": "proved",
   "theorems": [
    "Ruler.C73_recursive",
    "Ruler.C73_bool",
    "Ruler.C73_bool_rules",
    "Ruler.C73_second_run"
   ],
   "note": "Assumes, as C70, extraction of smallest terms and the Boolean validator (always valid). Proof: laws of at most five atoms per side already axiomatise Boolean algebras (and distributivity, which has more, follows), and the rules prove all of them by C70; an arbitrary formula is then expanded variable by variable. Says nothing about the number of steps a proof needs. The example is conditional on the recipe returning (its run is too large to evaluate in the kernel); that it returns is C72."
  },
  {
   "property": "C74",
   "status": "proved",
   "theorems": [
    "Ruler.C74_run",
    "Ruler.C74_recursive",
    "Ruler.C74_bool",
    "Ruler.C74_bv4",
    "Ruler.C74_bv32",
    "Ruler.C74_bv4_fancy"
   ],
   "note": "Assumes an extractor that returns smallest terms (C55). Not for domains that add terms of several nodes (nat, pos: numerals; exponential and bv-bool: terms for variables; trig: custom folding), where it is false or not claimed. Rules of the fast-forwarding recipes are not covered."
  },
  {
   "property": "C75",
   "status": "proved",
   "theorems": [
    "Ruler.C75_levels",
    "Ruler.C75_bool"
   ],
   "note": "Assumes, as C70, extraction of smallest terms and the Boolean validator (always valid). Without prior rules. Says nothing about levels from six on: the rules up to five atoms prove every equation (C73), so these levels find rules only where saturation was stopped early."
  },
  {
   "property": "C76",
   "status": "proved",
   "theorems": [
    "Ruler.C76_ff",
    "Ruler.C76_baseline",
    "Ruler.C76_listed",
    "Ruler.C76_bv"
   ],
   "note": "Assumes that the functions return (derive does not panic) and that measured times are printed as JSON numbers. Rulesets are well formed, as C17 to C19 show for those that the library builds. The contents of recipe files are a parameter."
  },
  {
   "property": "C77",
   "status": "proved",
   "theorems": [
    "Ruler.C77_port",
    "Ruler.C77_validation_needed",
    "Ruler.C77_gen",
    "Ruler.C77_compare",
    "Ruler.C77_gen_wide",
    "Ruler.C77_compare_wide"
   ],
   "note": "Assumes, as C42 and C67, that z3 is right when it answers unsat. C77_compare for widths up to 64; C77_compare_wide for the comparison of tests/bv128.rs (up to 128), where only generated rules without literals of 2^64 or more are known to hold, because literals are passed to z3 as 64-bit numbers. The sizes of the searches are arbitrary (5 and 6 in the code)."
  },
  {
   "property": "C78",
   "status": "partial",
   "theorems": [
    "Ruler.C78_inconsistent",
    "Ruler.C78_allowed",
    "Ruler.C78_order_partial"
   ],
   "note": "Proved: every new rule is between terms of maximum, minimum, cheat and variables (C78_allowed). Disagreement: all equations follow from the prior rules (C78_inconsistent). C78_order_partial: with the lines that are right and do not mention an operator as a leaf, every new rule holds in every linear order."
  },
  {
   "property": "C79",
   "status": "proved",
   "theorems": [
    "Ruler.C79_decides",
    "Ruler.C79_rewrites",
    "Ruler.C79_derive",
    "Ruler.C79_exact",
    "Ruler.C79_domains",
    "Ruler.C79_shrink",
    "Ruler.C79_compress",
    "Ruler.C79_shrink_exact"
   ],
   "note": "Completeness of saturation: C79_rewrites for any e-graph with defined classes, C79_derive for can_derive, C79_shrink and C79_compress for shrink; C79_exact and C79_shrink_exact decide provability without constant folding. C79_domains: the vector condition holds for the domains of the repository. C79_decides: the same without assuming saturation, when the last run of the scheduler was not cut off by a limit."
  },
  {
   "property": "C80",
   "status": "partial",
   "theorems": [
    "Ruler.C80_irredundant_partial",
    "Ruler.C80_first"
   ],
   "note": "Proved for every round after the first, given that each round saturates. The full statement is false: the first selected rule may follow from the prior rules (C80_first)."
  },
  {
   "property": "C81",
   "status": "partial",
   "theorems": [
    "Ruler.C81_no_division_partial",
    "Ruler.C81_same_variables_partial",
    "Ruler.C81_division_panics",
    "Ruler.C81_negation_panics"
   ],
   "note": "Proved for terms without negation, absolute value and division; and with division, without conditionals, if rules with different variables are rejected (the code has this test commented out). C81_division_panics and C81_negation_panics show that the full statement fails for the code."
  },
  {
   "property": "C82",
   "status": "partial",
   "theorems": [
    "Ruler.C82_decides_partial",
    "Ruler.C82_ends_partial",
    "Ruler.C82_run_partial",
    "Ruler.C82_saturates_partial",
    "Ruler.C82_endless",
    "Ruler.C82_endless_derive"
   ],
   "note": "Without constant folding (and without samples, as in can_derive): the number of iterations of saturating rules that change something is bounded by n^2 plus the sum over rules of n^(arity+1); if all matches are applied the rules saturate within that many iterations. C82_endless and C82_endless_derive show that the full statement fails with constant folding: a sound Boolean rule that is classified as saturating never saturates. C82_decides_partial: without constant folding can_derive therefore has a run of bounded length that decides provability from such rules."
  },
  {
   "property": "C83",
   "status": "proved",
   "theorems": [
    "Ruler.C83_report",
    "Ruler.C83_sound"
   ],
   "note": "the printed text is modelled exactly; that the rules of the second file print to one line each which is read back is the hypothesis Rule.Textual (C19, C20)"
  },
  {
   "property": "C84",
   "status": "partial",
   "theorems": [
    "Ruler.C84_derive_partial",
    "Ruler.C84_derive_clash",
    "Ruler.C84_no_rules",
    "Ruler.C84_to_egraph"
   ],
   "note": "false without the condition that constants are not named like the rule's variables (C84_derive_clash)"
  },
  {
   "property": "C85",
   "status": "proved",
   "theorems": [
    "Ruler.C85_fast_forward",
    "Ruler.C85_blind",
    "Ruler.C85_blind_derive",
    "Ruler.C85_recipe",
    "Ruler.C85_pos",
    "Ruler.C85_cad",
    "Ruler.C85_maxmin",
    "Ruler.C85_bvbool",
    "Ruler.C85_exp"
   ],
   "note": "As in C68 the claim is that every trace has a continuation (Goes) with which the run ends. C85_fast_forward is for domains with a correct total analysis (SafeDomain), C85_blind for domains without analysis whose hook at most adds missing constants. The hook of trigonometry also adds negations of new constants; with wrong rules its nesting has no fixed bound, and it is not covered."
  },
  {
   "property": "C86",
   "status": "proved",
   "theorems": [
    "Ruler.C86_absent",
    "Ruler.C86_commute",
    "Ruler.C86_associate",
    "Ruler.C86_once",
    "Ruler.C86_distribute",
    "Ruler.C86_monotone",
    "Ruler.C86_order_matters"
   ],
   "note": "Multiset equality (List.Perm); the literal set without pegs takes the route of C06 and needs a hole name that reads as a literal. C86_order_matters: pegs that mention the other hole."
  },
  {
   "property": "C87",
   "status": "proved",
   "theorems": [
    "Ruler.C87_complete",
    "Ruler.C87_lifting"
   ],
   "note": "General and for domains without analysis. `HashMap` keys are assumed to contain the canonical id of every class (`hkeys`), the extractor to return a term of the class with its cost (C55 proves such an extractor exists)."
  },
  {
   "property": "C88",
   "status": "proved",
   "theorems": [
    "Ruler.C88_candidates",
    "Ruler.C88_minimize",
    "Ruler.C88_workload",
    "Ruler.C88_fast_slow",
    "Ruler.C88_fast_forwarding",
    "Ruler.C88_bool",
    "Ruler.C88_names_differ"
   ],
   "note": "Runs are compared from the same compressed e-graph and extractor; runs whose e-graphs differ (limits reached at different points) are not compared. C88_names_differ: literally the candidates depend on the order."
  },
  {
   "property": "C89",
   "status": "proved",
   "theorems": [
    "Ruler.C89_complete",
    "Ruler.C89_recipe",
    "Ruler.C89_pos"
   ],
   "note": "Saturation of the exploratory phase is a hypothesis (checked in the example); the extractor is assumed to return cheapest terms (`CheapestOk`; C55 proves it of the algorithm, `Computed.least`). Instance for tests/pos.rs with its exploratory table."
  },
  {
   "property": "C90",
   "status": "proved",
   "theorems": [
    "Ruler.C90_about",
    "Ruler.C90_larger",
    "Ruler.C90_bool",
    "Ruler.C90_bv"
   ],
   "note": "Domains that add only constants by themselves (AddsConstants). Completeness of the second run needs a validator that accepts what holds in the domain, and rules of the first run are assumed to hold in it (proved for Booleans, and for bit vectors with a right solver). The exceptions are part of the statement: constants that folding added, and incomparable variables. For Booleans the constants are required to occur in the larger workload."
  }
 ]
}