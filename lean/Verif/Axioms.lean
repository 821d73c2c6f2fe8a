import Verif.Props.Analysis
import Verif.Props.BV
import Verif.Props.BoolComplete
import Verif.Props.BoolCompleteExamples
import Verif.Props.BoolLevels
import Verif.Props.BoolLevelsExamples
import Verif.Props.Budget
import Verif.Props.Built
import Verif.Props.BvBool
import Verif.Props.BvCompare
import Verif.Props.BvWide
import Verif.Props.BvWideExamples
import Verif.Props.Cad
import Verif.Props.CadRun
import Verif.Props.Candidates
import Verif.Props.Complete
import Verif.Props.CompleteRuns
import Verif.Props.Compress
import Verif.Props.Conditional
import Verif.Props.ConditionalRun
import Verif.Props.Decides
import Verif.Props.Derive
import Verif.Props.DomBool
import Verif.Props.DomInt
import Verif.Props.Exp
import Verif.Props.ExpRun
import Verif.Props.Extract
import Verif.Props.FastComplete
import Verif.Props.FastProgress
import Verif.Props.FastProgressExamples
import Verif.Props.FastRecipes
import Verif.Props.FastRecipesDomains
import Verif.Props.Generalize
import Verif.Props.Inference
import Verif.Props.Larger
import Verif.Props.LiftComplete
import Verif.Props.Lifting
import Verif.Props.LogRows
import Verif.Props.LogRowsExamples
import Verif.Props.Logger
import Verif.Props.MaxMin
import Verif.Props.MaxMinRun
import Verif.Props.MergeCost
import Verif.Props.Minimize
import Verif.Props.PlugLaws
import Verif.Props.Progress
import Verif.Props.ProgressExamples
import Verif.Props.ProgressHalide
import Verif.Props.ProgressRational
import Verif.Props.RatInterval
import Verif.Props.Rational
import Verif.Props.RationalLiterals
import Verif.Props.Recipe
import Verif.Props.RecipeExact
import Verif.Props.RecipeProgress
import Verif.Props.RecipeProgressExamples
import Verif.Props.RecipeReadable
import Verif.Props.RecipeRules
import Verif.Props.RecipeRuns
import Verif.Props.RecipeTerms
import Verif.Props.RecipeUnion
import Verif.Props.RecipeWorkloads
import Verif.Props.Report
import Verif.Props.Reproducible
import Verif.Props.Rounds
import Verif.Props.RuleSize
import Verif.Props.RuleSizeExamples
import Verif.Props.Ruleset
import Verif.Props.SampleValues
import Verif.Props.Samples
import Verif.Props.SatEnds
import Verif.Props.Saturated
import Verif.Props.Saturating
import Verif.Props.Saturation
import Verif.Props.Symbol
import Verif.Props.Synthesis
import Verif.Props.SynthesisDomains
import Verif.Props.SynthesisRational
import Verif.Props.SynthesisRuns
import Verif.Props.Text
import Verif.Props.Trig
import Verif.Props.TrigRun
import Verif.Props.Vectors
import Verif.Props.Workload
/-! Axioms of every property theorem (printed during the build). -/
#print axioms Ruler.C01_filter_exact
#print axioms Ruler.C01_filter_exact_depthFree
#print axioms Ruler.C01_filter_agree
#print axioms Ruler.C01_filter_may_panic
#print axioms Ruler.C02_monotonic
#print axioms Ruler.C03_filter_twice
#print axioms Ruler.C03_conj
#print axioms Ruler.C04_plug_fills
#print axioms Ruler.C04_plug_only_fills
#print axioms Ruler.C04_empty_list_vanishes
#print axioms Ruler.C05_plug_count
#print axioms Ruler.C05_plug_nodup
#print axioms Ruler.C06_empty_plug_partial
#print axioms Ruler.C06_not_for_wildcards
#print axioms Ruler.C07_append
#print axioms Ruler.C07_append_order
#print axioms Ruler.C07_append_reorders
#print axioms Ruler.C08_star_rejects_sums
#print axioms Ruler.C08_contains
#print axioms Ruler.C08_excludes
#print axioms Ruler.C08_no_panic
#print axioms Ruler.C09_canon_is_renaming
#print axioms Ruler.C09_canon_complete_invariant
#print axioms Ruler.C09_canon_idempotent
#print axioms Ruler.C09_canon_filter_unique
#print axioms Ruler.C09_needs_distinct
#print axioms Ruler.C10_atoms
#print axioms Ruler.C10_lists
#print axioms Ruler.C10_depth
#print axioms Ruler.C10_panic_iff
#print axioms Ruler.C10_mono
#print axioms Ruler.C10_strict
#print axioms Ruler.C11_iter_metric
#print axioms Ruler.C11_hole_free
#print axioms Ruler.C11_zero
#print axioms Ruler.C12_base_lang
#print axioms Ruler.C13_substitute
#print axioms Ruler.C13_substitute_mem
#print axioms Ruler.C14_print_parse
#print axioms Ruler.C14_print_injective
#print axioms Ruler.C14_needs_plain
#print axioms Ruler.C15_file_roundtrip
#print axioms Ruler.C15_new
#print axioms Ruler.C15_plug_name
#print axioms Ruler.C16_lookup
#print axioms Ruler.C16_unique
#print axioms Ruler.C16_members
#print axioms Ruler.C16_order
#print axioms Ruler.C16_removal_reorders
#print axioms Ruler.C17_partition
#print axioms Ruler.C17_exactly_one
#print axioms Ruler.C18_roundtrip
#print axioms Ruler.C18_both
#print axioms Ruler.C18_forward
#print axioms Ruler.C18_no_arrow
#print axioms Ruler.C18_unbound_panics
#print axioms Ruler.C18_needs_no_arrow
#print axioms Ruler.C19_file_roundtrip
#print axioms Ruler.C19_texts_roundtrip
#print axioms Ruler.C19_load
#print axioms Ruler.C19_load_printed
#print axioms Ruler.C19_equality
#print axioms Ruler.C20_exactly_one_line
#print axioms Ruler.C20_no_spurious_line
#print axioms Ruler.C20_count
#print axioms Ruler.C20_count_no_identity
#print axioms Ruler.C20_identity_differs
#print axioms Ruler.C21_terminates
#print axioms Ruler.C21_bound_irrelevant
#print axioms Ruler.C21_panic_only
#print axioms Ruler.C22_validated
#print axioms Ruler.C22_candidates
#print axioms Ruler.C22_invalid
#print axioms Ruler.C23_covered
#print axioms Ruler.C23_follows
#print axioms Ruler.C23_consequence
#print axioms Ruler.C24_best
#print axioms Ruler.C24_order
#print axioms Ruler.C24_lexicographic
#print axioms Ruler.C24_components
#print axioms Ruler.C24_symmetric
#print axioms Ruler.C25_sound
#print axioms Ruler.C25_complete
#print axioms Ruler.C25_total
#print axioms Ruler.C25_no_overlap
#print axioms Ruler.C26_sound
#print axioms Ruler.C26_complete
#print axioms Ruler.C26_subset
#print axioms Ruler.C26_agree
#print axioms Ruler.C27_renames
#print axioms Ruler.C27_total
#print axioms Ruler.C27_valid
#print axioms Ruler.C27_added
#print axioms Ruler.C27_instantiate
#print axioms Ruler.C27_canonical
#print axioms Ruler.C28_bound
#print axioms Ruler.C28_named
#print axioms Ruler.C28_new
#print axioms Ruler.C29_class_value
#print axioms Ruler.C29_sound
#print axioms Ruler.C29_lookup
#print axioms Ruler.C29_noFold
#print axioms Ruler.C29_workload
#print axioms Ruler.C29_bool
#print axioms Ruler.C29_nat
#print axioms Ruler.C29_bv
#print axioms Ruler.C29_halide
#print axioms Ruler.C29_rational
#print axioms Ruler.C29_rational_undefined
#print axioms Ruler.C30_grows
#print axioms Ruler.C30_lookup
#print axioms Ruler.C31_compress
#print axioms Ruler.C32_sound
#print axioms Ruler.C32_consequence
#print axioms Ruler.C32_bv
#print axioms Ruler.C32_bool
#print axioms Ruler.C32_nat
#print axioms Ruler.C32_needs_schematic
#print axioms Ruler.C33_partition
#print axioms Ruler.C34_sound
#print axioms Ruler.C34_consequence
#print axioms Ruler.C35_classified
#print axioms Ruler.C35_saturating_partial
#print axioms Ruler.C35_folding
#print axioms Ruler.C35_undefined
#print axioms Ruler.C36_sound
#print axioms Ruler.C36_complete
#print axioms Ruler.C36_valid
#print axioms Ruler.C37_join
#print axioms Ruler.C37_flags
#print axioms Ruler.C37_fails
#print axioms Ruler.C37_empty
#print axioms Ruler.C37_flags_inexact_on_empty
#print axioms Ruler.C37_lengths
#print axioms Ruler.C37_simplest
#print axioms Ruler.C38_simplest
#print axioms Ruler.C38_simplest_rep
#print axioms Ruler.C39_rejects
#print axioms Ruler.C39_stores
#print axioms Ruler.C40_operations
#print axioms Ruler.C40_proper
#print axioms Ruler.C40_representation
#print axioms Ruler.C40_constants
#print axioms Ruler.C41_shifts
#print axioms Ruler.C41_numbers
#print axioms Ruler.C42_eval
#print axioms Ruler.C42_translation
#print axioms Ruler.C42_valid
#print axioms Ruler.C42_wide_literals
#print axioms Ruler.C42_cut
#print axioms Ruler.C42_wide_rejected
#print axioms Ruler.C43_roundtrip
#print axioms Ruler.C43_decimal
#print axioms Ruler.C43_binary
#print axioms Ruler.C44_shape
#print axioms Ruler.C44_positions
#print axioms Ruler.C44_exactly_once
#print axioms Ruler.C45_samples
#print axioms Ruler.C45_iff
#print axioms Ruler.C46_bool_node
#print axioms Ruler.C46_bool_exact
#print axioms Ruler.C46_bool
#print axioms Ruler.C46_nat_node
#print axioms Ruler.C46_nat
#print axioms Ruler.C47_valid
#print axioms Ruler.C47_fold
#print axioms Ruler.C47_eval
#print axioms Ruler.C48_neg
#print axioms Ruler.C48_add
#print axioms Ruler.C48_mul
#print axioms Ruler.C48_recip
#print axioms Ruler.C48_abs_partial
#print axioms Ruler.C48_abs_wrong
#print axioms Ruler.C48_fold
#print axioms Ruler.C49_equal
#print axioms Ruler.C49_defined_partial
#print axioms Ruler.C49_condition_errors
#print axioms Ruler.C49_eval
#print axioms Ruler.C49_literals
#print axioms Ruler.C50_eval
#print axioms Ruler.C50_translation
#print axioms Ruler.C50_agree_partial
#print axioms Ruler.C50_valid
#print axioms Ruler.C50_division_differs
#print axioms Ruler.C51_validated
#print axioms Ruler.C51_valid
#print axioms Ruler.C51_origin
#print axioms Ruler.C51_allow_empty
#print axioms Ruler.C51_empty
#print axioms Ruler.C51_complete
#print axioms Ruler.C52_validated
#print axioms Ruler.C52_prior
#print axioms Ruler.C52_zero
#print axioms Ruler.C52_grows
#print axioms Ruler.C52_valid
#print axioms Ruler.C53_is_allowed
#print axioms Ruler.C53_allowed
#print axioms Ruler.C53_follows
#print axioms Ruler.C54_repeated_key
#print axioms Ruler.C54_numbers
#print axioms Ruler.C54_append
#print axioms Ruler.C54_history
#print axioms Ruler.C54_determined
#print axioms Ruler.C54_serial
#print axioms Ruler.C54_interrupted
#print axioms Ruler.C54_interruption_loses
#print axioms Ruler.C54_overlap_loses_row
#print axioms Ruler.C54_overlap_panics
#print axioms Ruler.C54_nesting_limit
#print axioms Ruler.C55_terminates
#print axioms Ruler.C55_cheapest
#print axioms Ruler.C55_smallest
#print axioms Ruler.C55_allowed
#print axioms Ruler.C55_extractors
#print axioms Ruler.C56_simple
#print axioms Ruler.C56_saturating
#print axioms Ruler.C56_compress
#print axioms Ruler.C56_zero
#print axioms Ruler.C57_recipe
#print axioms Ruler.C57_tables
#print axioms Ruler.C57_constant
#print axioms Ruler.C57_lifting
#print axioms Ruler.C57_nat_rules
#print axioms Ruler.C58_tables
#print axioms Ruler.C58_constant
#print axioms Ruler.C58_lifting
#print axioms Ruler.C58_vectors
#print axioms Ruler.C59_tables
#print axioms Ruler.C59_division
#print axioms Ruler.C59_inconsistent
#print axioms Ruler.C59_folding
#print axioms Ruler.C59_added
#print axioms Ruler.C59_text
#print axioms Ruler.C59_integers
#print axioms Ruler.C59_fractions
#print axioms Ruler.C59_lifting_partial
#print axioms Ruler.C59_unsound
#print axioms Ruler.C60_restricted
#print axioms Ruler.C60_tables
#print axioms Ruler.C60_total
#print axioms Ruler.C60_inconsistent
#print axioms Ruler.C60_variables
#print axioms Ruler.C60_lifting_partial
#print axioms Ruler.C60_unsound
#print axioms Ruler.C61_tables
#print axioms Ruler.C61_lifting
#print axioms Ruler.C61_expected
#print axioms Ruler.C61_shapes
#print axioms Ruler.C62_condition
#print axioms Ruler.C62_defined
#print axioms Ruler.C62_exact
#print axioms Ruler.C62_equal
#print axioms Ruler.C62_if
#print axioms Ruler.C62_run
#print axioms Ruler.C62_sound
#print axioms Ruler.C62_covered
#print axioms Ruler.C63_halide_samples
#print axioms Ruler.C63_bv_samples
#print axioms Ruler.C63_vectors
#print axioms Ruler.C63_merge
#print axioms Ruler.C63_bool
#print axioms Ruler.C63_bool_iff
#print axioms Ruler.C63_nat
#print axioms Ruler.C63_bv
#print axioms Ruler.C63_rational
#print axioms Ruler.C63_rational_samples
#print axioms Ruler.C63_halide
#print axioms Ruler.C63_bool_merge
#print axioms Ruler.C63_nat_merge
#print axioms Ruler.C63_bv_merge
#print axioms Ruler.C63_rational_merge
#print axioms Ruler.C63_halide_merge
#print axioms Ruler.C64_sound
#print axioms Ruler.C64_recursive
#print axioms Ruler.C64_complete
#print axioms Ruler.C65_shape
#print axioms Ruler.C65_shape_recursive
#print axioms Ruler.C65_nat
#print axioms Ruler.C65_bv
#print axioms Ruler.C65_halide
#print axioms Ruler.C65_rational
#print axioms Ruler.C65_complete
#print axioms Ruler.C65_nat_complete
#print axioms Ruler.C65_bv_complete
#print axioms Ruler.C65_nat_recursive
#print axioms Ruler.C65_bv_recursive
#print axioms Ruler.C65_halide_recursive
#print axioms Ruler.C65_rational_recursive
#print axioms Ruler.C65_rational_functions
#print axioms Ruler.C65_rational_inconsistent
#print axioms Ruler.C66_exp_exact
#print axioms Ruler.C66_trig_exact1
#print axioms Ruler.C66_trig_exact2
#print axioms Ruler.C66_levels_readable
#print axioms Ruler.C66_level
#print axioms Ruler.C66_nodup
#print axioms Ruler.C66_arities
#print axioms Ruler.C66_bool_canon
#print axioms Ruler.C66_bv4_canon
#print axioms Ruler.C66_bool_canon_complete
#print axioms Ruler.C66_halide_nested
#print axioms Ruler.C66_halide_select
#print axioms Ruler.C66_rational_one
#print axioms Ruler.C66_rational_two
#print axioms Ruler.C66_rational_factors
#print axioms Ruler.C66_level_readable
#print axioms Ruler.C66_readable
#print axioms Ruler.C66_trig
#print axioms Ruler.C66_exp
#print axioms Ruler.C66_log
#print axioms Ruler.C67_signature
#print axioms Ruler.C67_signature_recursive
#print axioms Ruler.C67_bool
#print axioms Ruler.C67_bv32
#print axioms Ruler.C67_bv4
#print axioms Ruler.C67_bv4_fancy
#print axioms Ruler.C67_halide
#print axioms Ruler.C67_replicate
#print axioms Ruler.C67_conditional
#print axioms Ruler.C67_best
#print axioms Ruler.C68_egraph
#print axioms Ruler.C68_canDerive
#print axioms Ruler.C68_derive
#print axioms Ruler.C68_isSaturating
#print axioms Ruler.C68_minimize
#print axioms Ruler.C68_runWorkload
#print axioms Ruler.C68_recursive
#print axioms Ruler.C68_bool
#print axioms Ruler.C68_bool_recursive
#print axioms Ruler.C68_nat
#print axioms Ruler.C68_bv
#print axioms Ruler.C68_no_variables
#print axioms Ruler.C69_halide_partial
#print axioms Ruler.C69_negation_panics
#print axioms Ruler.C69_division_panics
#print axioms Ruler.C70_level
#print axioms Ruler.C70_recursive
#print axioms Ruler.C70_empty
#print axioms Ruler.C70_bool
#print axioms Ruler.C71_runs
#print axioms Ruler.C71_trig
#print axioms Ruler.C71_exp
#print axioms Ruler.C71_bool
#print axioms Ruler.C71_bv4_fancy
#print axioms Ruler.C71_halide
#print axioms Ruler.C72_bool
#print axioms Ruler.C72_bv4
#print axioms Ruler.C72_bv32
#print axioms Ruler.C72_bv4_fancy
#print axioms Ruler.C73_recursive
#print axioms Ruler.C73_bool
#print axioms Ruler.C73_bool_rules
#print axioms Ruler.C73_second_run
#print axioms Ruler.C74_run
#print axioms Ruler.C74_recursive
#print axioms Ruler.C74_bool
#print axioms Ruler.C74_bv4
#print axioms Ruler.C74_bv32
#print axioms Ruler.C74_bv4_fancy
#print axioms Ruler.C75_levels
#print axioms Ruler.C75_bool
#print axioms Ruler.C76_ff
#print axioms Ruler.C76_baseline
#print axioms Ruler.C76_listed
#print axioms Ruler.C76_bv
#print axioms Ruler.C77_port
#print axioms Ruler.C77_validation_needed
#print axioms Ruler.C77_gen
#print axioms Ruler.C77_compare
#print axioms Ruler.C77_gen_wide
#print axioms Ruler.C77_compare_wide
#print axioms Ruler.C78_inconsistent
#print axioms Ruler.C78_allowed
#print axioms Ruler.C78_order_partial
#print axioms Ruler.C79_decides
#print axioms Ruler.C79_rewrites
#print axioms Ruler.C79_derive
#print axioms Ruler.C79_exact
#print axioms Ruler.C79_domains
#print axioms Ruler.C79_shrink
#print axioms Ruler.C79_compress
#print axioms Ruler.C79_shrink_exact
#print axioms Ruler.C80_irredundant_partial
#print axioms Ruler.C80_first
#print axioms Ruler.C81_no_division_partial
#print axioms Ruler.C81_same_variables_partial
#print axioms Ruler.C81_division_panics
#print axioms Ruler.C81_negation_panics
#print axioms Ruler.C82_decides_partial
#print axioms Ruler.C82_ends_partial
#print axioms Ruler.C82_run_partial
#print axioms Ruler.C82_saturates_partial
#print axioms Ruler.C82_endless
#print axioms Ruler.C82_endless_derive
#print axioms Ruler.C83_report
#print axioms Ruler.C83_sound
#print axioms Ruler.C84_derive_partial
#print axioms Ruler.C84_derive_clash
#print axioms Ruler.C84_no_rules
#print axioms Ruler.C84_to_egraph
#print axioms Ruler.C85_fast_forward
#print axioms Ruler.C85_blind
#print axioms Ruler.C85_blind_derive
#print axioms Ruler.C85_recipe
#print axioms Ruler.C85_pos
#print axioms Ruler.C85_cad
#print axioms Ruler.C85_maxmin
#print axioms Ruler.C85_bvbool
#print axioms Ruler.C85_exp
#print axioms Ruler.C86_absent
#print axioms Ruler.C86_commute
#print axioms Ruler.C86_associate
#print axioms Ruler.C86_once
#print axioms Ruler.C86_distribute
#print axioms Ruler.C86_monotone
#print axioms Ruler.C86_order_matters
#print axioms Ruler.C87_complete
#print axioms Ruler.C87_lifting
#print axioms Ruler.C88_candidates
#print axioms Ruler.C88_minimize
#print axioms Ruler.C88_workload
#print axioms Ruler.C88_fast_slow
#print axioms Ruler.C88_fast_forwarding
#print axioms Ruler.C88_bool
#print axioms Ruler.C88_names_differ
#print axioms Ruler.C89_complete
#print axioms Ruler.C89_recipe
#print axioms Ruler.C89_pos
#print axioms Ruler.C90_about
#print axioms Ruler.C90_larger
#print axioms Ruler.C90_bool
#print axioms Ruler.C90_bv
