{
 "claims": [
  {
   "property": "C01",
   "status": "proved",
   "theorems": [
    "Expreduce.C01_order_antisymmetric",
    "Expreduce.C01_order_antisymmetric_good",
    "Expreduce.C01_refusal"
   ],
   "note": ""
  },
  {
   "property": "C02",
   "status": "proved",
   "theorems": [
    "Expreduce.C02_exOrder_terminates",
    "Expreduce.C02_exOrder_unfolds"
   ],
   "note": ""
  },
  {
   "property": "C03",
   "status": "proved",
   "theorems": [
    "Expreduce.C03_number_order",
    "Expreduce.C03_numbers_total_preorder"
   ],
   "note": ""
  },
  {
   "property": "C04",
   "status": "proved",
   "theorems": [
    "Expreduce.C04_sort_ordered_permutation",
    "Expreduce.C04_insertionSort",
    "Expreduce.C04_insertionSort_sorted"
   ],
   "note": ""
  },
  {
   "property": "C05",
   "status": "partial",
   "theorems": [
    "Expreduce.C05_canonical_form_partial",
    "Expreduce.C05_not_unique",
    "Expreduce.C05_other_ties"
   ],
   "note": "Uniqueness of the sorted form is false (C05_not_unique: ties between different complex numbers); proved: unique up to canonical ties."
  },
  {
   "property": "C06",
   "status": "proved",
   "theorems": [
    "Expreduce.C06_names_lexicographic",
    "Expreduce.C06_type_order"
   ],
   "note": ""
  },
  {
   "property": "C07",
   "status": "partial",
   "theorems": [
    "Expreduce.C07_refl_symm",
    "Expreduce.C07_trans_partial",
    "Expreduce.C07_reals",
    "Expreduce.C07_not_transitive"
   ],
   "note": "Reflexive and symmetric everywhere; transitivity proved for expressions that are not reals; C07_not_transitive refutes it for reals."
  },
  {
   "property": "C08",
   "status": "partial",
   "theorems": [
    "Expreduce.C08_substitutive_partial",
    "Expreduce.C08_not_substitutive",
    "Expreduce.C08_accuracy_in_fingerprint"
   ],
   "note": "Proved for non-real operands; C08_not_substitutive refutes it for reals one ulp apart."
  },
  {
   "property": "C09",
   "status": "partial",
   "theorems": [
    "Expreduce.C09_reduction_partial",
    "Expreduce.C09_rationals_collide"
   ],
   "note": "Fingerprint equality reduces to equality of the encodings up to a 64-bit hash; C09_rationals_collide refutes injectivity (numerator and denominator bytes are concatenated without separator)."
  },
  {
   "property": "C10",
   "status": "partial",
   "theorems": [
    "Expreduce.C10_true_symmetric_partial",
    "Expreduce.C10_not_symmetric",
    "Expreduce.C10_no_contradiction",
    "Expreduce.C10_verdict_symmetric_partial"
   ],
   "note": "C10_not_symmetric refutes equal verdicts in both directions; proved: no contradiction and symmetry of True."
  },
  {
   "property": "C11",
   "status": "proved",
   "theorems": [
    "Expreduce.C11_true_iff",
    "Expreduce.C11_exact_numbers"
   ],
   "note": ""
  },
  {
   "property": "C12",
   "status": "proved",
   "theorems": [
    "Expreduce.C12_reals",
    "Expreduce.C12_small_integers",
    "Expreduce.C12_less_true_sound",
    "Expreduce.C12_no_trichotomy",
    "Expreduce.C12_complex_by_real_part"
   ],
   "note": ""
  },
  {
   "property": "C13",
   "status": "proved",
   "theorems": [
    "Expreduce.C13_normal_form",
    "Expreduce.C13_integer_iff",
    "Expreduce.C13_unique",
    "Expreduce.C13_zero_denominator",
    "Expreduce.C13_idempotent",
    "Expreduce.C13_same_value_iff"
   ],
   "note": ""
  },
  {
   "property": "C14",
   "status": "proved",
   "theorems": [
    "Expreduce.C14_plus_exact",
    "Expreduce.C14_times_exact",
    "Expreduce.C14_plus_order_independent",
    "Expreduce.C14_times_order_independent",
    "Expreduce.C14_times_keeps_rest"
   ],
   "note": ""
  },
  {
   "property": "C15",
   "status": "partial",
   "theorems": [
    "Expreduce.C15_plus_value_partial",
    "Expreduce.C15_times_value",
    "Expreduce.C15_merges",
    "Expreduce.C15_wrong_on_collision"
   ],
   "note": "Plus: proved when the fingerprints of different non-numeric parts differ; C15_wrong_on_collision refutes the unconditional claim. Times: proved."
  },
  {
   "property": "C16",
   "status": "proved",
   "theorems": [
    "Expreduce.C16_power_exact",
    "Expreduce.C16_zero_base"
   ],
   "note": ""
  },
  {
   "property": "C17",
   "status": "proved",
   "theorems": [
    "Expreduce.C17_and_or_sound",
    "Expreduce.C17_short_circuit",
    "Expreduce.C17_not"
   ],
   "note": ""
  },
  {
   "property": "C18",
   "status": "proved",
   "theorems": [
    "Expreduce.C18_allocations",
    "Expreduce.C18_order",
    "Expreduce.C18_no_forms",
    "Expreduce.C18_negative_bound"
   ],
   "note": "For nonempty pattern lists with nonnegative lower bounds; C18_no_forms and C18_negative_bound prove what happens in the two excluded cases."
  },
  {
   "property": "C19",
   "status": "proved",
   "theorems": [
    "Expreduce.C19_orderless",
    "Expreduce.C19_ordered"
   ],
   "note": ""
  },
  {
   "property": "C20",
   "status": "partial",
   "theorems": [
    "Expreduce.C20_pattern_free",
    "Expreduce.C20_returns",
    "Expreduce.C20_sound_partial",
    "Expreduce.C20_sound_extends",
    "Expreduce.C20_decides",
    "Expreduce.C20_all_ways",
    "Expreduce.C20_reproduces",
    "Expreduce.C20_reals_drift",
    "Expreduce.C20_alternatives_incomplete",
    "Expreduce.C20_default",
    "Expreduce.C20_rational_opened",
    "Expreduce.C20_verbatim",
    "Expreduce.C20_binds_only_names"
   ],
   "note": "Soundness, termination, completeness and reproduction proved for the covered pattern language (literals, blanks, names, compound patterns under any attributes, Repeated, Alternatives, PatternTest, HoldPattern, Optional with explicit or function default, including the omitted head as in x_. + y_; for soundness and termination also heads Verbatim[f]) on expressions without machine reals; C20_reals_drift refutes it for reals, C20_alternatives_incomplete shows why completeness needs its condition, C20_rational_opened shows why it excludes numbers under Optional. Condition inside patterns, Except and other uses of Verbatim are modelled but not covered by the theorems."
  },
  {
   "property": "C21",
   "status": "partial",
   "theorems": [
    "Expreduce.C21_no_names",
    "Expreduce.C21_compound_keeps_partial",
    "Expreduce.C21_pollution"
   ],
   "note": "False in general (C21_pollution); proved for patterns without names and for compound patterns."
  },
  {
   "property": "C22",
   "status": "proved",
   "theorems": [
    "Expreduce.C22_substitution",
    "Expreduce.C22_untouched"
   ],
   "note": ""
  },
  {
   "property": "C23",
   "status": "partial",
   "theorems": [
    "Expreduce.C23_one_rule_partial",
    "Expreduce.C23_not_simultaneous",
    "Expreduce.C23_flat_inner_missed",
    "Expreduce.C23_flat",
    "Expreduce.C23_symbols"
   ],
   "note": "False as stated: C23_not_simultaneous (rules are applied one after the other) and C23_flat_inner_missed (arguments of a Flat function are not searched). Proved: one rule is one outermost-first pass (C23_one_rule_partial, non-Flat pattern heads, covered patterns), independent symbol rules act simultaneously (C23_symbols), and what happens at Flat heads (C23_flat)."
  },
  {
   "property": "C24",
   "status": "proved",
   "theorems": [
    "Expreduce.C24_splice",
    "Expreduce.C24_call",
    "Expreduce.C24_sequence_hold"
   ],
   "note": "Splicing is proved for all argument lists; the value of a call is proved for heads about which only attributes are known and arguments that are values (expressions are values, no aliasing)."
  },
  {
   "property": "C25",
   "status": "proved",
   "theorems": [
    "Expreduce.C25_thread",
    "Expreduce.C25_call",
    "Expreduce.C25_Thread"
   ],
   "note": "The shape is proved for all arguments; the value for heads that are only Listable."
  },
  {
   "property": "C26",
   "status": "proved",
   "theorems": [
    "Expreduce.C26_arguments",
    "Expreduce.C26_hold_all",
    "Expreduce.C26_held_irrelevant",
    "Expreduce.C26_evaluate"
   ],
   "note": "For heads about which only attributes are known; Evaluate overrides the hold attributes (C26_evaluate)."
  },
  {
   "property": "C27",
   "status": "partial",
   "theorems": [
    "Expreduce.C27_last_wins_partial",
    "Expreduce.C27_conditional_stays"
   ],
   "note": "Proved for histories of definitions, attribute settings, clears and first mentions whose right sides for the symbol carry no condition, up to fingerprint collisions; C27_conditional_stays refutes it with a condition."
  },
  {
   "property": "C28",
   "status": "proved",
   "theorems": [
    "Expreduce.C28_rules",
    "Expreduce.C28_conditions",
    "Expreduce.C28_frame",
    "Expreduce.C28_rule_keeps_attributes"
   ],
   "note": "Left sides and conditions are identified by fingerprint, as in the code. Assignments to DownValues[..] are excluded from histories."
  },
  {
   "property": "C29",
   "status": "partial",
   "theorems": [
    "Expreduce.C29_clear_partial",
    "Expreduce.C29_attributes_lost"
   ],
   "note": "The effect is proved exactly; C29_attributes_lost shows that attributes, default and builtin implementation go too."
  },
  {
   "property": "C30",
   "status": "partial",
   "theorems": [
    "Expreduce.C30_no_missing_entry_partial",
    "Expreduce.C30_lookups_sequential",
    "Expreduce.C30_clear_crashes",
    "Expreduce.C30_define_crashes"
   ],
   "note": "The stated claim (no missing entry) is proved for all schedules; C30_clear_crashes and C30_define_crashes refute crash freedom for the index into the rule list. Rule lists are values in the model (no sharing of backing arrays)."
  },
  {
   "property": "C31",
   "status": "partial",
   "theorems": [
    "Expreduce.C31_disjoint_symbols_partial",
    "Expreduce.C31_disjoint_progress",
    "Expreduce.C31_lost_update",
    "Expreduce.C31_lost_first"
   ],
   "note": "False for one symbol (C31_lost_update, C31_lost_first); proved for threads whose symbols no other thread writes (C31_disjoint_symbols_partial, C31_disjoint_progress)."
  },
  {
   "property": "C32",
   "status": "proved",
   "theorems": [
    "Expreduce.C32_rows",
    "Expreduce.C32_number",
    "Expreduce.C32_order",
    "Expreduce.C32_table",
    "Expreduce.C32_do",
    "Expreduce.C32_sum",
    "Expreduce.C32_sum_integers",
    "Expreduce.C32_empty",
    "Expreduce.C32_dependent"
   ],
   "note": "For symbols as variables and iterators over lists or integer ranges whose bounds do not depend on earlier variables; C32_dependent shows that dependent iterators leave the call as it is. Table gives one flat list."
  },
  {
   "property": "C33",
   "status": "proved",
   "theorems": [
    "Expreduce.C33_progression",
    "Expreduce.C33_range",
    "Expreduce.C33_empty",
    "Expreduce.C33_diverges"
   ],
   "note": "Integers; ranges of rationals and reals are not covered."
  },
  {
   "property": "C34",
   "status": "proved",
   "theorems": [
    "Expreduce.C34_safe",
    "Expreduce.C34_element",
    "Expreduce.C34_selects",
    "Expreduce.C34_huge_index",
    "Expreduce.C34_span_zero"
   ],
   "note": "For argument lists shorter than 2^63; indices beyond 64 bits wrap (C34_huge_index)."
  },
  {
   "property": "C35",
   "status": "proved",
   "theorems": [
    "Expreduce.C35_right",
    "Expreduce.C35_left",
    "Expreduce.C35_odd_lengths"
   ],
   "note": "For lengths below 2^63; C35_odd_lengths gives the behaviour for negative and wrapped lengths."
  },
  {
   "property": "C36",
   "status": "partial",
   "theorems": [
    "Expreduce.C36_deleteDuplicates",
    "Expreduce.C36_deleteDuplicates_collisions",
    "Expreduce.C36_complement",
    "Expreduce.C36_intersection",
    "Expreduce.C36_union_partial",
    "Expreduce.C36_union_repeats",
    "Expreduce.C36_different_heads"
   ],
   "note": "DeleteDuplicates, Complement, Intersection proved up to fingerprint collisions; Union proved when different elements are never tied; C36_union_repeats refutes it under ties."
  },
  {
   "property": "C37",
   "status": "proved",
   "theorems": [
    "Expreduce.C37_count",
    "Expreduce.C37_partition",
    "Expreduce.C37_memberQ",
    "Expreduce.C37_rule",
    "Expreduce.C37_memberQ_atom"
   ],
   "note": "Partition, Count and MemberQ proved for all lists and patterns whose match returns; patterns of the form Rule[..] (Cases) are excluded."
  },
  {
   "property": "C38",
   "status": "partial",
   "theorems": [
    "Expreduce.C38_levels_partial",
    "Expreduce.C38_zero",
    "Expreduce.C38_infinity",
    "Expreduce.C38_depths_exact",
    "Expreduce.C38_depths",
    "Expreduce.C38_mixed_wrong",
    "Expreduce.C38_simple",
    "Expreduce.C38_simple_wrong",
    "Expreduce.C38_count"
   ],
   "note": "Proved for nonnegative level ranges, for ranges of depths, for Infinity; C38_zero ({1,0}-like specifications), C38_mixed_wrong (mixed signs) and C38_simple_wrong refute it otherwise."
  },
  {
   "property": "C39",
   "status": "proved",
   "theorems": [
    "Expreduce.C39_foldList",
    "Expreduce.C39_nestList",
    "Expreduce.C39_array"
   ],
   "note": "FoldList, NestList and Array; counts below 2^63."
  },
  {
   "property": "C40",
   "status": "proved",
   "theorems": [
    "Expreduce.C40_complete",
    "Expreduce.C40_nodup",
    "Expreduce.C40_unbounded"
   ],
   "note": ""
  },
  {
   "property": "C41",
   "status": "partial",
   "theorems": [
    "Expreduce.C41_complete_partial",
    "Expreduce.C41_not_empty"
   ],
   "note": "Proved for nonempty lists; false for the empty list (C41_not_empty)."
  },
  {
   "property": "C42",
   "status": "partial",
   "theorems": [
    "Expreduce.C42_value_partial",
    "Expreduce.C42_argument_destroyed"
   ],
   "note": "The value is proved; the second half (argument unchanged) is refuted by C42_argument_destroyed."
  },
  {
   "property": "C43",
   "status": "proved",
   "theorems": [
    "Expreduce.C43_factors",
    "Expreduce.C43_one",
    "Expreduce.C43_diverges",
    "Expreduce.C43_tallied"
   ],
   "note": "Proved for n>=2 and n=1; C43_diverges shows the loop never ends for n<=0."
  },
  {
   "property": "C44",
   "status": "proved",
   "theorems": [
    "Expreduce.C44_mod",
    "Expreduce.C44_gcd",
    "Expreduce.C44_gcd_unevaluated"
   ],
   "note": ""
  },
  {
   "property": "C45",
   "status": "proved",
   "theorems": [
    "Expreduce.C45_root"
   ],
   "note": ""
  },
  {
   "property": "C46",
   "status": "partial",
   "theorems": [
    "Expreduce.C46_dimensions_partial",
    "Expreduce.C46_dimensions_atom",
    "Expreduce.C46_dimensions_wrong",
    "Expreduce.C46_transpose_partial",
    "Expreduce.C46_transpose_twice",
    "Expreduce.C46_transpose_crashes",
    "Expreduce.C46_transpose_unevaluated",
    "Expreduce.C46_dot_partial",
    "Expreduce.C46_dot_vectors",
    "Expreduce.C46_dot_crashes",
    "Expreduce.C46_matrixQ",
    "Expreduce.C46_dot_mismatch"
   ],
   "note": "Shape, transposition (involution) and product proved for all full arrays; C46_dimensions_wrong, C46_transpose_crashes, C46_transpose_unevaluated, C46_dot_crashes refute safety for others."
  },
  {
   "property": "C47",
   "status": "proved",
   "theorems": [
    "Expreduce.C47_no_parens",
    "Expreduce.C47_parens_crash",
    "Expreduce.C47_flat",
    "Expreduce.C47_comparison",
    "Expreduce.C47_merged",
    "Expreduce.C47_arithmetic",
    "Expreduce.C47_names",
    "Expreduce.C47_tagset_crash",
    "Expreduce.C47_reading"
   ],
   "note": "All parse trees over the modelled node kinds: parsing succeeds and leaves no placeholder, chains of associative operators are flat, comparison chains keep operands and operators, arithmetic has the right value, names keep their order. Hypothesis: the text does not mention the internal placeholder and f/: is followed by an unparenthesised assignment; C47_parens_crash and C47_tagset_crash show that the interpreter ends otherwise, C47_merged that an explicitly written comparison at the left end is merged. The grammar (modernc.org/wl) is not modelled."
  },
  {
   "property": "C48",
   "status": "proved",
   "theorems": [
    "Expreduce.C48_name",
    "Expreduce.C48_idempotent",
    "Expreduce.C48_uniform",
    "Expreduce.C48_shape",
    "Expreduce.C48_not_uniform"
   ],
   "note": "First defined context of the path wins, otherwise the current context; idempotent; C48_uniform states the conditions under which all occurrences of a name in one text get the same context and C48_not_uniform shows a state where they do not."
  },
  {
   "property": "C49",
   "status": "partial",
   "theorems": [
    "Expreduce.C49_delivery_partial",
    "Expreduce.C49_stderr_lost",
    "Expreduce.C49_value",
    "Expreduce.C49_number_cut",
    "Expreduce.C49_streams_listed"
   ],
   "note": "delivery proved for every history of calls except the bare name stderr (refuted: C49_stderr_lost) and stream numbers outside 64 bits (C49_number_cut); the library's Write is assumed to append everything"
  },
  {
   "property": "C50",
   "status": "partial",
   "theorems": [
    "Expreduce.C50_unique",
    "Expreduce.C50_distinct_partial",
    "Expreduce.C50_distinct_same_stem",
    "Expreduce.C50_collision",
    "Expreduce.C50_frozen_repeats",
    "Expreduce.C50_Unique",
    "Expreduce.C50_Module",
    "Expreduce.C50_Module_fresh_in_body"
   ],
   "note": "every produced name is unknown before (C50_unique, C50_Unique, C50_Module); no name twice in any history if no stem ends in a digit (all Module locals) or the stems agree; refuted otherwise (C50_collision) and while definitions are frozen; Module shown for evaluators without effect on the state"
  },
  {
   "property": "C51",
   "status": "proved",
   "theorems": [
    "Expreduce.C51_round_trip",
    "Expreduce.C51_set_then_get"
   ],
   "note": ""
  },
  {
   "property": "C52",
   "status": "partial",
   "theorems": [
    "Expreduce.C52_functions_partial",
    "Expreduce.C52_value_frozen",
    "Expreduce.C52_delayed_stale",
    "Expreduce.C52_rule_stale"
   ],
   "note": "False of the code (C52_delayed_stale, C52_rule_stale, C52_value_frozen); C52_functions_partial proves it for rules whose right side mentions a pattern name. Object-level model of a fragment of the evaluator."
  },
  {
   "property": "C53",
   "status": "partial",
   "theorems": [
    "Expreduce.C53_catch_partial",
    "Expreduce.C53_no_throw",
    "Expreduce.C53_pending",
    "Expreduce.C53_top_level",
    "Expreduce.C53_while_not_stopped"
   ],
   "note": "Proved for throws that reach Catch through evaluated arguments, statement sequences and Throw itself; C53_while_not_stopped refutes it for loops (While goes on, possibly for ever)."
  },
  {
   "property": "C54",
   "status": "partial",
   "theorems": [
    "Expreduce.C54_times",
    "Expreduce.C54_counts_partial",
    "Expreduce.C54_merge_counts_one",
    "Expreduce.C54_counts_lost",
    "Expreduce.C54_report"
   ],
   "note": "times proved for every history of additions and merges; counts proved without merges, refuted with merges (C54_counts_lost, exact effect in C54_merge_counts_one); floating point rounding of the sums not modelled"
  },
  {
   "property": "C55",
   "status": "partial",
   "theorems": [
    "Expreduce.C55_order_total_preorder_partial",
    "Expreduce.C55_not_transitive"
   ],
   "note": "Proved for expressions in which the bare symbol Times is not an argument; C55_not_transitive shows a cycle otherwise."
  },
  {
   "property": "C56",
   "status": "partial",
   "theorems": [
    "Expreduce.C56_value_partial",
    "Expreduce.C56_wrong_negative_base"
   ],
   "note": "Proved for nonnegative bases and for numerators 1,-1; C56_wrong_negative_base refutes the rest."
  },
  {
   "property": "C57",
   "status": "partial",
   "theorems": [
    "Expreduce.C57_primePi_partial",
    "Expreduce.C57_not_at_one",
    "Expreduce.C57_wrapped"
   ],
   "note": "Proved for n other than 1; C57_not_at_one refutes n=1, C57_wrapped integers of more than 64 bits."
  },
  {
   "property": "C58",
   "status": "proved",
   "theorems": [
    "Expreduce.C58_digits",
    "Expreduce.C58_base_one_diverges"
   ],
   "note": ""
  },
  {
   "property": "C59",
   "status": "proved",
   "theorems": [
    "Expreduce.C59_step",
    "Expreduce.C59_integers"
   ],
   "note": ""
  },
  {
   "property": "C60",
   "status": "partial",
   "theorems": [
    "Expreduce.C60_max_diverges"
   ],
   "note": "Negative result: the property is false of the code; C60_max_diverges proves that the loop never ends on such input."
  },
  {
   "property": "C61",
   "status": "proved",
   "theorems": [
    "Expreduce.C61_equal",
    "Expreduce.C61_sameQ"
   ],
   "note": ""
  },
  {
   "property": "C62",
   "status": "partial",
   "theorems": [
    "Expreduce.C62_orderless_no_forms_crashes",
    "Expreduce.C62_matchq",
    "Expreduce.C62_orderless_crash"
   ],
   "note": "Negative result: the property is false of the code; C62_matchq (any arguments match f[]), C18_no_forms and C62_orderless_no_forms_crashes prove the failures."
  },
  {
   "property": "C63",
   "status": "partial",
   "theorems": [
    "Expreduce.C63_rule_applies",
    "Expreduce.C63_rule_fails",
    "Expreduce.C63_first_rule_partial",
    "Expreduce.C63_data_condition"
   ],
   "note": "Proved for covered patterns and expressions without machine reals whenever the call returns; C63_data_condition shows that data with head Condition is mistaken for a condition."
  },
  {
   "property": "C64",
   "status": "proved",
   "theorems": [
    "Expreduce.C64_first_stable",
    "Expreduce.C64_flip_diverges"
   ],
   "note": "es.Eval is a parameter; C64_flip_diverges proves that termination does not hold in general."
  },
  {
   "property": "C65",
   "status": "partial",
   "theorems": [
    "Expreduce.C65_slots_partial",
    "Expreduce.C65_named",
    "Expreduce.C65_capture",
    "Expreduce.C65_no_argument_crashes",
    "Expreduce.C65_list_parameters_lost",
    "Expreduce.C65_function_argument"
   ],
   "note": "Proved for arguments without slots (and no fingerprint collisions); refuted by C65_capture, C65_no_argument_crashes, C65_list_parameters_lost, C65_function_argument otherwise."
  },
  {
   "property": "C66",
   "status": "proved",
   "theorems": [
    "Expreduce.C66_rule_order",
    "Expreduce.C66_specific_first"
   ],
   "note": "Up to fingerprint collisions of conditions; the printed length of a left side is a parameter."
  },
  {
   "property": "C67",
   "status": "proved",
   "theorems": [
    "Expreduce.C67_define_twice",
    "Expreduce.C67_frozen"
   ],
   "note": ""
  },
  {
   "property": "C68",
   "status": "partial",
   "theorems": [
    "Expreduce.C68_invalid_left_side_kills",
    "Expreduce.C68_head_with_value_kills",
    "Expreduce.C68_condition_on_left"
   ],
   "note": "Negative result: the property is false of the code."
  },
  {
   "property": "C69",
   "status": "partial",
   "theorems": [
    "Expreduce.C69_idempotent_partial",
    "Expreduce.C69_return_unevaluated"
   ],
   "note": "Proved without Return and effects, with exact fingerprints; C69_return_unevaluated refutes it with Return."
  },
  {
   "property": "C70",
   "status": "partial",
   "theorems": [
    "Expreduce.C70_builtin_flat_partial",
    "Expreduce.C70_rule_flat_partial",
    "Expreduce.C70_not_flattened"
   ],
   "note": "Built-in functions and rules get the flattened call (proved); C70_not_flattened refutes the rest."
  },
  {
   "property": "C71",
   "status": "proved",
   "theorems": [
    "Expreduce.C71_sorted",
    "Expreduce.C71_order_irrelevant"
   ],
   "note": "For symbols that are only Orderless; library sort used through its contract, plus that it leaves its own result alone; uniqueness is up to ties (see C05, C55)."
  },
  {
   "property": "C72",
   "status": "partial",
   "theorems": [
    "Expreduce.C72_unevaluated_lost",
    "Expreduce.C72_hold_all_complete"
   ],
   "note": "Negative result: the property is false of the code."
  },
  {
   "property": "C73",
   "status": "partial",
   "theorems": [
    "Expreduce.C73_empty_head_panics",
    "Expreduce.C73_empty_compound_panics"
   ],
   "note": "Negative result: two classes of crashing inputs are proved; absence of other crashes is not claimed."
  },
  {
   "property": "C74",
   "status": "partial",
   "theorems": [
    "Expreduce.C74_restored_partial",
    "Expreduce.C74_table",
    "Expreduce.C74_rules_lost",
    "Expreduce.C74_throw_leaks"
   ],
   "note": "Proved for plain old values; C74_rules_lost and C74_throw_leaks prove the two failures."
  },
  {
   "property": "C75",
   "status": "proved",
   "theorems": [
    "Expreduce.C75_surgery",
    "Expreduce.C75_join"
   ],
   "note": ""
  },
  {
   "property": "C76",
   "status": "proved",
   "theorems": [
    "Expreduce.C76_levels",
    "Expreduce.C76_complete"
   ],
   "note": "Heads are compared by fingerprint: proved when the fingerprint identifies h among the heads that occur; default level count is 999999999999, so depth is assumed below it."
  },
  {
   "property": "C77",
   "status": "partial",
   "theorems": [
    "Expreduce.C77_nestWhile_partial",
    "Expreduce.C77_start_untested",
    "Expreduce.C77_limit"
   ],
   "note": "Proved for evaluators without effects; C77_start_untested and C77_limit prove the two failures."
  },
  {
   "property": "C78",
   "status": "proved",
   "theorems": [
    "Expreduce.C78_select",
    "Expreduce.C78_scan"
   ],
   "note": "Lists shorter than 2^63."
  },
  {
   "property": "C79",
   "status": "proved",
   "theorems": [
    "Expreduce.C79_fixedPoint"
   ],
   "note": "Sameness is SameQ of the code (fingerprints)."
  },
  {
   "property": "C80",
   "status": "proved",
   "theorems": [
    "Expreduce.C80_distribute",
    "Expreduce.C80_count",
    "Expreduce.C80_choices"
   ],
   "note": "Heads are compared by fingerprint: proved when no head collides with g."
  },
  {
   "property": "C81",
   "status": "partial",
   "theorems": [
    "Expreduce.C81_follows_partial",
    "Expreduce.C81_right",
    "Expreduce.C81_decided",
    "Expreduce.C81_split",
    "Expreduce.C81_comparison_lost",
    "Expreduce.C81_equal_wrong"
   ],
   "note": "Proved for operators <,<=,>,>=: verdicts are right, results follow from the chain, decided chains get their truth value, changes of direction split equivalently; C81_comparison_lost and C81_equal_wrong refute equivalence and chains with ==. es.Eval is a parameter whose verdicts are assumed right."
  },
  {
   "property": "C82",
   "status": "proved",
   "theorems": [
    "Expreduce.C82_pattern",
    "Expreduce.C82_optional",
    "Expreduce.C82_distinct",
    "Expreduce.C82_odd",
    "Expreduce.C82_parsed"
   ],
   "note": "All underscore-free names and heads. C82_odd records the results for a point after several underscores and for more than three underscores."
  },
  {
   "property": "C83",
   "status": "proved",
   "theorems": [
    "Expreduce.C83_fullform",
    "Expreduce.C83_symbol",
    "Expreduce.C83_symbol_back",
    "Expreduce.C83_readback",
    "Expreduce.C83_unambiguous",
    "Expreduce.C83_hidden",
    "Expreduce.C83_nested_context",
    "Expreduce.C83_unescaped",
    "Expreduce.C83_negative_head",
    "Expreduce.C83_format_vanishes"
   ],
   "note": "Reading is specified by a small reader for the plain notation (the grammar of modernc.org/wl is not in the repository). The disagreements are theorems: C83_hidden, C83_nested_context, C83_unescaped, C83_negative_head, C83_format_vanishes."
  },
  {
   "property": "C84",
   "status": "partial",
   "theorems": [
    "Expreduce.C84_readback_partial",
    "Expreduce.C84_unambiguous",
    "Expreduce.C84_negative_base",
    "Expreduce.C84_operator_head",
    "Expreduce.C84_quotient_base",
    "Expreduce.C84_huge_exponent",
    "Expreduce.C84_empty_text_crash",
    "Expreduce.C84_signs",
    "Expreduce.C84_power_chain"
   ],
   "note": "Proved for the described fragment (C84_readback_partial, C84_unambiguous). Outside it the property is false: (-2)^x, (a + b)[x], (a/b)^c and y*x^(2^64-1) are printed ambiguously, and Plus[a, empty text] crashes the printer in OutputForm. Rationals, reals, complex numbers and patterns as parts of operator expressions are not covered."
  },
  {
   "property": "C85",
   "status": "partial",
   "theorems": [
    "Expreduce.C85_join",
    "Expreduce.C85_length_partial",
    "Expreduce.C85_length_wrong",
    "Expreduce.C85_take_total",
    "Expreduce.C85_take",
    "Expreduce.C85_take_ascii_partial",
    "Expreduce.C85_take_recombines",
    "Expreduce.C85_take_splits",
    "Expreduce.C85_take_wrapped",
    "Expreduce.C85_replace",
    "Expreduce.C85_replace_nothing",
    "Expreduce.C85_replace_empty"
   ],
   "note": "StringJoin, StringTake and StringReplace are proved for all byte strings. The promise about characters holds only for ASCII: C85_length_wrong shows StringLength of one non-ASCII character is 2, C85_take_splits that StringTake cuts a character in half, C85_take_wrapped that a position beyond 64 bits is wrapped and accepted. strings.Replace of the Go library is modelled from its documentation."
  },
  {
   "property": "C86",
   "status": "proved",
   "theorems": [
    "Expreduce.C86_leafCount",
    "Expreduce.C86_depth",
    "Expreduce.C86_length",
    "Expreduce.C86_head",
    "Expreduce.C86_simplifyCount"
   ],
   "note": "For every expression, against an independent notion of places in a tree (PartAt)."
  },
  {
   "property": "C87",
   "status": "partial",
   "theorems": [
    "Expreduce.C87_nothing_lost",
    "Expreduce.C87_reap_partial",
    "Expreduce.C87_sow",
    "Expreduce.C87_arguments",
    "Expreduce.C87_statements",
    "Expreduce.C87_nested_wrong",
    "Expreduce.C87_outside"
   ],
   "note": "C87_reap_partial, C87_sow, C87_arguments, C87_statements give what is collected, and in which order, for programs built from Sow, function calls and statements; C87_nothing_lost holds for every program that does not call Reap. C87_nested_wrong refutes the property for a Reap inside a Reap. Concurrency (ParallelTable) is not covered."
  },
  {
   "property": "C88",
   "status": "partial",
   "theorems": [
    "Expreduce.C88_names_partial",
    "Expreduce.C88_all",
    "Expreduce.C88_dollar_wrong",
    "Expreduce.C88_dot_wrong"
   ],
   "note": "Proved for patterns of ordinary characters and stars (C88_names_partial, C88_all). C88_dollar_wrong and C88_dot_wrong are disagreements of the code. Other regular expression syntax in a pattern is not modelled (some of it crashes)."
  },
  {
   "property": "C89",
   "status": "partial",
   "theorems": [
    "Expreduce.C89_runs_partial",
    "Expreduce.C89_error",
    "Expreduce.C89_only"
   ],
   "note": "The parser generated from the grammar is a parameter, so the theorems hold for every reader. C89_error contains the disagreement: with fewer than 100 bytes left after a syntax error the code panics."
  },
  {
   "property": "C90",
   "status": "partial",
   "theorems": [
    "Expreduce.C90_match_keeps_meaning_partial",
    "Expreduce.C90_rule_keeps_meaning_partial"
   ],
   "note": "Proved for the covered patterns (every blank has a name, optional arguments only last unless the function is Orderless, default values those of the function), expressions without machine reals, and as long as no two different expressions that are compared have the same fingerprint (C09 shows that this cannot be dropped). The interpretation is arbitrary."
  },
  {
   "property": "C91",
   "status": "partial",
   "theorems": [
    "Expreduce.C91_eval_keeps_value_partial"
   ],
   "note": "Exact numbers only; Plus, Times, Power, Rational and Complex as modelled, other builtin functions only through rules; conditions and tests are a given predicate that does not change the state; accidents of fingerprints and the wrong powers of C56 are excluded by a guard on the evaluation (the example shows an evaluation that passes all checks)."
  },
  {
   "property": "C92",
   "status": "partial",
   "theorems": [
    "Expreduce.C92_rule_keeps_value_partial",
    "Expreduce.C92_eval_with_shipped_rules_partial"
   ],
   "note": "76 rules are covered (Shipped.rulesFor, with source lines). Not covered: rules with unnamed blanks or alternatives (Power[_, 0] and the like), with Which, Switch, If or Module on the right side, with machine reals, and the rules that are wrong (C93). Tests and conditions are a predicate that is only assumed to be sound; accidents of fingerprints are excluded as in C91."
  },
  {
   "property": "C93",
   "status": "partial",
   "theorems": [
    "Expreduce.C93_wrong_nested_power",
    "Expreduce.C93_wrong_number_factor",
    "Expreduce.C93_wrong_product_of_roots",
    "Expreduce.C93_wrong_exp_log",
    "Expreduce.C93_wrong_cot_of_sum",
    "Expreduce.C93_wrong_log_exp",
    "Expreduce.C93_wrong_log_fraction",
    "Expreduce.C93_nested_power_integer",
    "Expreduce.C93_number_factor_positive",
    "Expreduce.C93_product_of_roots_positive",
    "Expreduce.C93_exp_log_one_term",
    "Expreduce.C93_log_exp_strip"
   ],
   "note": "Seven rules are refuted by evaluations of the modelled interpreter with the rule in its table (theorems C93_wrong_*); the restrictions under which five of them are right are proved. No restricted form is given for the rules for Cot (right for exactly one other term) and for Log[1/b], whose right side contains a name that is not in the left side. The precedence of the pattern in power.m:54 is that of the Wolfram language (the grammar is an external dependency); the other reading gives the same result."
  },
  {
   "property": "C94",
   "status": "partial",
   "theorems": [
    "Expreduce.C94_derivative_partial",
    "Expreduce.C94_derivative_on_partial"
   ],
   "note": "Proved for evaluations in which the conditions of C91 hold (no machine reals, no coincidence of fingerprints), in which D is not applied to a power whose base is constantly 0 (D[0^x, x] is wrong), and in which no function is called on a derivative left uncomputed. Not covered: the chain rule for an arbitrary function (calculus.m:9), Abs (line 12, wrong: Derivative[1][Abs][x] without the inner derivative), Exp and lists (16, 17). FreeQ is a parameter assumed to say True only when the symbol does not occur. Examples evaluate D[x Sin[x], x] and D[x^2, x] with all conditions checked."
  },
  {
   "property": "C95",
   "status": "proved",
   "theorems": [
    "Expreduce.C95_lines",
    "Expreduce.C95_renders",
    "Expreduce.C95_exact_fails",
    "Expreduce.C95_export",
    "Expreduce.C95_example"
   ],
   "note": "The conversions of reals to 8 bit channels and to doubles and the drawing library are parameters. C95_exact_fails: a line with an exact (integer) coordinate makes the whole export fail."
  },
  {
   "property": "C96",
   "status": "partial",
   "theorems": [
    "Expreduce.C96_flag_stays",
    "Expreduce.C96_flow_keeps_flag",
    "Expreduce.C96_rules_stop_partial",
    "Expreduce.C96_call_aborted",
    "Expreduce.C96_while_stops",
    "Expreduce.C96_next_input",
    "Expreduce.C96_throw_keeps_flag",
    "Expreduce.C96_symbol_not_stopped"
   ],
   "note": "Proved: programs made of rules end after an interrupt, whatever the rules are (C96_rules_stop_partial, the demo program runs for ever without it), calls are aborted before their right side is touched, While ends after at most one more round, the flag stays during the evaluation and is cleared by an ordinary result. Refuted: symbols whose value contains themselves run on for ever (C96_symbol_not_stopped), and after an uncaught Throw the flag is kept and aborts the next inputs (C96_throw_keeps_flag). The arrival of the signal is not a step of the model: it is a function call that sets the flag."
  },
  {
   "property": "C97",
   "status": "partial",
   "theorems": [
    "Expreduce.C97_roundtrip_partial",
    "Expreduce.C97_refused",
    "Expreduce.C97_builtin_lost",
    "Expreduce.C97_unwritable",
    "Expreduce.C97_shadowed"
   ],
   "note": "C97_roundtrip_partial, for symbols without a function of the interpreter and if the file is found; C97_refused. Refuted otherwise: a saved builtin loses its function on loading (C97_builtin_lost), Save answers Null if the file cannot be created (C97_unwritable), and Get prefers a file of the same name in a directory of $Path (C97_shadowed). The libraries gob and zlib are parameters, assumed to read back what they write except functions."
  },
  {
   "property": "C98",
   "status": "partial",
   "theorems": [
    "Expreduce.C98_ends",
    "Expreduce.C98_not_atomic"
   ],
   "note": "Refuted: the file is truncated first and written in pieces, so there are crash points after which Get silently defines nothing, and others after which Get crashes the interpreter (C98_not_atomic). C98_ends: only the first and the last moment are as stated."
  },
  {
   "property": "C99",
   "status": "partial",
   "theorems": [
    "Expreduce.C99_symbol",
    "Expreduce.C99_pattern_partial",
    "Expreduce.C99_flat_missed",
    "Expreduce.C99_dummy"
   ],
   "note": "C99_symbol (symbols other than the dummy symbol the implementation uses) and C99_pattern_partial (covered patterns of C20 whose head is not Flat), for values, up to coincidences of fingerprints; evaluation is a function that brings up no new symbols (patterns: does not lose the dummy). Refuted for patterns with a Flat head below the same head (C99_flat_missed: FreeQ[c + x*(a + b), a + b] is True) and for the dummy symbol (C99_dummy)."
  },
  {
   "property": "C100",
   "status": "proved",
   "theorems": [
    "Expreduce.C100_factors",
    "Expreduce.C100_exceptions",
    "Expreduce.C100_eulerPhi"
   ],
   "note": "The programs of the library are read as programs on numbers (exact arithmetic, C13, C14); evaluation of the programs by the interpreter is not part of these theorems. FactorInteger[0] and [1] are the exceptions {{0,1}}, {{1,1}} (C100_exceptions)."
  },
  {
   "property": "C101",
   "status": "partial",
   "theorems": [
    "Expreduce.C101_gcd",
    "Expreduce.C101_gcd_ends",
    "Expreduce.C101_lcm_partial",
    "Expreduce.C101_lcm_negative",
    "Expreduce.C101_lcm_zero",
    "Expreduce.C101_mod",
    "Expreduce.C101_parts",
    "Expreduce.C101_sign"
   ],
   "note": "Proved except for LCM of negative or zero arguments, where the code is wrong (C101_lcm_negative: the result is negative; C101_lcm_zero: LCM[0, 0] divides by zero). Programs on numbers as in C100."
  },
  {
   "property": "C102",
   "status": "partial",
   "theorems": [
    "Expreduce.C102_fibonacci_partial",
    "Expreduce.C102_fibonacci_negative",
    "Expreduce.C102_multinomial",
    "Expreduce.C102_tuples"
   ],
   "note": "Proved, except that Fibonacci of a negative number does not end (C102_fibonacci_negative). Programs on numbers as in C100; the destroyed argument of Factorial (C42) is not visible in Multinomial."
  },
  {
   "property": "C103",
   "status": "partial",
   "theorems": [
    "Expreduce.C103_quadratic_partial",
    "Expreduce.C103_cubic_partial",
    "Expreduce.C103_quartic_partial",
    "Expreduce.C103_quartic_short_partial",
    "Expreduce.C103_cubic_wrong",
    "Expreduce.C103_quartic_wrong",
    "Expreduce.C103_cubic_condition",
    "Expreduce.C103_cubic_exact",
    "Expreduce.C103_quartic_condition",
    "Expreduce.C103_wrong_cube",
    "Expreduce.C103_wrong_biquadratic",
    "Expreduce.C103_wrong_fourth"
   ],
   "note": "Proved where the formulas have a value (C103_cubic_condition, C103_cubic_exact and C103_quartic_condition say when that is); refuted in general (C103_cubic_wrong, C103_quartic_wrong, C103_wrong_cube, C103_wrong_fourth, C103_wrong_biquadratic). The theorems are about the two rules applied one after the other (reading off the coefficients; the formula), for every match the matcher finds; not modelled: Expand before them and Simplify, Sort after them, PolynomialQ and Exponent."
  },
  {
   "property": "C104",
   "status": "partial",
   "theorems": [
    "Expreduce.C104_inverse_partial",
    "Expreduce.C104_inverse_large"
   ],
   "note": "Proved for the rules, for every match the matcher finds (the expression contains no machine reals and the match does not compare different expressions with the same fingerprint). Matrices with more than three rows are left unevaluated by the code (C104_inverse_large)."
  },
  {
   "property": "C105",
   "status": "partial",
   "theorems": [
    "Expreduce.C105_two_equations_partial",
    "Expreduce.C105_one_variable_partial"
   ],
   "note": "Proved for the two rules, for every match the matcher finds; the general path solveMultOrdered is not modelled. If the determinant is 0 the result has no value although the system may have solutions."
  },
  {
   "property": "C106",
   "status": "partial",
   "theorems": [
    "Expreduce.C106_matchq",
    "Expreduce.C106_sound_partial",
    "Expreduce.C106_complete",
    "Expreduce.C106_condition_ignored",
    "Expreduce.C106_delayed_refused",
    "Expreduce.C106_short_rule_crashes"
   ],
   "note": "Proved for the patterns of C20 (EPat), expressions without machine reals. Refuted beyond: a condition on the right side is not tested (C106_condition_ignored), delayed rules and lists of rules are not accepted (C106_delayed_refused), a Rule with one argument crashes the interpreter (C106_short_rule_crashes)."
  },
  {
   "property": "C107",
   "status": "partial",
   "theorems": [
    "Expreduce.C107_lists_partial",
    "Expreduce.C107_lists_unknown",
    "Expreduce.C107_roundtrip",
    "Expreduce.C107_own_value_lost",
    "Expreduce.C107_unheld_hidden",
    "Expreduce.C107_unheld_crashes",
    "Expreduce.C107_later",
    "Expreduce.C107_reachable"
   ],
   "note": "Proved for symbols without a value of their own (own value lost: C107_own_value_lost). The stored number by which rules are ordered is not shown and set to 0 by the assignment; C107_later says that this has no later effect, provided that the conditions in right sides that mask to the same expression agree about whether there is a condition (MasksAgree). Rules whose left side is not below HoldPattern are hidden or crash the listing (C107_unheld_hidden, C107_unheld_crashes)."
  },
  {
   "property": "C108",
   "status": "partial",
   "theorems": [
    "Expreduce.C108_prime_partial",
    "Expreduce.C108_not_positive",
    "Expreduce.C108_wrapped",
    "Expreduce.C108_wrapped_wrong"
   ],
   "note": "The library sieve is a parameter that lists the primes below its argument; that n (Log[n] + Log[Log[n]]), computed with machine numbers, bounds the nth prime for n >= 6 is a hypothesis (Rosser). Refuted for integers of more than 64 bits (C108_wrapped_wrong)."
  },
  {
   "property": "C109",
   "status": "partial",
   "theorems": [
    "Expreduce.C109_seed_decides",
    "Expreduce.C109_one_each",
    "Expreduce.C109_stream",
    "Expreduce.C109_seed_cut",
    "Expreduce.C109_pause_partial",
    "Expreduce.C109_pause_skipped"
   ],
   "note": "The generator is a parameter. Seeds that differ by 2^64 give the same numbers (C109_seed_cut); pauses are right if the nanoseconds fit into 64 bits, and otherwise cut (C109_pause_skipped)."
  },
  {
   "property": "C110",
   "status": "partial",
   "theorems": [
    "Expreduce.C110_trace_irrelevant",
    "Expreduce.C110_evaluator",
    "Expreduce.C110_stays_off",
    "Expreduce.C110_trace_runs",
    "Expreduce.C110_grows_partial",
    "Expreduce.C110_call_noted_partial",
    "Expreduce.C110_chain_partial",
    "Expreduce.C110_throw_forgets",
    "Expreduce.C110_nested_off",
    "Expreduce.C110_symbol_untraced",
    "Expreduce.C110_flow"
   ],
   "note": "Transparency is proved without restriction on the program (C110_trace_irrelevant, C110_evaluator, C110_trace_runs). Growth and content are proved for programs that do not throw and do not call Trace; refuted otherwise (C110_throw_forgets, C110_nested_off, C110_symbol_untraced). Simplification: builtin functions do not look at the trace; the trace is a value."
  },
  {
   "property": "C111",
   "status": "partial",
   "theorems": [
    "Expreduce.C111_history_partial",
    "Expreduce.C111_preprint",
    "Expreduce.C111_cleared_line_crashes",
    "Expreduce.C111_interrupted_throw_overwrites"
   ],
   "note": "Conditions: evaluation leaves In, Out, $Line and $PrePrint alone, no interrupts, results evaluate to themselves, and the fingerprints of In[i] and In[j] differ. Refuted outside of them: C111_cleared_line_crashes, C111_interrupted_throw_overwrites."
  },
  {
   "property": "C112",
   "status": "partial",
   "theorems": [
    "Expreduce.C112_rule_partial",
    "Expreduce.C112_step_partial",
    "Expreduce.C112_integral_partial"
   ],
   "note": "28 rules of two of the files of rules. Assumed: the tests of the rules (FreeQ, EqQ, IntegerQ, ...) are True only if they hold, RemoveContent only removes constant factors, ExpandIntegrand keeps the value, no clash of fingerprints in the match. A rule applied to an integrand that has no value is not covered."
  },
  {
   "property": "C113",
   "status": "partial",
   "theorems": [
    "Expreduce.C113_definite_partial",
    "Expreduce.C113_wrong_pole"
   ],
   "note": "The antiderivative is a parameter (see C112); the final Simplify is left out. Refuted without continuity: C113_wrong_pole."
  },
  {
   "property": "C114",
   "status": "partial",
   "theorems": [
    "Expreduce.C114_exponents",
    "Expreduce.C114_power",
    "Expreduce.C114_zero",
    "Expreduce.C114_rule_partial",
    "Expreduce.C114_round_partial",
    "Expreduce.C114_expand_partial",
    "Expreduce.C114_wrong"
   ],
   "note": "Evaluation after a round is a parameter that keeps values; the arguments of the calls on the right sides are computed by the model (finish). Assumed: no machine reals, no clash of fingerprints in the match, the argument is evaluated. Refuted for rounds in which both rules act: C114_wrong."
  },
  {
   "property": "C115",
   "status": "partial",
   "theorems": [
    "Expreduce.C115_with_partial",
    "Expreduce.C115_simultaneous_partial",
    "Expreduce.C115_wrong",
    "Expreduce.C115_refused",
    "Expreduce.C115_switch_partial"
   ],
   "note": "Proved for variables that are symbols, expressions without two different subexpressions of equal fingerprint (C09), and for Switch the patterns of C20 and expressions without machine reals. The statement as given is refuted: C115_wrong (sequential, capture)."
  },
  {
   "property": "C116",
   "status": "partial",
   "theorems": [
    "Expreduce.C116_rule_partial",
    "Expreduce.C116_round_partial",
    "Expreduce.C116_simplify_partial",
    "Expreduce.C116_literal",
    "Expreduce.C116_wrong"
   ],
   "note": "Each rule is proved to keep the value everywhere in an expression without machine reals and Sequence in which no two different expressions compared have the same fingerprint (C09); a round and the whole are proved if whenever a rule changes something these conditions hold (in particular no Sequence[] was left by an earlier rule of the same round) and the evaluator keeps values. Without that the claim is refuted: C116_wrong. The left sides of the rules are taken as written (RuleDelayed evaluates them, which leaves them as they are). The other steps of Simplify are not modelled."
  },
  {
   "property": "C117",
   "status": "partial",
   "theorems": [
    "Expreduce.C117_parts",
    "Expreduce.C117_places_partial",
    "Expreduce.C117_other",
    "Expreduce.C117_position_lost"
   ],
   "note": "C117_parts: for arbitrary rules, relative to the value the rules give at each position. C117_places_partial: fixed positions, values that are not conditions, no position in a rule with the fingerprint of a different position in the expression (C09). C117_position_lost refutes the claim for variables that stand for the whole position (the list object is reused). The three-argument form (replacement.m:201) and conditions inside With or Module are not modelled."
  },
  {
   "property": "C118",
   "status": "partial",
   "theorems": [
    "Expreduce.C118_take_partial",
    "Expreduce.C118_take_range",
    "Expreduce.C118_take_fails",
    "Expreduce.C118_take_steps",
    "Expreduce.C118_ends",
    "Expreduce.C118_ends_empty",
    "Expreduce.C118_fold_partial",
    "Expreduce.C118_fold_two",
    "Expreduce.C118_nest_partial",
    "Expreduce.C118_last_argument",
    "Expreduce.C118_fold_orderless",
    "Expreduce.C118_tally_partial",
    "Expreduce.C118_tally_pattern",
    "Expreduce.C118_tally_slot"
   ],
   "note": "The programs as compositions of Part, Length, Greater, FoldList, NestList, DeleteDuplicates, pure functions and Count (C12, C34, C36, C38, C39, C65). C118_fold_partial and C118_nest_partial assume an evaluator that treats the list elementwise; C118_tally_partial assumes elements without patterns, slots, reals and Flat or Orderless heads, and no fingerprint collisions (C09). Refuted: C118_take_fails (0, negative and too large counts), C118_take_steps, C118_last_argument, C118_fold_orderless, C118_tally_pattern, C118_tally_slot. That the rules are the ones applied (their order, their patterns) is read off the source."
  },
  {
   "property": "C119",
   "status": "partial",
   "theorems": [
    "Expreduce.C119_increment_partial",
    "Expreduce.C119_decrement_partial",
    "Expreduce.C119_preincrement_partial",
    "Expreduce.C119_predecrement_partial",
    "Expreduce.C119_add_to_partial",
    "Expreduce.C119_increment_real",
    "Expreduce.C119_increment_loses_value",
    "Expreduce.C119_append_to_partial"
   ],
   "note": "Run in the modelled evaluator: the stored rule is found by the matcher, its right side is evaluated with Set, CompoundExpression, Plus and Times. Not covered: other values than integers (for reals C119_increment_real), variables without value, indexed variables f[1]++; the rules of Plus and Times are left out of the table (they are consulted only if the builtin function leaves its call as it is). Refuted for machine reals: C119_increment_loses_value."
  },
  {
   "property": "C120",
   "status": "partial",
   "theorems": [
    "Expreduce.C120_for_partial",
    "Expreduce.C120_counting_partial",
    "Expreduce.C120_sum_partial",
    "Expreduce.C120_factorial_partial",
    "Expreduce.C120_bound_passed",
    "Expreduce.C120_break_ignored"
   ],
   "note": "Hoare-style rule C120_counting_partial with two applications. Not covered: bodies that change the counter, return or throw; steps other than i++. Refuted: C120_bound_passed (a bound of 2^53 gets a round more), C120_break_ignored."
  },
  {
   "property": "C121",
   "status": "partial",
   "theorems": [
    "Expreduce.C121_call_partial",
    "Expreduce.C121_no_clause",
    "Expreduce.C121_factorial_partial",
    "Expreduce.C121_fibonacci_partial",
    "Expreduce.C121_order_partial",
    "Expreduce.C121_factorial_program_partial",
    "Expreduce.C121_base_case_hidden",
    "Expreduce.C121_hidden_diverges",
    "Expreduce.C121_printed",
    "Expreduce.C121_order_printed_partial",
    "Expreduce.C121_base_case_hidden_printed"
   ],
   "note": "Run in the modelled evaluator with the modelled matcher. Parameters are x_ or integers (no typed or sequence blanks, conditions or defaults); all definitions have the number of parameters of the call; integers are compared by fingerprint as in the code, so the recursion theorems assume that no integer on the way has the fingerprint of a base case. The order theorem assumes a printed general left side below 110 bytes. Refuted for two parameters: C121_base_case_hidden, C121_hidden_diverges; C121_base_case_hidden_printed gives the condition in terms of the printed names (C121_printed, by the printing model of C84): p[x_, 0] is always hidden."
  },
  {
   "property": "C122",
   "status": "partial",
   "theorems": [
    "Expreduce.C122_fibonacci_partial",
    "Expreduce.C122_remembered",
    "Expreduce.C122_negative_never_returns",
    "Expreduce.C122_shipped"
   ],
   "note": "Run in the modelled evaluator with the shipped rules. Integers and left sides are compared by fingerprint as in the code, so it is assumed that the numbers up to a bound have different ones (NoMix, checked for 10 in the example); the argument must not change definitions while it is evaluated; the printed general left side is assumed to be shorter than 110 bytes, which the printing model gives (26). Refuted for negative integers: C122_negative_never_returns."
  },
  {
   "property": "C123",
   "status": "partial",
   "theorems": [
    "Expreduce.C123_program_partial",
    "Expreduce.C123_forever",
    "Expreduce.C123_only",
    "Expreduce.C123_trichotomy",
    "Expreduce.C123_exact_partial",
    "Expreduce.C123_gcd_partial",
    "Expreduce.C123_endless"
   ],
   "note": "Integers only; the tests are < and <= of numbers up to 2^53 (beyond that the code compares rounded numbers, see C120_bound_passed); subtraction is written a + (-1)*b as the parser writes it; the rewrite rules of Plus and Times are not in the table (arithmetic on numbers does not reach them); the loop of the evaluator is taken to compare expressions exactly instead of by fingerprint. Within that, both directions are proved: C123_program_partial, C123_forever, C123_only, C123_exact_partial, with C123_trichotomy showing that the meanings are exhaustive."
  },
  {
   "property": "C124",
   "status": "partial",
   "theorems": [
    "Expreduce.C124_value_partial",
    "Expreduce.C124_only",
    "Expreduce.C124_forever",
    "Expreduce.C124_given_back",
    "Expreduce.C124_ackermann_partial",
    "Expreduce.C124_mccarthy_partial",
    "Expreduce.C124_mutual_partial",
    "Expreduce.C124_climbing"
   ],
   "note": "Integers only; comparisons of numbers up to 2^53; numbers beyond a bound B are not compared with literals on left sides, and those up to B are assumed to have other fingerprints than the literals (checked in the concrete example); rules of Plus and Times not in the table; the loop of the evaluator compares expressions exactly instead of by fingerprint. C124_value_partial and C124_only: values; C124_forever: endless recursion; C124_ackermann_partial, C124_mccarthy_partial, C124_mutual_partial, C124_climbing: programs. How such definitions get into the table is C121."
  },
  {
   "property": "C125",
   "status": "partial",
   "theorems": [
    "Expreduce.C125_right_partial",
    "Expreduce.C125_answers",
    "Expreduce.C125_same_partial",
    "Expreduce.C125_unchanged",
    "Expreduce.C125_copy",
    "Expreduce.C125_replace",
    "Expreduce.C125_sort",
    "Expreduce.C125_needed",
    "Expreduce.C125_argument",
    "Expreduce.C125_built",
    "Expreduce.C125_min"
   ],
   "note": "The rule that objects are changed only while nothing that contains them is fingerprinted is an hypothesis about each caller (Careful); it is proved for Sort (C125_sort), for results built by appending (C125_built), and, in the form that the evaluator uses, for the evaluation of arguments (C125_argument); ReplacePD, which changes parts of a fingerprinted copy and clears on the way, is one of the calls (C125_replace); the other callers are not gone through. C125_needed: the rule is needed. C125_min refutes the property: Min breaks the rule. The caches inside atoms are not modelled, and a 64-bit fingerprint may collide (C07)."
  },
  {
   "property": "C126",
   "status": "partial",
   "theorems": [
    "Expreduce.C126_total_partial",
    "Expreduce.C126_total_symbolic",
    "Expreduce.C126_mean_partial",
    "Expreduce.C126_order",
    "Expreduce.C126_empty",
    "Expreduce.C126_total_lists",
    "Expreduce.C126_allTrue_partial",
    "Expreduce.C126_allTrue_atom",
    "Expreduce.C126_listQ_boole"
   ],
   "note": "The programs as compositions of Apply, Plus, Times, Power, Length, Map and And (C14, C15, C16, C17, C38). Total and Mean are for exact numbers, with one evaluation pass over the results; C126_total_symbolic is up to fingerprint collisions (C09), as is the converse in C126_listQ_boole. C126_allTrue_partial assumes that the values of the tests evaluate to themselves. C126_total_lists: several lists are read as a level specification. That the rules are the ones applied is read off the source."
  },
  {
   "property": "C127",
   "status": "partial",
   "theorems": [
    "Expreduce.C127_sound_partial",
    "Expreduce.C127_complete_partial",
    "Expreduce.C127_simple",
    "Expreduce.C127_zero",
    "Expreduce.C127_radical"
   ],
   "note": "The rules as a program on expressions; their right sides are not evaluated and PowerExpand is left out. C127_sound_partial and C127_complete_partial assume that the variable is not under a root and that it occurs once; completeness assumes that the right sides have values. C127_simple: for sums, products, reciprocals and powers 2 to 5 isolation always comes to an end with such right sides. C127_zero shows that this is needed and C127_radical refutes the property for roots. Not modelled: logarithms, exponentials and the trigonometric and hyperbolic functions, the exponent 1/n apart from its refutation, and the check and simplification of the results."
  },
  {
   "property": "C128",
   "status": "partial",
   "theorems": [
    "Expreduce.C128_normal_partial",
    "Expreduce.C128_logNormal_partial",
    "Expreduce.C128_logNormal_integral",
    "Expreduce.C128_negative",
    "Expreduce.C128_functional"
   ],
   "note": "The right sides of the two rules, not evaluated, with their values as real functions; that the evaluator keeps the value of an expression is not proved. C128_functional: an expression has at most one value. C128_negative refutes the property without sigma > 0."
  }
 ]
}