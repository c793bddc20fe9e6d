{
 "claims": [
  {
   "property": "C01",
   "status": "proved",
   "theorems": [
    "Dp.C01_first_come_first_served",
    "Dp.C01_granted_at_most_once"
   ],
   "note": ""
  },
  {
   "property": "C02",
   "status": "proved",
   "theorems": [
    "Dp.C02_allow_claimed_is_invisible"
   ],
   "note": ""
  },
  {
   "property": "C03",
   "status": "proved",
   "theorems": [
    "Dp.C03_claim_frame",
    "Dp.C03_claims_never_withdrawn"
   ],
   "note": ""
  },
  {
   "property": "C04",
   "status": "partial",
   "theorems": [
    "Dp.C04_refuted",
    "Dp.C04_multicountable_decision_partial",
    "Dp.C04_later_claimers_are_listed_partial"
   ],
   "note": "The full bound is false of the code (listed paths are strings compared with tuples): C04_refuted is a witness history. The partial theorems describe the decision actually taken."
  },
  {
   "property": "C05",
   "status": "proved",
   "theorems": [
    "Dp.C05_trial_blocks_are_isolated"
   ],
   "note": ""
  },
  {
   "property": "C06",
   "status": "proved",
   "theorems": [
    "Dp.C06_beneath_exact_and_cache_independent"
   ],
   "note": ""
  },
  {
   "property": "C07",
   "status": "proved",
   "theorems": [
    "Dp.C07_exact_path_first_wins",
    "Dp.C07_other_paths_never_matter",
    "Dp.C07_insertions_beneath"
   ],
   "note": ""
  },
  {
   "property": "C08",
   "status": "proved",
   "theorems": [
    "Dp.C08_migration_rewrites_prefix",
    "Dp.C08_only_the_path_changes",
    "Dp.C08_untouched_when_nothing_matches",
    "Dp.C08_loaded_as_recorded"
   ],
   "note": ""
  },
  {
   "property": "C09",
   "status": "partial",
   "theorems": [
    "Dp.C09_course_limits_respected",
    "Dp.C09_credit_limits_refuted",
    "Dp.C09_fractional_course_limits_refuted",
    "Dp.C09_overshoot_less_than_one_course_partial",
    "Dp.C09_separate_credit_limits_partial",
    "Dp.C09_query_respects_its_course_limits",
    "Dp.C09_query_respects_its_credit_limits_partial",
    "Dp.C09_area_respects_its_course_limits_partial",
    "Dp.C09_loaded_area_partial",
    "Dp.C09_area_limits_refuted"
   ],
   "note": "Holds for course limits with whole maxima, also of the courses a query reports and of those an area's queries without include_failed claim. False for credit limits that share courses and for fractional course limits (refuted with witnesses); there the overshoot is less than one course, and separate credit limits are respected. Queries with include_failed bypass the area's limits (C09_area_limits_refuted)."
  },
  {
   "property": "C10",
   "status": "partial",
   "theorems": [
    "Dp.C10_only_forced_classes_bypass_limits_partial",
    "Dp.C10_unlimited_courses_kept",
    "Dp.C10_only_input_courses"
   ],
   "note": "For all limit sets: forced classes are never dropped and never count (see the theorems about limits). For whole areas loaded from text, C10_only_forced_classes_bypass_limits_partial says that only those bypass the limits of the area; missing there: queries with include_failed bypass them too (C09_area_limits_refuted)."
  },
  {
   "property": "C11",
   "status": "partial",
   "theorems": [
    "Dp.C11_refuted",
    "Dp.C11_repeated_limit_refuted",
    "Dp.C11_maximal_selections_offered_partial",
    "Dp.C11_course_limits_all_selections_partial"
   ],
   "note": "False in general (C11_refuted, C11_repeated_limit_refuted). Proved for distinct course limits (every admissible selection) and for credit limits that share no counted course (every maximal selection)."
  },
  {
   "property": "C12",
   "status": "proved",
   "theorems": [
    "Dp.C12_no_transcript_twice",
    "Dp.C12_sorted",
    "Dp.C12_no_limits"
   ],
   "note": ""
  },
  {
   "property": "C13",
   "status": "proved",
   "theorems": [
    "Dp.C13_lazy_product_is_cartesian",
    "Dp.C13_members",
    "Dp.C13_count",
    "Dp.C13_lexicographic",
    "Dp.C13_empty_raises"
   ],
   "note": ""
  },
  {
   "property": "C14",
   "status": "proved",
   "theorems": [
    "Dp.C14_ncr_counts_combinations",
    "Dp.C14_out_of_range"
   ],
   "note": ""
  },
  {
   "property": "C15",
   "status": "proved",
   "theorems": [
    "Dp.C15_comparison_is_the_path_order",
    "Dp.C15_strict_total_order",
    "Dp.C15_sort_correct",
    "Dp.C15_sort_independent_of_order",
    "Dp.C15_noncanonical_refuted"
   ],
   "note": ""
  },
  {
   "property": "C16",
   "status": "partial",
   "theorems": [
    "Dp.C16_numbers",
    "Dp.C16_strings",
    "Dp.C16_mixed",
    "Dp.C16_neq_is_not_eq",
    "Dp.C16_missing_satisfies_nothing",
    "Dp.C16_both_missing",
    "Dp.C16_list_on_the_left",
    "Dp.C16_list_on_the_right",
    "Dp.C16_nin_is_not_in",
    "Dp.C16_list_against_list",
    "Dp.C16_cache_refuted",
    "Dp.C16_cache_transparent_partial"
   ],
   "note": "The operators themselves are covered in full; behind the lru_cache, answers can be those of an equal but differently typed argument (C16_cache_refuted), the cache is transparent for histories without such pairs."
  },
  {
   "property": "C17",
   "status": "proved",
   "theorems": [
    "Dp.C17_record_keys",
    "Dp.C17_record_filters_are_boolean",
    "Dp.C17_filters_are_boolean",
    "Dp.C17_conditions_are_boolean",
    "Dp.C17_written_filter",
    "Dp.C17_comparison_keys",
    "Dp.C17_when_conditions_are_boolean"
   ],
   "note": ""
  },
  {
   "property": "C18",
   "status": "partial",
   "theorems": [
    "Dp.C18_rank_at_most_max",
    "Dp.C18_area_rank_at_most_max",
    "Dp.C18_rank_nonneg_partial",
    "Dp.C18_negative_rank_refuted",
    "Dp.C18_rank_reported",
    "Dp.C18_childless_count_raises"
   ],
   "note": "Upper bound proved for every result; the lower bound is false when an assertion expects a negative number or in the presence of negative sums (C18_negative_rank_refuted) and is proved where each assertion's inputs are nonnegative. A childless count asked for a rank raises (C18_childless_count_raises)."
  },
  {
   "property": "C19",
   "status": "partial",
   "theorems": [
    "Dp.C19_done_count_has_enough_done_children",
    "Dp.C19_passing_count_has_enough_passing_children",
    "Dp.C19_enough_done_children_partial",
    "Dp.C19_unneeded_child_refuted"
   ],
   "note": "Done implies enough done children, and passing implies enough passing children. The converse is false: an unneeded pending or failed child changes the status (C19_unneeded_child_refuted); it holds when exactly the needed children are resolved."
  },
  {
   "property": "C20",
   "status": "proved",
   "theorems": [
    "Dp.C20_audit_status",
    "Dp.C20_failed_iff_violated",
    "Dp.C20_area_not_passing"
   ],
   "note": ""
  },
  {
   "property": "C21",
   "status": "proved",
   "theorems": [
    "Dp.C21_reports_the_best",
    "Dp.C21_area_audit",
    "Dp.C21_find_best"
   ],
   "note": ""
  },
  {
   "property": "C22",
   "status": "partial",
   "theorems": [
    "Dp.C22_one_estimate_first",
    "Dp.C22_protocol_partial",
    "Dp.C22_print_all_refuted",
    "Dp.C22_no_result_before_exception",
    "Dp.C22_only_selected_solutions_matter",
    "Dp.C22_printed_results_partial",
    "Dp.C22_print_only_refuted"
   ],
   "note": "The protocol holds without the printing options when every solution is audited (C22_protocol_partial). For every choice of options, solutions that print_only and audit_each leave out have no influence on the messages; with a printing option each selected solution is told once and in order, if none of them is complete. A complete one ends the run and is not told with print_all, or with print_only after another was told (C22_print_all_refuted, C22_print_only_refuted)."
  },
  {
   "property": "C23",
   "status": "partial",
   "theorems": [
    "Dp.C23_each_child_once",
    "Dp.C23_each_child_once_top",
    "Dp.C23_never_silent",
    "Dp.C23_always_yields_partial",
    "Dp.C23_always_yields_refuted",
    "Dp.C23_loaded_area"
   ],
   "note": "That each solution mentions each child exactly once in path order is proved in full, for nested and topmost counts. A count always yields or raises (proved); it always yields unless the search raises, and it does raise when an exception lies beneath a requirement that ends in an unanswered conditional (C23_always_yields_refuted)."
  },
  {
   "property": "C24",
   "status": "partial",
   "theorems": [
    "Dp.C24_no_shared_course_partial",
    "Dp.C24_no_shared_claim_partial",
    "Dp.C24_disjoint_flag_refuted"
   ],
   "note": "Proved unless both children are flagged disjoint, in terms of matches and in terms of claims. Children flagged `disjoint: true` are not compared (C24_disjoint_flag_refuted)."
  },
  {
   "property": "C25",
   "status": "partial",
   "theorems": [
    "Dp.C25_blocked_class_is_not_claimed_partial",
    "Dp.C25_proficiency_refuted",
    "Dp.C25_loaded_area_partial"
   ],
   "note": "Proved for every claim of an area made by its own course and query rules. False for the course rule inside a proficiency rule, which blocks do not reach (C25_proficiency_refuted)."
  },
  {
   "property": "C26",
   "status": "proved",
   "theorems": [
    "Dp.C26_every_claim_of_an_area",
    "Dp.C26_course_rule_success",
    "Dp.C26_every_entitled_course_is_tried",
    "Dp.C26_loaded_area"
   ],
   "note": "C26_loaded_area is the whole-area statement from the specification text to the claims of audited solutions."
  },
  {
   "property": "C27",
   "status": "partial",
   "theorems": [
    "Dp.C27_claims_come_from_source_or_insertion",
    "Dp.C27_at_most_once_partial",
    "Dp.C27_refuted"
   ],
   "note": "Every claim comes from the query's own source or from an insertion at its path (full). 'At most once' is false when an inserted course also matches the query (C27_refuted); proved for queries without insertions at their path."
  },
  {
   "property": "C28",
   "status": "proved",
   "theorems": [
    "Dp.C28_count_search_complete",
    "Dp.C28_every_satisfying_selection"
   ],
   "note": ""
  },
  {
   "property": "C29",
   "status": "proved",
   "theorems": [
    "Dp.C29_credit_search_complete",
    "Dp.C29_fewer_credits_refuted"
   ],
   "note": "As stated for $gte. The same shortcut is used for $lt, where it misses satisfying selections (C29_fewer_credits_refuted)."
  },
  {
   "property": "C30",
   "status": "proved",
   "theorems": [
    "Dp.C30_unique_class_ids",
    "Dp.C30_failed_only_in_failed_list",
    "Dp.C30_every_usable_record_present",
    "Dp.C30_first_row_keeps_its_id",
    "Dp.C30_loads"
   ],
   "note": ""
  },
  {
   "property": "C31",
   "status": "partial",
   "theorems": [
    "Dp.C31_order_does_not_matter",
    "Dp.C31_no_credits",
    "Dp.C31_cut_to_two_decimals",
    "Dp.C31_at_most_greatest_grade",
    "Dp.C31_at_least_least_grade_partial",
    "Dp.C31_lower_bound_refuted"
   ],
   "note": "Order independence, zero credits, truncation and the upper bound proved. The lower bound (GPA at least the least grade) is false because each course's points are cut first (C31_lower_bound_refuted); proved where no course's points are cut."
  },
  {
   "property": "C32",
   "status": "proved",
   "theorems": [
    "Dp.C32_special_term",
    "Dp.C32_progress_flags",
    "Dp.C32_at_most_one_flag"
   ],
   "note": ""
  },
  {
   "property": "C33",
   "status": "proved",
   "theorems": [
    "Dp.C33_last_credit_override_wins",
    "Dp.C33_credits_by_name",
    "Dp.C33_last_subject_override_wins",
    "Dp.C33_others_unchanged"
   ],
   "note": ""
  },
  {
   "property": "C34",
   "status": "proved",
   "theorems": [
    "Dp.C34_grades_totally_ordered",
    "Dp.C34_transitive",
    "Dp.C34_order_matches_points"
   ],
   "note": ""
  },
  {
   "property": "C35",
   "status": "proved",
   "theorems": [
    "Dp.C35_conditions",
    "Dp.C35_read_from_text",
    "Dp.C35_condition_true",
    "Dp.C35_condition_false",
    "Dp.C35_no_else"
   ],
   "note": "The three cases for every condition value, and the condition itself: C35_conditions proves that the value computed when a text is read is the value of the written condition for the student (Decides, shown functional by decides_unique), C35_read_from_text that the rule read takes its parts from the right places and is hidden only if the condition does not hold and the text asks for it."
  },
  {
   "property": "C36",
   "status": "partial",
   "theorems": [
    "Dp.C36_proficiency_partial",
    "Dp.C36_refuted"
   ],
   "note": "A proficiency rule looks only at the first solution of its course rule, so a later acceptable course is ignored (C36_refuted). Proved: the status from the student's record, from the course rule it does try, and from a waiver."
  },
  {
   "property": "C37",
   "status": "partial",
   "theorems": [
    "Dp.C37_loaded_area_partial",
    "Dp.C37_rule_at_most_once",
    "Dp.C37_single_count_partial",
    "Dp.C37_disjoint_flag_refuted"
   ],
   "note": "Proved for every rule solved as a whole, and for whole areas unless a top-level requirement flagged `disjoint: true` claims courses for itself (C37_disjoint_flag_refuted), for classes of the limited transcript that are neither multicountable nor forced in."
  },
  {
   "property": "C38",
   "status": "partial",
   "theorems": [
    "Dp.C38_loaded_area_partial",
    "Dp.C38_waived_partial",
    "Dp.C38_waived_top_partial",
    "Dp.C38_waivers_do_not_spread",
    "Dp.C38_conditional_refuted"
   ],
   "note": "False for conditional rules, whose override is ignored (C38_conditional_refuted); audited and contract requirements report done rather than waived. Proved for all other rules; and an override never waives anything else."
  },
  {
   "property": "C39",
   "status": "proved",
   "theorems": [
    "Dp.C39_removed_iff_committed",
    "Dp.C39_crash_keeps_items",
    "Dp.C39_one_worker_per_item",
    "Dp.C39_order",
    "Dp.C39_leaves_nothing_free",
    "Dp.C39_stored_once",
    "Dp.C39_result_appears_with_removal",
    "Dp.C39_refused_item_runs_again",
    "Dp.C39_missing_area_is_kept"
   ],
   "note": "Over every interleaving of any number of workers with crashes, failed statements and concurrent queueing. Two theorems record what the statement does not promise: an item whose result the database refuses is never removed and runs again for ever, and an item without an area file is kept by the worker until its next COMMIT."
  },
  {
   "property": "C40",
   "status": "partial",
   "theorems": [
    "Dp.C40_what_storing_keeps",
    "Dp.C40_one_active",
    "Dp.C40_active_is_latest_partial",
    "Dp.C40_stored_is_active",
    "Dp.C40_link_only_changes_nothing",
    "Dp.C40_greatest_revision_refuted",
    "Dp.C40_workers_one_active_partial",
    "Dp.C40_separate_of_queue",
    "Dp.C40_concurrent_refuted",
    "Dp.C40_interrupted_refuted"
   ],
   "note": "At most one active result after every sequence of stored results and clearings, and in every run of concurrent workers in which no two have items of one student and area at a time (enough: the queue never has two). False in three ways, each with a witness: a later link-only result has a greater revision, two workers on one student and area can leave two active results, and an exception between the statements leaves none."
  },
  {
   "property": "C41",
   "status": "proved",
   "theorems": [
    "Dp.C41_removed_exactly",
    "Dp.C41_unexpired_kept",
    "Dp.C41_most_recent_kept",
    "Dp.C41_some_result_kept",
    "Dp.C41_active_may_be_cleared"
   ],
   "note": ""
  },
  {
   "property": "C42",
   "status": "partial",
   "theorems": [
    "Dp.C42_items",
    "Dp.C42_only_allowed_partial",
    "Dp.C42_at_most_once",
    "Dp.C42_all_queued_partial",
    "Dp.C42_refusal_refuted",
    "Dp.C42_queued_meanwhile_refuted",
    "Dp.C42_catalogs"
   ],
   "note": "For every order of the threads: only allowed items, none twice. That every allowed item is queued needs that the database refuses nothing; otherwise items of other students are lost (refuted with a witness). \"Already queued\" means when the batch started: items queued meanwhile are queued again (witness)."
  },
  {
   "property": "C43",
   "status": "proved",
   "theorems": [
    "Dp.C43_greatest_year",
    "Dp.C43_nothing_found",
    "Dp.C43_other_folder_preferred"
   ],
   "note": "Folder names of the form YYYY-YY are compared as text; the theorem shows that for these the greatest name is the latest year. Another folder with a dash in its name can be preferred (C43_other_folder_preferred)."
  },
  {
   "property": "C44",
   "status": "proved",
   "theorems": [
    "Dp.C44_parts_recompose",
    "Dp.C44_parts_bounded",
    "Dp.C44_parse_adds_parts",
    "Dp.C44_parse_plain",
    "Dp.C44_decimal_point_misread",
    "Dp.C44_trailing_number_dropped",
    "Dp.C44_units_in_order",
    "Dp.C44_amounts_add_up",
    "Dp.C44_amounts_whole_seconds",
    "Dp.C44_sixty_seconds_shown",
    "Dp.C44_zero_has_no_number",
    "Dp.C44_written_reads_back"
   ],
   "note": "Decimal numbers in a text are misread (C44_decimal_point_misread), a trailing number without unit is dropped, seconds can round up to 60 without a carry, and zero is written without a number: each shown by a witness beside the theorems. Rounding of decimals to 28 digits is not modelled."
  },
  {
   "property": "C45",
   "status": "partial",
   "theorems": [
    "Dp.C45_credit_limits_refuted",
    "Dp.C45_order_independent_partial"
   ],
   "note": "False for credit limits (witness). Proved for distinct course limits and distinct class ids."
  },
  {
   "property": "C46",
   "status": "partial",
   "theorems": [
    "Dp.C46_several_at_least_counts_partial",
    "Dp.C46_exact_count_refuted"
   ],
   "note": "Holds for 'at least' counts without 'at most'; with an exact count it is false (C46_exact_count_refuted)."
  },
  {
   "property": "C48",
   "status": "proved",
   "theorems": [
    "Dp.C48_distinct_paths",
    "Dp.C48_equal_emphases_refuted",
    "Dp.C48_common_name_refuted"
   ],
   "note": "Loading from text is modelled (Model/Yaml, LoadClause, Load). The two side conditions are needed: C48_equal_emphases_refuted, C48_common_name_refuted."
  },
  {
   "property": "C50",
   "status": "partial",
   "theorems": [
    "Dp.C50_complete_major_meets_common_partial",
    "Dp.C50_nothing_else_is_asked",
    "Dp.C50_one_su_course",
    "Dp.C50_common_requirements_refuted"
   ],
   "note": "From the text of the area file through loading, solving and auditing. Proved in both directions for majors whose top-level rule asks for all its parts, and the S/U limit for every major. The general claim is false of the code: the common requirements are added as one more item of the top-level rule, so a major that asks for fewer parts than it has (any, at least n) is complete without them (C50_common_requirements_refuted)."
  },
  {
   "property": "C52",
   "status": "partial",
   "theorems": [
    "Dp.C52_passing_query_meets_its_assertions",
    "Dp.C52_met_query_passes_partial",
    "Dp.C52_complete_on_completed_courses_partial",
    "Dp.C52_nothing_asked_refuted",
    "Dp.C52_needlessly_pending_refuted",
    "Dp.C52_at_most_of_nothing_refuted",
    "Dp.C52_loaded_area",
    "Dp.C52_loaded_area_met_partial"
   ],
   "note": "The first direction is proved in full; the converse and the claim about completed courses exclude three cases in which the code disagrees, each with a witness: a conditional assertion that asks nothing keeps its query from passing (C52_nothing_asked_refuted), terms of the most common course are pending although met (C52_needlessly_pending_refuted), and 'at most' of no courses at all counts as unmet beside a waived assertion (C52_at_most_of_nothing_refuted)."
  },
  {
   "property": "C56",
   "status": "proved",
   "theorems": [
    "Dp.C56_state_of_an_assertion"
   ],
   "note": ""
  },
  {
   "property": "C57",
   "status": "partial",
   "theorems": [
    "Dp.C57_exceptions_at_an_assertion_partial",
    "Dp.C57_blocked_but_counted_refuted"
   ],
   "note": "Proved except for a blocked course that is there more than once: the code removes one copy of it only (C57_blocked_but_counted_refuted)."
  },
  {
   "property": "C58",
   "status": "proved",
   "theorems": [
    "Dp.C58_passing_area_is_satisfied",
    "Dp.C58_complete_area_is_satisfied_finally"
   ],
   "note": "`Satisfied` in Props/Satisfied.lean is the specification: what it means, from the loaded rule, the student's record and the exceptions, that a rule holds. The theorems say that every passing (complete) audited solution of a loaded area satisfies it. The common requirements of majors are C50."
  },
  {
   "property": "C54",
   "status": "proved",
   "theorems": [
    "Dp.C54_every_choice_is_tried"
   ],
   "note": "About `solutions` without the search for independent parts, that is, all counts but the one at the top of an area (and that one too if it has further assertions)."
  },
  {
   "property": "C55",
   "status": "partial",
   "theorems": [
    "Dp.C55_no_potential_partial",
    "Dp.C55_zero_refuted"
   ],
   "note": "Proved for the ways to fulfil a rule described by `Fulfils`; refuted for queries that ask for exactly zero courses (`C55_zero_refuted`): such a query has no potential and is set aside although it is complete."
  },
  {
   "property": "C59",
   "status": "partial",
   "theorems": [
    "Dp.C59_rule_found_partial",
    "Dp.C59_best_is_complete_partial",
    "Dp.C59_independents_refuted",
    "Dp.C59_area_is_complete_partial"
   ],
   "note": "Proved for every loaded rule (found by the search, and the best solution is complete) and the ways to fulfil it described by `Fulfils` (queries may ask several things, with own filters and within limits); and for whole areas that are not majors and ask for all their parts (`C59_area_is_complete_partial`: the last message of the audit is a complete result). Missing: majors (false in general, `C69_major_refuted`), and areas asking for fewer items than they have. For the latter it is false in general (`C59_independents_refuted`): a count rule at the top of an area that needs fewer items than it has can miss a fulfilling choice, because after solving some items by themselves it still looks for the full number among the others."
  },
  {
   "property": "C60",
   "status": "proved",
   "theorems": [
    "Dp.C60_degree_gpa",
    "Dp.C60_area_gpa"
   ],
   "note": "Stated with an inductive specification of which claims of a result tree count (CountsForGpa); the average is compared with that of any duplicate-free list of exactly those courses. Witness: an area text with an in_gpa: false requirement."
  },
  {
   "property": "C61",
   "status": "proved",
   "theorems": [
    "Dp.C61_pending_area_waits_for_a_course",
    "Dp.C61_claimed_course_status",
    "Dp.C61_refused_course_status",
    "Dp.C61_rank_follows_status"
   ],
   "note": "The specification WaitsFor reads only the result tree (claims, states and resolved class ids). Includes the common requirements of majors."
  },
  {
   "property": "C53",
   "status": "proved",
   "theorems": [
    "Dp.C53_kept_as_written",
    "Dp.C53_kept_from_queries",
    "Dp.C53_reserved_class_is_not_counted",
    "Dp.C53_kept_in_vain_refuted"
   ],
   "note": "C53_kept_from_queries says which classes a loaded area's queries are kept from (exactly the reserved and the blocked ones), C53_reserved_class_is_not_counted that no claim of a query in any audit result is for one. C53_kept_in_vain_refuted shows that the stronger reading, in which a class kept for a rule is of use there, is false of the code. Classes of the record must have distinct ids (C30). `C53_kept_as_written` says the same from the text of the area file alone."
  },
  {
   "property": "C62",
   "status": "partial",
   "theorems": [
    "Dp.C62_positive_partial",
    "Dp.C62_bounds_the_solutions_partial",
    "Dp.C62_too_small_refuted",
    "Dp.C62_nothing_refuted"
   ],
   "note": "Lower bound for every area (C62_positive_partial; 0 is possible for a conditional without a taken part, C62_nothing_refuted). Upper bound for every area loaded from a text if each course rule names at most one class of the student and no class is inserted at it (C62_bounds_the_solutions_partial); without that it is false, because a course rule counts as one (C62_too_small_refuted)."
  },
  {
   "property": "C47",
   "status": "partial",
   "theorems": [
    "Dp.C47_unknown_keys_are_refused_partial",
    "Dp.C47_assertion_refuted",
    "Dp.C47_field_value_refuted",
    "Dp.C47_filter_if_refuted",
    "Dp.C47_reference_refuted",
    "Dp.C47_waived_refuted",
    "Dp.C47_unread_parts_refuted"
   ],
   "note": "Proved for every dictionary that is read, except where the code does not check; each exception is shown by a theorem: the dictionary around an assertion, the value of a filter's field, a filter with $if, a reference to a requirement, the key waived, and parts that are never read (C47_*_refuted)."
  },
  {
   "property": "C49",
   "status": "proved",
   "theorems": [
    "Dp.C49_value_exception_is_local",
    "Dp.C49_later_value_has_no_effect"
   ],
   "note": "Stated on the whole loaded area: loading with the exception is loading without it followed by setting one number."
  },
  {
   "property": "C63",
   "status": "proved",
   "theorems": [
    "Dp.C63_filter_selects_what_it_says",
    "Dp.C63_not_both",
    "Dp.C63_filtering_keeps_what_is_accepted"
   ],
   "note": "Text level: `Accepts` is a relation between the YAML value and a record, independent of the loaded predicate. For filters whose evaluation raises (a type error of an operator) nothing is claimed; C17 treats those."
  },
  {
   "property": "C64",
   "status": "proved",
   "theorems": [
    "Dp.C64_assertion_reads_its_text",
    "Dp.C64_one_number",
    "Dp.C64_passing_assertion_is_met_as_written"
   ],
   "note": "Text level: `Expects`, `AsksAsWritten` and `MetAsWritten` relate the YAML value to records without the loaded assertion. The number is shown to be unique. Loads that fail claim nothing."
  },
  {
   "property": "C65",
   "status": "proved",
   "theorems": [
    "Dp.C65_course_rule_asks_what_is_written"
   ],
   "note": "Text level and an equivalence; `CourseAsWritten` is a specification over the keys of the text. An unknown kind of course (not E, L, F, D) is no restriction, as in the code. Exclusions by reservations and blocks are C25 and C53."
  },
  {
   "property": "C66",
   "status": "proved",
   "theorems": [
    "Dp.C66_count_rule_reads_its_text"
   ],
   "note": "Text level: `PartsWritten`, `ShownParts` and `AsksFor` relate the YAML value to parts and number. Loads that fail claim nothing; `both` and `either` with an emphasis but no insertion only load when exactly two items are there."
  },
  {
   "property": "C67",
   "status": "proved",
   "theorems": [
    "Dp.C67_passing_area_meets_its_text",
    "Dp.C67_complete_area_meets_its_text_finally"
   ],
   "note": "Text level, end to end: `TextMeets` is defined on the YAML value, the record and the exceptions. Hypotheses on the text: declared emphases have distinct requirement names, the reserved key is not used, no `$when` condition holds of no courses; on the record: distinct class numbers. The classes kept from queries are those of `KeptByText` (C53), also defined on the text. A root conditional can be waived as a whole."
  },
  {
   "property": "C68",
   "status": "proved",
   "theorems": [
    "Dp.C68_sensible_filter_answers",
    "Dp.C68_sensible_filtering_answers",
    "Dp.C68_comparison_answers_iff"
   ],
   "note": "Converse direction of C63: `Sensible` is defined on the filter text and the record, independently of the evaluator; for single comparisons it is exact. For compound filters it asks every comparison to make sense, also those that short-circuiting would skip."
  },
  {
   "property": "C69",
   "status": "partial",
   "theorems": [
    "Dp.C69_area_with_what_is_written_is_complete_partial",
    "Dp.C69_major_refuted",
    "Dp.C69_area_with_limits_partial"
   ],
   "note": "End to end from the text of the file to the last message of the audit: `TextFulfilled` describes on the YAML value what the student has, and does not mention the loader, the search or the results. Areas with limits are covered by `C69_area_with_limits_partial`: courses that a choice within the limits leaves. Missing: areas whose result asks for fewer parts than it has (false in general, `C59_independents_refuted`), majors (false in general, `C69_major_refuted`: the independent parts are solved by themselves, by their first complete choice, before the common requirements look at the same courses), two limits of the area that mean the same and limits in credits that all courses fit without being chosen (false: `C11_repeated_limit_refuted`, `C11_refuted`), counts marked `disjoint`, courses that may count more than once, and ways to fulfil a text that `TextFulfilled` does not describe (counts with assertions on the whole; queries that insert, that claim nothing, or that ask under a condition). Queries with several assertions, assertions with filters of their own and limits inside queries are described (constructor `queries`)."
  },
  {
   "property": "C70",
   "status": "partial",
   "theorems": [
    "Dp.C70_report_is_printed_partial",
    "Dp.C70_report_is_printed_refuted"
   ],
   "note": "Proved for area files without `$not` in filters, with a course beside every proficiency and no count with `at_most: true` (C70_report_is_printed_partial); each of the three conditions is needed (C70_report_is_printed_refuted, from texts that load and are audited)."
  },
  {
   "property": "C71",
   "status": "proved",
   "theorems": [
    "Dp.C71_claimed_courses",
    "Dp.C71_printed"
   ],
   "note": "The printed lines are stated for a report without --print-path; a class that is not on the transcript makes the report raise, so it is not dropped silently."
  },
  {
   "property": "C72",
   "status": "proved",
   "theorems": [
    "Dp.C72_every_requirement_is_printed",
    "Dp.C72_status_can_be_read"
   ],
   "note": "For reports that print without raising (see C70 for when they do)."
  },
  {
   "property": "C73",
   "status": "partial",
   "theorems": [
    "Dp.C73_requirement_by_path_partial",
    "Dp.C73_nested_requirement_refuted"
   ],
   "note": "Proved for the requirements that are reached through counts alone. Requirements inside another requirement are not printed (C73_nested_requirement_refuted): `print_requirement` looks at its own path only, so nothing beneath it is searched."
  },
  {
   "property": "C74",
   "status": "partial",
   "theorems": [
    "Dp.C74_same_answer_partial",
    "Dp.C74_tie_refuted",
    "Dp.C74_credit_limit_refuted"
   ],
   "note": "Proved for areas whose conditions on all claimed courses do not look at one course per course id, subject, term or year, whose limits are different and count courses, whose parts marked as disjoint claim nothing, and whose claiming queries skip failed courses. Without the first the status can differ between runs when two courses tie (C74_tie_refuted), with limits in credits a student can be complete in one run and not audited in another (C74_credit_limit_refuted). The order in which claims, and the courses of a claimed query, are listed may differ."
  },
  {
   "property": "C75",
   "status": "partial",
   "theorems": [
    "Dp.C75_course_limits_of_an_area_partial",
    "Dp.C75_credit_limits_less_than_one_course_partial",
    "Dp.C75_credit_limits_of_an_area_partial",
    "Dp.C75_course_limits_of_a_query",
    "Dp.C75_overlapping_credit_limits_refuted"
   ],
   "note": "Proved for whole-number limits on courses, of areas in which no query looks at failed courses (else false: C09_area_limits_refuted) and of query rules over courses; for limits in credits that share no course with another limit; any limit of an area in credits is exceeded by less than one course. Overlapping limits in credits are not kept (C75_overlapping_credit_limits_refuted). The theorems go from the text of the file to the courses counted in results."
  },
  {
   "property": "C76",
   "status": "proved",
   "theorems": [
    "Dp.C76_dropped_areas_leave_no_trace"
   ],
   "note": "Needs the kind of each dropped area to be one of the four known ones, as otherwise loading the file raises."
  },
  {
   "property": "C77",
   "status": "proved",
   "theorems": [
    "Dp.C77_exceptions_of_other_areas"
   ],
   "note": "Stated for the whole of run."
  },
  {
   "property": "C78",
   "status": "proved",
   "theorems": [
    "Dp.C78_migrations_rewrite_exceptions"
   ],
   "note": "Stated for the whole of run; the relation of old and new paths is defined on its own (Moved)."
  },
  {
   "property": "C79",
   "status": "proved",
   "theorems": [
    "Dp.C79_order_of_records"
   ],
   "note": "Stated for the whole of run; courses, performances and attendances have different ids."
  },
  {
   "property": "C80",
   "status": "partial",
   "theorems": [
    "Dp.C80_label_stands_for_its_class_partial",
    "Dp.C80_named_label_stands_for_its_class",
    "Dp.C80_lab_labels_fit_nothing",
    "Dp.C80_lab_labels_refuted",
    "Dp.C80_empty_name_takes_anything",
    "Dp.C80_repeated_labels"
   ],
   "note": "Partial: proved for all labels, with the name of a class as the code forms it; for labs, foreign-language sections and discussions that name has a suffix, so that their labels fit no class (proved). Class ids are not empty."
  },
  {
   "property": "C81",
   "status": "proved",
   "theorems": [
    "Dp.C81_table_of_grades",
    "Dp.C81_every_graded_course_once",
    "Dp.C81_last_average_is_overall",
    "Dp.C81_courses_in_order",
    "Dp.C81_table_of_the_file"
   ],
   "note": "Terms are ordered as texts (year, dash, term), as the code does; for years of four digits this is the order in time."
  },
  {
   "property": "C82",
   "status": "proved",
   "theorems": [
    "Dp.C82_loading_ends"
   ],
   "note": "The recursion of the loader is cut by a fuel argument in the model; the theorem says that the fuel given to it is never used up."
  },
  {
   "property": "C83",
   "status": "proved",
   "theorems": [
    "Dp.C83_the_student_is_the_one_of_the_file",
    "Dp.C83_other_words_are_errors"
   ],
   "note": "A record of the file has typed fields (see section 3 of DESIGN.md). Mediums are the names between commas with a blank."
  },
  {
   "property": "C84",
   "status": "proved",
   "theorems": [
    "Dp.C84_courses_are_those_of_the_file"
   ],
   "note": "Whether a class is taken this term or later is decided by comparing texts of year and term, as in the code; C32 relates this to time."
  },
  {
   "property": "C85",
   "status": "proved",
   "theorems": [
    "Dp.C85_passing_audit_of_two_files",
    "Dp.C85_complete_audit_of_two_files"
   ],
   "note": "Combines C67 with C83, C84 and C08. The labels of templates are those of C80. Same conditions as C67: real conditions in `$when`, and emphases that add requirements of different names."
  },
  {
   "property": "C87",
   "status": "partial",
   "theorems": [
    "Dp.C87_audit_does_not_raise_partial",
    "Dp.C87_audits_do_raise",
    "Dp.C87_audit_of_two_files_does_not_raise_partial"
   ],
   "note": "Partial: the claim without conditions is false, see C87_audits_do_raise; proved under the conditions of ClearAudit, each of which but those on majors is needed for one of the exhibited cases. For majors, exceptions for the common requirements and department codes beginning with a dollar sign are excluded."
  },
  {
   "property": "C88",
   "status": "proved",
   "theorems": [
    "Dp.C88_templates_are_those_written",
    "Dp.C88_label_means_one_template",
    "Dp.C88_label_means_nothing"
   ],
   "note": "The meaning of regular expressions (ways to match, in the order in which they are tried) is defined on its own; `\\d` is taken as the digits 0 to 9."
  },
  {
   "property": "C86",
   "status": "partial",
   "theorems": [
    "Dp.C86_files_that_fulfil_within_limits_partial",
    "Dp.C86_files_that_fulfil_are_complete_partial"
   ],
   "note": "C69 for two files: the student, the exceptions and the credits are those that the files give (C83, C84, C85); without limits and, by `C86_files_that_fulfil_within_limits_partial`, within limits. Missing: as for C69."
  },
  {
   "property": "C89",
   "status": "proved",
   "theorems": [
    "Dp.C89_shared_as_written"
   ],
   "note": "C01 and C04 with the table as it is written in the file. That the same place can claim a listed class again and again is C04_refuted. Names in a path are texts; the code would also accept numbers there."
  },
  {
   "property": "C90",
   "status": "proved",
   "theorems": [
    "Dp.C90_transcript_is_that_of_the_file"
   ],
   "note": "Composes C83 to C85 with the printing; the values are kept as values (kinds, grades, numbers), not as their printed text."
  },
  {
   "property": "C91",
   "status": "partial",
   "theorems": [
    "Dp.C91_sheet_iff_partial",
    "Dp.C91_refuted",
    "Dp.C91_order_refuted"
   ],
   "note": "False as stated: `C91_refuted` exhibits two files for which the area is complete and no sheet with the result can be written (it has a query), and `C91_order_refuted` two students of one area whose sheet is written in one order and raises in the other. Proved: exactly which lists of results can be written."
  },
  {
   "property": "C92",
   "status": "partial",
   "theorems": [
    "Dp.C92_cells_partial",
    "Dp.C92_refuted"
   ],
   "note": "False as stated: `C92_refuted` exhibits a counted course that is not shown and a course that is shown though not taken. Proved: the headings are those of the first result, each once, rows are in order, and which cells a result has under which headings (`Column`), with missing ones empty."
  },
  {
   "property": "C93",
   "status": "proved",
   "theorems": [
    "Dp.C93_document_shows_every_part",
    "Dp.C93_document_shows_nothing_else",
    "Dp.C93_path_tells_which"
   ],
   "note": "Proved for all results (every part, nothing else) and for all loaded areas (paths). Left out of the documents: hidden, messages, labels, original values, resolved_items and the parts of conditions. Paths are unambiguous under the hypotheses of C48 (reserved key not used, declared emphases with different names, area not itself a requirement called Common Requirements)."
  },
  {
   "property": "C94",
   "status": "proved",
   "theorems": [
    "Dp.C94_table_and_document_agree",
    "Dp.C94_equal_documents"
   ],
   "note": "Proved for all loaded areas. `Counts` reads the document: beneath a requirement unless the department audits it, and beneath the chosen branch of a conditional."
  },
  {
   "property": "C95",
   "status": "partial",
   "theorems": [
    "Dp.C95_stored_row",
    "Dp.C95_when_stored",
    "Dp.C95_stored_ok_is_met",
    "Dp.C95_fulfilled_is_stored_partial",
    "Dp.C95_when_stored_refuted"
   ],
   "note": "Row, its soundness and when it is stored are proved; the last needs that no count of the area file says at_most: true, and is refuted without (C95_when_stored_refuted). Completeness is partial as C86 is: areas other than majors that ask for all of their parts, and an audit that does not raise."
  },
  {
   "property": "C96",
   "status": "partial",
   "theorems": [
    "Dp.C96_attributes_are_listed_partial",
    "Dp.C96_nothing_else",
    "Dp.C96_conditional_refuted",
    "Dp.C96_audit_refuted",
    "Dp.C96_key_refuted",
    "Dp.C96_number_refuted"
   ],
   "note": "Nothing is listed in vain: proved for all areas. That everything tested is listed is partial: areas without conditional rules and without filters in the assertions of counts, and tests by the key attributes against texts; refuted for each of the four cases left out."
  },
  {
   "property": "C97",
   "status": "partial",
   "theorems": [
    "Dp.C97_listed_exactly",
    "Dp.C97_claimed_course_is_listed_partial",
    "Dp.C97_conditional_refuted"
   ],
   "note": "What is listed is proved exactly for all areas. That everything claimed is listed is partial: areas without conditional rules (refuted with one) and without emphases, students without templates."
  },
  {
   "property": "C98",
   "status": "partial",
   "theorems": [
    "Dp.C98_table_after_a_run",
    "Dp.C98_nothing_else",
    "Dp.C98_everything_found_partial",
    "Dp.C98_attributes",
    "Dp.C98_dropped_crsid_refuted"
   ],
   "note": "The table of attributes: proved. The table of courses: exactly what is in it after a run is proved, and that nothing else is left; that everything found is there needs that no crsid has been dropped (C98_dropped_crsid_refuted). Assumed: ON CONFLICT refuses a row only if the table has it."
  },
  {
   "property": "C99",
   "status": "proved",
   "theorems": [
    "Dp.C99_missing_area_does_not_pass",
    "Dp.C99_some_result_is_reported",
    "Dp.C99_missing_area_is_reported"
   ],
   "note": "Proved from the two files on (C85). That the audit ends without an exception is not claimed; see C87 for when it does."
  },
  {
   "property": "C100",
   "status": "proved",
   "theorems": [
    "Dp.C100_exit_code_tells_of_a_report",
    "Dp.C100_exit_code_two",
    "Dp.C100_quiet"
   ],
   "note": "For the arguments without --print-all, --print-only, --audit-each (for these see C22), --estimate, --gpa and --transcript. How a result is written is a parameter that may fail."
  },
  {
   "property": "C101",
   "status": "partial",
   "theorems": [
    "Dp.C101_order_of_lines_does_not_matter",
    "Dp.C101_reports_are_of_the_lines",
    "Dp.C101_exit_code_zero",
    "Dp.C101_each_line_is_reported_partial",
    "Dp.C101_blank_line_refuted",
    "Dp.C101_other_lines_refuted"
   ],
   "note": "Proved but for the last sentence, which is false: a blank line raises before any audit, and one line that cannot be audited ends the batch (C101_blank_line_refuted, C101_other_lines_refuted)."
  },
  {
   "property": "C102",
   "status": "partial",
   "theorems": [
    "Dp.C102_index_is_current_partial",
    "Dp.C102_changed_file_refuted",
    "Dp.C102_other_name_refuted",
    "Dp.C102_catalog_of_the_index",
    "Dp.C102_first_run_refuted",
    "Dp.C102_batch_of_the_index_partial"
   ],
   "note": "Partial: files that are added but not changed (C102_changed_file_refuted) and are named after their student (C102_other_name_refuted), and a batch that reads a run with nothing new to index, since the line about the progress is printed among the others and raises (C102_first_run_refuted)."
  },
  {
   "property": "C103",
   "status": "partial",
   "theorems": [
    "Dp.C103_validated_area_loads_partial",
    "Dp.C103_conditional_refuted",
    "Dp.C103_emphasis_refuted",
    "Dp.C103_template_refuted",
    "Dp.C103_insertion_refuted"
   ],
   "note": "Partial: for students without a declared emphasis (C103_emphasis_refuted), insertions into counts of classes the student has (C103_insertion_refuted), texts without templates that the student has (C103_template_refuted) and without hidden conditional rules, whose other conditional rules have the same answer for nobody as for the student or name no requirement (C103_conditional_refuted); departments do not begin with `$` and the performing medium is not a number."
  },
  {
   "property": "C104",
   "status": "partial",
   "theorems": [
    "Dp.C104_validate_shows_partial",
    "Dp.C104_exit_code_refuted"
   ],
   "note": "Proved but for the exit code, which is always 0 (C104_exit_code_refuted), so that `make validate` succeeds with an invalid file."
  },
  {
   "property": "C105",
   "status": "partial",
   "theorems": [
    "Dp.C105_baseline_is_what_was_audited_partial",
    "Dp.C105_branch_is_what_was_audited_partial",
    "Dp.C105_run_ends",
    "Dp.C105_all_or_nothing",
    "Dp.C105_one_audit_loses_all_refuted",
    "Dp.C105_copy_refuted"
   ],
   "note": "Partial: for runs that end without an exception. One audit that ends with neither a result nor an exception makes the run raise, and all others are lost (C105_one_audit_loses_all_refuted); `baseline --copy` empties the baseline and raises (C105_copy_refuted). C105_run_ends tells when a run ends without an exception."
  },
  {
   "property": "C106",
   "status": "partial",
   "theorems": [
    "Dp.C106_compare_lists",
    "Dp.C106_changes_of_two_runs_partial",
    "Dp.C106_no_change_no_rows",
    "Dp.C106_failing_audit_refuted"
   ],
   "note": "Partial: for audits that end with a result in both runs. An audit that raises in the branch is not shown, although it was complete in the baseline (C106_failing_audit_refuted)."
  },
  {
   "property": "C107",
   "status": "partial",
   "theorems": [
    "Dp.C107_never_stale",
    "Dp.C107_one_row_per_file",
    "Dp.C107_cache_is_not_seen_partial",
    "Dp.C107_number_keys_refuted",
    "Dp.C107_date_refuted"
   ],
   "note": "Partial: for files below the root whose values JSON has. A key that is a number is a text once it comes from the cache (C107_number_keys_refuted), and a file with a date, or the like, raises (C107_date_refuted); what is given is never stale even so (C107_never_stale)."
  },
  {
   "property": "C108",
   "status": "partial",
   "theorems": [
    "Dp.C108_stored_once_partial",
    "Dp.C108_link_only_refuted"
   ],
   "note": "Partial: --link-only is ignored, and every row is stored as if it was given (C108_link_only_refuted). If the audit raises, `stored with id None` is printed (example)."
  },
  {
   "property": "C109",
   "status": "partial",
   "theorems": [
    "Dp.C109_settings_are_loaded_partial",
    "Dp.C109_other_lines_raise",
    "Dp.C109_equals_in_value_refuted"
   ],
   "note": "Partial: a value with an equals sign, as in PGPASSWORD=a=b, makes the program end with ValueError (C109_equals_in_value_refuted). C109_other_lines_raise covers all malformed lines."
  },
  {
   "property": "C110",
   "status": "partial",
   "theorems": [
    "Dp.C110_fetched_is_what_was_asked_partial",
    "Dp.C110_fetch_ends",
    "Dp.C110_latest_of_any_history",
    "Dp.C110_failed_fetch",
    "Dp.C110_killed_clear_refuted",
    "Dp.C110_again_refuted"
   ],
   "note": "Partial: a fetch with --clear that fails, or is killed, has lost what was there, as clearing is a transaction of its own (C110_killed_clear_refuted); fetching twice without --clear always raises (C110_again_refuted)."
  },
  {
   "property": "C111",
   "status": "partial",
   "theorems": [
    "Dp.C111_query",
    "Dp.C111_extract_partial",
    "Dp.C111_run_shows_what_is_stored",
    "Dp.C111_extract_refuted",
    "Dp.C111_print_partial",
    "Dp.C111_print_of_one",
    "Dp.C111_print_of_two_runs_partial",
    "Dp.C111_nothing_changed_partial",
    "Dp.C111_print_name_refuted",
    "Dp.C111_print_raises_refuted"
   ],
   "note": "Partial: extract, and so invoke, does not look at the catalog (C111_extract_refuted); for students with the code in one catalog only it is right (C111_extract_partial). print does not show the audit of a branch that is named server or baseline (C111_print_name_refuted), and raises for an audit of a branch that is no longer in the baseline (C111_print_raises_refuted)."
  },
  {
   "property": "C112",
   "status": "partial",
   "theorems": [
    "Dp.C112_newest_file",
    "Dp.C112_whatif_is_queued_partial",
    "Dp.C112_whatif_goes_first",
    "Dp.C112_whatif_replaces_active_refuted"
   ],
   "note": "Partial: a what-if audit is queued without link_only, so with false as the default of this column its result replaces the active result of the student (C112_whatif_replaces_active_refuted). The default is in the database, not in the repository."
  },
  {
   "property": "C113",
   "status": "partial",
   "theorems": [
    "Dp.C113_every_student_has_one_row",
    "Dp.C113_report_shows_the_audits_partial",
    "Dp.C113_report_is_determined_partial",
    "Dp.C113_same_title_refuted",
    "Dp.C113_order_of_tables_refuted",
    "Dp.C113_emphasis_refuted"
   ],
   "note": "Partial: the cells are those of the columns only if no two records of a row have the same title and subtitle (C113_same_title_refuted), and the order of tables with the same caption is that of a hash map (C113_order_of_tables_refuted). Parts of an emphasis are never shown (C113_emphasis_refuted)."
  },
  {
   "property": "C114",
   "status": "partial",
   "theorems": [
    "Dp.C114_summary_counts_partial",
    "Dp.C114_every_student_counted_once_partial",
    "Dp.C114_counted_twice_refuted"
   ],
   "note": "Partial: a student is counted in one table only if the students of a catalog have the same titles, since the summary chooses its students by catalog; the title of a condition contains its result, so students are counted twice (C114_counted_twice_refuted)."
  },
  {
   "property": "C115",
   "status": "partial",
   "theorems": [
    "Dp.C115_numbers_are_the_audits",
    "Dp.C115_courses_are_the_students",
    "Dp.C115_shown_as_passing_partial",
    "Dp.C115_numbered_items",
    "Dp.C115_one_of_several",
    "Dp.C115_course_alone",
    "Dp.C115_same_columns_partial",
    "Dp.C115_done_is_shown_as_needed_refuted",
    "Dp.C115_done_is_shown_as_waived_refuted",
    "Dp.C115_only_claimed_courses",
    "Dp.C115_claimed_courses_are_shown_partial"
   ],
   "note": "Partial: a record has the status of the item of the area's outermost count that it is in, so a finished course is shown, and counted, as needed (C115_done_is_shown_as_needed_refuted), and for a count of one a finished item is shown as waived (C115_done_is_shown_as_waived_refuted). What is done for one of several things, or for a waived requirement, has no cell of its own (C115_claimed_courses_are_shown_partial)."
  },
  {
   "property": "C116",
   "status": "partial",
   "theorems": [
    "Dp.C116_after_any_run",
    "Dp.C116_good_day_partial",
    "Dp.C116_one_bad_area_refuted",
    "Dp.C116_stale_refuted"
   ],
   "note": "Partial: one audit that cannot be shown (a course that has only a name) ends every run at its area, so that the later areas never have reports (C116_one_bad_area_refuted); and an area without active results keeps its last report (C116_stale_refuted)."
  },
  {
   "property": "C117",
   "status": "partial",
   "theorems": [
    "Dp.C117_words_are_kept",
    "Dp.C117_shown_again",
    "Dp.C117_empty_is_refused_partial",
    "Dp.C117_blank_message_refuted",
    "Dp.C117_empty_paragraph_refuted",
    "Dp.C117_less_than_refuted",
    "Dp.C117_one_element_for_a_paragraph_partial"
   ],
   "note": "Partial: a message of blanks is accepted and shown as an empty paragraph (C117_blank_message_refuted), only the empty message is refused; three empty lines in a row give an empty paragraph (C117_empty_paragraph_refuted); a paragraph that begins with a less-than sign is taken for a tag (C117_less_than_refuted). The theorem about one element for each paragraph is for lines that all have the same margin."
  },
  {
   "property": "C118",
   "status": "partial",
   "theorems": [
    "Dp.C118_rows_partial",
    "Dp.C118_styles",
    "Dp.C118_sheet_is_written_partial",
    "Dp.C118_wrong_column_refuted",
    "Dp.C118_style_refuted",
    "Dp.C118_unnamed_course_refuted"
   ],
   "note": "Partial: the headings are those of the first student and every row is written from the first column on, so a student whose result has other columns has cells below a wrong heading (C118_wrong_column_refuted); a cell without a colon is in the style of what is done, also for a course that was not taken (C118_style_refuted). For a course that is not given by its name it raises (C118_unnamed_course_refuted). Proved: a sheet is written if every cell has a value; the cells of a row are those of the student's own headings in order, and the style is a function of the text of the cell (C118_styles)."
  },
  {
   "property": "C119",
   "status": "partial",
   "theorems": [
    "Dp.C119_all_areas_partial",
    "Dp.C119_argument_refuted"
   ],
   "note": "Partial: with a student file as an argument it always raises, whatever is in the file (C119_argument_refuted); proved for files on the input."
  }
 ]
}