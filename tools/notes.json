{
 "C04": {
  "note": "The full bound is false of the code (listed paths are strings compared with tuples): C04_refuted is a witness history. The partial theorems describe the decision actually taken."
 },
 "C16": {
  "note": "The operators themselves are covered in full; behind the lru_cache, answers can be those of an equal but differently typed argument (C16_cache_refuted), the cache is transparent for histories without such pairs."
 },
 "C09": {
  "status": "partial",
  "note": "Holds for course limits with whole maxima, also of the courses a query reports and of those an area's queries without include_failed claim. False for credit limits that share courses and for fractional course limits (refuted with witnesses); there the overshoot is less than one course, and separate credit limits are respected. Queries with include_failed bypass the area's limits (C09_area_limits_refuted)."
 },
 "C11": {
  "note": "False in general (C11_refuted, C11_repeated_limit_refuted). Proved for distinct course limits (every admissible selection) and for credit limits that share no counted course (every maximal selection)."
 },
 "C45": {
  "note": "False for credit limits (witness). Proved for distinct course limits and distinct class ids."
 },
 "C18": {
  "note": "Upper bound proved for every result; the lower bound is false when an assertion expects a negative number or in the presence of negative sums (C18_negative_rank_refuted) and is proved where each assertion's inputs are nonnegative. A childless count asked for a rank raises (C18_childless_count_raises)."
 },
 "C19": {
  "note": "Done implies enough done children, and passing implies enough passing children. The converse is false: an unneeded pending or failed child changes the status (C19_unneeded_child_refuted); it holds when exactly the needed children are resolved."
 },
 "C22": {
  "note": "The protocol holds without the printing options when every solution is audited (C22_protocol_partial). For every choice of options, solutions that print_only and audit_each leave out have no influence on the messages; with a printing option each selected solution is told once and in order, if none of them is complete. A complete one ends the run and is not told with print_all, or with print_only after another was told (C22_print_all_refuted, C22_print_only_refuted)."
 },
 "C31": {
  "note": "Order independence, zero credits, truncation and the upper bound proved. The lower bound (GPA at least the least grade) is false because each course's points are cut first (C31_lower_bound_refuted); proved where no course's points are cut."
 },
 "C29": {
  "note": "As stated for $gte. The same shortcut is used for $lt, where it misses satisfying selections (C29_fewer_credits_refuted)."
 },
 "C46": {
  "note": "Holds for 'at least' counts without 'at most'; with an exact count it is false (C46_exact_count_refuted)."
 },
 "C27": {
  "note": "Every claim comes from the query's own source or from an insertion at its path (full). 'At most once' is false when an inserted course also matches the query (C27_refuted); proved for queries without insertions at their path."
 },
 "C36": {
  "note": "A proficiency rule looks only at the first solution of its course rule, so a later acceptable course is ignored (C36_refuted). Proved: the status from the student's record, from the course rule it does try, and from a waiver."
 },
 "C25": {
  "note": "Proved for every claim of an area made by its own course and query rules. False for the course rule inside a proficiency rule, which blocks do not reach (C25_proficiency_refuted)."
 },
 "C38": {
  "note": "False for conditional rules, whose override is ignored (C38_conditional_refuted); audited and contract requirements report done rather than waived. Proved for all other rules; and an override never waives anything else."
 },
 "C23": {
  "note": "That each solution mentions each child exactly once in path order is proved in full, for nested and topmost counts. A count always yields or raises (proved); it always yields unless the search raises, and it does raise when an exception lies beneath a requirement that ends in an unanswered conditional (C23_always_yields_refuted)."
 },
 "C24": {
  "note": "Proved unless both children are flagged disjoint, in terms of matches and in terms of claims. Children flagged `disjoint: true` are not compared (C24_disjoint_flag_refuted)."
 },
 "C37": {
  "note": "Proved for every rule solved as a whole, and for whole areas unless a top-level requirement flagged `disjoint: true` claims courses for itself (C37_disjoint_flag_refuted), for classes of the limited transcript that are neither multicountable nor forced in."
 },
 "C39": {
  "note": "Over every interleaving of any number of workers with crashes, failed statements and concurrent queueing. Two theorems record what the statement does not promise: an item whose result the database refuses is never removed and runs again for ever, and an item without an area file is kept by the worker until its next COMMIT."
 },
 "C40": {
  "status": "partial",
  "note": "At most one active result after every sequence of stored results and clearings, and in every run of concurrent workers in which no two have items of one student and area at a time (enough: the queue never has two). False in three ways, each with a witness: a later link-only result has a greater revision, two workers on one student and area can leave two active results, and an exception between the statements leaves none."
 },
 "C42": {
  "status": "partial",
  "note": "For every order of the threads: only allowed items, none twice. That every allowed item is queued needs that the database refuses nothing; otherwise items of other students are lost (refuted with a witness). \"Already queued\" means when the batch started: items queued meanwhile are queued again (witness)."
 },
 "C43": {
  "note": "Folder names of the form YYYY-YY are compared as text; the theorem shows that for these the greatest name is the latest year. Another folder with a dash in its name can be preferred (C43_other_folder_preferred)."
 },
 "C44": {
  "note": "Decimal numbers in a text are misread (C44_decimal_point_misread), a trailing number without unit is dropped, seconds can round up to 60 without a carry, and zero is written without a number: each shown by a witness beside the theorems. Rounding of decimals to 28 digits is not modelled."
 },
 "C48": {
  "note": "Loading from text is modelled (Model/Yaml, LoadClause, Load). The two side conditions are needed: C48_equal_emphases_refuted, C48_common_name_refuted."
 },
 "C26": {
  "note": "C26_loaded_area is the whole-area statement from the specification text to the claims of audited solutions."
 },
 "C50": {
  "note": "From the text of the area file through loading, solving and auditing. Proved in both directions for majors whose top-level rule asks for all its parts, and the S/U limit for every major. The general claim is false of the code: the common requirements are added as one more item of the top-level rule, so a major that asks for fewer parts than it has (any, at least n) is complete without them (C50_common_requirements_refuted)."
 },
 "C52": {
  "note": "The first direction is proved in full; the converse and the claim about completed courses exclude three cases in which the code disagrees, each with a witness: a conditional assertion that asks nothing keeps its query from passing (C52_nothing_asked_refuted), terms of the most common course are pending although met (C52_needlessly_pending_refuted), and 'at most' of no courses at all counts as unmet beside a waived assertion (C52_at_most_of_nothing_refuted)."
 },
 "C57": {
  "note": "Proved except for a blocked course that is there more than once: the code removes one copy of it only (C57_blocked_but_counted_refuted)."
 },
 "C58": {
  "note": "`Satisfied` in Props/Satisfied.lean is the specification: what it means, from the loaded rule, the student's record and the exceptions, that a rule holds. The theorems say that every passing (complete) audited solution of a loaded area satisfies it. The common requirements of majors are C50."
 },
 "C54": {
  "note": "About `solutions` without the search for independent parts, that is, all counts but the one at the top of an area (and that one too if it has further assertions)."
 },
 "C55": {
  "note": "Proved for the ways to fulfil a rule described by `Fulfils`; refuted for queries that ask for exactly zero courses (`C55_zero_refuted`): such a query has no potential and is set aside although it is complete."
 },
 "C59": {
  "note": "Proved for every loaded rule (found by the search, and the best solution is complete) and the ways to fulfil it described by `Fulfils` (queries may ask several things, with own filters and within limits); and for whole areas that are not majors and ask for all their parts (`C59_area_is_complete_partial`: the last message of the audit is a complete result). Missing: majors (false in general, `C69_major_refuted`), and areas asking for fewer items than they have. For the latter it is false in general (`C59_independents_refuted`): a count rule at the top of an area that needs fewer items than it has can miss a fulfilling choice, because after solving some items by themselves it still looks for the full number among the others."
 },
 "C60": {
  "note": "Stated with an inductive specification of which claims of a result tree count (CountsForGpa); the average is compared with that of any duplicate-free list of exactly those courses. Witness: an area text with an in_gpa: false requirement."
 },
 "C61": {
  "note": "The specification WaitsFor reads only the result tree (claims, states and resolved class ids). Includes the common requirements of majors."
 },
 "C53": {
  "status": "proved",
  "note": "C53_kept_from_queries says which classes a loaded area's queries are kept from (exactly the reserved and the blocked ones), C53_reserved_class_is_not_counted that no claim of a query in any audit result is for one. C53_kept_in_vain_refuted shows that the stronger reading, in which a class kept for a rule is of use there, is false of the code. Classes of the record must have distinct ids (C30). `C53_kept_as_written` says the same from the text of the area file alone."
 },
 "C10": {
  "note": "For all limit sets: forced classes are never dropped and never count (see the theorems about limits). For whole areas loaded from text, C10_only_forced_classes_bypass_limits_partial says that only those bypass the limits of the area; missing there: queries with include_failed bypass them too (C09_area_limits_refuted)."
 },
 "C35": {
  "note": "The three cases for every condition value, and the condition itself: C35_conditions proves that the value computed when a text is read is the value of the written condition for the student (Decides, shown functional by decides_unique), C35_read_from_text that the rule read takes its parts from the right places and is hidden only if the condition does not hold and the text asks for it."
 },
 "C62": {
  "note": "Lower bound for every area (C62_positive_partial; 0 is possible for a conditional without a taken part, C62_nothing_refuted). Upper bound for every area loaded from a text if each course rule names at most one class of the student and no class is inserted at it (C62_bounds_the_solutions_partial); without that it is false, because a course rule counts as one (C62_too_small_refuted)."
 },
 "C47": {
  "note": "Proved for every dictionary that is read, except where the code does not check; each exception is shown by a theorem: the dictionary around an assertion, the value of a filter's field, a filter with $if, a reference to a requirement, the key waived, and parts that are never read (C47_*_refuted)."
 },
 "C49": {
  "note": "Stated on the whole loaded area: loading with the exception is loading without it followed by setting one number."
 },
 "C63": {
  "note": "Text level: `Accepts` is a relation between the YAML value and a record, independent of the loaded predicate. For filters whose evaluation raises (a type error of an operator) nothing is claimed; C17 treats those."
 },
 "C64": {
  "note": "Text level: `Expects`, `AsksAsWritten` and `MetAsWritten` relate the YAML value to records without the loaded assertion. The number is shown to be unique. Loads that fail claim nothing."
 },
 "C65": {
  "note": "Text level and an equivalence; `CourseAsWritten` is a specification over the keys of the text. An unknown kind of course (not E, L, F, D) is no restriction, as in the code. Exclusions by reservations and blocks are C25 and C53."
 },
 "C66": {
  "note": "Text level: `PartsWritten`, `ShownParts` and `AsksFor` relate the YAML value to parts and number. Loads that fail claim nothing; `both` and `either` with an emphasis but no insertion only load when exactly two items are there."
 },
 "C67": {
  "note": "Text level, end to end: `TextMeets` is defined on the YAML value, the record and the exceptions. Hypotheses on the text: declared emphases have distinct requirement names, the reserved key is not used, no `$when` condition holds of no courses; on the record: distinct class numbers. The classes kept from queries are those of `KeptByText` (C53), also defined on the text. A root conditional can be waived as a whole."
 },
 "C68": {
  "note": "Converse direction of C63: `Sensible` is defined on the filter text and the record, independently of the evaluator; for single comparisons it is exact. For compound filters it asks every comparison to make sense, also those that short-circuiting would skip."
 },
 "C69": {
  "note": "End to end from the text of the file to the last message of the audit: `TextFulfilled` describes on the YAML value what the student has, and does not mention the loader, the search or the results. Areas with limits are covered by `C69_area_with_limits_partial`: courses that a choice within the limits leaves. Missing: areas whose result asks for fewer parts than it has (false in general, `C59_independents_refuted`), majors (false in general, `C69_major_refuted`: the independent parts are solved by themselves, by their first complete choice, before the common requirements look at the same courses), two limits of the area that mean the same and limits in credits that all courses fit without being chosen (false: `C11_repeated_limit_refuted`, `C11_refuted`), counts marked `disjoint`, courses that may count more than once, and ways to fulfil a text that `TextFulfilled` does not describe (counts with assertions on the whole; queries that insert, that claim nothing, or that ask under a condition). Queries with several assertions, assertions with filters of their own and limits inside queries are described (constructor `queries`)."
 },
 "C71": {
  "note": "The printed lines are stated for a report without --print-path; a class that is not on the transcript makes the report raise, so it is not dropped silently."
 },
 "C72": {
  "note": "For reports that print without raising (see C70 for when they do)."
 },
 "C73": {
  "note": "Proved for the requirements that are reached through counts alone. Requirements inside another requirement are not printed (C73_nested_requirement_refuted): `print_requirement` looks at its own path only, so nothing beneath it is searched."
 },
 "C70": {
  "note": "Proved for area files without `$not` in filters, with a course beside every proficiency and no count with `at_most: true` (C70_report_is_printed_partial); each of the three conditions is needed (C70_report_is_printed_refuted, from texts that load and are audited)."
 },
 "C74": {
  "note": "Proved for areas whose conditions on all claimed courses do not look at one course per course id, subject, term or year, whose limits are different and count courses, whose parts marked as disjoint claim nothing, and whose claiming queries skip failed courses. Without the first the status can differ between runs when two courses tie (C74_tie_refuted), with limits in credits a student can be complete in one run and not audited in another (C74_credit_limit_refuted). The order in which claims, and the courses of a claimed query, are listed may differ."
 },
 "C75": {
  "note": "Proved for whole-number limits on courses, of areas in which no query looks at failed courses (else false: C09_area_limits_refuted) and of query rules over courses; for limits in credits that share no course with another limit; any limit of an area in credits is exceeded by less than one course. Overlapping limits in credits are not kept (C75_overlapping_credit_limits_refuted). The theorems go from the text of the file to the courses counted in results."
 },
 "C76": {
  "note": "Needs the kind of each dropped area to be one of the four known ones, as otherwise loading the file raises."
 },
 "C77": {
  "note": "Stated for the whole of run."
 },
 "C78": {
  "note": "Stated for the whole of run; the relation of old and new paths is defined on its own (Moved)."
 },
 "C79": {
  "note": "Stated for the whole of run; courses, performances and attendances have different ids."
 },
 "C80": {
  "note": "Partial: proved for all labels, with the name of a class as the code forms it; for labs, foreign-language sections and discussions that name has a suffix, so that their labels fit no class (proved). Class ids are not empty."
 },
 "C81": {
  "note": "Terms are ordered as texts (year, dash, term), as the code does; for years of four digits this is the order in time."
 },
 "C82": {
  "note": "The recursion of the loader is cut by a fuel argument in the model; the theorem says that the fuel given to it is never used up."
 },
 "C83": {
  "note": "A record of the file has typed fields (see section 3 of DESIGN.md). Mediums are the names between commas with a blank."
 },
 "C84": {
  "note": "Whether a class is taken this term or later is decided by comparing texts of year and term, as in the code; C32 relates this to time."
 },
 "C85": {
  "note": "Combines C67 with C83, C84 and C08. The labels of templates are those of C80. Same conditions as C67: real conditions in `$when`, and emphases that add requirements of different names."
 },
 "C87": {
  "note": "Partial: the claim without conditions is false, see C87_audits_do_raise; proved under the conditions of ClearAudit, each of which but those on majors is needed for one of the exhibited cases. For majors, exceptions for the common requirements and department codes beginning with a dollar sign are excluded."
 },
 "C88": {
  "note": "The meaning of regular expressions (ways to match, in the order in which they are tried) is defined on its own; `\\d` is taken as the digits 0 to 9."
 },
 "C86": {
  "note": "C69 for two files: the student, the exceptions and the credits are those that the files give (C83, C84, C85); without limits and, by `C86_files_that_fulfil_within_limits_partial`, within limits. Missing: as for C69."
 },
 "C89": {
  "note": "C01 and C04 with the table as it is written in the file. That the same place can claim a listed class again and again is C04_refuted. Names in a path are texts; the code would also accept numbers there."
 },
 "C90": {
  "note": "Composes C83 to C85 with the printing; the values are kept as values (kinds, grades, numbers), not as their printed text."
 },
 "C91": {
  "note": "False as stated: `C91_refuted` exhibits two files for which the area is complete and no sheet with the result can be written (it has a query), and `C91_order_refuted` two students of one area whose sheet is written in one order and raises in the other. Proved: exactly which lists of results can be written."
 },
 "C92": {
  "note": "False as stated: `C92_refuted` exhibits a counted course that is not shown and a course that is shown though not taken. Proved: the headings are those of the first result, each once, rows are in order, and which cells a result has under which headings (`Column`), with missing ones empty."
 },
 "C93": {
  "note": "Proved for all results (every part, nothing else) and for all loaded areas (paths). Left out of the documents: hidden, messages, labels, original values, resolved_items and the parts of conditions. Paths are unambiguous under the hypotheses of C48 (reserved key not used, declared emphases with different names, area not itself a requirement called Common Requirements)."
 },
 "C94": {
  "note": "Proved for all loaded areas. `Counts` reads the document: beneath a requirement unless the department audits it, and beneath the chosen branch of a conditional."
 },
 "C95": {
  "note": "Row, its soundness and when it is stored are proved; the last needs that no count of the area file says at_most: true, and is refuted without (C95_when_stored_refuted). Completeness is partial as C86 is: areas other than majors that ask for all of their parts, and an audit that does not raise."
 },
 "C96": {
  "note": "Nothing is listed in vain: proved for all areas. That everything tested is listed is partial: areas without conditional rules and without filters in the assertions of counts, and tests by the key attributes against texts; refuted for each of the four cases left out."
 },
 "C97": {
  "note": "What is listed is proved exactly for all areas. That everything claimed is listed is partial: areas without conditional rules (refuted with one) and without emphases, students without templates."
 },
 "C98": {
  "note": "The table of attributes: proved. The table of courses: exactly what is in it after a run is proved, and that nothing else is left; that everything found is there needs that no crsid has been dropped (C98_dropped_crsid_refuted). Assumed: ON CONFLICT refuses a row only if the table has it."
 },
 "C99": {
  "note": "Proved from the two files on (C85). That the audit ends without an exception is not claimed; see C87 for when it does."
 },
 "C100": {
  "note": "For the arguments without --print-all, --print-only, --audit-each (for these see C22), --estimate, --gpa and --transcript. How a result is written is a parameter that may fail."
 },
 "C101": {
  "note": "Proved but for the last sentence, which is false: a blank line raises before any audit, and one line that cannot be audited ends the batch (C101_blank_line_refuted, C101_other_lines_refuted)."
 },
 "C102": {
  "note": "Partial: files that are added but not changed (C102_changed_file_refuted) and are named after their student (C102_other_name_refuted), and a batch that reads a run with nothing new to index, since the line about the progress is printed among the others and raises (C102_first_run_refuted)."
 },
 "C103": {
  "note": "Partial: for students without a declared emphasis (C103_emphasis_refuted), insertions into counts of classes the student has (C103_insertion_refuted), texts without templates that the student has (C103_template_refuted) and without hidden conditional rules, whose other conditional rules have the same answer for nobody as for the student or name no requirement (C103_conditional_refuted); departments do not begin with `$` and the performing medium is not a number."
 },
 "C104": {
  "note": "Proved but for the exit code, which is always 0 (C104_exit_code_refuted), so that `make validate` succeeds with an invalid file."
 },
 "C105": {
  "note": "Partial: for runs that end without an exception. One audit that ends with neither a result nor an exception makes the run raise, and all others are lost (C105_one_audit_loses_all_refuted); `baseline --copy` empties the baseline and raises (C105_copy_refuted). C105_run_ends tells when a run ends without an exception."
 },
 "C106": {
  "note": "Partial: for audits that end with a result in both runs. An audit that raises in the branch is not shown, although it was complete in the baseline (C106_failing_audit_refuted)."
 },
 "C107": {
  "note": "Partial: for files below the root whose values JSON has. A key that is a number is a text once it comes from the cache (C107_number_keys_refuted), and a file with a date, or the like, raises (C107_date_refuted); what is given is never stale even so (C107_never_stale)."
 },
 "C108": {
  "note": "Partial: --link-only is ignored, and every row is stored as if it was given (C108_link_only_refuted). If the audit raises, `stored with id None` is printed (example)."
 },
 "C109": {
  "note": "Partial: a value with an equals sign, as in PGPASSWORD=a=b, makes the program end with ValueError (C109_equals_in_value_refuted). C109_other_lines_raise covers all malformed lines."
 },
 "C110": {
  "note": "Partial: a fetch with --clear that fails, or is killed, has lost what was there, as clearing is a transaction of its own (C110_killed_clear_refuted); fetching twice without --clear always raises (C110_again_refuted)."
 },
 "C111": {
  "note": "Partial: extract, and so invoke, does not look at the catalog (C111_extract_refuted); for students with the code in one catalog only it is right (C111_extract_partial). print does not show the audit of a branch that is named server or baseline (C111_print_name_refuted), and raises for an audit of a branch that is no longer in the baseline (C111_print_raises_refuted)."
 },
 "C112": {
  "note": "Partial: a what-if audit is queued without link_only, so with false as the default of this column its result replaces the active result of the student (C112_whatif_replaces_active_refuted). The default is in the database, not in the repository."
 },
 "C113": {
  "note": "Partial: the cells are those of the columns only if no two records of a row have the same title and subtitle (C113_same_title_refuted), and the order of tables with the same caption is that of a hash map (C113_order_of_tables_refuted). Parts of an emphasis are never shown (C113_emphasis_refuted)."
 },
 "C114": {
  "note": "Partial: a student is counted in one table only if the students of a catalog have the same titles, since the summary chooses its students by catalog; the title of a condition contains its result, so students are counted twice (C114_counted_twice_refuted)."
 },
 "C115": {
  "note": "Partial: a record has the status of the item of the area's outermost count that it is in, so a finished course is shown, and counted, as needed (C115_done_is_shown_as_needed_refuted), and for a count of one a finished item is shown as waived (C115_done_is_shown_as_waived_refuted). What is done for one of several things, or for a waived requirement, has no cell of its own (C115_claimed_courses_are_shown_partial)."
 },
 "C116": {
  "note": "Partial: one audit that cannot be shown (a course that has only a name) ends every run at its area, so that the later areas never have reports (C116_one_bad_area_refuted); and an area without active results keeps its last report (C116_stale_refuted)."
 },
 "C117": {
  "note": "Partial: a message of blanks is accepted and shown as an empty paragraph (C117_blank_message_refuted), only the empty message is refused; three empty lines in a row give an empty paragraph (C117_empty_paragraph_refuted); a paragraph that begins with a less-than sign is taken for a tag (C117_less_than_refuted). The theorem about one element for each paragraph is for lines that all have the same margin."
 },
 "C118": {
  "note": "Partial: the headings are those of the first student and every row is written from the first column on, so a student whose result has other columns has cells below a wrong heading (C118_wrong_column_refuted); a cell without a colon is in the style of what is done, also for a course that was not taken (C118_style_refuted). For a course that is not given by its name it raises (C118_unnamed_course_refuted). Proved: a sheet is written if every cell has a value; the cells of a row are those of the student's own headings in order, and the style is a function of the text of the cell (C118_styles)."
 },
 "C119": {
  "note": "Partial: with a student file as an argument it always raises, whatever is in the file (C119_argument_refuted); proved for files on the input."
 }
}