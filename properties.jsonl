{"id": "C01", "title": "A course is counted once unless it is multicountable", "statement": "Starting from an empty claim table, whatever sequence of claim requests the rules of an area make, a course whose name is not listed under the area's `multicountable` gets at most one successful recorded claim; every later request for it that does not set allow_claimed is answered with a failed claim.", "quantifier": "every sequence of make_claim calls (any courses, any requirement paths, any allow_claimed flags, any multicountable table)", "why_tests_cant": "The order in which rules request courses depends on the area, the transcript and the search; tests exercise a few orders only.", "anchors": ["dp/context.py:RequirementContext.make_claim", "dp/context.py:RequirementContext._make_multicountable_claim", "dp/claim.py:Claim"]}
{"id": "C02", "title": "allow_claimed never consumes a course", "statement": "A claim made with allow_claimed is always granted, and removing such requests from a history changes neither the claim table nor the outcome of any other request.", "quantifier": "every history of claim requests", "why_tests_cant": "It is a non-interference statement over pairs of histories.", "anchors": ["dp/context.py:RequirementContext.make_claim"]}
{"id": "C03", "title": "Failed claims change nothing, granted claims are never withdrawn", "statement": "A refused claim leaves the claim table exactly as it was; a granted recorded claim adds exactly one entry, for the requested course and path, and no request ever removes or rewrites an existing entry.", "quantifier": "every claim table and every request", "why_tests_cant": "Frame condition over all table states.", "anchors": ["dp/context.py:RequirementContext.make_claim"]}
{"id": "C04", "title": "A multicountable course is claimed at most once per listed requirement path", "statement": "When a course is listed under `multicountable`, a second claim is granted only if the claiming requirement path is one of the listed paths and has not claimed the course already; so the number of granted claims is at most one more than the number of listed paths.", "quantifier": "every history of claim requests and every multicountable table", "why_tests_cant": "Needs all interleavings of claimers; the shipped tests have exactly one claim per path.", "anchors": ["dp/context.py:RequirementContext._make_multicountable_claim"]}
{"id": "C05", "title": "Trial solving leaves the claim table alone", "statement": "Whatever happens inside a fresh-claims block (any claims, nested blocks, an exception), the claim table after the block equals the one before it, while the table seen inside starts empty.", "quantifier": "every program of claim requests, nested blocks and raises", "why_tests_cant": "Covers every exit path and nesting depth.", "anchors": ["dp/context.py:RequirementContext.fresh_claims", "dp/context.py:RequirementContext.set_claims", "dp/context.py:RequirementContext.reset_claims"]}
{"id": "C06", "title": "Exception lookup beneath a path is exact and cache-independent", "statement": "Asking whether any exception lies at or beneath a path answers true exactly when some loaded exception's path begins with it, no matter which other paths were asked before.", "quantifier": "every list of exceptions and every sequence of queries", "why_tests_cant": "The answer is memoised, so the claim is about all query histories.", "anchors": ["dp/context.py:RequirementContext.has_exception_beneath", "dp/context.py:group_exceptions", "dp/context.py:RequirementContext.get_insert_exceptions_beneath"]}
{"id": "C07", "title": "Exceptions apply at their exact path, first one wins", "statement": "The waiver (resp. value override) returned for a rule's path is the first waiver (value override) in load order whose path is exactly that path; the insertions (blocks) returned are exactly those at that path, in load order; exceptions at other paths never matter.", "quantifier": "every list of exceptions, every path", "why_tests_cant": "Relates the lookup to all lists, including repeated and mixed-kind exceptions at one path.", "anchors": ["dp/context.py:RequirementContext.get_waive_exception", "dp/context.py:RequirementContext.get_insert_exceptions", "dp/context.py:RequirementContext.get_block_exceptions", "dp/context.py:RequirementContext.get_value_exception", "dp/context.py:group_exceptions"]}
{"id": "C08", "title": "Exception migrations rewrite only matching prefixes", "statement": "Loading an exception with a migration table leaves its path alone if no migration's old path is a prefix of it; when one is, exactly that prefix is replaced and the rest of the path is kept; everything else about the exception is unchanged.", "quantifier": "every exception path and every migration list", "why_tests_cant": "All prefix relationships between arbitrary paths and chained migrations.", "anchors": ["dp/exception.py:load_exception"]}
{"id": "C09", "title": "Limits are never exceeded", "statement": "Every transcript produced by applying a set of limits contains, for each limit, at most the stated number of non-forced courses (or credits) matching that limit's filter. The courses a query reports respect the query's own limits in the same way, and the courses counted towards an area as a whole respect the area's limits.", "quantifier": "every course collection, every limit set (overlapping filters included), every iteration order of sets", "why_tests_cant": "Overlapping limits give exponentially many combinations; order depends on hash seeds.", "anchors": ["dp/limit.py:LimitSet.limited_transcripts", "dp/limit.py:LimitSet.check", "dp/limit.py:Limit.iterate"]}
{"id": "C10", "title": "Limits remove only courses they match", "statement": "Every course that matches no limit, and every force-inserted course, is in every produced transcript; every produced transcript contains only courses of the input, each once.", "quantifier": "every course collection, limit set, forced list", "why_tests_cant": "Universal over transcripts and limit filters.", "anchors": ["dp/limit.py:LimitSet.limited_transcripts"]}
{"id": "C11", "title": "Every maximal admissible selection is offered", "statement": "Applying limits produces each selection of courses that satisfies all the limits and cannot be enlarged without breaking one; in particular at least one transcript is always produced.", "quantifier": "every course collection and limit set with non-negative maxima", "why_tests_cant": "Completeness of a search over all subsets.", "anchors": ["dp/limit.py:LimitSet.limited_transcripts", "dp/limit.py:Limit.iterate_courses", "dp/limit.py:Limit.iterate_credits"]}
{"id": "C12", "title": "Limited transcripts are emitted once each, in canonical order", "statement": "No two produced transcripts hold the same courses, and each is sorted by the course sort order; with no limits the input is passed through as the only transcript.", "quantifier": "every course collection and limit set", "why_tests_cant": "Deduplication across combinations of overlapping limits.", "anchors": ["dp/limit.py:LimitSet.limited_transcripts", "dp/data/course.py:CourseInstance.sort_order"]}
{"id": "C13", "title": "lazy_product is the Cartesian product", "statement": "For iterator functions that each return the same non-empty sequence on every call, lazy_product yields exactly the tuples of the Cartesian product, in lexicographic order, each once; the number of tuples is the product of the lengths. If some sequence is empty the call raises instead of yielding nothing.", "quantifier": "every finite list of finite sequences, any repeat", "why_tests_cant": "Tests check sizes up to 5x3; the loop is an odometer whose correctness is inductive.", "anchors": ["dp/lazy_product.py:lazy_product"]}
{"id": "C14", "title": "ncr is the binomial coefficient", "statement": "For 0 <= r <= n, ncr(n, r) equals the number of r-element combinations of n items (the integer division is exact).", "quantifier": "all n, r", "why_tests_cant": "Infinite domain.", "anchors": ["dp/ncr.py:ncr"]}
{"id": "C15", "title": "Paths have one sorted order", "statement": "The comparison used to order rule paths is irreflexive up to equality, transitive and total on the paths rules can have, so sorting any collection of rules gives a result independent of the initial order.", "quantifier": "all paths whose index segments are canonical", "why_tests_cant": "Total-order laws quantify over all triples.", "anchors": ["dp/base/bases.py:compare_path_tuples__lt", "dp/base/bases.py:compare_path_tuples"]}
{"id": "C16", "title": "Comparison operators mean what they say", "statement": "Comparing a scalar course value with a scalar expected value by $eq/$neq/$lt/$lte/$gt/$gte gives mathematical comparison of same-typed values; $neq is the negation of $eq whenever neither side is missing; $in over a list is the disjunction of $eq and $nin the conjunction of $neq.", "quantifier": "all values (numbers, strings, booleans, missing, lists) and operators", "why_tests_cant": "Type coercions and tuple unwrapping interact over an infinite value domain.", "anchors": ["dp/op.py:apply_operator", "dp/op.py:apply_operator__tuples", "dp/op.py:apply_operator__half_tuple"]}
{"id": "C17", "title": "Filters are boolean combinations", "statement": "A compound filter accepts a record (course, declared area, music performance, recital attendance) exactly when the boolean combination ($and, $or, $not, if-then-else) of its parts accepts it, for every nesting. A single comparison compares the attribute its key names; a key the record does not have is rejected.", "quantifier": "all filter trees and records", "why_tests_cant": "Arbitrary nesting depth.", "anchors": ["dp/predicate_clause.py:PredicateCompoundAnd.apply", "dp/predicate_clause.py:PredicateCompoundOr.apply", "dp/predicate_clause.py:PredicateNot.apply", "dp/predicate_clause.py:ConditionalPredicate.apply", "dp/data/course.py:CourseInstance.apply_predicate", "dp/data/area_pointer.py:AreaPointer.apply_predicate", "dp/data/music.py:MusicPerformance.apply_predicate"]}
{"id": "C18", "title": "Rank never exceeds max rank", "statement": "For every audit result (course, count, query, requirement, conditional, proficiency and whole area), the reported rank lies between 0 and the reported max_rank.", "quantifier": "every result tree", "why_tests_cant": "Structural induction over unbounded trees with unbounded numbers of children and assertions.", "anchors": ["dp/base/count.py:BaseCountRule.rank", "dp/base/course.py:BaseCourseRule.rank", "dp/base/query.py:BaseQueryRule.rank", "dp/base/requirement.py:BaseRequirementRule.rank", "dp/base/conditional.py:BaseConditionalRule.rank", "dp/assertion_clause.py:Assertion.rank"]}
{"id": "C19", "title": "A passing count really has enough passing children", "statement": "If a count rule's result is reported as done, at least `count` of its children are done or waived and all its audit assertions pass; if it is pending, at least `count` children pass; conversely enough done children and satisfied assertions make it done.", "quantifier": "every count result", "why_tests_cant": "Quantifies over all multisets of child statuses and audit statuses.", "anchors": ["dp/base/count.py:BaseCountRule.status", "dp/base/count.py:BaseCountRule.audit_status"]}
{"id": "C20", "title": "Failure dominates", "statement": "A violated invariant anywhere that matters (a failed assertion of a query, a failed audit of a count) is never reported as a passing status by the enclosing rule unless that rule is itself waived.", "quantifier": "every result tree", "why_tests_cant": "Structural over all trees.", "anchors": ["dp/base/query.py:BaseQueryRule.status", "dp/base/count.py:BaseCountRule.status", "dp/status.py"]}
{"id": "C21", "title": "The best solution wins", "statement": "The audit reports, among the solutions it examined, the first solution that is done or waived if there is one, and otherwise the first one of greatest rank; every solution before the reported stopping point was examined (when audit_each is 1).", "quantifier": "every stream of solutions with arbitrary ranks and statuses", "why_tests_cant": "Quantifies over all streams.", "anchors": ["dp/audit.py:audit", "dp/solve.py:find_best_solution"]}
{"id": "C22", "title": "Message protocol of an audit run", "statement": "An audit run emits exactly one estimate message first (then stops if only an estimate was asked); otherwise it ends with exactly one result message for the best solution, or with exactly one no-audits message if and only if no solution was generated.", "quantifier": "every stream of solutions and every argument combination", "why_tests_cant": "Trace property over all runs.", "anchors": ["dp/audit.py:audit"]}
{"id": "C23", "title": "Each solution of a count rule accounts for every child once", "statement": "Every solution yielded by a count rule mentions each of its items exactly once, in path order, each either solved, or left unsolved, or already resolved; and at least one solution is always yielded.", "quantifier": "every count rule, transcript and exception set", "why_tests_cant": "Quantifies over all item lists and combination choices.", "anchors": ["dp/rule/count.py:CountRule.solutions", "dp/rule/count.py:CountRule.make_combinations", "dp/rule/count.py:CountRule.solve_independent_children"]}
{"id": "C24", "title": "Independent children are really independent", "statement": "If two children of a count rule are solved independently, no course of the transcript can match a rule in both of them.", "quantifier": "every count rule and transcript", "why_tests_cant": "Partition correctness over all match relations.", "anchors": ["dp/rule/count.py:CountRule.find_independent_children"]}
{"id": "C25", "title": "Blocked courses are not used by the blocked rule", "statement": "If an exception blocks a class at a course or query rule's path, no solution of that rule claims that class there.", "quantifier": "every rule, transcript and exception list", "why_tests_cant": "Holds for every search path.", "anchors": ["dp/rule/course.py:CourseRule.solutions", "dp/rule/course.py:CourseRule.apply_block_exception", "dp/rule/query.py:QueryRule.get_filtered_data", "dp/rule/query.py:QueryRule.apply_block_exception"]}
{"id": "C26", "title": "A course rule is satisfied only by a matching course", "statement": "When a course rule's audit succeeds without a waiver or insertion, the claimed course is on the transcript, matches the rule's course/AP/institution/... filters, meets the rule's grade option and (unless it is still in progress) its minimum grade, and the claim is not failed.", "quantifier": "every rule, transcript, claim state", "why_tests_cant": "Quantifies over transcripts and claim histories.", "anchors": ["dp/solution/course.py:CourseSolution.audit", "dp/rule/course.py:CourseRule.solutions", "dp/base/course.py:BaseCourseRule.status"]}
{"id": "C27", "title": "A query claims only courses it selected", "statement": "Every course claimed by a query's result was in the query's data source and satisfied its filter, or was inserted by an exception at that path; a course is claimed at most once by one query.", "quantifier": "every query rule, transcript, exception list, claim state", "why_tests_cant": "Quantifies over all searches.", "anchors": ["dp/rule/query.py:QueryRule.solutions", "dp/solution/query.py:QuerySolution.audit", "dp/solution/query.py:QuerySolution.collect_courses"]}
{"id": "C28", "title": "The query search is complete for counting assertions", "statement": "For a query whose only assertion is a plain count(courses) with $gte, $lte, $lt or $eq, if some sub-collection of the available courses satisfies the assertion then the enumerated combinations include one that does.", "quantifier": "every expected count and number of available courses", "why_tests_cant": "Search completeness over all sizes.", "anchors": ["dp/assertion_clause.py:Assertion.input_size_range", "dp/rule/query.py:iterate_item_set"]}
{"id": "C29", "title": "The credit shortcut is complete", "statement": "For a query whose only assertion is sum(credits) with $gte, every combination of available courses reaching the expected credits is enumerated or a superset check shows none exists.", "quantifier": "every transcript and expected credit number", "why_tests_cant": "Search completeness over subsets.", "anchors": ["dp/rule/query.py:iterate_item_set", "dp/rule/query.py:sum_shortcut"]}
{"id": "C30", "title": "The loaded transcript has unique classes", "statement": "The list of courses of a loaded student never has two entries with the same clbid; failed courses occur only in the including-failed list; every usable course record of the input is present.", "quantifier": "every list of course records", "why_tests_cant": "All duplicates/orderings.", "anchors": ["dp/data/student.py:load_transcript"]}
{"id": "C31", "title": "GPA is a truncated weighted mean", "statement": "The GPA depends only on the multiset of in-GPA courses, is 0.00 when they carry no credits, is the exact quotient of grade points by credits cut (not rounded) to two decimals, and lies between the smallest and largest grade of the courses.", "quantifier": "every list of courses", "why_tests_cant": "Arithmetic over unbounded lists.", "anchors": ["dp/lib.py:grade_point_average", "dp/area.py:AreaResult.gpa"]}
{"id": "C32", "title": "Course state flags are consistent", "statement": "When a transcript is loaded with a current term, each course whose grade is 'in progress' or 'incomplete' gets exactly one of the two flags 'this term' and 'future', 'this term' exactly when its year and term are not after the current term; every other course, and every course when no current term is given, gets neither.", "quantifier": "every course record and current term", "why_tests_cant": "All field combinations.", "anchors": ["dp/data/course.py:load_course"]}
{"id": "C33", "title": "The last override of a kind wins", "statement": "When several overrides name the same course, the last one listed decides; an explicit credit override wins over a credit override assigned by course name; a course no override names is left as it was recorded.", "quantifier": "every override list", "why_tests_cant": "All lists.", "anchors": ["dp/data/course.py:load_course"]}
{"id": "C34", "title": "Grade order is total and matches grade points", "statement": "Minimum-grade comparisons use a strict total order of grade codes that never ranks a grade with more points below one with fewer.", "quantifier": "all pairs of grade codes", "why_tests_cant": "Finite but cross-table; stated for the whole table.", "anchors": ["dp/data/course_enums.py:grade_code_ordering", "dp/data/course_enums.py:grade_code_to_points"]}
{"id": "C35", "title": "Conditional rules take exactly one branch", "statement": "A conditional rule behaves as its `then` rule when the condition holds, as its `else` rule when it does not, and counts as done claiming nothing when it does not hold and there is no else.", "quantifier": "every condition value and branches", "why_tests_cant": "Structural over arbitrary branch rules.", "anchors": ["dp/rule/conditional.py:ConditionalRule.solutions", "dp/solution/conditional.py", "dp/base/conditional.py"]}
{"id": "C36", "title": "A passed proficiency exam is enough", "statement": "A proficiency rule is done if the student's record shows the proficiency (however it was gained), whatever the transcript; otherwise it is passing exactly when its course rule passes; waivers override both.", "quantifier": "every proficiency state and course result", "why_tests_cant": "All combinations with arbitrary course rule.", "anchors": ["dp/base/proficiency.py", "dp/solution/proficiency.py", "dp/rule/proficiency.py"]}
{"id": "C37", "title": "Whole-audit single counting", "statement": "In the result tree of any single audited solution, a non-multicountable course has at most one non-failed recorded claim over all rules of the area that do not allow claimed courses.", "quantifier": "every area, student, exception set and solution", "why_tests_cant": "Global invariant over the whole recursive audit.", "anchors": ["dp/area.py:AreaSolution.audit", "dp/solution/count.py:CountSolution.audit", "dp/solution/query.py:QuerySolution.audit", "dp/solution/course.py:CourseSolution.audit"]}
{"id": "C38", "title": "Waivers reach exactly their rule", "statement": "A rule with an override exception at its path is reported as waived (hence passing, with full rank) irrespective of the transcript.", "quantifier": "every rule kind, transcript and exception list", "why_tests_cant": "Holds for all transcripts and rules.", "anchors": ["dp/rule/course.py", "dp/rule/count.py", "dp/rule/query.py", "dp/rule/requirement.py", "dp/base/bases.py:Base.status"]}
{"id": "C39", "title": "Queue items are processed atomically", "statement": "A queued audit is removed from the queue exactly when its processing transaction commits; a worker crash at any point leaves the item in the queue and no partial result stored; items are taken in priority then time order.", "quantifier": "every schedule of workers and every crash point", "why_tests_cant": "All interleavings and crash points.", "anchors": ["dp/server/worker.py:process_queue", "dp/server/audit.py:audit"]}
{"id": "C40", "title": "At most one active result per student, catalog and area", "statement": "After any sequence of completed audits for one student/catalog/area at most one stored result is active, it is the latest stored non-link-only one, and its revision is greater than the others'.", "quantifier": "every sequence of stored results", "why_tests_cant": "All histories.", "anchors": ["dp/server/audit.py:audit"]}
{"id": "C41", "title": "Cleaning expired results keeps the latest", "statement": "Clearing expired results never deletes the most recent result of a student/catalog/area and never deletes unexpired results.", "quantifier": "every result table and clock value", "why_tests_cant": "All table states.", "anchors": ["dp/server/clear_expired.py"]}
{"id": "C42", "title": "Batch queueing neither duplicates nor queues blocked areas", "statement": "Fetch-and-queue never queues an audit that is already queued or is blocked, and queues every other fetched audit once.", "quantifier": "every queue state, block list and fetched list", "why_tests_cant": "All states.", "anchors": ["dp/server/batch.py:fetch_and_queue"]}
{"id": "C43", "title": "Area file lookup picks the newest applicable catalog", "statement": "Looking up an area specification for a catalog year returns the file of the greatest available year not after the requested one, or nothing if there is none.", "quantifier": "every set of files and requested year", "why_tests_cant": "All sets.", "anchors": ["dp/run.py:find_area"]}
{"id": "C44", "title": "Duration parsing and formatting", "statement": "Parsing a duration text adds up its parts in the stated units (an unknown unit counts for nothing, a plain number is milliseconds). Formatting never shows units out of order, twice or with an amount of zero, and the amounts add up to the duration up to the rounding asked for. A whole number of milliseconds below a year, written with separate milliseconds, is read back as the same number.", "quantifier": "every duration text made of amounts and units, every non-negative duration and all formatting options", "why_tests_cant": "Infinite domain.", "anchors": ["dp/ms.py:parse_ms_str", "dp/ms.py:parse_ms", "dp/ms.py:pretty_ms"]}
{"id": "C45", "title": "Limited transcripts do not depend on set iteration order", "statement": "Producing the limited transcripts of the same courses under the same limits twice gives the same transcripts in the same order, whatever order the interpreter iterates its sets in.", "quantifier": "every list of limits, every transcript, every pair of set iteration orders", "why_tests_cant": "Set iteration order is chosen by the interpreter; one run shows one order.", "anchors": ["dp/limit.py:LimitSet.limited_transcripts", "dp/limit.py:LimitSet.check"]}
{"id": "C46", "title": "The query search is complete for several at-least counts", "statement": "If all counting assertions of a query are 'at least' assertions (each possibly with its own filter), every selection of the available courses that satisfies them is among the proposed ones, whatever further assertions the query has.", "quantifier": "every query rule, transcript and set of counting assertions", "why_tests_cant": "Ranges over all assertion sets and all subsets of all transcripts; the shortcut that prunes by size looks only at the largest assertion.", "anchors": ["dp/rule/query.py:find_largest_simple_count_assertion", "dp/rule/query.py:iterate_item_set", "dp/assertion_clause.py:input_size_range"]}
{"id": "C48", "title": "Every rule of a loaded area has its own path", "statement": "Load an area from any specification that does not use the program's reserved key and whose applicable emphases have different names. No two of its rules and assertions, its own and the requirements common to all majors, have the same path, unless the whole area is one requirement called 'Common Requirements'; every path starts at the root and is written in the canonical form that path ordering understands. So an exception addressed to a path reaches one rule only.", "quantifier": "every area specification, set of constants and course templates, student and list of exceptions", "why_tests_cant": "Ranges over all specification texts of any size and nesting; a clash shows only for particular combinations of names, emphases and insertions.", "anchors": ["dp/load_rule.py:load_rule", "dp/rule/count.py:CountRule.load", "dp/rule/requirement.py:RequirementRule.load", "dp/area.py:AreaOfStudy.load", "dp/area.py:prepare_common_rules"]}
{"id": "C50", "title": "A complete major meets the requirements common to all majors", "statement": "When the audit of a major reports it complete, then the courses it counted carry at least six credits graded C or better or still in progress; a B.M. counted no course taken S/U, and any other major at most one full (one-credit) course taken S/U; and outside a B.M. the transcript holds at least 21 credits outside the subject code of the major's department (outside the three music codes for the B.A. in music; 18 in full courses outside ART for a double major in studio art and art history). Conversely, when everything the major's own file asks for is met, nothing else than these requirements can keep it from being complete.", "quantifier": "every area file text of type major that loads, every student (transcript, declared areas), every list of exceptions not aimed at the common requirements, every processing order, every solution tried", "why_tests_cant": "The common requirements are generated rules whose filters, credit sums and dependence on the other parts' claims interact with any rule tree a department writes; a test fixes one major and one transcript.", "anchors": ["dp/area.py:prepare_common_rules", "dp/area.py:AreaOfStudy.load", "dp/area.py:AreaSolution.audit", "dp/solution/query.py:audit", "dp/result/count.py:CountResult.status"]}
{"id": "C52", "title": "A query that passes has met its assertions", "statement": "When a course query of an audit result passes, every assertion it makes is waived or true of the courses the result reports: take those of the reported courses that the assertion's own filter keeps, measure them as the assertion says (how many courses, credits, terms, subjects or grades of which kind), and the number stands in the written relation to the expected one. For a conditional assertion this goes for the branch chosen. When it is complete and the assertion does not treat work in progress as passed, the same is true of the completed courses alone. Conversely a query whose assertions are all waived or met passes.", "quantifier": "every query rule over courses with any number of assertions, every transcript and list of exceptions without insertions or blocks at the assertions, every solution tried, every earlier claim, every processing order", "why_tests_cant": "Ranges over all combinations of filters, measures, comparisons, waivers and conditionals, and over what other rules claimed before.", "anchors": ["dp/solution/query.py:QuerySolution.audit", "dp/result/query.py:QueryResult.status", "dp/assertion_clause.py:Assertion.audit_and_resolve", "dp/assertion_clause.py:ConditionalAssertion", "dp/apply_clause.py:apply_clause_to_assertion", "dp/status.py"]}
{"id": "C56", "title": "The state of an assertion says what its courses justify", "statement": "Audit an assertion over courses that is not waived. The state reported for it passes exactly when the number measured on its courses stands in the written relation to the expected one. It is 'in progress' or 'registered' only if the courses the number comes from include such a course (registered if one of them is for a future term, otherwise in progress this term or incomplete). It is 'done' exactly when the completed courses alone satisfy the comparison, or work in progress is to be treated as passed (not claimed for the terms of the most common course, see C52). A broken upper bound is a failure, a positive number short of the expected one is 'needs more', and no other state than these and 'empty' occurs. The number and the courses it comes from are reported with it.", "quantifier": "every assertion over courses with every measure, comparison, filter and expected number, every list of courses, every transcript, every list of exceptions", "why_tests_cant": "Ranges over all lists of courses in every combination of completed, current, incomplete and registered, and over all numbers.", "anchors": ["dp/assertion_clause.py:Assertion.audit_and_resolve", "dp/assertion_clause.py:Assertion.evaluate", "dp/apply_clause.py:apply_clause_to_assertion_with_courses", "dp/status.py:ResultStatus"]}
{"id": "C57", "title": "Exceptions at an assertion change what it is measured on, and nothing else", "statement": "A course that an exception inserts at an assertion's path is among the courses the assertion is measured on, whatever the assertion's filter says; a course that an exception blocks there is not among them; every other course is measured exactly as often as the filter selected it, and no more courses are added than there are exceptions. The inserted courses are reported.", "quantifier": "every assertion over courses, every list of courses, every transcript, every list of exceptions in any order", "why_tests_cant": "Ranges over all combinations of exceptions at one path, over classes that are on the transcript, were forced, or were counted already.", "anchors": ["dp/assertion_clause.py:Assertion.audit_and_resolve", "dp/context.py:RequirementContext.get_insert_exceptions", "dp/context.py:RequirementContext.get_block_exceptions"]}
{"id": "C58", "title": "A passing area is satisfied", "statement": "If an audited solution of an area, loaded from any text, has a passing status, then the student satisfies the area's rule: the rule as a whole is waived, or it holds part by part. A course rule holds because the one course it claims is on the limited transcript, is not excluded there and is the course asked for, because an exception inserts the course, or because the rule is optional or was itself added by an exception. A query holds because the records its filter selects (with courses that exceptions insert) meet all its assertions that are not waived. A count holds because at least as many different items as it asks for hold, and because the courses matched inside it meet its further assertions. A requirement holds because its rule holds and it is not department-audited. A conditional holds because the branch its condition selects holds. A proficiency holds because the record shows it or its course rule holds. If the status is done or waived, this is so without counting on courses that are in progress.", "quantifier": "all area texts that load, whose emphases add requirements of different names and whose $when conditions do not hold of no courses at all; all students, transcripts and exception lists; all solutions of the area; all iteration orders of sets", "why_tests_cant": "The claim joins loading, transcript limits, the search for solutions, claiming and the audit of nested rules; a wrong combination in any one of them may show only for one nesting of rules and one mix of courses, exceptions and statuses.", "anchors": ["dp/area.py: AreaOfStudy.load, AreaOfStudy.solutions, AreaSolution.audit, AreaResult.status", "dp/rule/course.py: CourseRule.solutions", "dp/solution/course.py: CourseSolution.audit", "dp/rule/query.py: QueryRule.solutions", "dp/solution/query.py: QuerySolution.audit", "dp/rule/count.py: CountRule.solutions", "dp/solution/count.py: CountSolution.audit", "dp/base/count.py: BaseCountRule.status", "dp/base/requirement.py: BaseRequirementRule.status", "dp/solution/proficiency.py: ProficiencySolution.audit"]}
{"id": "C54", "title": "A count rule tries every choice", "statement": "For every selection of the parts of a count rule that have potential, of a size the rule allows (at least the number asked for; exactly that number if the rule says 'at most'; all parts with potential if they are fewer than asked for), and for every solution of each selected part, the search yields a solution of the count rule that contains just these solutions of the selected parts and leaves every other part unsolved.", "quantifier": "every count rule below the top level without a waiver whose parts have different paths and whose search raises no exception; every selection of parts; every choice of solutions of the selected parts; every transcript and exception list", "why_tests_cant": "The number of selections and of combined solutions is a product of binomials; a skipped combination shows only in a student whose only complete solution is the skipped one.", "anchors": ["dp/rule/count.py: CountRule.solutions, CountRule.make_combinations, CountRule.range", "dp/lazy_product.py: lazy_product"]}
{"id": "C55", "title": "A rule that is set aside for lack of potential could not have been fulfilled", "statement": "When the audit leaves a part of a count rule out of its search because the part is judged to have no potential, the student could not have fulfilled that part with the courses, exceptions and records they have.", "quantifier": "for every loaded rule, student record and list of exceptions", "why_tests_cant": "the judgement prunes the search; a wrong pruning shows only for particular combinations of rule shapes, records and exceptions, of which there are unboundedly many", "anchors": ["dp/rule/count.py: CountRule.has_potential, CountRule.solutions", "dp/rule/course.py: CourseRule._has_potential", "dp/rule/query.py: QueryRule._has_potential", "dp/base/requirement.py", "dp/rule/conditional.py"]}
{"id": "C59", "title": "If a student can fulfil a rule, the audit finds a way", "statement": "If some of the student's courses, each used once, fulfil a rule of the degree (with the student's exceptions), then the search for solutions contains one whose audit reports the rule as fulfilled, the best solution is a complete one, and the audit of the area reports it as complete.", "quantifier": "for every rule tree and area as loaded from a text, every student record, list of exceptions and way to fulfil the rule", "why_tests_cant": "completeness of a search over an exponential space: a test shows that one fulfilling choice is found, not that every student who can fulfil the rule is told so", "anchors": ["dp/rule/count.py: CountRule.solutions, make_combinations, find_independent_children, solve_independent_children", "dp/rule/query.py: QueryRule.solutions", "dp/rule/course.py: CourseRule.solutions", "dp/solve.py: find_best_solution", "dp/area.py: AreaOfStudy.solutions", "dp/audit.py: audit"]}
{"id": "C60", "title": "The GPA of an audit is that of the courses it counts", "statement": "The grade point average reported for a degree is that of all courses of the student, failed ones included. For any other area it is that of exactly the different courses claimed with success in the result of the area's own rule, outside requirements that are kept out of the GPA or left to the department; the common requirements of a major add nothing to it.", "quantifier": "for every area loaded from a text, every student record, exceptions, order of iteration over sets, solution and audit result", "why_tests_cant": "which courses count is decided by a recursion over an arbitrary result tree; a test fixes one tree, and a course that is lost or counted twice in another shape of tree only shifts an average", "anchors": ["dp/area.py: AreaResult.gpa, AreaSolution.audit", "dp/base/bases.py: Rule.matched, matched_for_gpa", "dp/base/requirement.py: in_gpa, is_audited", "dp/data/student.py / dp/lib.py: grade_point_average"]}
{"id": "C61", "title": "A rule or area reported as pending waits for a course of the student", "statement": "If an area is reported as waiting for courses in progress (or as registered for), its result shows, down to the rule or assertion that waits, a course on the student's record that is taken this term or incomplete (or registered for a later term). A course rule is done, in progress or registered exactly as its claimed course is; if its course was refused it is not fulfilled, even if an exception inserted the course; and the rank of a course rule follows done > in progress > registered > nothing.", "quantifier": "for every area loaded from a text, every student record, exceptions, order of iteration over sets, solution and audit result; for every course rule and claim table", "why_tests_cant": "the status is folded from assertions and items through arbitrary trees, with several rankings of mixed statuses; tests show single combinations", "anchors": ["dp/base/course.py: BaseCourseRule.status, rank", "dp/base/query.py: BaseQueryRule.status", "dp/base/count.py: BaseCountRule.status", "dp/assertion_clause.py: evaluate_with_courses", "dp/result/course.py: CourseResult.is_waived", "dp/area.py: AreaResult.status"]}
{"id": "C53", "title": "Classes that an area needs by name are kept from its queries", "statement": "A class is reserved if the area's rules ask for a course by name in a place where every part must be fulfilled, the class is the only one of the student that fits that course rule, and no exception inserts the class there. The queries of the area are kept from exactly the reserved classes and those that an exception blocks at them, and no result counts a reserved class for a query. The reservation is made from the text and the record alone: it also holds when the named rule cannot use the class because an exception blocks it, and then the class counts nowhere.", "quantifier": "for every area loaded from a text, every student record, exceptions, order of iteration over sets, solution and audit result", "why_tests_cant": "the set of reserved classes is collected through an arbitrary tree and taken out of every query of the tree; tests show a few trees", "anchors": ["dp/area.py: AreaOfStudy.solutions", "dp/rule/count.py: CountRule.get_required_courses, exclude_required_courses", "dp/rule/course.py: CourseRule.get_required_courses", "dp/rule/query.py: QueryRule.exclude_required_courses, get_filtered_courses"]}
{"id": "C62", "title": "The estimate bounds the number of solutions of an audit", "statement": "The estimated number of possibilities of an area (told by --estimate and by the first message of an audit) is never negative, it is at least the number of selections of the transcript that keep the limits of the area, and the audit has at most that many solutions to look at. The upper bound fails if several classes of the student fit one course rule, or classes are inserted at it, and the lower bound if the area comes down to a conditional without a part for the case at hand.", "quantifier": "for every area loaded from a text, every student record, exceptions and order of iteration over sets", "why_tests_cant": "estimates and searches are two recursions over arbitrary trees with binomial coefficients against lazy products; tests compare a few numbers", "anchors": ["dp/area.py: AreaOfStudy.estimate", "dp/rule/count.py: CountRule.estimate, count_combinations", "dp/rule/query.py: QueryRule.estimate, estimate_item_set", "dp/ncr.py", "dp/lazy_product.py"]}
{"id": "C47", "title": "A misspelt key in an area file is noticed", "statement": "If an area file can be loaded, then every dictionary that is read as the area, an emphasis, a rule, a requirement, a limit, the comparison of an assertion or a filter has only keys that such a part may have. This fails for keys beside `requirement:`, in the dictionary around an assertion, in the value of a field of a filter, beside `$if` in a filter, for the course key `waived`, and for parts that are not read at all.", "quantifier": "for every area file, student record, list of exceptions, constants and templates, and every dictionary written in the file at any depth", "why_tests_cant": "tests try a few misspellings at a few places; the claim is about every dictionary at every depth of every file", "anchors": ["dp/area.py: AreaOfStudy.load", "dp/load_rule.py: load_rule", "dp/rule/*.py: load", "dp/limit.py: LimitSet.load, Limit.load", "dp/assertion_clause.py: load_single_assertion", "dp/predicate_clause.py: load_predicate_expression"]}
{"id": "C49", "title": "A value exception changes one number", "statement": "Auditing with one more value exception loads the same area as without it, except that the assertion at exactly the path of the exception expects the given number; errors of loading are the same too. Of several value exceptions at one path the first decides, the later ones have no effect at all, and one at a path without an assertion changes nothing.", "quantifier": "for every area file, student record, constants and templates, every list of exceptions and every place in it", "why_tests_cant": "that nothing else changes is a statement about every other part of every area; tests look at the one assertion they changed", "anchors": ["dp/assertion_clause.py: load_single_assertion", "dp/context.py: get_value_exception, group_exceptions", "dp/area.py: AreaOfStudy.load"]}
{"id": "C63", "title": "A filter selects what its text says", "statement": "A filter written in an area file (under `where`, in an assertion or in a limit) accepts a record exactly if the text does: `$and`, `$or`, `$not`, `$if` have their boolean meaning and each comparison compares the named attribute of the course, area, music or other record with the written value, where constants, years, grades, grade options, numbers and lists stand for what their text says. Filtering a list keeps exactly the accepted records in their order.", "quantifier": "for every filter text that loads, every table of constants, every student context and exceptions, and every record of any of the four kinds", "why_tests_cant": "filters nest to any depth and combine every operator with every attribute and every form of value; tests try a few combinations and never state what the text itself means", "anchors": ["dp/predicate_clause.py: load_predicate, Predicate.load, apply", "dp/op.py: apply_operator", "dp/data/clausable.py, dp/data/course.py, dp/data/music.py, dp/data/area_pointer.py: apply_predicate", "dp/constants.py: get_by_name", "dp/data/course_enums.py"]}
{"id": "C64", "title": "An assertion expects the number its text says", "statement": "An assertion written in an area file compares with exactly one number: that of the first value exception at its path, or else the written number (or named constant) after the listed changes whose conditions hold for the student have been applied in order. Its key, operator, filter and flags are those of the text; of an `$if` or `$when` assertion the part is asked whose condition holds; and it is waived exactly by a waiver at its own path. So an assertion that a result reports as met is met as written.", "quantifier": "for every assertion text that loads (plain, `$if`, `$when`), every table of constants, student context, list of exceptions, and list of records", "why_tests_cant": "the number depends on any sequence of changes with arbitrarily nested conditions, on exceptions and on constants; examples fix one student and one text", "anchors": ["dp/assertion_clause.py: AssertionRule.load, ConditionalAssertion.load, DynamicConditionalAssertion.load", "dp/conditional_expression.py: load_expression", "dp/constants.py: get_by_name", "dp/context.py: get_value_exception, get_waive_exception"]}
{"id": "C65", "title": "A course rule asks for the course that is written", "statement": "A course rule written in an area file may use, of the courses on the transcript, exactly those its text describes: the class with the written number, or else a course with the written identifier (and section, year and term, and kind), name, institution, course number or AP test; by default one of the college; with at least the grade points of the written grade unless in progress, and with the written grading option. Its path ends in the label made of these texts, which is where exceptions for it apply.", "quantifier": "for every course rule text that loads, every path, every student context and every course", "why_tests_cant": "eleven optional keys combine freely, and the claim is an equivalence over all courses; tests try a few texts with a few courses", "anchors": ["dp/rule/course.py: CourseRule.load, solutions", "dp/context.py: find_courses", "dp/data/course.py: grade_points_from_code", "dp/data/course_enums.py"]}
{"id": "C66", "title": "A count rule has the written parts and asks for the written number of them", "statement": "The parts of a count rule are those listed in the area file behind `all`, `any`, `both`, `either` or `of`, with the student's templates put in for their names, followed by the requirements of the emphases given to it and by one part for each exception that inserts a class at its path; hidden conditionals are left out. It asks for all of them, for one, for two, or for the number written, as the text says; `both` with an inserted class asks for all.", "quantifier": "for every count rule text that loads, every path, every set of requirements, emphases, templates, student records and exceptions", "why_tests_cant": "the parts come from four sources that combine freely, and the number depends on which key is used, on insertions and on hidden parts; tests try a few combinations", "anchors": ["dp/rule/count.py: CountRule.load", "dp/load_rule.py: load_rule", "dp/area.py: AreaOfStudy.load"]}
{"id": "C67", "title": "A passing area meets what is written in its area file", "statement": "When an audit reports an area as passing, then what the area file says is met by the student's record: every rule of the file that counts for the result is waived by an exception at its path, or is met as its own text says (the written course is on the transcript or inserted; the written query finds courses that meet its written assertions; as many of the written parts as asked for are met and their courses meet the written audit; a requirement by its written result; a conditional by the branch that its written condition selects; a proficiency by the record or by its course). When it is reported as done, courses still in progress are not needed.", "quantifier": "for every area file that loads, every student record, every set of exceptions, every lawful iteration order, every solution the search yields", "why_tests_cant": "the claim spans the loader, the search, the claims and the statuses for every text; tests compare a handful of texts with stored results", "anchors": ["dp/area.py: AreaOfStudy.load, solutions, audit", "dp/load_rule.py: load_rule", "dp/rule/", "dp/solution/", "dp/result/", "dp/assertion_clause.py", "dp/predicate_clause.py"]}
{"id": "C68", "title": "A filter that compares like with like always has an answer", "statement": "When a filter of an area file loads, and each of its comparisons makes sense for a record (the record lacks the attribute, or the operator can compare its value with the written one: any two single values for $eq and $neq, two numbers, two grades or a text for orders, at least one list for $in and $nin, nothing but $in between two lists), then applying it to that record does not raise, and the answer is the one its text says. Filtering a list of such records does not raise. A single comparison answers exactly for the records for which it makes sense.", "quantifier": "for every filter text that loads, every record, every set of exceptions, every list of records", "why_tests_cant": "which pairs of operator and types raise depends on both the text and each student's record; a filter that works for the tested students can raise for the next one", "anchors": ["dp/op.py: apply_operator, apply_operator__tuples, apply_operator__half_tuple", "dp/predicate_clause.py: load_predicate, load_single_predicate, load_expected_value, Predicate.apply", "dp/data/course.py: apply_predicate", "dp/data/music.py: apply_predicate", "dp/data/area_pointer.py: apply_predicate"]}
{"id": "C69", "title": "A student who has what is written is reported as complete", "statement": "Take an area file that loads and is not a major's, and whose result asks for all of its parts, none of them marked `disjoint: true`. If courses on the transcript that the limits of the area allow together, each used for one thing only and listed under `multicountable` nowhere, fulfil the text of the file (named courses taken as written and not blocked, enough courses that pass the filter of a query and its limits and meet all that it asks for, enough parts of a count, the branch of a conditional that its condition selects, proficiencies the student has, and what is waived or inserted by exceptions), then an audit without options that cut it short ends with a result whose status is complete.", "quantifier": "for every area file, constants, templates, student, list of exceptions, choice of fulfilling courses, order in which sets are enumerated, and options that do not cut the audit short", "why_tests_cant": "it says that no way of having what is written is missed, for every text, student and way; tests can only try some", "anchors": ["dp/area.py: AreaOfStudy.load, AreaOfStudy.solutions", "dp/load_rule.py: load_rule", "dp/audit.py: audit", "dp/rule/count.py: CountRule.solutions", "dp/rule/query.py: QueryRule.solutions", "dp/solution/query.py: QuerySolution.audit", "dp/result/count.py: CountResult"]}
{"id": "C70", "title": "Every result can be printed", "statement": "The report of a result of an audit prints without an exception. (Partial: for area files without `$not` in filters, with a course beside every proficiency and no count marked `at_most: true`; without these conditions there are area files that load and are audited but whose report raises.)", "quantifier": "for every area file that loads, student, exceptions, order in which sets are enumerated, solution, audited result, way of printing single values, restriction to a path, and transcript that has the student's classes", "why_tests_cant": "whether a report raises depends on any combination of rules, filters, claims and class ids in the result", "anchors": ["dp/stringify_v3.py: summarize, print_area, print_result, str_predicate, print_proficiency, str_single_assertion", "dp/base/count.py: BaseCountRule.rank", "dp/base/proficiency.py: BaseProficiencyRule.to_dict", "dp/area.py: AreaResult.keyed_claims"]}
{"id": "C71", "title": "The table of claimed courses lists every use of every course", "statement": "The table of claimed courses that is stored with a result, and printed beneath the report, has one entry per class id. Every course claimed by the result, other than by a claim that was refused, is in it together with the place that claims it, an entry lists a place exactly as often as the place claims the class, and no entry is empty. When the report is printed in full, it has a line `- <course> at <place>` for each of these uses, with a course of the transcript.", "quantifier": "for every result, transcript, and way of printing single values", "why_tests_cant": "the table is built from claims sorted and grouped over a result of any shape; a lost or doubled use shows only for particular combinations of courses and rules", "anchors": ["dp/area.py: AreaResult.keyed_claims", "dp/stringify_v3.py: summarize, claimed_path"]}
{"id": "C72", "title": "The report lists every requirement with its status, in the order of the result", "statement": "When a report of a result is printed in full, the requirements of the area (those inside counts, other requirements, and the branches of conditionals that the result shows) each have a line with their name and their status in the result, in the order of the result. These are exactly the requirements of the loaded area, each once, followed by the common requirements if the area is a major.", "quantifier": "for every area file that loads and uses different names for emphases, every student, exceptions, order in which sets are enumerated, solution, result, and report that prints without raising", "why_tests_cant": "it says that no requirement is dropped or misreported for any nesting of rules; tests compare a few reports", "anchors": ["dp/stringify_v3.py: print_result, print_requirement, print_count, print_conditional, print_area", "dp/result/requirement.py: RequirementResult", "dp/base/requirement.py: BaseRequirementRule.to_dict"]}
{"id": "C73", "title": "Asking for one requirement prints that requirement", "statement": "When the report is restricted to the path of a requirement of the area, what is printed contains the lines that the full report prints for that requirement, with the requirements beneath it and their statuses.", "quantifier": "for every area file that loads and uses different names for emphases, every requirement of it, student, exceptions, order in which sets are enumerated, solution, result, and report that prints without raising", "why_tests_cant": "the path can lead through any nesting of rules", "anchors": ["dp/__main__.py: --print-path", "dp/stringify_v3.py: print_result, print_count, print_requirement, print_conditional"]}
{"id": "C74", "title": "The same audit gives the same answer on every run", "statement": "Auditing the same student against the same area, with the same exceptions and arguments, yields the same messages in every run, although the interpreter visits sets of courses in another order in each process (the hash of a course is that of its class id, a string): the same estimate, progress messages and number of solutions, the same solution chosen as the best, and in every reported result the same status, rank and grade point average, the same path and status for everything that was audited, and the same claims. One run ends with an exception only if the other does.", "quantifier": "for every area file that loads and uses different names for emphases, every student without two records of one class id, all exceptions and arguments, and any two orders in which sets are visited", "why_tests_cant": "a test runs in one process, with one order of every set; the claim compares all pairs of orders, through limits, claims, the search and the common requirements", "anchors": ["dp/data/course.py: CourseInstance.__hash__", "dp/base/bases.py: Base.matched", "dp/limit.py: LimitSet.limited_transcripts", "dp/solution/count.py: CountSolution.audit", "dp/area.py: AreaOfStudy.solutions, AreaSolution.audit_common_major_requirements", "dp/audit.py: audit"]}
{"id": "C75", "title": "Limits written in an area file are kept", "statement": "Each limit that an area file writes, on the area or on a query rule over courses, is kept by every audit result. The text says how much it allows: a bare number (or its text) counts courses, and a number with a unit, such as \"1.5 credits\" or \"2 courses\", counts that unit. Of the courses that a result counts, that the limit's `where` accepts as it is written, and that no exception forces in, there are at most as many, or they carry at most as many credits, as the text allows.", "quantifier": "for every area file that loads, every limit in its text, every student, exceptions, orders of sets, every solution the search yields and every set of different courses that its result counts", "why_tests_cant": "the limit is read from text, applied before the search by enumerating the transcripts, and checked on what any of the solutions counts; a test sees a few texts and transcripts", "anchors": ["dp/limit.py: Limit.load, LimitSet.load, LimitSet.limited_transcripts", "dp/area.py: AreaOfStudy.load, AreaOfStudy.solutions", "dp/rule/query.py: QueryRule.load, QueryRule.solutions"]}
{"id": "C76", "title": "Areas the student pretends to drop leave no trace", "statement": "An area that a student's file marks as a what-if drop, other than the one being audited, has no influence on the audit: the audit and the table of grades are the same as for a file in which the area is not listed at all. An area marked this way is still audited when it is the one asked for.", "quantifier": "for every student's file, area file, arguments and orders of sets", "why_tests_cant": "the areas are read by filters, counts, emphases, constants and common requirements; a test looks at one of these at a time", "anchors": ["dp/data/student.py: Student.load", "dp/data/area_pointer.py: AreaPointer.from_dict", "dp/run.py: run"]}
{"id": "C77", "title": "Exceptions recorded for other areas have no influence", "statement": "Exceptions in a student's file that are recorded for another area have no influence on the audit of this one, nor on the table of grades: two files that list the same exceptions for the area, in the same order, give the same messages, also for exceptions that change the credits or the subject of a course.", "quantifier": "for every student's file, every other list of exceptions that agrees on the area, every area file, arguments and orders of sets", "why_tests_cant": "the claim compares all pairs of files", "anchors": ["dp/run.py: run", "dp/exception.py: load_exception"]}
{"id": "C78", "title": "A migration of exceptions is the same as writing the new paths", "statement": "If an area file lists migrations of exceptions from old paths to new ones, auditing a student is the same as auditing, against the area file without the list, the student whose exceptions are written with the paths they are moved to: each migration in turn replaces the old path at the beginning of a path by the new one and leaves other paths alone.", "quantifier": "for every area file with any list of migrations, every student's file and its exceptions, arguments and orders of sets", "why_tests_cant": "any number of migrations may apply one after the other to paths of any length", "anchors": ["dp/exception.py: load_migrations, load_exception", "dp/run.py: run"]}
{"id": "C79", "title": "The order of the records in a student's file does not matter", "statement": "The order in which a student's file lists courses, performances, attendances and the labels of templates has no influence on the audit or on the table of grades, and neither has writing a label twice.", "quantifier": "for every two files that have the same records in any two orders, with different ids for different records, every area file, arguments and orders of sets", "why_tests_cant": "it ranges over all orders of records of any number", "anchors": ["dp/data/student.py: Student.load, load_transcript, parse_template_course_rule", "dp/data/music.py: MusicSlip.sort_order", "dp/run.py: run"]}
{"id": "C80", "title": "A template label stands for the class it describes", "statement": "A label in a student's template, such as \"CSCI 251A 2019-3 [Carleton]\" or \"name=Calculus\", always becomes a course rule. Audited without exceptions, this rule takes the first class of the student that has the subject and number and, where the label gives them, the section, the kind of class, the term and the institution (or, for a label with a title, the title and the institution), and nothing else; if the student has no such class, it takes none.", "quantifier": "for every label that can be written with these parts, every transcript without repeated class ids, and every part of it that an audit sees", "why_tests_cant": "labels are texts of any form, read by two regular expressions with optional parts, and compared with transcripts of any size", "anchors": ["dp/data/student.py: DEPTNUM_REGEX, NAME_REGEX, parse_identified_course, parse_named_course, TemplateCourse.to_course_rule_as_dict", "dp/rule/course.py: CourseRule.load, CourseRule.solutions", "dp/context.py: find_courses"]}
{"id": "C81", "title": "The table of grades lists every graded course once, in order, and its averages add up", "statement": "The table of grades has one block for each term in which the student has courses, in increasing order. A block lists the courses of its term that count towards the grade point average, or says that there are none; then the average of the term and the average of all courses up to and including the term. Within a block the courses are in the order of their names and class ids. Every course that counts is listed exactly once and no other course is; the last cumulative average is the overall average at the end of the table.", "quantifier": "for every transcript", "why_tests_cant": "transcripts have any number of terms and courses, in any order", "anchors": ["dp/run.py: gpa_only", "dp/data/course.py: CourseInstance.year_term", "dp/lib.py: grade_point_average, grade_point_average_items"]}
{"id": "C82", "title": "Loading an area file comes to an end", "statement": "Loading any area file, for any student, comes to an end, with an area or with an exception. In particular a requirement that asks for itself, directly or through others, does not make the program run forever: the requirements a rule can refer to are those written beside and beneath it, and looking it up there fails.", "quantifier": "for every value a YAML file can contain, every student with any templates, and every list of exceptions", "why_tests_cant": "area files can nest and refer to each other in any way; a test can only show that single files load", "anchors": ["dp/area.py: AreaOfStudy.load", "dp/load_rule.py: load_rule", "dp/rule/requirement.py: RequirementRule.load"]}
{"id": "C83", "title": "The student that is audited is the one of the file", "statement": "When a student's file can be loaded, the areas that are audited are those listed, other than what-if drops, with every field as written; performances and recitals are those listed, with every field, in order of time; proficiencies, performing mediums and the year of matriculation stand for what is written; and what an area file can refer to by name (year, medium, code, terms since declaring) is what the file says. A file can be loaded exactly if its courses can be and every status, kind, letter and number is one of the known words.", "quantifier": "for every student's file", "why_tests_cant": "a file can hold any number of records with any combination of words", "anchors": ["dp/data/student.py: Student.load, Student.constants", "dp/data/area_pointer.py: AreaPointer.from_dict", "dp/data/area_enums.py: AreaStatus, AreaType", "dp/data/music.py: MusicPerformance.from_dict, MusicAttendance.from_dict, MusicProficiencies.from_dict, MusicMediums.parse_medium"]}
{"id": "C84", "title": "The courses that are audited are those of the file", "statement": "When a student's file can be loaded, the transcript has one course for each record that is neither audited, repeated, withdrawn nor failed, and the list used for grades has the failed ones too. Every field of a course is that of its record, except that exceptions and the credits table of the area can change credits and subject, a repeated class id is made different, and the points for the average are the grade points times the credits, cut to hundredths. Both lists are in the order of kind, time and class id.", "quantifier": "for every student's file, every list of exceptions and every credits table", "why_tests_cant": "transcripts have any number of records with any values in some thirty fields", "anchors": ["dp/data/course.py: load_course, CourseInstance.sort_order", "dp/data/student.py: load_transcript, Student.load"]}
{"id": "C85", "title": "A passing audit of two files means that the one meets what the other says", "statement": "When an audit of a student's file against an area file reports a result as passing, whatever the options, then what is written in the area file is met by what is written in the student's file: by the student and courses of the file, with the exceptions recorded for the area's code at the paths where the area file's migrations move them, and with the credits and subjects these exceptions and the area file give to classes. For a result reported as done or waived, nothing in progress is needed.", "quantifier": "for every student's file, every area file that loads, every combination of options and every order of sets", "why_tests_cant": "it relates the text of two files of any size to the outcome of a search", "anchors": ["dp/run.py: run", "dp/audit.py: audit", "dp/area.py: AreaOfStudy.load, AreaSolution.audit", "dp/exception.py: load_exception, load_migrations"]}
{"id": "C87", "title": "An audit of an area that loads never ends in an exception", "statement": "When an area file loads for a student and the exceptions recorded for it, auditing it reports results and ends normally: it does not raise. (False in general: eleven ways in which audits do raise are exhibited. What is proved is that there are no others than those named in the conditions: filters with an answer for every record of the student, limits and counts that are whole and not negative, classes named by exceptions that the student has, no exception beneath a requirement that cannot be satisfied, known proficiencies, no counting of seminars, no failed course claimed where claims are looked at, and courses in progress that are dated.)", "quantifier": "for every area file that loads, every student, every list of exceptions, every combination of options and every order of sets", "why_tests_cant": "raising depends on the combination of rules, exceptions and records met anywhere in a search of exponential size", "anchors": ["dp/audit.py: audit", "dp/area.py: AreaOfStudy.solutions, AreaSolution.audit", "dp/rule/query.py: QueryRule.solutions", "dp/rule/count.py: CountRule.solutions", "dp/rule/requirement.py: RequirementRule.solutions", "dp/solution/query.py: QuerySolution.audit", "dp/context.py: RequirementContext.make_claim"]}
{"id": "C88", "title": "The templates of a student are exactly the labels in the file", "statement": "When a student's file loads, its templates are exactly what the labels listed in the file stand for, each under the name it is listed under, each once, and in the order of names and parts. A label is read by the first regular expression, or else by the second, with the meaning that Python gives to them (any character for the point, as much as possible first, the end not anchored in the first); it stands for the first class of the student that has the parts read from it, with the subject, number and class id of that class, or, if there is none, for these parts. A label that neither expression matches stands for nothing.", "quantifier": "for every student's file and every text of a label", "why_tests_cant": "labels are arbitrary texts; the scanner must agree with the backtracking meaning of two regular expressions on all of them", "anchors": ["dp/data/student.py: DEPTNUM_REGEX, NAME_REGEX, parse_template_course_rule, parse_identified_course, parse_named_course, TemplateCourse, Student.load"]}
{"id": "C86", "title": "A student whose file fulfils the area file is reported as complete", "statement": "Take a student's file and an area file that is not a major's and asks for all of its parts. If the courses of the student's file, with the exceptions recorded for the area and each counting once, are allowed together by the limits of the area and fulfil what is written in the area file, and the audit raises no exception, then the last message of the audit of the two files reports the area as complete.", "quantifier": "for every student's file, area file, choice of the courses, order of sets, and options other than estimating or stopping early", "why_tests_cant": "it says of files of any size that a search does not miss", "anchors": ["dp/run.py: run", "dp/audit.py: audit", "dp/area.py: AreaOfStudy.load, AreaOfStudy.solutions, AreaSolution.audit"]}
{"id": "C89", "title": "Which courses can be counted again is what the area file says", "statement": "For an area file that loads, whatever its rules ask for and in whatever order: a request for a course by a rule that counts for itself is refused exactly if the class was claimed before and the file does not list, under `multicountable` and the name of the course, the names of the requirements around the rule, outermost first.", "quantifier": "for every area file, history of requests, course and place", "why_tests_cant": "the order of requests depends on the search; tables and nesting are arbitrary", "anchors": ["dp/area.py: AreaOfStudy.load", "dp/context.py: make_claim"]}
{"id": "C90", "title": "The printed transcript is that of the file", "statement": "With the option to print the transcript, the program prints one row for each usable record of the student's file that is not failed (not audited, not repeated, with a grade that gives credit or is still to come), in the order of the transcript, with the name, class id, kind, credits, term and grade that the file, the exceptions recorded for the area and the area file's credits give the class; no class id is printed twice.", "quantifier": "for every student's file and area file", "why_tests_cant": "records and exceptions are arbitrary in number and order", "anchors": ["dp/run.py: run", "dp/data/student.py: Student.load, load_transcript", "dp/data/course.py: load_course"]}
{"id": "C91", "title": "A spreadsheet can be made of results", "statement": "For the results of some students' audits the spreadsheet command writes a table, with one row for each student and a cell for each heading.", "quantifier": "for every non-empty list of results of audits, and every way of writing numbers and names", "why_tests_cant": "areas are arbitrary, and whether the table can be written depends on the order of the students and on what each of them has done", "anchors": ["dp/stringify_csv.py: Csvify.process, dispatch, requirement, course, proficiency, query, assertion, count", "dp/bin/csvify.py: main"]}
{"id": "C92", "title": "The row of a student shows what was counted", "statement": "In a spreadsheet that is written, the headings are different, each row is that of one student, in the order of the files, and the cell below a heading shows the course that was counted for the rule that the heading names, or is empty if none was.", "quantifier": "for every list of results of audits for which the table is written", "why_tests_cant": "areas are arbitrary trees and students have arbitrary courses", "anchors": ["dp/stringify_csv.py: Csvify.process, requirement, course, proficiency, count", "dp/bin/csvify.py: main"]}
{"id": "C93", "title": "The stored document shows the result, and nothing else", "statement": "The JSON document that is stored for an audit says the status of the area and is marked ok exactly when that is done or waived; it contains for every requirement, rule and assertion of the result an object with its path, kind, status and rank, and for courses and queries the classes counted; every object in it that has a path is one of these; and two objects with the same path are the same.", "quantifier": "for every area text, student, list of exceptions and solution of the search", "why_tests_cant": "areas are arbitrary trees; whether some part is left out or a path is used twice depends on the area file", "anchors": ["dp/area.py: AreaOfStudy.to_dict", "dp/base/bases.py: Base.to_dict", "dp/base/count.py: BaseCountRule.to_dict", "dp/base/requirement.py: BaseRequirementRule.to_dict", "dp/base/conditional.py: BaseConditionalRule.to_dict", "dp/base/course.py: BaseCourseRule.to_dict", "dp/base/query.py: BaseQueryRule.to_dict", "dp/base/proficiency.py: BaseProficiencyRule.to_dict", "dp/assertion_clause.py: Assertion.to_dict", "dp/claim.py: Claim.to_dict"]}
{"id": "C94", "title": "The stored table of claimed courses and the document agree", "statement": "The column claimed_courses stored with an audit lists a class under a path exactly when the stored document shows the class as counted at that path. So two audits with the same document have the same status, verdict and claimed courses, and replacing older copies of the same document loses nothing.", "quantifier": "for every area text, student, list of exceptions and solution of the search, and for every two of them with equal documents", "why_tests_cant": "the table and the document are made by different code from an arbitrary tree of results", "anchors": ["dp/area.py: AreaResult.keyed_claims, to_dict", "dp/server/audit.py: audit", "dp/base/count.py: BaseCountRule.to_dict", "dp/claim.py: Claim.to_dict"]}
{"id": "C95", "title": "The stored row is the result of the audit of the two files", "statement": "The row that the server inserts for a student's file and an area file is made from the one result that the audit of these files reports; a row is inserted exactly when the audit reports a result and the student's file has the names and the class of the student; if it says ok, the student's file meets the area file, and if the student's file fulfils the area file, it says ok.", "quantifier": "for every student file, every area file, every order of sets, and every way of writing numbers", "why_tests_cant": "the files are arbitrary, and every exception on the way is swallowed, so that a missing row is all that can be seen", "anchors": ["dp/server/audit.py: audit", "dp/run.py: run", "dp/audit.py: audit", "dp/area.py: AreaOfStudy.to_dict, AreaResult.keyed_claims"]}
{"id": "C96", "title": "The index of attributes names what an area's filters test", "statement": "What a filter of an area says about a course does not depend on attributes that the index does not list for the area; and for every attribute that the index lists for an area, one of the area's filters compares the attributes of a course with it.", "quantifier": "for every area file that loads, every filter in it (of limits, queries and assertions), and every two records of a course that differ only in attributes that are not listed", "why_tests_cant": "filters are nested arbitrarily and areas are arbitrary trees; what is left out of the index is only seen for an area that tests it", "anchors": ["dp/bin/discover.py: find_buckets_in_rule, find_buckets_in_assertion, find_buckets_in_clause, main", "dp/predicate_clause.py: Predicate.apply"]}
{"id": "C97", "title": "The index of courses names what an area asks for", "statement": "The index lists a course for an area exactly when one of the area's course rules, not beneath a condition, asks for this course and for nothing more special and is not hidden; and whatever course an audit of the area claims for an ordinary course rule is in the index of the area, by its name or its crsid, unless an exception has put it there.", "quantifier": "for every area file that loads, every student, list of exceptions, solution of the search and claim in its result", "why_tests_cant": "the index loads the area without a student, the audit with one; that both see the same rules is a statement about two loads of an arbitrary text", "anchors": ["dp/bin/discover.py: find_courses_in_rule, main", "dp/area.py: AreaOfStudy.load, AreaResult", "dp/rule/course.py: CourseRule.load"]}
{"id": "C98", "title": "The tables of the index follow the area files", "statement": "After a run of the index on all area files, its two tables have exactly the rows that the run has found, whatever earlier runs have written; in particular nothing that the files no longer say is left.", "quantifier": "for every set of files, every earlier content of the tables, and every sequence of runs", "why_tests_cant": "what a run deletes depends on the history of the tables", "anchors": ["dp/bin/discover.py: insert_course_refs, insert_bucket_refs, main"]}
{"id": "C99", "title": "An area without a file is not reported as passing", "statement": "When the file of an area does not exist, the audit reports no result that passes, unless the student's file has an exception for this area that overrides the whole area or the notice that stands in for it; and an audit that ends without an exception does report a result. More generally an area that asks for a number of parts of a list, without limits, never ends without any audit completed.", "quantifier": "for every student file, name of the missing file, arguments of the audit, and order of the search", "why_tests_cant": "students' files and their exceptions are unbounded; the notice is audited by the same engine as any area", "anchors": ["dp/run.py: load_area, run", "dp/rule/requirement.py: RequirementRule", "dp/area.py: AreaOfStudy.solutions", "dp/audit.py: audit"]}
{"id": "C100", "title": "The exit code of the command tells whether there is a report", "statement": "The command exits with code 0 exactly if the audit ends without an exception and has a result that can be written, and then one report is written to standard output, that of the result; otherwise none is. It exits with code 2 exactly if no audit was completed. With --quiet nothing is written.", "quantifier": "for every student file, area file (or none), plain arguments, and way of writing a result", "why_tests_cant": "the messages of an audit are an arbitrary sequence with an exception at any point", "anchors": ["dp/__main__.py: main, result_str", "dp/audit.py: audit", "dp/run.py: run"]}
{"id": "C101", "title": "A batch reports each of its lines", "statement": "A batch does the same for the same lines in whatever order and however often they are given. Each of its reports is of a result of the audit that one of the lines asks for. It exits with code 0 exactly if there is a line and each line asks for an audit that ends with a result that can be written; then each line has exactly one report (or as many as -n says). A blank line, and a line that cannot be audited, do not keep the other lines from being audited.", "quantifier": "for every list of lines, every set of student and area files, every number of repetitions and way of writing a result", "why_tests_cant": "all lists of lines and all files; which lines are reached depends on all lines that sort before", "anchors": ["dp/bin/batch.py: main", "dp/run.py: find_area, load_student, load_area, run"]}
{"id": "C102", "title": "The index of students feeds a batch with what the files say", "statement": "After any number of runs the index has each area of each student file as often as the file has it; and a batch that reads what a run of the index prints reports one audit for each area that the query asks for, in the catalog that the file gives for it.", "quantifier": "for every sequence of runs, each on the files as they are then, every query, and every set of area files", "why_tests_cant": "what a run indexes depends on the history of the table", "anchors": ["dp/bin/index.py: main", "dp/bin/batch.py: main"]}
{"id": "C103", "title": "An area file that validates loads for every student", "statement": "If the validating program shows no exception for an area file, then loading this file for an audit raises none either, whoever the student is and whatever exceptions were made for them.", "quantifier": "for every text of an area file, student, list of exceptions, constants and template courses", "why_tests_cant": "a file is validated once, for nobody; the students it is then loaded for are unbounded, and their courses, areas and exceptions decide conditions, constants, templates and insertions while it is loaded", "anchors": ["dp/bin/validate.py: main", "dp/area.py: AreaOfStudy.load", "dp/load_rule.py: load_rule", "dp/rule/count.py: CountRule.load", "dp/rule/conditional.py: ConditionalRule.load"]}
{"id": "C104", "title": "Validation shows which files are not valid", "statement": "The validating program shows the names of the files in the order given, and an exception after just those that cannot be read or made into an area; with --break it stops after the first of these, and without it no file is left out. Its exit code is 0 exactly if no file shown has an exception.", "quantifier": "for every list of files, readable or not, with and without --break", "why_tests_cant": "all lists of files; what is shown for one depends with --break on all before it", "anchors": ["dp/bin/validate.py: main"]}
{"id": "C105", "title": "A run of the testbed records exactly the audits that end with a result", "statement": "After a run for the baseline, or for a branch, the rows of the baseline, or of the branch, are exactly one for each audit asked for (recorded as shorter than the given time, and of the given area code if there is one) whose area file exists and whose audit ends with a result in time; the row holds what this result says. The data from the server and the rows of other branches are not changed. A run that raises or is killed stores no row.", "quantifier": "for every contents of the tables, area files, times, order in which the audits end, and point at which the run is killed", "why_tests_cant": "all databases and all orders in which parallel audits end; that nothing is stored holds for every way to fail", "anchors": ["dp/testbed/batch.py: run_batch", "dp/testbed/audit.py: audit, estimate", "dp/testbed/sqlite.py: sqlite_transaction, sqlite_connect", "dp/testbed/areas.py: load_areas"]}
{"id": "C106", "title": "The comparison lists exactly the audits whose outcome changed", "statement": "After a run of the testbed for the baseline and one for a branch, the comparison shows, ordered by student, catalog and code, exactly the audits whose outcome (ok, grade point average, rank or greatest rank) differs; with a mode, those for which this column differs. If program and area files are the same in both runs, it shows none.", "quantifier": "for every two programs, area files, students, selections, and orders in which audits end", "why_tests_cant": "it relates two runs of two programs over all databases", "anchors": ["dp/testbed/compare.py: compare", "dp/testbed/batch.py: run_batch"]}
{"id": "C107", "title": "The testbed's cache of area files is not seen", "statement": "Whatever runs of the testbed and edits of the area files came before, killed runs and runs with exceptions included, loading areas gives for each area asked for that has a file exactly what the file says now, and nothing for the others; the cache holds one row per file.", "quantifier": "for every history of runs, each with any contents of the area files, and every list of areas asked for", "why_tests_cant": "a stale area would show after some history of edits and runs; the histories are unbounded", "anchors": ["dp/testbed/areas.py: load_areas, load_area", "dp/testbed/db.py: init_local_db", "dp/testbed/sqlite.py: sqlite_transaction"]}
{"id": "C108", "title": "An audit from the server's command line is stored once and as asked", "statement": "The server's command line prints an id exactly if the audit of the two files has a result; then one row is added, with this id and result and a higher revision than those of the student and area before, and all other rows stay. With --link-only the row can be reached by its link only; without it, it becomes the active result.", "quantifier": "for every student file, area file, contents of the table and choice of --link-only", "why_tests_cant": "all contents of the table of results, which the new row must leave as they are", "anchors": ["dp/server/cli.py: main", "dp/server/audit.py: audit"]}
{"id": "C109", "title": "Every setting of the .env file is in the environment", "statement": "When a program of the server starts, each variable set in the file .env has the value of the last line that sets it, blanks around name and value removed; blank lines and comments are passed over, variables the file does not mention stay, and without a file nothing changes. A file with a malformed line ends the program and leaves the environment as it was.", "quantifier": "for every file of lines, every environment, and every notion of blank characters that has neither # nor =", "why_tests_cant": "all files, with any number of lines, repeated names, and blanks anywhere", "anchors": ["dp/dotenv/dotenv.py: read, load"]}
{"id": "C110", "title": "Fetching brings exactly the audits asked for", "statement": "A fetch from the server that ends without an exception leaves in the testbed every audit of the run asked for that has a result (with --latest, every active one) and, without --clear, also the audits that were there; no audit is there twice, and the baseline and the branches stay. It ends without an exception exactly if no value is missing and no audit comes twice; with --latest --clear this is so after every history of the server. A fetch that fails adds nothing, and leaves what was there.", "quantifier": "for every table of results of the server, contents of the testbed, arguments and typed answers, including fetches that are killed", "why_tests_cant": "all contents of both databases, all histories of the server, and a kill at any moment", "anchors": ["dp/testbed/fetch.py: fetch, fetch__select_run", "dp/testbed/db.py: init_local_db", "dp/testbed/sqlite.py: sqlite_transaction"]}
{"id": "C111", "title": "The testbed shows the audit that is asked for", "statement": "query lists exactly the audits with the student, catalog and code given, each once; extract writes the student's file of the audit asked for; run shows a result of an audit exactly if a run of a branch by the same program stores this result; print shows the stored audits of the base and of the branch asked for, and print --diff says that there are no changes exactly if the two texts are the same, which they are for a branch that changes nothing.", "quantifier": "for every contents of the testbed, every program and area files, and every audit asked for", "why_tests_cant": "a wrong audit is shown only for some contents of the table; run and branch are compared for all programs and files", "anchors": ["dp/testbed/query.py: query", "dp/testbed/extract.py: do_extract", "dp/testbed/run.py: run_one", "dp/testbed/batch.py: run_batch", "dp/testbed/render.py: render, render_result"]}
{"id": "C112", "title": "A queued audit uses the newest area file that is not after its catalog", "statement": "A worker audits the student of a queued item with the newest area file of the item's code that is not of a later catalog, and has exactly the result of this audit to store; it reports the area as missing exactly if all its files are of later catalogs. Asking for a what-if audit adds one item, of the student, year and code given, and no worker takes an item of lower priority while it waits; the student's other results stay as they are.", "quantifier": "for every set of area files, contents of the queue, student, year of four digits, state of the workers and order of steps", "why_tests_cant": "all sets of catalogs, all contents of the queue and all interleavings of workers", "anchors": ["dp/server/whatif.py: main", "dp/server/worker.py: process_queue", "dp/run.py: find_area", "dp/server/audit.py: audit"]}
{"id": "C113", "title": "The report of an area has one row for each student with an active result", "statement": "The report of an area (dp-report report) has exactly one row for each student with an active result of the area, in the table of the students with the same columns and catalog; each cell shows the record of the student's audit under this column and whether it passes, and the report is the same whatever order the database gives the rows in.", "quantifier": "for every contents of the result table, every area code, every student and audit, and every order of the hash map", "why_tests_cant": "all audits (trees of any shape), all sets of students, and all orders of a hash map that is seeded differently in each process", "anchors": ["reports/src/major_report.rs: print_as_html, to_table, render_tables", "reports/src/students.rs: fetch_records, fetch_students, get_cell_by_key", "reports/src/lib.rs: run_report"]}
{"id": "C114", "title": "The summary of an area counts each student once", "statement": "In the summary of an area (dp-report summarize), the numbers of a requirement's row are how many students of the table's catalogs have a record with this title, and how many of these are not passing, overall and for each classification; every student with an active result is counted in exactly one table.", "quantifier": "for every contents of the result table, every area code, every title and every order of the hash map", "why_tests_cant": "all audits, all sets of students and catalogs, and all orders of a hash map", "anchors": ["reports/src/major_summary.rs: print_as_html, to_table, insert_into_classification, format_classification", "reports/src/students.rs: by_titles, titles_only, get_first_cell_with_key_title"]}
{"id": "C115", "title": "A student's row in the report shows the student's own courses and what the audit says of them", "statement": "Every course in a student's row of the report is a course of this student that the audit claims; every number in it, and what is said to remain, is that of an assertion of the audit; a record is shown as passing exactly if what it shows is passing in the audit; and two audits that differ only in what they say of the students have the same columns.", "quantifier": "for every student, every audit of any depth, and every pair of students", "why_tests_cant": "all trees of rules of any depth and all students", "anchors": ["formatter/src/rule/count.rs: get_row", "formatter/src/rule/course.rs: get_row", "formatter/src/rule/requirement.rs: get_row", "formatter/src/rule/query.rs: get_row", "formatter/src/rule/conditional.rs: get_row", "formatter/src/rule/proficiency.rs: get_row", "formatter/src/assertion.rs: get_row, get_clbids", "formatter/src/area_of_study.rs: get_row"]}
{"id": "C116", "title": "The nightly reports are those of the day's results, and a run that ends early leaves no half-made report", "statement": "After a run of dp-report batch --to-database that ends without an error, both stored reports of every area with an active result are those of the results met by this run, whatever happened on the days before; after a run that was killed or ended with an error, every stored report is either as before or made of the results of this run, areas are brought up to date in the order of their codes, and there is at most one report of each kind for an area.", "quantifier": "for every history of days, every contents of the tables, results changing during the run, every point at which the program is killed and every order of the hash maps", "why_tests_cant": "all crash points, all histories of days and all changes of the results during a run", "anchors": ["src/dp-report.rs: main", "reports/src/database.rs: record_report, collect_area_codes", "reports/src/lib.rs: run_report", "dp/server/reports_worker.py: worker"]}
{"id": "C117", "title": "The message of a requirement is shown word for word, in its paragraphs", "statement": "Whatever message an area file gives for a requirement, what is shown is a list of paragraphs, each as one element without a newline or white space at its ends, whose words are the words of the message in their order; each paragraph of the file, whatever the common margin, gives one element; giving what is shown as a message again changes nothing; and a message with no text is refused.", "quantifier": "for every message: every text, every margin of blanks and tabs, any number of paragraphs and lines", "why_tests_cant": "all texts, with any mixture of blanks, tabs, newlines and tags", "anchors": ["dp/autop/autop.py: autop, wrap_untagged", "dp/rule/requirement.py: load"]}
{"id": "C118", "title": "The sheet for Excel has each student's cells below their headings, in the style of their status", "statement": "In the sheet that excelify writes, the headings are those of the students' results, each once; each file gives one row, in the order of the files, with the number of the student in the file's name; each cell of a row is that of the student for the heading above it; and a cell is in the style of what is done, in progress, done in part or failed exactly if it is so in the audit.", "quantifier": "for every list of files, every audit in them and every text in their cells", "why_tests_cant": "all combinations of students whose results have different columns, and all texts", "anchors": ["dp/bin/excelify.py: main, compute_style", "dp/stringify_csv.py: process"]}
{"id": "C119", "title": "The list of audits names each area of each student once", "statement": "The program that lists audits (dp.bin.expand), given student files as an argument or on its input, prints for each file, in order, one line for each area of the student that is not an emphasis (or for the one area that is asked for), with the file of the area in its own catalog year; a student without a catalog year is skipped.", "quantifier": "for every list of patterns and files, every student and every set of areas, in any order of a set", "why_tests_cant": "all students, all combinations of areas and years, and all orders of a set", "anchors": ["dp/bin/expand.py: cli, expand_student"]}
