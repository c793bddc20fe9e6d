# Design

A formal model in Lean 4 of the degree auditor under `/repo/dp`, and theorems about it.

- `properties.jsonl` — the claims in English.
- `lean/Verif/Model` — the model. Every definition cites the file and lines of `/repo` it follows and says where it simplifies.
- `lean/Verif/Props` — specifications and theorems. A theorem for claim Cnn is named `Cnn_…`. The suffix `_partial` marks a theorem that proves part of the claim (its docstring says what is missing); `_refuted` marks a theorem with a concrete witness showing that a stronger or literal reading of the claim is false of the code.
- `MANIFEST.json` — which theorems stand for which claim.
- `seeded/LOG.jsonl` — wrong programs tried against the theorems; `seeded/mutants.json` holds the edits, `seeded/run.py` the runner.
- `tools` — scripts that write `MANIFEST.json`, this file and the log.

## 1. Trusted base

1. **Lean's kernel** (4.33.0), which checks every proof, and Lean's parser and elaborator as far as they decide what a *statement* says.
2. **Axioms.** The only axioms any theorem here depends on are Lean's own `propext`, `Classical.choice` and `Quot.sound`. The model adds none. There is no `sorry`, `admit`, `native_decide`, `bv_decide`, `implemented_by`, `extern` or `unsafe` in the project. Section 5 lists the axioms for each theorem (obtained with `Lean.collectAxioms`).
3. **The model.** Nothing connects `/repo` to the model mechanically. The model was transcribed by hand from the text of `/repo`, function by function; the code was never run. Section 2 says what was left out, section 3 where we had to fix the meaning of something Python leaves open.
4. **The specifications**, that is, the definitions used in the statements of the `C…` theorems but not by the model (for example `Fulfils`, `Satisfied`, `Meets`, `CountsForGpa`, `WaitsFor`, `Decides`, `IsNamed`, `InsertedBy`). They are written without the model's own helpers wherever the claim allows it.
5. **Mathlib** is used as a library of proved facts (lists, `Nat.choose`, rationals, tactics); it adds nothing to the trusted base beyond the kernel and the axioms above.

## 2. What is modelled

| part of `/repo` | model | remarks |
|---|---|---|
| `dp/context.py`, `dp/claim.py` | `Model/Claim`, `Model/Context` | `make_claim`, `fresh_claims`, exception lookups and their caches, transcript accessors, all attributes the rules read. Logging left out. |
| `dp/exception.py` | `Model/Exceptions` | all kinds of exceptions and `load_exception` with migrations |
| `dp/data/course.py`, `course_enums.py`, `student.py`, `area_pointer.py`, `music.py` | `Model/Transcript`, `Model/Basic`, `Model/Predicate` | `load_course` (flags, overrides, GPA fields), `load_transcript`, grade tables, the values filters can read. See section 3 for what a raw record is. |
| `dp/op.py`, `dp/apply_clause.py` | `Model/Op` | `apply_operator` with `None`, strings, numbers, booleans, tuples, and its `lru_cache`; the measuring functions (`count`, `sum`, `average`, `terms_from_most_common_course`, …) |
| `dp/predicate_clause.py`, `conditional_expression.py` | `Model/Predicate`, `Model/PredEq`, `Model/LoadClause` | evaluation, equality, loading |
| `dp/assertion_clause.py` | `Model/Assertion`, `Model/LoadClause` | audit, rank, status, `input_size_range`, dynamic and conditional assertions |
| `dp/limit.py` | `Model/Limit` | set iteration order is a parameter |
| `dp/lazy_product.py`, `dp/ncr.py` | `Model/LazyProduct`, `Model/Comb` | |
| `dp/base/*`, `dp/result/*`, `dp/status.py` | `Model/Tree` | status, rank, maximal rank, claims of all kinds of rules |
| `dp/rule/*`, `dp/solution/*` | `Model/Rule`, `Model/Tree`, `Model/Loaded` | `solutions`, `estimate`, `has_potential`, `all_matches`, `get_required_courses`, `exclude_required_courses`, `is_always_disjoint`/`is_never_disjoint`, `find_independent_children`, `audit`. Generators are streams (`Model/Gen`) that may end in an exception. |
| `dp/solve.py` | `Model/Solve` | `find_best_solution` |
| `dp/data/student.py` (`load`, `constants`, template labels), `area_pointer.py`, `music.py` (loading), `dp/run.py` (`run`, `gpa_only`, `transcript_only`) | `Model/Student` | the student's file from its records to the audit: areas with what-if drops, music records and mediums, template labels read by the two regular expressions, exceptions of the area with their migrations, the credit table, the whole of `run`, the table of grades. `\d` is taken as 0–9. |
| `dp/area.py`, `dp/audit.py`, `dp/run.py` (arguments) | `Model/Area` | `AreaOfStudy.solutions/estimate`, `AreaSolution.audit`, `AreaResult`, GPA, `audit` and its messages with all options |
| `dp/area.py` (loading, common rules), `dp/load_rule.py`, `validate` of all rules | `Model/Yaml`, `Model/LoadClause`, `Model/Load` | from the value a YAML parser returns to the loaded area, including requirements, templates, emphases, the common major requirements and every check that raises |
| `dp/server/worker.py`, `audit.py`, `batch.py`, `clear_expired.py` | `Model/Server` | statements on tables, transactions, crashes, interleavings |
| `dp/bin/expand.py` (area lookup), `dp/lib.py` | `Model/Files`, `Model/PathOrder` | |
| `dp/ms.py` | `Model/Duration` | |
| `dp/stringify_v3.py`, the `to_dict` methods it reads | `Model/Print` | the lines of a report, with every branch and every key or type error; how single values (courses, grades, numbers, emoji) look is a parameter (`Shows`) |
| `dp/stringify_csv.py`, `dp/bin/csvify.py` | `Model/Csv` | columns of a result, the dictionary of a row, and the table with the errors of `csv.DictWriter`; how numbers and names look is a parameter; quoting in the file is left out |
| `to_dict` of `dp/area.py`, `dp/base/*.py`, `dp/assertion_clause.py`, `dp/predicate_clause.py`, `dp/limit.py`, `dp/claim.py`; `dp/server/audit.py` | `Model/Json` | the document of a result and the columns of the stored row; left out: `hidden`, messages, labels, original values, `resolved_items`, the parts of conditions; how decimals and the values in comparisons are written is a parameter (`Writes`); the statements around the row are in `Model/Server` |
| `dp/bin/discover.py` | `Model/Discover` | what is found in the areas and the two tables after the statements; whether a rule is hidden is a parameter; printing is left out; exceptions of the database are not modelled |
| `dp/run.py` (`load_area`), `dp/__main__.py` (`main`), `dp/bin/batch.py`, `dp/bin/index.py` | `Model/Front` | the notice for a missing area file, the loop over messages with the exit codes, the batch over its lines, the index of students over its runs. How a result is written is a parameter; `--transcript`, `--gpa` and `--invocation` are left out; the table is a list of rows, the query a predicate |
| `dp/bin/validate.py` | `Model/Validate` | a file is its parsed text or the exception raised by reading it; what is shown is the list of names with the exceptions |
| `dp/testbed/audit.py`, `batch.py`, `compare.py` | `Model/Testbed` | tables are lists of rows; times, the order in which audits end, and being killed are arbitrary; the cache of area files gives what the file says; the sums below the comparison are left out |
| `dp/testbed/areas.py` | `Model/AreaCache` | what YAML gives is a value with the kinds JSON does not have lumped together; a text in JSON is what it is read back as; of several rows that fit, the first is read |
| `dp/server/cli.py` | `Model/ServerCli` | files that can be read; catalog and code are given |
| `dp/dotenv/dotenv.py` | `Model/Dotenv` | the file as lists of characters; which characters are blank is a parameter |
| `dp/testbed/fetch.py`, `query.py`, `extract.py`, `run.py` | `Model/Fetch` | of the columns only those looked at later; the table of the server does not change during a fetch; the summary of runs and the report of a result are left out |
| `dp/server/whatif.py`, `dp/server/worker.py:91-128` | `Model/WhatIf` | the student number in the file, or the exception, is given; reading an area file may raise |
| `formatter/src`: the rows of records (`get_row`), statuses, titles | `Model/Report` | a panic is `none`; numbers and the text of courses are kept as values; the parse of the stored JSON is given |
| `reports/src/students.rs`, `major_report.rs`, `major_summary.rs` | `Model/Report` | the HTML is kept as tables of cells; strings are compared by their characters; the order of a hash map is any permutation |
| `src/dp-report.rs` (`batch`), `reports/src/database.rs:28-83`, `dp/server/reports_worker.py` | `Model/ReportBatch` | each stored report is one transaction; a panic and an error end the program; times are left out |
| `dp/autop/autop.py`, `textwrap.dedent`, the message in `dp/rule/requirement.py:62-69` | `Model/Autop` | what is white space is a parameter (blank, tab and newline are, the brackets are not) |
| `dp/testbed/render.py` | `Model/Render` | how a stored result is written as a text (`render_result`) and the server's results are parameters; the stored texts can be parsed |
| `dp/bin/excelify.py` | `Model/Excel` | the widths of the columns are left out |
| `dp/bin/expand.py` (`cli`) | `Model/Expand` | the patterns of `glob` and reading a file are parameters; paths are not made absolute |

Not modelled: the older report (`stringify_v2`), the arguments of the command-line front ends, `dp/bin/print.py`, the rest of `dp/testbed` (the summary in `fetch.py`), the prose of the Rust formatter (`to_prose`) and the HTML text of its reports, SQLite itself (we assume transactions, unique indices and the meaning of NULL), `dp/discover_potentials.py` (all of it is within a string), the connection handling and logging of the server, PostgreSQL itself (we assume transactions, row locks with `SKIP LOCKED`, and statements with the meaning described in `Model/Server`), YAML and JSON parsing, the log output, timing (`time.perf_counter`; the time values in messages are left out), memory limits.

## 3. How Python is rendered

- **Exceptions** are values: `Except PyErr α`, or the error end of a stream. A theorem about "every result" covers raising runs by saying what happens then, or by assuming the run returned.
- **Generators** are finite streams (`Gen`) that end normally or with an exception. Generators that the code restarts are functions returning streams.
- **Mutable state** (the claim table, the caches, the lists of exceptions) is passed explicitly. Caches are modelled where their key could conflate different questions (`lru_cache` of the operators, the cache of exceptions beneath a path), and are proved transparent or refuted; elsewhere they are left out.
- **Dictionaries** are lists of pairs in insertion order. **Sets** whose order can be observed are lists in an order given by a parameter (`Orders`); theorems hold for every lawful order.
- **Recursion.** Loading uses a fuel argument because templates and requirements could refer to each other; running out of fuel is a separate error, and `Props/LoadFuel` proves that the value does not depend on the fuel once it is enough.
- **Numbers** are exact rationals and integers. Rounding `Decimal` to 28 digits is not modelled. Nothing is a float in the parts that are modelled, except the constants the code converts at once.
- **Regular expressions** used by `dp/ms.py` and the path sorting are modelled as scanners of characters.
- **`hash`, identity and `==`** follow the `attr.s` definitions where they matter (`Model/PredEq`, course equality with the hash cache).


## 4. Property by property

Status, where the theorems are, how the property is modelled and proved, and what is missing.

- **C01 A course is counted once unless it is multicountable** (proved; `Props/Claim`). Model `make_claim` on an insertion-ordered claim table; invariant by induction over the request history.
- **C02 allow_claimed never consumes a course** (proved; `Props/Claim`). Same model; non-interference by induction over histories (filtering allow_claimed requests).
- **C03 Failed claims change nothing, granted claims are never withdrawn** (proved; `Props/Claim`). Frame lemma on one step, lifted to histories.
- **C04 A multicountable course is claimed at most once per listed requirement path** (partial; `Props/Claim`). The code compares strings with tuples, so the bound is false: witness history, plus partial theorems on what does hold (unlisted paths, listed-path membership). *The full bound is false of the code (listed paths are strings compared with tuples): C04_refuted is a witness history. The partial theorems describe the decision actually taken.*
- **C05 Trial solving leaves the claim table alone** (proved; `Props/Claim`). A small command language (claim, nested fresh block, raise) with an interpreter mirroring the context manager; induction over programs.
- **C06 Exception lookup beneath a path is exact and cache-independent** (proved; `Props/Exceptions`). `group_exceptions` and the memo dictionary modelled; invariant over query histories.
- **C07 Exceptions apply at their exact path, first one wins** (proved; `Props/Exceptions`). Model of the lookups over the grouped dictionary; specification over the flat list of exceptions.
- **C08 Exception migrations rewrite only matching prefixes** (proved; `Props/Exceptions`). Model of `load_exception` path rewriting; specification by prefix relation.
- **C09 Limits are never exceeded** (partial; `Props/Limit`, `Props/QueryLimit`). Model of `Limit.iterate*`, `LimitSet.check`, `limited_transcripts`, iteration order of frozensets a parameter. Course limits hold; credit limits fail for overlaps: witness + `_partial`. *Holds for course limits with whole maxima, also of the courses a query reports and of those an area's queries without include_failed claim. False for credit limits that share courses and for fractional course limits (refuted with witnesses); there the overshoot is less than one course, and separate credit limits are respected. Queries with include_failed bypass the area's limits (C09_area_limits_refuted).*
- **C10 Limits remove only courses they match** (partial; `Props/Details`, `Props/Limit`). Same model; membership reasoning. *For all limit sets: forced classes are never dropped and never count (see the theorems about limits). For whole areas loaded from text, C10_only_forced_classes_bypass_limits_partial says that only those bypass the limits of the area; missing there: queries with include_failed bypass them too (C09_area_limits_refuted).*
- **C100 The exit code of the command tells whether there is a report** (proved; `Props/Front`). The messages have the form that C22 gives them; induction over the messages for the loop. *For the arguments without --print-all, --print-only, --audit-each (for these see C22), --estimate, --gpa and --transcript. How a result is written is a parameter that may fail.*
- **C101 A batch reports each of its lines** (partial; `Props/BatchRun`). The order of lines is total and antisymmetric, so sorted lists of the same lines are equal; induction over the lines; `Reported` determines the report. Counterexamples: for all lists with a blank line, and four evaluated by the kernel. *Proved but for the last sentence, which is false: a blank line raises before any audit, and one line that cannot be audited ends the batch (C101_blank_line_refuted, C101_other_lines_refuted).*
- **C102 The index of students feeds a batch with what the files say** (partial; `Props/Index`). Invariant over the runs: the table is a permutation of the rows of the files. Counterexamples are evaluated by the kernel; that no batch ends well after a run with a new file is proved for all files and queries. *Partial: files that are added but not changed (C102_changed_file_refuted) and are named after their student (C102_other_name_refuted), and a batch that reads a run with nothing new to index, since the line about the progress is printed among the others and raises (C102_first_run_refuted).*
- **C103 An area file that validates loads for every student** (partial; `Props/Validate`). A relation between two loadings of one text: if the first succeeds, so does the second, with the same names of requirements. Shown clause by clause, then by induction over the depth for rules, for the common requirements and for emphases; C82 excludes that the depth runs out. Counterexamples are evaluated by the kernel. *Partial: for students without a declared emphasis (C103_emphasis_refuted), insertions into counts of classes the student has (C103_insertion_refuted), texts without templates that the student has (C103_template_refuted) and without hidden conditional rules, whose other conditional rules have the same answer for nobody as for the student or name no requirement (C103_conditional_refuted); departments do not begin with `$` and the performing medium is not a number.*
- **C104 Validation shows which files are not valid** (partial; `Props/Validate`). Induction over the files. Counterexample for the exit code. *Proved but for the exit code, which is always 0 (C104_exit_code_refuted), so that `make validate` succeeds with an invalid file.*
- **C105 A run of the testbed records exactly the audits that end with a result** (partial; `Props/Testbed`). Induction over the audits in the order in which they end, with the unique keys as invariant; what is stored of one audit is characterised by the messages of the run (C22). Case analysis of the ways to fail. *Partial: for runs that end without an exception. One audit that ends with neither a result nor an exception makes the run raise, and all others are lost (C105_one_audit_loses_all_refuted); `baseline --copy` empties the baseline and raises (C105_copy_refuted). C105_run_ends tells when a run ends without an exception.*
- **C106 The comparison lists exactly the audits whose outcome changed** (partial; `Props/Testbed`). Membership in the join, composed with C105 for the two runs. A counterexample with three audits is evaluated by the kernel. *Partial: for audits that end with a result in both runs. An audit that raises in the branch is not shown, although it was complete in the baseline (C106_failing_audit_refuted).*
- **C107 The testbed's cache of area files is not seen** (partial; `Props/AreaCache`). Invariant of the cache over all histories: a row tells what its text is as JSON, has the key of its catalog and code, and paths are unique. That JSON keeps plain values is shown by mutual induction over the value. *Partial: for files below the root whose values JSON has. A key that is a number is a text once it comes from the cache (C107_number_keys_refuted), and a file with a date, or the like, raises (C107_date_refuted); what is given is never stale even so (C107_never_stale).*
- **C108 An audit from the server's command line is stored once and as asked** (partial; `Props/ServerCli`). Computation with the statements of Model/Server, and C95 for when there is a result. *Partial: --link-only is ignored, and every row is stored as if it was given (C108_link_only_refuted). If the audit raises, `stored with id None` is printed (example).*
- **C109 Every setting of the .env file is in the environment** (partial; `Props/Dotenv`). What a line says is specified by how it is put together from blanks, name, equals sign and value; stripping and splitting are shown to invert this. Induction over the lines. *Partial: a value with an equals sign, as in PGPASSWORD=a=b, makes the program end with ValueError (C109_equals_in_value_refuted). C109_other_lines_raise covers all malformed lines.*
- **C11 Every maximal admissible selection is offered** (partial; `Props/Limit`). Same model; false in general (credit limits that fit emit one combination only, zero transcripts possible): witness + `_partial` for the cases that hold. *False in general (C11_refuted, C11_repeated_limit_refuted). Proved for distinct course limits (every admissible selection) and for credit limits that share no counted course (every maximal selection).*
- **C110 Fetching brings exactly the audits asked for** (partial; `Props/Fetch`). Induction over the fetched rows, with the unique index; for the history of the server, the order of its table from C40. *Partial: a fetch with --clear that fails, or is killed, has lost what was there, as clearing is a transaction of its own (C110_killed_clear_refuted); fetching twice without --clear always raises (C110_again_refuted).*
- **C111 The testbed shows the audit that is asked for** (partial; `Props/Fetch`, `Props/Render`). Filters with unique keys; for run, C105 for the branch and uniqueness of the row of the student. What is printed: the rows found by unique keys are the stored ones, and C105 for what the two runs store. *Partial: extract, and so invoke, does not look at the catalog (C111_extract_refuted); for students with the code in one catalog only it is right (C111_extract_partial). print does not show the audit of a branch that is named server or baseline (C111_print_name_refuted), and raises for an audit of a branch that is no longer in the baseline (C111_print_raises_refuted).*
- **C112 A queued audit uses the newest area file that is not after its catalog** (partial; `Props/WhatIf`). Reading the year back from the name of a catalog, C43 for the file found, and the condition under which a worker takes an item in Model/Server. *Partial: a what-if audit is queued without link_only, so with false as the default of this column its result replaces the active result of the student (C112_whatif_replaces_active_refuted). The default is in the database, not in the repository.*
- **C113 The report of an area has one row for each student with an active result** (partial; `Props/Report`). Invariant of the loop that groups the records; sorting the groups permutes them; the order of the rows by a total order on the sort keys. *Partial: the cells are those of the columns only if no two records of a row have the same title and subtitle (C113_same_title_refuted), and the order of tables with the same caption is that of a hash map (C113_order_of_tables_refuted). Parts of an emphasis are never shown (C113_emphasis_refuted).*
- **C114 The summary of an area counts each student once** (partial; `Props/ReportSummary`). Invariant of the two loops that fill the counters, and the groups of catalogs as a partition. *Partial: a student is counted in one table only if the students of a catalog have the same titles, since the summary chooses its students by catalog; the title of a condition contains its result, so students are counted twice (C114_counted_twice_refuted).*
- **C115 A student's row in the report shows the student's own courses and what the audit says of them** (partial; `Props/ReportNumbers`, `Props/ReportRow`, `Props/ReportShown`). Mutual induction over the tree of rules. *Partial: a record has the status of the item of the area's outermost count that it is in, so a finished course is shown, and counted, as needed (C115_done_is_shown_as_needed_refuted), and for a count of one a finished item is shown as waived (C115_done_is_shown_as_waived_refuted). What is done for one of several things, or for a waived requirement, has no cell of its own (C115_claimed_courses_are_shown_partial).*
- **C116 The nightly reports are those of the day's results, and a run that ends early leaves no half-made report** (partial; `Props/ReportBatch`). The rows stored by a run are those of the areas before the first that cannot be read; every prefix of them is a prefix of the areas and at most one row more; C113 for the report being written. *Partial: one audit that cannot be shown (a course that has only a name) ends every run at its area, so that the later areas never have reports (C116_one_bad_area_refuted); and an area without active results keeps its last report (C116_stale_refuted).*
- **C117 The message of a requirement is shown word for word, in its paragraphs** (partial; `Props/Autop`). Each step (margin, chunks, stripping, joining) keeps the words, by induction over the text with the word so far; stripping and joining leave ends without white space; the chunks of paragraphs joined by an empty line are the paragraphs, by induction. *Partial: a message of blanks is accepted and shown as an empty paragraph (C117_blank_message_refuted), only the empty message is refused; three empty lines in a row give an empty paragraph (C117_empty_paragraph_refuted); a paragraph that begins with a less-than sign is taken for a tag (C117_less_than_refuted). The theorem about one element for each paragraph is for lines that all have the same margin.*
- **C118 The sheet for Excel has each student's cells below their headings, in the style of their status** (partial; `Props/Excel`). Each row is the dictionary of the columns of the result, which have each heading once (C91); the cells of a row are made one by one, by induction; the prefixes of the styles exclude each other by their first letter; the refutations are computed from audits of two students. *Partial: the headings are those of the first student and every row is written from the first column on, so a student whose result has other columns has cells below a wrong heading (C118_wrong_column_refuted); a cell without a colon is in the style of what is done, also for a course that was not taken (C118_style_refuted). For a course that is not given by its name it raises (C118_unnamed_course_refuted). Proved: a sheet is written if every cell has a value; the cells of a row are those of the student's own headings in order, and the style is a function of the text of the cell (C118_styles).*
- **C119 The list of audits names each area of each student once** (partial; `Props/Expand`). The loop over the codes yields each once (C42); the year is that of the last entry of the area; induction over the files. *Partial: with a student file as an argument it always raises, whatever is in the file (C119_argument_refuted); proved for files on the input.*
- **C12 Limited transcripts are emitted once each, in canonical order** (proved; `Props/Limit`). Same model; NoDup of emitted sets, sortedness.
- **C13 lazy_product is the Cartesian product** (proved; `Props/LazyProduct`). Odometer loop modelled step by step; proved equal to the recursive Cartesian product.
- **C14 ncr is the binomial coefficient** (proved; `Props/Comb`). Model of the two range products and the integer division; proved equal to `Nat.choose` and to the length of `combinations`.
- **C15 Paths have one sorted order** (proved; `Props/PathOrder`). Model of the comparison on paths with segments parsed to int or string; strict total order proofs.
- **C16 Comparison operators mean what they say** (partial; `Props/Op`). Value datatype, model of the three operator functions with TypeError as a value. *The operators themselves are covered in full; behind the lru_cache, answers can be those of an equal but differently typed argument (C16_cache_refuted), the cache is transparent for histories without such pairs.*
- **C17 Filters are boolean combinations** (proved; `Props/Items`, `Props/Predicate`). Predicate tree and its evaluation, spec by an independent boolean semantics.
- **C18 Rank never exceeds max rank** (partial; `Props/Tree`). Result tree (course/count/query/requirement/conditional/proficiency) with rank and status as structural recursion; structural induction. *Upper bound proved for every result; the lower bound is false when an assertion expects a negative number or in the presence of negative sums (C18_negative_rank_refuted) and is proved where each assertion's inputs are nonnegative. A childless count asked for a rank raises (C18_childless_count_raises).*
- **C19 A passing count really has enough passing children** (partial; `Props/Tree`). Same tree. *Done implies enough done children, and passing implies enough passing children. The converse is false: an unneeded pending or failed child changes the status (C19_unneeded_child_refuted); it holds when exactly the needed children are resolved.*
- **C20 Failure dominates** (proved; `Props/Details`, `Props/Tree`). Same tree.
- **C21 The best solution wins** (proved; `Props/Run`). Loop of `audit` as a fold over an arbitrary stream; specification by argmax.
- **C22 Message protocol of an audit run** (partial; `Props/Run`, `Props/RunArgs`). Same loop producing the message trace. *The protocol holds without the printing options when every solution is audited (C22_protocol_partial). For every choice of options, solutions that print_only and audit_each leave out have no influence on the messages; with a printing option each selected solution is told once and in order, if none of them is complete. A complete one ends the run and is not told with print_all, or with print_only after another was told (C22_print_all_refuted, C22_print_only_refuted).*
- **C23 Each solution of a count rule accounts for every child once** (partial; `Props/CountRule`, `Props/LoadRun`). Model of `CountRule.solutions` over children solution generators. *That each solution mentions each child exactly once in path order is proved in full, for nested and topmost counts. A count always yields or raises (proved); it always yields unless the search raises, and it does raise when an exception lies beneath a requirement that ends in an unanswered conditional (C23_always_yields_refuted).*
- **C24 Independent children are really independent** (partial; `Props/Independent`). Model of `find_independent_children`. *Proved unless both children are flagged disjoint, in terms of matches and in terms of claims. Children flagged `disjoint: true` are not compared (C24_disjoint_flag_refuted).*
- **C25 Blocked courses are not used by the blocked rule** (partial; `Props/Blocks`, `Props/LoadRun`). Model of `CourseRule.solutions`/`QueryRule.solutions`. *Proved for every claim of an area made by its own course and query rules. False for the course rule inside a proficiency rule, which blocks do not reach (C25_proficiency_refuted).*
- **C26 A course rule is satisfied only by a matching course** (proved; `Props/Blocks`, `Props/Leaf`, `Props/LoadRun`). Model of course rule + audit. *C26_loaded_area is the whole-area statement from the specification text to the claims of audited solutions.*
- **C27 A query claims only courses it selected** (partial; `Props/Query`). Model of query rule + audit. *Every claim comes from the query's own source or from an insertion at its path (full). 'At most once' is false when an inserted course also matches the query (C27_refuted); proved for queries without insertions at their path.*
- **C28 The query search is complete for counting assertions** (proved; `Props/Search`). Model of `input_size_range`, combinations.
- **C29 The credit shortcut is complete** (proved; `Props/Search`). Model of the sum shortcut. *As stated for $gte. The same shortcut is used for $lt, where it misses satisfying selections (C29_fewer_credits_refuted).*
- **C30 The loaded transcript has unique classes** (proved; `Props/Transcript`). Model of `load_transcript`.
- **C31 GPA is a truncated weighted mean** (partial; `Props/Transcript`). Exact rationals; truncation by floor. *Order independence, zero credits, truncation and the upper bound proved. The lower bound (GPA at least the least grade) is false because each course's points are cut first (C31_lower_bound_refuted); proved where no course's points are cut.*
- **C32 Course state flags are consistent** (proved; `Props/Details`, `Props/Transcript`). Model of the flag computation in `load_course`.
- **C33 The last override of a kind wins** (proved; `Props/Transcript`). Model of the override fold.
- **C34 Grade order is total and matches grade points** (proved; `Props/Op`). Finite tables, `decide` over the whole (finite) enumeration.
- **C35 Conditional rules take exactly one branch** (proved; `Props/Details`, `Props/Tree`). Part of the tree model. *The three cases for every condition value, and the condition itself: C35_conditions proves that the value computed when a text is read is the value of the written condition for the student (Decides, shown functional by decides_unique), C35_read_from_text that the rule read takes its parts from the right places and is hidden only if the condition does not hold and the text asks for it.*
- **C36 A passed proficiency exam is enough** (partial; `Props/Leaf`). Part of the tree model. *A proficiency rule looks only at the first solution of its course rule, so a later acceptable course is ignored (C36_refuted). Proved: the status from the student's record, from the course rule it does try, and from a waiver.*
- **C37 Whole-audit single counting** (partial; `Props/LoadRun`, `Props/SingleCount`). Whole mutual solve/audit model with the claim table threaded. *Proved for every rule solved as a whole, and for whole areas unless a top-level requirement flagged `disjoint: true` claims courses for itself (C37_disjoint_flag_refuted), for classes of the limited transcript that are neither multicountable nor forced in.*
- **C38 Waivers reach exactly their rule** (partial; `Props/LoadRun`, `Props/Waive`). Tree model with exceptions. *False for conditional rules, whose override is ignored (C38_conditional_refuted); audited and contract requirements report done rather than waived. Proved for all other rules; and an override never waives anything else.*
- **C39 Queue items are processed atomically** (proved; `Props/Queue`). Transition system of workers over a transactional store, crash at any step. *Over every interleaving of any number of workers with crashes, failed statements and concurrent queueing. Two theorems record what the statement does not promise: an item whose result the database refuses is never removed and runs again for ever, and an item without an area file is kept by the worker until its next COMMIT.*
- **C40 At most one active result per student, catalog and area** (partial; `Props/Details`, `Props/Results`, `Props/ResultsRun`). Relational model of the store statements; invariant over histories. *At most one active result after every sequence of stored results and clearings, and in every run of concurrent workers in which no two have items of one student and area at a time (enough: the queue never has two). False in three ways, each with a witness: a later link-only result has a greater revision, two workers on one student and area can leave two active results, and an exception between the statements leaves none.*
- **C41 Cleaning expired results keeps the latest** (proved; `Props/Results`). Relational model of the delete statement.
- **C42 Batch queueing neither duplicates nor queues blocked areas** (partial; `Props/Batch`, `Props/Details`). Fold model. *For every order of the threads: only allowed items, none twice. That every allowed item is queued needs that the database refuses nothing; otherwise items of other students are lost (refuted with a witness). "Already queued" means when the batch started: items queued meanwhile are queued again (witness).*
- **C43 Area file lookup picks the newest applicable catalog** (proved; `Props/Files`). Model with path names as strings. *Folder names of the form YYYY-YY are compared as text; the theorem shows that for these the greatest name is the latest year. Another folder with a dash in its name can be preferred (C43_other_folder_preferred).*
- **C44 Duration parsing and formatting** (proved; `Props/Duration`). Rational arithmetic model of parse_ms, token scanner for parse_ms_str. *Decimal numbers in a text are misread (C44_decimal_point_misread), a trailing number without unit is dropped, seconds can round up to 60 without a carry, and zero is written without a number: each shown by a witness beside the theorems. Rounding of decimals to 28 digits is not modelled.*
- **C45 Limited transcripts do not depend on set iteration order** (partial; `Props/Limit`). Same model as C09; iteration orders are parameters of the model. False for credit limits (witness), `_partial` for course limits. *False for credit limits (witness). Proved for distinct course limits and distinct class ids.*
- **C46 The query search is complete for several at-least counts** (partial; `Props/Search`). Model of `input_size_range` with filters and of the enumeration; every selection that meets the written counts is among the combinations. False with an exact count (witness). *Holds for 'at least' counts without 'at most'; with an exact count it is false (C46_exact_count_refuted).*
- **C47 A misspelt key in an area file is noticed** (partial; `Props/LoadKeys`). Inductive specification `Written` of which dictionaries of the text are read, as which part; induction over it, with the inversion of each loading function, shows that each has only known keys. The unchecked places are refuted one by one. *Proved for every dictionary that is read, except where the code does not check; each exception is shown by a theorem: the dictionary around an assertion, the value of a filter's field, a filter with $if, a reference to a requirement, the key waived, and parts that are never read (C47_*_refuted).*
- **C48 Every rule of a loaded area has its own path** (proved; `Props/LoadArea`). Loading modelled from the YAML value; the loader is shown to build a `Built` tree in which each part lies at its own segment; distinctness by induction over that tree. *Loading from text is modelled (Model/Yaml, LoadClause, Load). The two side conditions are needed: C48_equal_emphases_refuted, C48_common_name_refuted.*
- **C49 A value exception changes one number** (proved; `Props/LoadLocal`). Each loading function is shown to commute with setting the number (equations between loaders in two contexts that differ in one lookup), up to `loadArea`. *Stated on the whole loaded area: loading with the exception is loading without it followed by setting one number.*
- **C50 A complete major meets the requirements common to all majors** (partial; `Props/Common`). From text through loading (common rules), solving and auditing; both directions, for majors whose top-level rule asks for all parts. *From the text of the area file through loading, solving and auditing. Proved in both directions for majors whose top-level rule asks for all its parts, and the S/U limit for every major. The general claim is false of the code: the common requirements are added as one more item of the top-level rule, so a major that asks for fewer parts than it has (any, at least n) is complete without them (C50_common_requirements_refuted).*
- **C52 A query that passes has met its assertions** (partial; `Props/Meets`, `Props/MeetsArea`). Independent measure of an assertion on the reported courses (`Meets`); induction over assertion trees and result trees, lifted to areas loaded from text. *The first direction is proved in full; the converse and the claim about completed courses exclude three cases in which the code disagrees, each with a witness: a conditional assertion that asks nothing keeps its query from passing (C52_nothing_asked_refuted), terms of the most common course are pending although met (C52_needlessly_pending_refuted), and 'at most' of no courses at all counts as unmet beside a waived assertion (C52_at_most_of_nothing_refuted).*
- **C53 Classes that an area needs by name are kept from its queries** (proved; `Props/MeansReserved`, `Props/Reserved`). Which classes the loaded area reserves, from a specification over the rule tree; then no claim of a query in any audit result is for a reserved class. *C53_kept_from_queries says which classes a loaded area's queries are kept from (exactly the reserved and the blocked ones), C53_reserved_class_is_not_counted that no claim of a query in any audit result is for one. C53_kept_in_vain_refuted shows that the stronger reading, in which a class kept for a rule is of use there, is false of the code. Classes of the record must have distinct ids (C30). `C53_kept_as_written` says the same from the text of the area file alone.*
- **C54 A count rule tries every choice** (proved; `Props/Tried`). The generator of a count rule is shown to contain, for every admissible selection, a solution with each choice of solutions of the selected parts. *About `solutions` without the search for independent parts, that is, all counts but the one at the top of an area (and that one too if it has further assertions).*
- **C55 A rule that is set aside for lack of potential could not have been fulfilled** (partial; `Props/Found`). `Fulfils` (how courses fulfil a rule, without reference to the search); induction over rules: fulfilled implies `has_potential`. *Proved for the ways to fulfil a rule described by `Fulfils`; refuted for queries that ask for exactly zero courses (`C55_zero_refuted`): such a query has no potential and is set aside although it is complete.*
- **C56 The state of an assertion says what its courses justify** (proved; `Props/States`). Case analysis of the state an assertion reports against the number measured on courses, on completed courses and on those in progress.
- **C57 Exceptions at an assertion change what it is measured on, and nothing else** (partial; `Props/States`). The courses an assertion is measured on, as filtered courses plus insertions minus blocks. *Proved except for a blocked course that is there more than once: the code removes one copy of it only (C57_blocked_but_counted_refuted).*
- **C58 A passing area is satisfied** (proved; `Props/Satisfied`). `Satisfied` specifies from the loaded rule, the record and the exceptions what it means that a rule holds; induction over rules, solutions and results, lifted to areas loaded from text. *`Satisfied` in Props/Satisfied.lean is the specification: what it means, from the loaded rule, the student's record and the exceptions, that a rule holds. The theorems say that every passing (complete) audited solution of a loaded area satisfies it. The common requirements of majors are C50.*
- **C59 If a student can fulfil a rule, the audit finds a way** (partial; `Props/Found`, `Props/FoundArea`). `Fulfils` implies that the search yields a solution whose audit is complete (claims of earlier parts never get in the way because a fulfilment uses each course once), and that the best one is reported. For queries with several assertions and limits, the choice of courses is shown to be among the combinations tried, up to order (`LargeEnough.tried`, `KeptWithin.offered`). *Proved for every loaded rule (found by the search, and the best solution is complete) and the ways to fulfil it described by `Fulfils` (queries may ask several things, with own filters and within limits); and for whole areas that are not majors and ask for all their parts (`C59_area_is_complete_partial`: the last message of the audit is a complete result). Missing: majors (false in general, `C69_major_refuted`), and areas asking for fewer items than they have. For the latter it is false in general (`C59_independents_refuted`): a count rule at the top of an area that needs fewer items than it has can miss a fulfilling choice, because after solving some items by themselves it still looks for the full number among the others.*
- **C60 The GPA of an audit is that of the courses it counts** (proved; `Props/Gpa`). Inductive specification of which claims of a result tree count; equality of the average with that of any duplicate-free list of those courses. *Stated with an inductive specification of which claims of a result tree count (CountsForGpa); the average is compared with that of any duplicate-free list of exactly those courses. Witness: an area text with an in_gpa: false requirement.*
- **C61 A rule or area reported as pending waits for a course of the student** (proved; `Props/Waits`). `WaitsFor` follows a pending status down the result tree to a course in progress; induction over result trees. *The specification WaitsFor reads only the result tree (claims, states and resolved class ids). Includes the common requirements of majors.*
- **C62 The estimate bounds the number of solutions of an audit** (partial; `Props/Estimate`). `estimate` and the number of yielded solutions compared by induction over rules (products for count rules, sums over selections and limited transcripts). *Lower bound for every area (C62_positive_partial; 0 is possible for a conditional without a taken part, C62_nothing_refuted). Upper bound for every area loaded from a text if each course rule names at most one class of the student and no class is inserted at it (C62_bounds_the_solutions_partial); without that it is false, because a course rule counts as one (C62_too_small_refuted).*
- **C63 A filter selects what its text says** (proved; `Props/MeansFilter`). Relation `Accepts` between filter text and record (with `TextStands`, `DecimalText` for written values); induction on the size of the text against the loader and the evaluator, and uniqueness of the relation. *Text level: `Accepts` is a relation between the YAML value and a record, independent of the loaded predicate. For filters whose evaluation raises (a type error of an operator) nothing is claimed; C17 treats those.*
- **C64 An assertion expects the number its text says** (proved; `Props/MeansAssertion`). Relations between assertion text and number/records (`NumberWritten`, `ChangedByAll`, `Expects`, `AsksAsWritten`, `MetAsWritten`); inversion of the loaders, and uniqueness of the expected number. *Text level: `Expects`, `AsksAsWritten` and `MetAsWritten` relate the YAML value to records without the loaded assertion. The number is shown to be unique. Loads that fail claim nothing.*
- **C65 A course rule asks for the course that is written** (proved; `Props/MeansRule`). `CourseAsWritten` over the keys of the text; inversion of the loader in both directions, with tables of grades, grading options and kinds as they are written. *Text level and an equivalence; `CourseAsWritten` is a specification over the keys of the text. An unknown kind of course (not E, L, F, D) is no restriction, as in the code. Exclusions by reservations and blocks are C25 and C53.*
- **C66 A count rule has the written parts and asks for the written number of them** (proved; `Props/MeansCount`). Relations `ListsParts`, `ExpandsTo`, `WithEmphases`, `InsertedParts`, `AsksFor` between text and parts; inversion of the loader, with hidden parts characterised by their condition text. *Text level: `PartsWritten`, `ShownParts` and `AsksFor` relate the YAML value to parts and number. Loads that fail claim nothing; `both` and `either` with an emphasis but no insertion only load when exactly two items are there.*
- **C67 A passing area meets what is written in its area file** (proved; `Props/MeansArea`). Inductive specification `TextMeets` over the YAML value; induction over the `Built` relation between text and loaded rule, turning `Satisfied` (C58) into the text level with C63 to C66; blocks and reservations are followed through the preparation of the loaded rule. *Text level, end to end: `TextMeets` is defined on the YAML value, the record and the exceptions. Hypotheses on the text: declared emphases have distinct requirement names, the reserved key is not used, no `$when` condition holds of no courses; on the record: distinct class numbers. The classes kept from queries are those of `KeptByText` (C53), also defined on the text. A root conditional can be waived as a whole.*
- **C68 A filter that compares like with like always has an answer** (proved; `Props/MeansSensible`). `Comparable` lists the pairs of operator and values that have an answer, proved equivalent to the operator function not raising; induction on the filter text for `Sensible`. *Converse direction of C63: `Sensible` is defined on the filter text and the record, independently of the evaluator; for single comparisons it is exact. For compound filters it asks every comparison to make sense, also those that short-circuiting would skip.*
- **C69 A student who has what is written is reported as complete** (partial; `Props/MeansFound`, `Props/MeansFoundLimits`). `TextFulfilled` on the YAML value; induction over the relation `Built` between text and loaded rule turns it into `Fulfils` of the loaded rule (C59), with C63/C68 for filters, C66 for the reserved classes and `areaText_unique` for the text of the area; the audit of the whole area then follows from C59. With limits: the text of each limit is related to the loaded one (C75), and C11 gives an audited transcript with the chosen courses. *End to end from the text of the file to the last message of the audit: `TextFulfilled` describes on the YAML value what the student has, and does not mention the loader, the search or the results. Areas with limits are covered by `C69_area_with_limits_partial`: courses that a choice within the limits leaves. Missing: areas whose result asks for fewer parts than it has (false in general, `C59_independents_refuted`), majors (false in general, `C69_major_refuted`: the independent parts are solved by themselves, by their first complete choice, before the common requirements look at the same courses), two limits of the area that mean the same and limits in credits that all courses fit without being chosen (false: `C11_repeated_limit_refuted`, `C11_refuted`), counts marked `disjoint`, courses that may count more than once, and ways to fulfil a text that `TextFulfilled` does not describe (counts with assertions on the whole; queries that insert, that claim nothing, or that ask under a condition). Queries with several assertions, assertions with filters of their own and limits inside queries are described (constructor `queries`).*
- **C70 Every result can be printed** (partial; `Props/PrintTotal`). `Built.each`: every part of a loaded rule is read from a dictionary of the text; a predicate on parts (no `$not`, known class ids, a course beside a proficiency, no `at_most`) holds when loaded and is kept by `Becomes`; it makes every printing function succeed. Three witnesses for the conditions. *Proved for area files without `$not` in filters, with a course beside every proficiency and no count with `at_most: true` (C70_report_is_printed_partial); each of the three conditions is needed (C70_report_is_printed_refuted, from texts that load and are audited).*
- **C71 The table of claimed courses lists every use of every course** (proved; `Props/Print`). Invariant of the grouping fold (`KeyedFor`), permutation by sorting, then the printed lines by induction over the table. *The printed lines are stated for a report without --print-path; a class that is not on the transcript makes the report raise, so it is not dropped silently.*
- **C72 The report lists every requirement with its status, in the order of the result** (proved; `Props/Print`). `Node.outline` lists name, path and status of the requirements of a result; induction over the printing functions shows that their lines occur in order, and induction over `Becomes` that the outline of the result is that of the loaded rule. *For reports that print without raising (see C70 for when they do).*
- **C73 Asking for one requirement prints that requirement** (partial; `Props/Print`). `ThroughCounts` describes requirements reached through counts; the paths of loaded rules extend those of the rules around them and are different, so a restricted report skips the siblings and prints the requirement as in full. A witness for the requirements inside requirements. *Proved for the requirements that are reached through counts alone. Requirements inside another requirement are not printed (C73_nested_requirement_refuted): `print_requirement` looks at its own path only, so nothing beneath it is searched.*
- **C74 The same audit gives the same answer on every run** (partial; `Props/Reproducible`). `Node.Steady` relates two trees that differ in the order of listed courses only; solving, auditing, the search for the best solution of independent parts, merging of claims, the common requirements and the run are shown to carry related inputs to related outputs (`Node.audit_steady`, `topCountSolutions_alike`, `auditCommon_alike`, `runLoop_alike`). Independent parts are shown not to compete for a class (`undisputed`), so that the merged claims agree. *Proved for areas whose conditions on all claimed courses do not look at one course per course id, subject, term or year, whose limits are different and count courses, whose parts marked as disjoint claim nothing, and whose claiming queries skip failed courses. Without the first the status can differ between runs when two courses tie (C74_tie_refuted), with limits in credits a student can be complete in one run and not audited in another (C74_credit_limit_refuted). The order in which claims, and the courses of a claimed query, are listed may differ.*
- **C75 Limits written in an area file are kept** (partial; `Props/MeansLimit`). Relations `Words`, `AtMostSays`, `LimitAllows` between the text of a limit and what it allows, with uniqueness; inversion of the loader; the filter text through C63; then C09 for the loaded limits. *Proved for whole-number limits on courses, of areas in which no query looks at failed courses (else false: C09_area_limits_refuted) and of query rules over courses; for limits in credits that share no course with another limit; any limit of an area in credits is exceeded by less than one course. Overlapping limits in credits are not kept (C75_overlapping_credit_limits_refuted). The theorems go from the text of the file to the courses counted in results.*
- **C76 Areas the student pretends to drop leave no trace** (proved; `Props/Entry`). `Student.load` filters the pointers before anything reads them; equality of `prepareStudent` for the two files, hence of the whole run. *Needs the kind of each dropped area to be one of the four known ones, as otherwise loading the file raises.*
- **C77 Exceptions recorded for other areas have no influence** (proved; `Props/Entry`). Equality of the loaded exceptions, hence of the whole run. *Stated for the whole of run.*
- **C78 A migration of exceptions is the same as writing the new paths** (proved; `Props/Entry`). Relation `Moved` between old and new paths; induction over the migrations and over the exceptions; loading an area does not read the list of migrations. *Stated for the whole of run; the relation of old and new paths is defined on its own (Moved).*
- **C79 The order of the records in a student's file does not matter** (proved; `Props/EntryOrder`). The sort keys are total orders on records with different ids, so sorting permuted lists gives the same list (`insertionSort_congr`); templates are a set that is sorted. *Stated for the whole of run; courses, performances and attendances have different ids.*
- **C80 A template label stands for the class it describes** (partial; `Props/TemplateLabel`). The text of a label is rendered from its parts and the scanner shown to give the parts back; the filter of the loader is shown equivalent to `Fits`; the rule made from it is loaded symbolically; then the solutions of the course rule. *Partial: proved for all labels, with the name of a class as the code forms it; for labs, foreign-language sections and discussions that name has a suffix, so that their labels fit no class (proved). Class ids are not empty.*
- **C81 The table of grades lists every graded course once, in order, and its averages add up** (proved; `Props/GpaTable`, `Props/GradesOfFile`). Induction over the sorted terms with the courses of the earlier terms as the accumulator; averages do not depend on the order of courses. *Terms are ordered as texts (year, dash, term), as the code does; for years of four digits this is the order in time.*
- **C82 Loading an area file comes to an end** (proved; `Props/LoadEnds`). Each loading function is shown to give an answer other than running out of fuel when the fuel exceeds the size of the text it reads; induction on the fuel, with the sizes of the parts that are looked up. *The recursion of the loader is cut by a fuel argument in the model; the theorem says that the fuel given to it is never used up.*
- **C83 The student that is audited is the one of the file** (proved; `Props/StudentSays`). Relations between the words of the file and what they stand for (`AreaSays`, `PerformanceSays`, `ProfWord`, ...); inversion of each loading function in both directions; sortedness of the sorted lists. *A record of the file has typed fields (see section 3 of DESIGN.md). Mediums are the names between commas with a blank.*
- **C84 The courses that are audited are those of the file** (proved; `Props/TranscriptSays`). `CourseSays` relates a record to a course field by field, with `CreditsSay` and `SubjectSays` for the changes; induction over the loop of the transcript. *Whether a class is taken this term or later is decided by comparing texts of year and term, as in the code; C32 relates this to time.*
- **C85 A passing audit of two files means that the one meets what the other says** (proved; `Props/TwoFiles`). `FilesSay` from C83, C84 and the relations for exceptions, migrations and credits; an induction over the run shows that every reported result is that of a solution, for any options; then C67. *Combines C67 with C83, C84 and C08. The labels of templates are those of C80. Same conditions as C67: real conditions in `$when`, and emphases that add requirements of different names.*
- **C86 A student whose file fulfils the area file is reported as complete** (partial; `Props/MeansFoundLimits`, `Props/TwoFilesFound`). Composition of C69 with the loading of the student's file; `FilesFulfil` states on the text of the area file and the loaded student what is fulfilled. *C69 for two files: the student, the exceptions and the credits are those that the files give (C83, C84, C85); without limits and, by `C86_files_that_fulfil_within_limits_partial`, within limits. Missing: as for C69.*
- **C87 An audit of an area that loads never ends in an exception** (partial; `Props/NeverFails`, `Props/TwoFilesFound`). For every kind of rule, the stream of solutions ends normally and each solution audits without error in any state of claims (SafeLeaf, SafeRule, SafeTree), by induction over the tree with the operations of filters, limits and combinations shown to answer; the rules that loading produces are shown to have known keys and paths; then the loop of the audit. Counterexamples are evaluated by the kernel from the text of the area. *Partial: the claim without conditions is false, see C87_audits_do_raise; proved under the conditions of ClearAudit, each of which but those on majors is needed for one of the exhibited cases. For majors, exceptions for the common requirements and department codes beginning with a dollar sign are excluded.*
- **C88 The templates of a student are exactly the labels in the file** (proved; `Props/LabelPattern`). A datatype of patterns with the list of all ways to match in the order of backtracking; the scanners of the model are shown equal to the first way of the two patterns on every text, by showing that optional parts never need to be given up and that at most one length of each repetition can continue; then the filter of the loader as in C80, and sortedness of the sorted set. *The meaning of regular expressions (ways to match, in the order in which they are tried) is defined on its own; `\d` is taken as the digits 0 to 9.*
- **C89 Which courses can be counted again is what the area file says** (proved; `Props/MulticountText`). The table of the loaded area is related to the YAML value entry by entry; then C01 and C04. *C01 and C04 with the table as it is written in the file. That the same place can claim a listed class again and again is C04_refuted. Names in a path are texts; the code would also accept numbers there.*
- **C90 The printed transcript is that of the file** (proved; `Props/GradesOfFile`). `CourseSays` of C84 for the usable records, and a relation between a course and its row, field by field. *Composes C83 to C85 with the printing; the values are kept as values (kinds, grades, numbers), not as their printed text.*
- **C91 A spreadsheet can be made of results** (partial; `Props/Csv`). `InSheet` and `Unwritable` say which parts of a result the sheet looks at and cannot write; induction over the result shows that writing succeeds exactly without them; the dictionary of a row is shown to have the keys of its columns; counterexamples are evaluated by the kernel from the two files. *False as stated: `C91_refuted` exhibits two files for which the area is complete and no sheet with the result can be written (it has a query), and `C91_order_refuted` two students of one area whose sheet is written in one order and raises in the other. Proved: exactly which lists of results can be written.*
- **C92 The row of a student shows what was counted** (partial; `Props/Csv`). `Column` relates a result to its headings and cells; induction over the result; the dictionary of a row keeps the last cell under each key. *False as stated: `C92_refuted` exhibits a counted course that is not shown and a course that is shown though not taken. Proved: the headings are those of the first result, each once, rows are in order, and which cells a result has under which headings (`Column`), with missing ones empty.*
- **C93 The stored document shows the result, and nothing else** (proved; `Props/Json`, `Props/JsonPaths`). `Inside` says what is anywhere in a JSON value and `Describes` what a reader learns of a part; induction over the tree of results. For the paths: the outcome of a rule has the paths of the rule (`Becomes`, an induction as for C72), the common requirements are paired with their rules, and C48 makes all of them different. *Proved for all results (every part, nothing else) and for all loaded areas (paths). Left out of the documents: hidden, messages, labels, original values, resolved_items and the parts of conditions. Paths are unambiguous under the hypotheses of C48 (reserved key not used, declared emphases with different names, area not itself a requirement called Common Requirements).*
- **C94 The stored table of claimed courses and the document agree** (proved; `Props/Json`). `Counts` is a reading of the document alone; induction over the tree shows that it finds the claims of the result; then C71 and C26. *Proved for all loaded areas. `Counts` reads the document: beneath a requirement unless the department audits it, and beneath the chosen branch of a conditional.*
- **C95 The stored row is the result of the audit of the two files** (partial; `Props/Stored`). Inversion of the server function; the protocol of messages (C22) makes the result unique; C85 for soundness, C86 for completeness; an induction over the loaded rules shows that no rank raises without `at_most`. The counterexample is evaluated by the kernel from the two files. *Row, its soundness and when it is stored are proved; the last needs that no count of the area file says at_most: true, and is refuted without (C95_when_stored_refuted). Completeness is partial as C86 is: areas other than majors that ask for all of their parts, and an audit that does not raise.*
- **C96 The index of attributes names what an area's filters test** (partial; `Props/DiscoverTests`). `SameBut` relates two records of a course; induction over the filter with the meaning of comparisons of tuples and texts; induction over the tree for what is collected. Counterexamples are evaluated by the kernel from the text of the area. *Nothing is listed in vain: proved for all areas. That everything tested is listed is partial: areas without conditional rules and without filters in the assertions of counts, and tests by the key attributes against texts; refuted for each of the four cases left out.*
- **C97 The index of courses names what an area asks for** (partial; `Props/DiscoverCourses`). `OpenCourse` says which rules are asked for without a condition; induction over the tree for what is listed; an induction over the two derivations of `Built`, with and without the student, shows that they have the same course rules but for insertions; then C26. *What is listed is proved exactly for all areas. That everything claimed is listed is partial: areas without conditional rules (refuted with one) and without emphases, students without templates.*
- **C98 The tables of the index follow the area files** (partial; `Props/Discover`). Membership in the table after the loops of INSERT and DELETE, by induction over the loops. The counterexample is two runs on the text of an area, evaluated by the kernel. *The table of attributes: proved. The table of courses: exactly what is in it after a run is proved, and that nothing else is left; that everything found is there needs that no crsid has been dropped (C98_dropped_crsid_refuted). Assumed: ON CONFLICT refuses a row only if the table has it.*
- **C99 An area without a file is not reported as passing** (proved; `Props/Missing`). The notice is an area text like any other: C85 says what a passing audit of two files means, and the inversion of that meaning for the notice leaves only an override. That a result is reported: a count at the top yields a solution or raises, and C22. *Proved from the two files on (C85). That the audit ends without an exception is not claimed; see C87 for when it does.*

## 5. Axioms of each theorem

P = `propext`, C = `Classical.choice`, Q = `Quot.sound`.

- C01: PCQ: `C01_first_come_first_served`, `C01_granted_at_most_once`
- C02: PCQ: `C02_allow_claimed_is_invisible`
- C03: PCQ: `C03_claim_frame`, `C03_claims_never_withdrawn`
- C04: PCQ: `C04_refuted`, `C04_multicountable_decision_partial`, `C04_later_claimers_are_listed_partial`
- C05: PCQ: `C05_trial_blocks_are_isolated`
- C06: PCQ: `C06_beneath_exact_and_cache_independent`
- C07: PCQ: `C07_exact_path_first_wins`, `C07_other_paths_never_matter`, `C07_insertions_beneath`
- C08: P: `C08_only_the_path_changes`; PCQ: `C08_migration_rewrites_prefix`, `C08_untouched_when_nothing_matches`, `C08_loaded_as_recorded`
- C09: PCQ: `C09_course_limits_respected`, `C09_credit_limits_refuted`, `C09_fractional_course_limits_refuted`, `C09_overshoot_less_than_one_course_partial`, `C09_separate_credit_limits_partial`, `C09_query_respects_its_course_limits`, `C09_query_respects_its_credit_limits_partial`, `C09_area_respects_its_course_limits_partial`, `C09_loaded_area_partial`, `C09_area_limits_refuted`
- C10: PCQ: `C10_only_forced_classes_bypass_limits_partial`, `C10_unlimited_courses_kept`, `C10_only_input_courses`
- C100: PCQ: `C100_exit_code_tells_of_a_report`, `C100_exit_code_two`, `C100_quiet`
- C101: PCQ: `C101_order_of_lines_does_not_matter`, `C101_reports_are_of_the_lines`, `C101_exit_code_zero`, `C101_each_line_is_reported_partial`, `C101_blank_line_refuted`, `C101_other_lines_refuted`
- C102: PCQ: `C102_index_is_current_partial`, `C102_catalog_of_the_index`, `C102_first_run_refuted`, `C102_batch_of_the_index_partial`; none: `C102_changed_file_refuted`, `C102_other_name_refuted`
- C103: PCQ: `C103_validated_area_loads_partial`, `C103_conditional_refuted`, `C103_emphasis_refuted`, `C103_template_refuted`, `C103_insertion_refuted`
- C104: PCQ: `C104_validate_shows_partial`, `C104_exit_code_refuted`
- C105: PCQ: `C105_baseline_is_what_was_audited_partial`, `C105_branch_is_what_was_audited_partial`, `C105_run_ends`, `C105_all_or_nothing`, `C105_one_audit_loses_all_refuted`, `C105_copy_refuted`
- C106: PCQ: `C106_compare_lists`, `C106_changes_of_two_runs_partial`, `C106_no_change_no_rows`, `C106_failing_audit_refuted`
- C107: P: `C107_number_keys_refuted`, `C107_date_refuted`; PQ: `C107_never_stale`, `C107_one_row_per_file`, `C107_cache_is_not_seen_partial`
- C108: PCQ: `C108_stored_once_partial`, `C108_link_only_refuted`
- C109: PCQ: `C109_settings_are_loaded_partial`, `C109_equals_in_value_refuted`; PQ: `C109_other_lines_raise`
- C11: PCQ: `C11_refuted`, `C11_repeated_limit_refuted`, `C11_maximal_selections_offered_partial`, `C11_course_limits_all_selections_partial`
- C110: PCQ: `C110_fetch_ends`, `C110_latest_of_any_history`, `C110_again_refuted`; PQ: `C110_fetched_is_what_was_asked_partial`, `C110_killed_clear_refuted`; none: `C110_failed_fetch`
- C111: PCQ: `C111_run_shows_what_is_stored`, `C111_print_of_two_runs_partial`, `C111_nothing_changed_partial`; PQ: `C111_query`, `C111_extract_partial`, `C111_extract_refuted`, `C111_print_partial`, `C111_print_of_one`, `C111_print_name_refuted`, `C111_print_raises_refuted`
- C112: PCQ: `C112_newest_file`, `C112_whatif_is_queued_partial`, `C112_whatif_goes_first`, `C112_whatif_replaces_active_refuted`
- C113: PCQ: `C113_every_student_has_one_row`, `C113_report_shows_the_audits_partial`, `C113_report_is_determined_partial`, `C113_same_title_refuted`, `C113_order_of_tables_refuted`, `C113_emphasis_refuted`
- C114: PCQ: `C114_summary_counts_partial`, `C114_every_student_counted_once_partial`, `C114_counted_twice_refuted`
- C115: PCQ: `C115_numbers_are_the_audits`, `C115_courses_are_the_students`, `C115_shown_as_passing_partial`, `C115_numbered_items`, `C115_one_of_several`, `C115_course_alone`, `C115_same_columns_partial`, `C115_done_is_shown_as_needed_refuted`, `C115_done_is_shown_as_waived_refuted`, `C115_only_claimed_courses`, `C115_claimed_courses_are_shown_partial`
- C116: PCQ: `C116_after_any_run`, `C116_good_day_partial`, `C116_one_bad_area_refuted`, `C116_stale_refuted`
- C117: PCQ: `C117_words_are_kept`, `C117_shown_again`, `C117_empty_is_refused_partial`, `C117_blank_message_refuted`, `C117_empty_paragraph_refuted`, `C117_less_than_refuted`, `C117_one_element_for_a_paragraph_partial`
- C118: PCQ: `C118_rows_partial`, `C118_styles`, `C118_sheet_is_written_partial`, `C118_wrong_column_refuted`, `C118_style_refuted`, `C118_unnamed_course_refuted`
- C119: PCQ: `C119_all_areas_partial`, `C119_argument_refuted`
- C12: PCQ: `C12_no_transcript_twice`, `C12_sorted`, `C12_no_limits`
- C13: P: `C13_empty_raises`; PCQ: `C13_lazy_product_is_cartesian`; PQ: `C13_members`, `C13_count`, `C13_lexicographic`
- C14: PCQ: `C14_ncr_counts_combinations`; PQ: `C14_out_of_range`
- C15: PCQ: `C15_comparison_is_the_path_order`, `C15_strict_total_order`, `C15_sort_correct`, `C15_sort_independent_of_order`, `C15_noncanonical_refuted`
- C16: PCQ: `C16_numbers`, `C16_strings`, `C16_mixed`, `C16_neq_is_not_eq`, `C16_missing_satisfies_nothing`, `C16_both_missing`, `C16_list_on_the_left`, `C16_list_on_the_right`, `C16_nin_is_not_in`, `C16_list_against_list`, `C16_cache_refuted`, `C16_cache_transparent_partial`
- C17: PCQ: `C17_record_keys`, `C17_record_filters_are_boolean`, `C17_filters_are_boolean`, `C17_written_filter`, `C17_comparison_keys`, `C17_when_conditions_are_boolean`; PQ: `C17_conditions_are_boolean`
- C18: PCQ: `C18_rank_at_most_max`, `C18_area_rank_at_most_max`, `C18_rank_nonneg_partial`, `C18_negative_rank_refuted`, `C18_rank_reported`, `C18_childless_count_raises`
- C19: PCQ: `C19_done_count_has_enough_done_children`; PQ: `C19_passing_count_has_enough_passing_children`, `C19_enough_done_children_partial`, `C19_unneeded_child_refuted`
- C20: PCQ: `C20_audit_status`; PQ: `C20_failed_iff_violated`, `C20_area_not_passing`
- C21: PCQ: `C21_reports_the_best`, `C21_area_audit`, `C21_find_best`
- C22: PCQ: `C22_protocol_partial`, `C22_no_result_before_exception`, `C22_only_selected_solutions_matter`, `C22_printed_results_partial`; PQ: `C22_one_estimate_first`, `C22_print_all_refuted`, `C22_print_only_refuted`
- C23: PCQ: `C23_each_child_once`, `C23_each_child_once_top`, `C23_never_silent`, `C23_always_yields_partial`, `C23_always_yields_refuted`, `C23_loaded_area`
- C24: PCQ: `C24_no_shared_course_partial`, `C24_no_shared_claim_partial`, `C24_disjoint_flag_refuted`
- C25: PCQ: `C25_blocked_class_is_not_claimed_partial`, `C25_proficiency_refuted`, `C25_loaded_area_partial`
- C26: PCQ: `C26_every_claim_of_an_area`, `C26_course_rule_success`, `C26_every_entitled_course_is_tried`, `C26_loaded_area`
- C27: PCQ: `C27_claims_come_from_source_or_insertion`, `C27_at_most_once_partial`, `C27_refuted`
- C28: PCQ: `C28_count_search_complete`, `C28_every_satisfying_selection`
- C29: PCQ: `C29_credit_search_complete`, `C29_fewer_credits_refuted`
- C30: PCQ: `C30_unique_class_ids`, `C30_failed_only_in_failed_list`, `C30_every_usable_record_present`, `C30_first_row_keeps_its_id`, `C30_loads`
- C31: PCQ: `C31_order_does_not_matter`, `C31_no_credits`, `C31_cut_to_two_decimals`, `C31_at_most_greatest_grade`, `C31_at_least_least_grade_partial`, `C31_lower_bound_refuted`
- C32: PCQ: `C32_special_term`, `C32_progress_flags`, `C32_at_most_one_flag`
- C33: PCQ: `C33_last_credit_override_wins`, `C33_credits_by_name`, `C33_last_subject_override_wins`, `C33_others_unchanged`
- C34: PCQ: `C34_grades_totally_ordered`, `C34_transitive`, `C34_order_matches_points`
- C35: PCQ: `C35_conditions`, `C35_read_from_text`, `C35_condition_true`, `C35_condition_false`, `C35_no_else`
- C36: PCQ: `C36_proficiency_partial`, `C36_refuted`
- C37: PCQ: `C37_loaded_area_partial`, `C37_rule_at_most_once`, `C37_single_count_partial`, `C37_disjoint_flag_refuted`
- C38: PCQ: `C38_loaded_area_partial`, `C38_waived_partial`, `C38_waived_top_partial`, `C38_waivers_do_not_spread`, `C38_conditional_refuted`
- C39: P: `C39_missing_area_is_kept`; PCQ: `C39_removed_iff_committed`, `C39_result_appears_with_removal`, `C39_refused_item_runs_again`; PQ: `C39_crash_keeps_items`, `C39_one_worker_per_item`, `C39_order`, `C39_leaves_nothing_free`, `C39_stored_once`
- C40: P: `C40_link_only_changes_nothing`, `C40_greatest_revision_refuted`; PCQ: `C40_what_storing_keeps`, `C40_one_active`, `C40_active_is_latest_partial`, `C40_stored_is_active`, `C40_workers_one_active_partial`; PQ: `C40_separate_of_queue`, `C40_concurrent_refuted`, `C40_interrupted_refuted`
- C41: PCQ: `C41_removed_exactly`, `C41_unexpired_kept`, `C41_most_recent_kept`, `C41_some_result_kept`; none: `C41_active_may_be_cleared`
- C42: PCQ: `C42_items`, `C42_only_allowed_partial`, `C42_at_most_once`, `C42_all_queued_partial`, `C42_refusal_refuted`, `C42_queued_meanwhile_refuted`, `C42_catalogs`
- C43: PCQ: `C43_greatest_year`, `C43_nothing_found`, `C43_other_folder_preferred`
- C44: PCQ: `C44_parts_recompose`, `C44_parts_bounded`, `C44_parse_adds_parts`, `C44_parse_plain`, `C44_decimal_point_misread`, `C44_trailing_number_dropped`, `C44_units_in_order`, `C44_amounts_add_up`, `C44_amounts_whole_seconds`, `C44_sixty_seconds_shown`, `C44_zero_has_no_number`, `C44_written_reads_back`
- C45: PCQ: `C45_credit_limits_refuted`, `C45_order_independent_partial`
- C46: PCQ: `C46_several_at_least_counts_partial`, `C46_exact_count_refuted`
- C47: PCQ: `C47_unknown_keys_are_refused_partial`, `C47_assertion_refuted`, `C47_field_value_refuted`, `C47_filter_if_refuted`, `C47_reference_refuted`, `C47_waived_refuted`, `C47_unread_parts_refuted`
- C48: PCQ: `C48_distinct_paths`, `C48_equal_emphases_refuted`, `C48_common_name_refuted`
- C49: PCQ: `C49_value_exception_is_local`, `C49_later_value_has_no_effect`
- C50: PCQ: `C50_complete_major_meets_common_partial`, `C50_nothing_else_is_asked`, `C50_one_su_course`, `C50_common_requirements_refuted`
- C52: PCQ: `C52_passing_query_meets_its_assertions`, `C52_met_query_passes_partial`, `C52_complete_on_completed_courses_partial`, `C52_nothing_asked_refuted`, `C52_needlessly_pending_refuted`, `C52_at_most_of_nothing_refuted`, `C52_loaded_area`, `C52_loaded_area_met_partial`
- C53: PCQ: `C53_kept_as_written`, `C53_kept_from_queries`, `C53_reserved_class_is_not_counted`, `C53_kept_in_vain_refuted`
- C54: PCQ: `C54_every_choice_is_tried`
- C55: PCQ: `C55_no_potential_partial`, `C55_zero_refuted`
- C56: PCQ: `C56_state_of_an_assertion`
- C57: PCQ: `C57_exceptions_at_an_assertion_partial`, `C57_blocked_but_counted_refuted`
- C58: PCQ: `C58_passing_area_is_satisfied`, `C58_complete_area_is_satisfied_finally`
- C59: PCQ: `C59_rule_found_partial`, `C59_best_is_complete_partial`, `C59_independents_refuted`, `C59_area_is_complete_partial`
- C60: PCQ: `C60_degree_gpa`, `C60_area_gpa`
- C61: PCQ: `C61_pending_area_waits_for_a_course`, `C61_claimed_course_status`, `C61_refused_course_status`, `C61_rank_follows_status`
- C62: PCQ: `C62_positive_partial`, `C62_bounds_the_solutions_partial`, `C62_too_small_refuted`, `C62_nothing_refuted`
- C63: PCQ: `C63_filter_selects_what_it_says`, `C63_not_both`, `C63_filtering_keeps_what_is_accepted`
- C64: PCQ: `C64_assertion_reads_its_text`, `C64_one_number`, `C64_passing_assertion_is_met_as_written`
- C65: PCQ: `C65_course_rule_asks_what_is_written`
- C66: PCQ: `C66_count_rule_reads_its_text`
- C67: PCQ: `C67_passing_area_meets_its_text`, `C67_complete_area_meets_its_text_finally`
- C68: PCQ: `C68_sensible_filter_answers`, `C68_sensible_filtering_answers`, `C68_comparison_answers_iff`
- C69: PCQ: `C69_area_with_what_is_written_is_complete_partial`, `C69_major_refuted`, `C69_area_with_limits_partial`
- C70: PCQ: `C70_report_is_printed_partial`, `C70_report_is_printed_refuted`
- C71: PCQ: `C71_claimed_courses`, `C71_printed`
- C72: PCQ: `C72_every_requirement_is_printed`, `C72_status_can_be_read`
- C73: PCQ: `C73_requirement_by_path_partial`, `C73_nested_requirement_refuted`
- C74: PCQ: `C74_same_answer_partial`, `C74_tie_refuted`, `C74_credit_limit_refuted`
- C75: PCQ: `C75_course_limits_of_an_area_partial`, `C75_credit_limits_less_than_one_course_partial`, `C75_credit_limits_of_an_area_partial`, `C75_course_limits_of_a_query`, `C75_overlapping_credit_limits_refuted`
- C76: PCQ: `C76_dropped_areas_leave_no_trace`
- C77: PCQ: `C77_exceptions_of_other_areas`
- C78: PCQ: `C78_migrations_rewrite_exceptions`
- C79: PCQ: `C79_order_of_records`
- C80: PCQ: `C80_label_stands_for_its_class_partial`, `C80_named_label_stands_for_its_class`, `C80_lab_labels_fit_nothing`, `C80_lab_labels_refuted`, `C80_empty_name_takes_anything`, `C80_repeated_labels`
- C81: PCQ: `C81_table_of_grades`, `C81_every_graded_course_once`, `C81_last_average_is_overall`, `C81_courses_in_order`, `C81_table_of_the_file`
- C82: PCQ: `C82_loading_ends`
- C83: PCQ: `C83_the_student_is_the_one_of_the_file`, `C83_other_words_are_errors`
- C84: PCQ: `C84_courses_are_those_of_the_file`
- C85: PCQ: `C85_passing_audit_of_two_files`, `C85_complete_audit_of_two_files`
- C86: PCQ: `C86_files_that_fulfil_within_limits_partial`, `C86_files_that_fulfil_are_complete_partial`
- C87: PCQ: `C87_audit_does_not_raise_partial`, `C87_audits_do_raise`, `C87_audit_of_two_files_does_not_raise_partial`
- C88: PCQ: `C88_templates_are_those_written`, `C88_label_means_one_template`, `C88_label_means_nothing`
- C89: PCQ: `C89_shared_as_written`
- C90: PCQ: `C90_transcript_is_that_of_the_file`
- C91: PCQ: `C91_sheet_iff_partial`, `C91_refuted`, `C91_order_refuted`
- C92: PCQ: `C92_cells_partial`, `C92_refuted`
- C93: PCQ: `C93_document_shows_every_part`, `C93_document_shows_nothing_else`, `C93_path_tells_which`
- C94: PCQ: `C94_table_and_document_agree`, `C94_equal_documents`
- C95: PCQ: `C95_stored_row`, `C95_when_stored`, `C95_stored_ok_is_met`, `C95_fulfilled_is_stored_partial`, `C95_when_stored_refuted`
- C96: PCQ: `C96_attributes_are_listed_partial`, `C96_nothing_else`, `C96_conditional_refuted`, `C96_audit_refuted`, `C96_key_refuted`, `C96_number_refuted`
- C97: PCQ: `C97_listed_exactly`, `C97_claimed_course_is_listed_partial`, `C97_conditional_refuted`
- C98: PCQ: `C98_nothing_else`, `C98_everything_found_partial`, `C98_attributes`, `C98_dropped_crsid_refuted`; PQ: `C98_table_after_a_run`
- C99: PCQ: `C99_missing_area_does_not_pass`, `C99_some_result_is_reported`, `C99_missing_area_is_reported`

## 6. Where the code does not do what one would expect

Found while modelling. "(proved)" means a theorem, mostly with `_refuted` in its name, shows it on a concrete witness. Where a claim is affected, the theorem that remains true is beside it.

Claims and exceptions
1. The paths listed under `multicountable` are strings compared with tuples, so the bound per path is not enforced as meant (proved, C04).
2. A course solution drops `from_claimed`.
3. An inserted course that already matches a query is there twice (proved, C27); `force_insert` of a class on the transcript does the same.
4. A course rule with an inserted class that does not exist is reported as waived; one whose inserted class is in progress is reported as waived (complete) too.
5. A conditional rule's own override is ignored (proved, C38), except that it makes the area waived if the conditional is the top-level rule.
6. The course rule inside a proficiency rule ignores blocks and exclusions (proved, C25); only its first solution is tried (proved, C36); a proficiency shown by the record still claims the course.
7. A block at an assertion removes only one copy of a course (proved, C57).
8. `Assertion.waive` raises.
9. A forced class not on the transcript, inserted at two independent children, can be claimed by both.

Searching
10. `find_best_solution` merges the claims of the last solution tried, not of the best one; with no solution at all it uses an unbound variable; merging overwrites the lists of a course.
11. Only the first solution of an area sees the claims of the independently solved parts.
12. A single child is always judged disjoint; two requirements flagged `disjoint: true` are not compared and may both claim a course (proved, C24, C37). `is_never_disjoint` is false for a count that contains a "claimed" query.
13. A top-level count that needs fewer items than it has looks for the full number among the codependent children (proved, C59).
14. A requirement with an exception beneath it, whose rule is a conditional without a taken branch, raises `RuntimeError` (proved, C23). `lazy_product` raises for an empty factor (proved, C13).
15. `input_size_range` raises `ValueError` for a negative and `TypeError` for a fractional number; `count(terms)` uses sizes meant for courses. The credit shortcut is also used for `$lt`, where it is wrong (proved, C29).
16. `has_potential` is false for queries that ask for exactly zero (proved, C55).
17. Required courses are computed before blocks are applied (proved, C53).
18. `ncr(n, r)` is 1 for r > n (proved, C14). The estimate counts a course rule as one possibility (proved, C62), and can be 0 (proved, C62).
19. Limits: credit limits that share courses can be exceeded by less than a course, fractional course limits are exceeded, a repeated limit loses selections, the result depends on the iteration order of sets (proved, C09, C11, C45). Queries with `include_failed` bypass the limits of the area (proved, C09). `apply_limits` is unused.

Results
20. A count rule's status is changed by parts it does not need (proved, C19). A count that asks for 0 items and has none passing reports empty. The rank of a childless count raises (proved, C18). An assertion's rank can be negative (proved, C18). An optional course rule has rank 1 always.
21. A conditional assertion that asks nothing reports empty, so its query does not pass (proved, C52); a dynamic assertion that does not hold reports done. A query rule that was not selected and has only conditional assertions reports done, and so does an unselected conditional rule without else.
22. "At most" of no courses at all counts as unmet beside a waived assertion (proved, C52). `$when: {$and: []}` holds of nothing.
23. `terms_from_most_common_course` returns a generator that is used twice (proved, C52).
24. A course flagged in progress without one of the two finer flags leads to `empty` or an `AssertionError`.
25. A failed course claimed by a query with `include_failed` leads to a `KeyError` later.
26. `print_all` drops the complete solution, `print_only` too after another was printed (proved, C22); `audit_each = 0` divides by zero.
27. Grade points are cut per course before they are added (proved, C31). The equality of courses includes their cached hash.

Loading
28. `[1]` and `[01]` are different but equally ordered segments (proved, C15).
29. Comparison with `None` and the untyped `lru_cache` (proved, C16).
30. Emphases of equal name share paths (proved, C48); an unflattened emphasis with a `code` key fails to load; emphases whose result is not `all` raise `KeyError`. A top-level requirement named "Common Requirements" clashes with the common rules (proved, C48).
31. The common requirements of a major are one more item of its top-level rule (proved, C50); a major of an unknown department can never be complete (proved, C50); the S/U rule looks only at courses of exactly one credit.
32. The course key `waived` is accepted and ignored, `auto_waived` is read and rejected. Unknown keys are ignored in the dictionaries around assertions, in the values of filters and in `$if`, beside `requirement:` and in template items (proved, C47).
33. A conditional with `$hide-when-false` is dropped when loaded, but still counted when the size of a count rule is checked; a requirement whose result is a hidden conditional raises `AttributeError`.
34. An institution-and-name course rule cannot be loaded. A course rule given by class id ignores its other filters.

Server
35. A database error while storing is swallowed, so the item runs again for ever; a worker that finds no area file leaves its transaction open (proved, C39).
36. Clearing expired results can delete the active one (proved, C41). Two workers can leave two active results, an exception between two statements none, a later link-only result has a greater revision (proved, C40). Storing a result deactivates those of all catalogs.
37. The threads of a batch share one transaction, and compare with the queue as it was at the start (proved, C42).
38. `find_area` compares folder names as strings (proved, C43).
39. `pretty_ms(0)` is `"ms"`, 59960 is `"60s"`, `"1.5h"` is misread, `"1h30"` drops the 30 (proved, C44).
40. `subject: {$in: "CSCI"}`, with a text for a list, is loaded and raises on the first record (C68).
41. The parts of a major that share no course are solved by themselves, before the common requirements are looked at, and their first complete choice is kept. A student with a D in one of two alternatives is incomplete when that one is written first, and complete when it is written second (proved, C69).

Reports
42. `--print-path` of a requirement inside another requirement prints nothing but the head line (proved, C73). `print_conditional` does not hand the path on, so its branches are printed in full.
43. A query without `where` prints no status line. A course rule by class id or name that was not taken prints `None` for the course.
44. The report raises for a filter with `$not`, for a proficiency without a `course`, and for a count of at most one of nothing (proved, C70).
45. The answer can depend on the order of a set, which differs between processes: a tie in `count(terms_from_most_common_course)` over claimed courses decides between complete and incomplete, and a limit in credits with a course of no credits between complete and no audit at all (proved, C74).
46. A limit with a number such as `at-most: 1.5` (not a text) counts courses and loses its fraction: it allows one (example beside C75).
47. The label of a lab, a foreign-language section or a discussion in a template (`BIO 143.L`) never finds the student's class: the class is called `BIO 143.L` and is compared with `BIO 143` (proved, C80).
48. A template label stands for the first class that fits it, chosen when the student is loaded; a second class of the same course is never tried. The label `name=` stands for the first class of the transcript, whatever it is. A label written twice counts once (proved, C80).
49. In the regular expression for labels the point before the kind of class is not escaped and the end is not anchored: `CSCI 2510` is read as `CSCI 251`.
50. Performing mediums written `a,b` without a blank after the comma are one name.
51. An audit raises for many inputs that load (proved, C87), among them: a failed course claimed by a query with `include_failed` when another query looks at claimed courses (KeyError), an exception beneath a requirement whose conditional has no branch to take (UnboundLocalError), a course still in progress from an earlier term (AssertionError), `count(seminars)` (TypeError), and a class forced in that the student has not.
52. The spreadsheet raises for every area with a query (the key `assertion` is missing), with a conditional rule, and for a requirement without a result; and for two students of one area it raises or not depending on which comes first, since a course that is not passing gives no column (proved, C91).
53. In the spreadsheet a count of one shows only its first item, even if another was counted; a requirement whose result is one course shows this course whether or not the student has taken it (proved, C92).
54. The server makes the document of all parts of a result, also of those that do not matter: if a requirement left to the department contains a count of at most one of nothing, the audit reports a result, but making the document raises, the exception is swallowed and nothing is stored (proved, C95).
55. A student's file without one of `name`, `name_sort`, `classification` and `class` is audited, but the row is never inserted: the KeyError is raised while the row is put together, after the statements that deactivate the older rows, and is swallowed (model of C95; cf. C40).
56. The index of attributes passes over conditional rules, the assertions of counts, the key `attribute` and attributes written as numbers (proved, C96); the index of courses passes over conditional rules (proved, C97).
57. When an area drops one crsid, the next run of the index deletes all crsids of this area from the table, since their rows all have the course '' and the statement deletes by course; one more run puts them back (proved, C98).
58. A run of the index on some of the area files deletes the rows of all areas that it was not given (model of C98: the statements compare with what this run has found).
59. In a batch a blank line raises before any audit, since the empty tuple sorts first and is unpacked into three names; and the first line whose student or area has no file, or whose audit raises, ends the batch (proved, C101).
60. The index prints its progress to standard output, so the README's `dp.bin.index … | dp.bin.batch` raises at the end whenever the run had a file to index (proved, C102). The index never sees that a file was changed, and indexes a file that is not named after its student on every run (proved, C102).
61. `result_str` with `--gpa` is never reached with a result: `run` returns after the table of grades (read from `dp/run.py`). A batch's report says "of 0 generated" and "audit #None", since it passes neither number to `summarize`.
62. An override at `$` does not waive an area whose file is missing: the rule there is the count at `$ .count` (example beside C99).
63. An area file that validates need not load for a student: a requirement named only in one branch of a conditional (AssertionError for students for whom the other is taken), an emphasis that offers a choice (KeyError) or has a code (AssertionError) once it is declared, a `both` with a template (AssertionError) (proved, C103).
64. The validating program exits with code 0 whatever it finds, with `--break` too, so `make validate` never fails (proved, C104).
65. `testbed baseline --copy` uses a connection that was closed: it empties the baseline, raises, and copies nothing (proved, C105).
66. One audit of the testbed that ends without a result (nothing to audit) fails an assertion inside the transaction, and the rows of all other audits of the run are lost, while those of the run before are deleted already (proved, C105).
67. The comparison's left join has no effect: the condition compares with NULL, so an audit that raises in the branch, or has lost its area file, is not among the changes (proved, C106).
68. The testbed's cache of area files turns keys that are numbers, true, false or null into texts from the second run on, and cannot load a file with a date (proved, C107).
69. The server's command line ignores `--link-only` and stores every audit as link-only; if the audit raises it prints `stored with id None` and exits with code 0 (proved, C108).
70. A value with an equals sign in `.env` ends every program of the server with ValueError (proved, C109).
71. The testbed's `fetch --clear` empties its table in a transaction of its own, so that a fetch that fails has lost what was there; without `--clear` a second fetch of the same audits always raises (proved, C110). `--latest` fetches the active results of all runs, not the latest run, and takes precedence over `--run`; `--run 0` asks for a number.
72. The testbed's `extract` and `invoke` ignore the catalog: the file may be that of the student's audit of another catalog (proved, C111).
73. A what-if audit is queued without `link_only` and without an expiry: unless the database has true as the default, its result replaces the student's active result (proved, C112).
74. In the Rust report, records with equal titles (one of several things satisfied by a query gives three) make one column but a cell each, so the cells of the row no longer stand beneath their columns (proved, C113).
75. The Rust report never shows the parts of an emphasis; only the caption names it (proved, C113). Tables with equal captions come in the order of a hash map, so two runs on the same data differ (proved, C113).
76. The Rust summary chooses the students of a table by catalog alone, and the title of a condition contains its result; students of one catalog with different results are counted in both tables (proved, C114).
77. In the Rust report and summary a finished course within an unfinished requirement is shown and counted as needed, and a finished item of a count of one is shown as waived (proved, C115).
78. The Rust report writes names and titles into HTML as they are; the summary escapes them (read from `reports/src/major_report.rs`).
79. An audit with a course that has only a name and an institution (allowed by the area files) makes `dp-report` panic, which ends the nightly run: areas with later codes never have their reports renewed (proved, C116). The report of an area that has lost its last student stays as it was (proved, C116).
80. The check that a message is not blank comes after the paragraphs are made, so a message of blanks is accepted and shown as `<p></p>`; a message whose paragraphs are three empty lines apart gets an empty paragraph; a message that begins with `<` as a sign of comparison is not put in a paragraph (proved, C117).
81. `print` of the testbed takes a branch named `server` or `baseline` for the table of that name, so that the audits of such a git branch cannot be shown; for an audit that is stored for a branch but no longer in the baseline it raises (TypeError) although the query has a left join (proved, C111).
82. The sheet for Excel takes its headings from the first student and puts the cells of every other student below them by their place, so that the course of a student who has only the second of two is below the heading of the first, in green (proved, C118); the same rows in the other sheet (`csvify`) are placed by their headings. For a requirement of one AP course the sheet for Excel raises (AttributeError), as the cell is None (proved, C118).
83. `expand` reads an argument that its parser does not define (`area_codes`), so it raises for every student file that is given as an argument; only the list of files on the standard input works (proved, C119).
