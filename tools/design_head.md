# Design

A formal model in Lean 4 of the degree auditor under `/repo/dp`, and theorems about it.

- `properties.jsonl` — the claims in English.
- `lean/Verif/Model` — the model. Every definition cites the file and lines of `/repo` it follows and says where it simplifies.
- `lean/Verif/Props` — specifications and theorems. A theorem for claim Cnn is named `Cnn_…`. The suffix `_partial` marks a theorem that proves part of the claim (its docstring says what is missing); `_refuted` marks a theorem with a concrete witness showing that a stronger or literal reading of the claim is false of the code.
- `MANIFEST.json` — which theorems stand for which claim.
- `seeded/LOG.jsonl` — wrong programs tried against the theorems; `seeded/mutants.json` holds the edits, `seeded/run.py` the runner.
- `tools` — scripts that write `MANIFEST.json`, this file and the log.

## 1. Trusted base

1. **Lean's kernel** (4.33.0), which checks every proof, and Lean's parser and elaborator as far as they decide what a *statement* says.
2. **Axioms.** The only axioms any theorem here depends on are Lean's own `propext`, `Classical.choice` and `Quot.sound`. The model adds none. There is no `sorry`, `admit`, `native_decide`, `bv_decide`, `implemented_by`, `extern` or `unsafe` in the project. Section 5 lists the axioms for each theorem (obtained with `Lean.collectAxioms`).
3. **The model.** Nothing connects `/repo` to the model mechanically. The model was transcribed by hand from the text of `/repo`, function by function; the code was never run. Section 2 says what was left out, section 3 where we had to fix the meaning of something Python leaves open.
4. **The specifications**, that is, the definitions used in the statements of the `C…` theorems but not by the model (for example `Fulfils`, `Satisfied`, `Meets`, `CountsForGpa`, `WaitsFor`, `Decides`, `IsNamed`, `InsertedBy`). They are written without the model's own helpers wherever the claim allows it.
5. **Mathlib** is used as a library of proved facts (lists, `Nat.choose`, rationals, tactics); it adds nothing to the trusted base beyond the kernel and the axioms above.

## 2. What is modelled

| part of `/repo` | model | remarks |
|---|---|---|
| `dp/context.py`, `dp/claim.py` | `Model/Claim`, `Model/Context` | `make_claim`, `fresh_claims`, exception lookups and their caches, transcript accessors, all attributes the rules read. Logging left out. |
| `dp/exception.py` | `Model/Exceptions` | all kinds of exceptions and `load_exception` with migrations |
| `dp/data/course.py`, `course_enums.py`, `student.py`, `area_pointer.py`, `music.py` | `Model/Transcript`, `Model/Basic`, `Model/Predicate` | `load_course` (flags, overrides, GPA fields), `load_transcript`, grade tables, the values filters can read. See section 3 for what a raw record is. |
| `dp/op.py`, `dp/apply_clause.py` | `Model/Op` | `apply_operator` with `None`, strings, numbers, booleans, tuples, and its `lru_cache`; the measuring functions (`count`, `sum`, `average`, `terms_from_most_common_course`, …) |
| `dp/predicate_clause.py`, `conditional_expression.py` | `Model/Predicate`, `Model/PredEq`, `Model/LoadClause` | evaluation, equality, loading |
| `dp/assertion_clause.py` | `Model/Assertion`, `Model/LoadClause` | audit, rank, status, `input_size_range`, dynamic and conditional assertions |
| `dp/limit.py` | `Model/Limit` | set iteration order is a parameter |
| `dp/lazy_product.py`, `dp/ncr.py` | `Model/LazyProduct`, `Model/Comb` | |
| `dp/base/*`, `dp/result/*`, `dp/status.py` | `Model/Tree` | status, rank, maximal rank, claims of all kinds of rules |
| `dp/rule/*`, `dp/solution/*` | `Model/Rule`, `Model/Tree`, `Model/Loaded` | `solutions`, `estimate`, `has_potential`, `all_matches`, `get_required_courses`, `exclude_required_courses`, `is_always_disjoint`/`is_never_disjoint`, `find_independent_children`, `audit`. Generators are streams (`Model/Gen`) that may end in an exception. |
| `dp/solve.py` | `Model/Solve` | `find_best_solution` |
| `dp/data/student.py` (`load`, `constants`, template labels), `area_pointer.py`, `music.py` (loading), `dp/run.py` (`run`, `gpa_only`, `transcript_only`) | `Model/Student` | the student's file from its records to the audit: areas with what-if drops, music records and mediums, template labels read by the two regular expressions, exceptions of the area with their migrations, the credit table, the whole of `run`, the table of grades. `\d` is taken as 0–9. |
| `dp/area.py`, `dp/audit.py`, `dp/run.py` (arguments) | `Model/Area` | `AreaOfStudy.solutions/estimate`, `AreaSolution.audit`, `AreaResult`, GPA, `audit` and its messages with all options |
| `dp/area.py` (loading, common rules), `dp/load_rule.py`, `validate` of all rules | `Model/Yaml`, `Model/LoadClause`, `Model/Load` | from the value a YAML parser returns to the loaded area, including requirements, templates, emphases, the common major requirements and every check that raises |
| `dp/server/worker.py`, `audit.py`, `batch.py`, `clear_expired.py` | `Model/Server` | statements on tables, transactions, crashes, interleavings |
| `dp/bin/expand.py` (area lookup), `dp/lib.py` | `Model/Files`, `Model/PathOrder` | |
| `dp/ms.py` | `Model/Duration` | |
| `dp/stringify_v3.py`, the `to_dict` methods it reads | `Model/Print` | the lines of a report, with every branch and every key or type error; how single values (courses, grades, numbers, emoji) look is a parameter (`Shows`) |
| `dp/stringify_csv.py`, `dp/bin/csvify.py` | `Model/Csv` | columns of a result, the dictionary of a row, and the table with the errors of `csv.DictWriter`; how numbers and names look is a parameter; quoting in the file is left out |
| `to_dict` of `dp/area.py`, `dp/base/*.py`, `dp/assertion_clause.py`, `dp/predicate_clause.py`, `dp/limit.py`, `dp/claim.py`; `dp/server/audit.py` | `Model/Json` | the document of a result and the columns of the stored row; left out: `hidden`, messages, labels, original values, `resolved_items`, the parts of conditions; how decimals and the values in comparisons are written is a parameter (`Writes`); the statements around the row are in `Model/Server` |
| `dp/bin/discover.py` | `Model/Discover` | what is found in the areas and the two tables after the statements; whether a rule is hidden is a parameter; printing is left out; exceptions of the database are not modelled |
| `dp/run.py` (`load_area`), `dp/__main__.py` (`main`), `dp/bin/batch.py`, `dp/bin/index.py` | `Model/Front` | the notice for a missing area file, the loop over messages with the exit codes, the batch over its lines, the index of students over its runs. How a result is written is a parameter; `--transcript`, `--gpa` and `--invocation` are left out; the table is a list of rows, the query a predicate |
| `dp/bin/validate.py` | `Model/Validate` | a file is its parsed text or the exception raised by reading it; what is shown is the list of names with the exceptions |
| `dp/testbed/audit.py`, `batch.py`, `compare.py` | `Model/Testbed` | tables are lists of rows; times, the order in which audits end, and being killed are arbitrary; the cache of area files gives what the file says; the sums below the comparison are left out |
| `dp/testbed/areas.py` | `Model/AreaCache` | what YAML gives is a value with the kinds JSON does not have lumped together; a text in JSON is what it is read back as; of several rows that fit, the first is read |
| `dp/server/cli.py` | `Model/ServerCli` | files that can be read; catalog and code are given |
| `dp/dotenv/dotenv.py` | `Model/Dotenv` | the file as lists of characters; which characters are blank is a parameter |
| `dp/testbed/fetch.py`, `query.py`, `extract.py`, `run.py` | `Model/Fetch` | of the columns only those looked at later; the table of the server does not change during a fetch; the summary of runs and the report of a result are left out |
| `dp/server/whatif.py`, `dp/server/worker.py:91-128` | `Model/WhatIf` | the student number in the file, or the exception, is given; reading an area file may raise |
| `formatter/src`: the rows of records (`get_row`), statuses, titles | `Model/Report` | a panic is `none`; numbers and the text of courses are kept as values; the parse of the stored JSON is given |
| `reports/src/students.rs`, `major_report.rs`, `major_summary.rs` | `Model/Report` | the HTML is kept as tables of cells; strings are compared by their characters; the order of a hash map is any permutation |
| `src/dp-report.rs` (`batch`), `reports/src/database.rs:28-83`, `dp/server/reports_worker.py` | `Model/ReportBatch` | each stored report is one transaction; a panic and an error end the program; times are left out |
| `dp/autop/autop.py`, `textwrap.dedent`, the message in `dp/rule/requirement.py:62-69` | `Model/Autop` | what is white space is a parameter (blank, tab and newline are, the brackets are not) |
| `dp/testbed/render.py` | `Model/Render` | how a stored result is written as a text (`render_result`) and the server's results are parameters; the stored texts can be parsed |
| `dp/bin/excelify.py` | `Model/Excel` | the widths of the columns are left out |
| `dp/bin/expand.py` (`cli`) | `Model/Expand` | the patterns of `glob` and reading a file are parameters; paths are not made absolute |

Not modelled: the older report (`stringify_v2`), the arguments of the command-line front ends, `dp/bin/print.py`, the rest of `dp/testbed` (the summary in `fetch.py`), the prose of the Rust formatter (`to_prose`) and the HTML text of its reports, SQLite itself (we assume transactions, unique indices and the meaning of NULL), `dp/discover_potentials.py` (all of it is within a string), the connection handling and logging of the server, PostgreSQL itself (we assume transactions, row locks with `SKIP LOCKED`, and statements with the meaning described in `Model/Server`), YAML and JSON parsing, the log output, timing (`time.perf_counter`; the time values in messages are left out), memory limits.

## 3. How Python is rendered

- **Exceptions** are values: `Except PyErr α`, or the error end of a stream. A theorem about "every result" covers raising runs by saying what happens then, or by assuming the run returned.
- **Generators** are finite streams (`Gen`) that end normally or with an exception. Generators that the code restarts are functions returning streams.
- **Mutable state** (the claim table, the caches, the lists of exceptions) is passed explicitly. Caches are modelled where their key could conflate different questions (`lru_cache` of the operators, the cache of exceptions beneath a path), and are proved transparent or refuted; elsewhere they are left out.
- **Dictionaries** are lists of pairs in insertion order. **Sets** whose order can be observed are lists in an order given by a parameter (`Orders`); theorems hold for every lawful order.
- **Recursion.** Loading uses a fuel argument because templates and requirements could refer to each other; running out of fuel is a separate error, and `Props/LoadFuel` proves that the value does not depend on the fuel once it is enough.
- **Numbers** are exact rationals and integers. Rounding `Decimal` to 28 digits is not modelled. Nothing is a float in the parts that are modelled, except the constants the code converts at once.
- **Regular expressions** used by `dp/ms.py` and the path sorting are modelled as scanners of characters.
- **`hash`, identity and `==`** follow the `attr.s` definitions where they matter (`Model/PredEq`, course equality with the hash cache).
