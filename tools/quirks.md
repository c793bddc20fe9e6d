## 6. Where the code does not do what one would expect

Found while modelling. "(proved)" means a theorem, mostly with `_refuted` in its name, shows it on a concrete witness. Where a claim is affected, the theorem that remains true is beside it.

Claims and exceptions
1. The paths listed under `multicountable` are strings compared with tuples, so the bound per path is not enforced as meant (proved, C04).
2. A course solution drops `from_claimed`.
3. An inserted course that already matches a query is there twice (proved, C27); `force_insert` of a class on the transcript does the same.
4. A course rule with an inserted class that does not exist is reported as waived; one whose inserted class is in progress is reported as waived (complete) too.
5. A conditional rule's own override is ignored (proved, C38), except that it makes the area waived if the conditional is the top-level rule.
6. The course rule inside a proficiency rule ignores blocks and exclusions (proved, C25); only its first solution is tried (proved, C36); a proficiency shown by the record still claims the course.
7. A block at an assertion removes only one copy of a course (proved, C57).
8. `Assertion.waive` raises.
9. A forced class not on the transcript, inserted at two independent children, can be claimed by both.

Searching
10. `find_best_solution` merges the claims of the last solution tried, not of the best one; with no solution at all it uses an unbound variable; merging overwrites the lists of a course.
11. Only the first solution of an area sees the claims of the independently solved parts.
12. A single child is always judged disjoint; two requirements flagged `disjoint: true` are not compared and may both claim a course (proved, C24, C37). `is_never_disjoint` is false for a count that contains a "claimed" query.
13. A top-level count that needs fewer items than it has looks for the full number among the codependent children (proved, C59).
14. A requirement with an exception beneath it, whose rule is a conditional without a taken branch, raises `RuntimeError` (proved, C23). `lazy_product` raises for an empty factor (proved, C13).
15. `input_size_range` raises `ValueError` for a negative and `TypeError` for a fractional number; `count(terms)` uses sizes meant for courses. The credit shortcut is also used for `$lt`, where it is wrong (proved, C29).
16. `has_potential` is false for queries that ask for exactly zero (proved, C55).
17. Required courses are computed before blocks are applied (proved, C53).
18. `ncr(n, r)` is 1 for r > n (proved, C14). The estimate counts a course rule as one possibility (proved, C62), and can be 0 (proved, C62).
19. Limits: credit limits that share courses can be exceeded by less than a course, fractional course limits are exceeded, a repeated limit loses selections, the result depends on the iteration order of sets (proved, C09, C11, C45). Queries with `include_failed` bypass the limits of the area (proved, C09). `apply_limits` is unused.

Results
20. A count rule's status is changed by parts it does not need (proved, C19). A count that asks for 0 items and has none passing reports empty. The rank of a childless count raises (proved, C18). An assertion's rank can be negative (proved, C18). An optional course rule has rank 1 always.
21. A conditional assertion that asks nothing reports empty, so its query does not pass (proved, C52); a dynamic assertion that does not hold reports done. A query rule that was not selected and has only conditional assertions reports done, and so does an unselected conditional rule without else.
22. "At most" of no courses at all counts as unmet beside a waived assertion (proved, C52). `$when: {$and: []}` holds of nothing.
23. `terms_from_most_common_course` returns a generator that is used twice (proved, C52).
24. A course flagged in progress without one of the two finer flags leads to `empty` or an `AssertionError`.
25. A failed course claimed by a query with `include_failed` leads to a `KeyError` later.
26. `print_all` drops the complete solution, `print_only` too after another was printed (proved, C22); `audit_each = 0` divides by zero.
27. Grade points are cut per course before they are added (proved, C31). The equality of courses includes their cached hash.

Loading
28. `[1]` and `[01]` are different but equally ordered segments (proved, C15).
29. Comparison with `None` and the untyped `lru_cache` (proved, C16).
30. Emphases of equal name share paths (proved, C48); an unflattened emphasis with a `code` key fails to load; emphases whose result is not `all` raise `KeyError`. A top-level requirement named "Common Requirements" clashes with the common rules (proved, C48).
31. The common requirements of a major are one more item of its top-level rule (proved, C50); a major of an unknown department can never be complete (proved, C50); the S/U rule looks only at courses of exactly one credit.
32. The course key `waived` is accepted and ignored, `auto_waived` is read and rejected. Unknown keys are ignored in the dictionaries around assertions, in the values of filters and in `$if`, beside `requirement:` and in template items (proved, C47).
33. A conditional with `$hide-when-false` is dropped when loaded, but still counted when the size of a count rule is checked; a requirement whose result is a hidden conditional raises `AttributeError`.
34. An institution-and-name course rule cannot be loaded. A course rule given by class id ignores its other filters.

Server
35. A database error while storing is swallowed, so the item runs again for ever; a worker that finds no area file leaves its transaction open (proved, C39).
36. Clearing expired results can delete the active one (proved, C41). Two workers can leave two active results, an exception between two statements none, a later link-only result has a greater revision (proved, C40). Storing a result deactivates those of all catalogs.
37. The threads of a batch share one transaction, and compare with the queue as it was at the start (proved, C42).
38. `find_area` compares folder names as strings (proved, C43).
39. `pretty_ms(0)` is `"ms"`, 59960 is `"60s"`, `"1.5h"` is misread, `"1h30"` drops the 30 (proved, C44).
40. `subject: {$in: "CSCI"}`, with a text for a list, is loaded and raises on the first record (C68).
41. The parts of a major that share no course are solved by themselves, before the common requirements are looked at, and their first complete choice is kept. A student with a D in one of two alternatives is incomplete when that one is written first, and complete when it is written second (proved, C69).

Reports
42. `--print-path` of a requirement inside another requirement prints nothing but the head line (proved, C73). `print_conditional` does not hand the path on, so its branches are printed in full.
43. A query without `where` prints no status line. A course rule by class id or name that was not taken prints `None` for the course.
44. The report raises for a filter with `$not`, for a proficiency without a `course`, and for a count of at most one of nothing (proved, C70).
45. The answer can depend on the order of a set, which differs between processes: a tie in `count(terms_from_most_common_course)` over claimed courses decides between complete and incomplete, and a limit in credits with a course of no credits between complete and no audit at all (proved, C74).
46. A limit with a number such as `at-most: 1.5` (not a text) counts courses and loses its fraction: it allows one (example beside C75).
47. The label of a lab, a foreign-language section or a discussion in a template (`BIO 143.L`) never finds the student's class: the class is called `BIO 143.L` and is compared with `BIO 143` (proved, C80).
48. A template label stands for the first class that fits it, chosen when the student is loaded; a second class of the same course is never tried. The label `name=` stands for the first class of the transcript, whatever it is. A label written twice counts once (proved, C80).
49. In the regular expression for labels the point before the kind of class is not escaped and the end is not anchored: `CSCI 2510` is read as `CSCI 251`.
50. Performing mediums written `a,b` without a blank after the comma are one name.
51. An audit raises for many inputs that load (proved, C87), among them: a failed course claimed by a query with `include_failed` when another query looks at claimed courses (KeyError), an exception beneath a requirement whose conditional has no branch to take (UnboundLocalError), a course still in progress from an earlier term (AssertionError), `count(seminars)` (TypeError), and a class forced in that the student has not.
52. The spreadsheet raises for every area with a query (the key `assertion` is missing), with a conditional rule, and for a requirement without a result; and for two students of one area it raises or not depending on which comes first, since a course that is not passing gives no column (proved, C91).
53. In the spreadsheet a count of one shows only its first item, even if another was counted; a requirement whose result is one course shows this course whether or not the student has taken it (proved, C92).
54. The server makes the document of all parts of a result, also of those that do not matter: if a requirement left to the department contains a count of at most one of nothing, the audit reports a result, but making the document raises, the exception is swallowed and nothing is stored (proved, C95).
55. A student's file without one of `name`, `name_sort`, `classification` and `class` is audited, but the row is never inserted: the KeyError is raised while the row is put together, after the statements that deactivate the older rows, and is swallowed (model of C95; cf. C40).
56. The index of attributes passes over conditional rules, the assertions of counts, the key `attribute` and attributes written as numbers (proved, C96); the index of courses passes over conditional rules (proved, C97).
57. When an area drops one crsid, the next run of the index deletes all crsids of this area from the table, since their rows all have the course '' and the statement deletes by course; one more run puts them back (proved, C98).
58. A run of the index on some of the area files deletes the rows of all areas that it was not given (model of C98: the statements compare with what this run has found).
59. In a batch a blank line raises before any audit, since the empty tuple sorts first and is unpacked into three names; and the first line whose student or area has no file, or whose audit raises, ends the batch (proved, C101).
60. The index prints its progress to standard output, so the README's `dp.bin.index … | dp.bin.batch` raises at the end whenever the run had a file to index (proved, C102). The index never sees that a file was changed, and indexes a file that is not named after its student on every run (proved, C102).
61. `result_str` with `--gpa` is never reached with a result: `run` returns after the table of grades (read from `dp/run.py`). A batch's report says "of 0 generated" and "audit #None", since it passes neither number to `summarize`.
62. An override at `$` does not waive an area whose file is missing: the rule there is the count at `$ .count` (example beside C99).
63. An area file that validates need not load for a student: a requirement named only in one branch of a conditional (AssertionError for students for whom the other is taken), an emphasis that offers a choice (KeyError) or has a code (AssertionError) once it is declared, a `both` with a template (AssertionError) (proved, C103).
64. The validating program exits with code 0 whatever it finds, with `--break` too, so `make validate` never fails (proved, C104).
65. `testbed baseline --copy` uses a connection that was closed: it empties the baseline, raises, and copies nothing (proved, C105).
66. One audit of the testbed that ends without a result (nothing to audit) fails an assertion inside the transaction, and the rows of all other audits of the run are lost, while those of the run before are deleted already (proved, C105).
67. The comparison's left join has no effect: the condition compares with NULL, so an audit that raises in the branch, or has lost its area file, is not among the changes (proved, C106).
68. The testbed's cache of area files turns keys that are numbers, true, false or null into texts from the second run on, and cannot load a file with a date (proved, C107).
69. The server's command line ignores `--link-only` and stores every audit as link-only; if the audit raises it prints `stored with id None` and exits with code 0 (proved, C108).
70. A value with an equals sign in `.env` ends every program of the server with ValueError (proved, C109).
71. The testbed's `fetch --clear` empties its table in a transaction of its own, so that a fetch that fails has lost what was there; without `--clear` a second fetch of the same audits always raises (proved, C110). `--latest` fetches the active results of all runs, not the latest run, and takes precedence over `--run`; `--run 0` asks for a number.
72. The testbed's `extract` and `invoke` ignore the catalog: the file may be that of the student's audit of another catalog (proved, C111).
73. A what-if audit is queued without `link_only` and without an expiry: unless the database has true as the default, its result replaces the student's active result (proved, C112).
74. In the Rust report, records with equal titles (one of several things satisfied by a query gives three) make one column but a cell each, so the cells of the row no longer stand beneath their columns (proved, C113).
75. The Rust report never shows the parts of an emphasis; only the caption names it (proved, C113). Tables with equal captions come in the order of a hash map, so two runs on the same data differ (proved, C113).
76. The Rust summary chooses the students of a table by catalog alone, and the title of a condition contains its result; students of one catalog with different results are counted in both tables (proved, C114).
77. In the Rust report and summary a finished course within an unfinished requirement is shown and counted as needed, and a finished item of a count of one is shown as waived (proved, C115).
78. The Rust report writes names and titles into HTML as they are; the summary escapes them (read from `reports/src/major_report.rs`).
79. An audit with a course that has only a name and an institution (allowed by the area files) makes `dp-report` panic, which ends the nightly run: areas with later codes never have their reports renewed (proved, C116). The report of an area that has lost its last student stays as it was (proved, C116).
80. The check that a message is not blank comes after the paragraphs are made, so a message of blanks is accepted and shown as `<p></p>`; a message whose paragraphs are three empty lines apart gets an empty paragraph; a message that begins with `<` as a sign of comparison is not put in a paragraph (proved, C117).
81. `print` of the testbed takes a branch named `server` or `baseline` for the table of that name, so that the audits of such a git branch cannot be shown; for an audit that is stored for a branch but no longer in the baseline it raises (TypeError) although the query has a left join (proved, C111).
82. The sheet for Excel takes its headings from the first student and puts the cells of every other student below them by their place, so that the course of a student who has only the second of two is below the heading of the first, in green (proved, C118); the same rows in the other sheet (`csvify`) are placed by their headings. For a requirement of one AP course the sheet for Excel raises (AttributeError), as the cell is None (proved, C118).
83. `expand` reads an argument that its parser does not define (`area_codes`), so it raises for every student file that is given as an argument; only the list of files on the standard input works (proved, C119).
