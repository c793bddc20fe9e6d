import re,subprocess
M={}
draft=subprocess.run(['git','-C','/verif','show','6173ca0:DESIGN.md'],capture_output=True,text=True).stdout
for m in re.finditer(r'^- \*\*(C\d\d) .*?\*\* — (.*)$',draft,re.M): M[m.group(1)]=m.group(2)
M.update({
'C46':'Model of `input_size_range` with filters and of the enumeration; every selection that meets the written counts is among the combinations. False with an exact count (witness).',
'C47':'Inductive specification `Written` of which dictionaries of the text are read, as which part; induction over it, with the inversion of each loading function, shows that each has only known keys. The unchecked places are refuted one by one.',
'C48':'Loading modelled from the YAML value; the loader is shown to build a `Built` tree in which each part lies at its own segment; distinctness by induction over that tree.',
'C49':'Each loading function is shown to commute with setting the number (equations between loaders in two contexts that differ in one lookup), up to `loadArea`.',
'C50':'From text through loading (common rules), solving and auditing; both directions, for majors whose top-level rule asks for all parts.',
'C52':'Independent measure of an assertion on the reported courses (`Meets`); induction over assertion trees and result trees, lifted to areas loaded from text.',
'C53':'Which classes the loaded area reserves, from a specification over the rule tree; then no claim of a query in any audit result is for a reserved class.',
'C54':'The generator of a count rule is shown to contain, for every admissible selection, a solution with each choice of solutions of the selected parts.',
'C55':'`Fulfils` (how courses fulfil a rule, without reference to the search); induction over rules: fulfilled implies `has_potential`.',
'C56':'Case analysis of the state an assertion reports against the number measured on courses, on completed courses and on those in progress.',
'C57':'The courses an assertion is measured on, as filtered courses plus insertions minus blocks.',
'C58':'`Satisfied` specifies from the loaded rule, the record and the exceptions what it means that a rule holds; induction over rules, solutions and results, lifted to areas loaded from text.',
'C59':'`Fulfils` implies that the search yields a solution whose audit is complete (claims of earlier parts never get in the way because a fulfilment uses each course once), and that the best one is reported. For queries with several assertions and limits, the choice of courses is shown to be among the combinations tried, up to order (`LargeEnough.tried`, `KeptWithin.offered`).',
'C60':'Inductive specification of which claims of a result tree count; equality of the average with that of any duplicate-free list of those courses.',
'C61':'`WaitsFor` follows a pending status down the result tree to a course in progress; induction over result trees.',
'C62':'`estimate` and the number of yielded solutions compared by induction over rules (products for count rules, sums over selections and limited transcripts).',
'C63':'Relation `Accepts` between filter text and record (with `TextStands`, `DecimalText` for written values); induction on the size of the text against the loader and the evaluator, and uniqueness of the relation.',
'C64':'Relations between assertion text and number/records (`NumberWritten`, `ChangedByAll`, `Expects`, `AsksAsWritten`, `MetAsWritten`); inversion of the loaders, and uniqueness of the expected number.',
'C65':'`CourseAsWritten` over the keys of the text; inversion of the loader in both directions, with tables of grades, grading options and kinds as they are written.',
'C66':'Relations `ListsParts`, `ExpandsTo`, `WithEmphases`, `InsertedParts`, `AsksFor` between text and parts; inversion of the loader, with hidden parts characterised by their condition text.',
'C67':'Inductive specification `TextMeets` over the YAML value; induction over the `Built` relation between text and loaded rule, turning `Satisfied` (C58) into the text level with C63 to C66; blocks and reservations are followed through the preparation of the loaded rule.',
'C68':'`Comparable` lists the pairs of operator and values that have an answer, proved equivalent to the operator function not raising; induction on the filter text for `Sensible`.',
'C69':'`TextFulfilled` on the YAML value; induction over the relation `Built` between text and loaded rule turns it into `Fulfils` of the loaded rule (C59), with C63/C68 for filters, C66 for the reserved classes and `areaText_unique` for the text of the area; the audit of the whole area then follows from C59. With limits: the text of each limit is related to the loaded one (C75), and C11 gives an audited transcript with the chosen courses.',
'C70':'`Built.each`: every part of a loaded rule is read from a dictionary of the text; a predicate on parts (no `$not`, known class ids, a course beside a proficiency, no `at_most`) holds when loaded and is kept by `Becomes`; it makes every printing function succeed. Three witnesses for the conditions.',
'C71':'Invariant of the grouping fold (`KeyedFor`), permutation by sorting, then the printed lines by induction over the table.',
'C72':'`Node.outline` lists name, path and status of the requirements of a result; induction over the printing functions shows that their lines occur in order, and induction over `Becomes` that the outline of the result is that of the loaded rule.',
'C73':'`ThroughCounts` describes requirements reached through counts; the paths of loaded rules extend those of the rules around them and are different, so a restricted report skips the siblings and prints the requirement as in full. A witness for the requirements inside requirements.',
'C74':'`Node.Steady` relates two trees that differ in the order of listed courses only; solving, auditing, the search for the best solution of independent parts, merging of claims, the common requirements and the run are shown to carry related inputs to related outputs (`Node.audit_steady`, `topCountSolutions_alike`, `auditCommon_alike`, `runLoop_alike`). Independent parts are shown not to compete for a class (`undisputed`), so that the merged claims agree.',
'C75':'Relations `Words`, `AtMostSays`, `LimitAllows` between the text of a limit and what it allows, with uniqueness; inversion of the loader; the filter text through C63; then C09 for the loaded limits.',
'C76':'`Student.load` filters the pointers before anything reads them; equality of `prepareStudent` for the two files, hence of the whole run.',
'C77':'Equality of the loaded exceptions, hence of the whole run.',
'C78':'Relation `Moved` between old and new paths; induction over the migrations and over the exceptions; loading an area does not read the list of migrations.',
'C79':'The sort keys are total orders on records with different ids, so sorting permuted lists gives the same list (`insertionSort_congr`); templates are a set that is sorted.',
'C80':'The text of a label is rendered from its parts and the scanner shown to give the parts back; the filter of the loader is shown equivalent to `Fits`; the rule made from it is loaded symbolically; then the solutions of the course rule.',
'C81':'Induction over the sorted terms with the courses of the earlier terms as the accumulator; averages do not depend on the order of courses.',
'C82':'Each loading function is shown to give an answer other than running out of fuel when the fuel exceeds the size of the text it reads; induction on the fuel, with the sizes of the parts that are looked up.',
'C83':'Relations between the words of the file and what they stand for (`AreaSays`, `PerformanceSays`, `ProfWord`, ...); inversion of each loading function in both directions; sortedness of the sorted lists.',
'C84':'`CourseSays` relates a record to a course field by field, with `CreditsSay` and `SubjectSays` for the changes; induction over the loop of the transcript.',
'C85':'`FilesSay` from C83, C84 and the relations for exceptions, migrations and credits; an induction over the run shows that every reported result is that of a solution, for any options; then C67.',
'C87':'For every kind of rule, the stream of solutions ends normally and each solution audits without error in any state of claims (SafeLeaf, SafeRule, SafeTree), by induction over the tree with the operations of filters, limits and combinations shown to answer; the rules that loading produces are shown to have known keys and paths; then the loop of the audit. Counterexamples are evaluated by the kernel from the text of the area.',
'C88':'A datatype of patterns with the list of all ways to match in the order of backtracking; the scanners of the model are shown equal to the first way of the two patterns on every text, by showing that optional parts never need to be given up and that at most one length of each repetition can continue; then the filter of the loader as in C80, and sortedness of the sorted set.',
'C86':'Composition of C69 with the loading of the student\'s file; `FilesFulfil` states on the text of the area file and the loaded student what is fulfilled.',
'C89':'The table of the loaded area is related to the YAML value entry by entry; then C01 and C04.',
'C90':'`CourseSays` of C84 for the usable records, and a relation between a course and its row, field by field.',
'C91':'`InSheet` and `Unwritable` say which parts of a result the sheet looks at and cannot write; induction over the result shows that writing succeeds exactly without them; the dictionary of a row is shown to have the keys of its columns; counterexamples are evaluated by the kernel from the two files.',
'C92':'`Column` relates a result to its headings and cells; induction over the result; the dictionary of a row keeps the last cell under each key.',
'C93':'`Inside` says what is anywhere in a JSON value and `Describes` what a reader learns of a part; induction over the tree of results. For the paths: the outcome of a rule has the paths of the rule (`Becomes`, an induction as for C72), the common requirements are paired with their rules, and C48 makes all of them different.',
'C94':'`Counts` is a reading of the document alone; induction over the tree shows that it finds the claims of the result; then C71 and C26.',
'C95':'Inversion of the server function; the protocol of messages (C22) makes the result unique; C85 for soundness, C86 for completeness; an induction over the loaded rules shows that no rank raises without `at_most`. The counterexample is evaluated by the kernel from the two files.',
'C96':'`SameBut` relates two records of a course; induction over the filter with the meaning of comparisons of tuples and texts; induction over the tree for what is collected. Counterexamples are evaluated by the kernel from the text of the area.',
'C97':'`OpenCourse` says which rules are asked for without a condition; induction over the tree for what is listed; an induction over the two derivations of `Built`, with and without the student, shows that they have the same course rules but for insertions; then C26.',
'C98':'Membership in the table after the loops of INSERT and DELETE, by induction over the loops. The counterexample is two runs on the text of an area, evaluated by the kernel.',
'C99':'The notice is an area text like any other: C85 says what a passing audit of two files means, and the inversion of that meaning for the notice leaves only an override. That a result is reported: a count at the top yields a solution or raises, and C22.',
'C100':'The messages have the form that C22 gives them; induction over the messages for the loop.',
'C101':'The order of lines is total and antisymmetric, so sorted lists of the same lines are equal; induction over the lines; `Reported` determines the report. Counterexamples: for all lists with a blank line, and four evaluated by the kernel.',
'C102':'Invariant over the runs: the table is a permutation of the rows of the files. Counterexamples are evaluated by the kernel; that no batch ends well after a run with a new file is proved for all files and queries.',
'C103':'A relation between two loadings of one text: if the first succeeds, so does the second, with the same names of requirements. Shown clause by clause, then by induction over the depth for rules, for the common requirements and for emphases; C82 excludes that the depth runs out. Counterexamples are evaluated by the kernel.',
'C104':'Induction over the files. Counterexample for the exit code.',
'C105':'Induction over the audits in the order in which they end, with the unique keys as invariant; what is stored of one audit is characterised by the messages of the run (C22). Case analysis of the ways to fail.',
'C106':'Membership in the join, composed with C105 for the two runs. A counterexample with three audits is evaluated by the kernel.',
'C107':'Invariant of the cache over all histories: a row tells what its text is as JSON, has the key of its catalog and code, and paths are unique. That JSON keeps plain values is shown by mutual induction over the value.',
'C108':'Computation with the statements of Model/Server, and C95 for when there is a result.',
'C109':'What a line says is specified by how it is put together from blanks, name, equals sign and value; stripping and splitting are shown to invert this. Induction over the lines.',
'C110':'Induction over the fetched rows, with the unique index; for the history of the server, the order of its table from C40.',
'C111':'Filters with unique keys; for run, C105 for the branch and uniqueness of the row of the student. What is printed: the rows found by unique keys are the stored ones, and C105 for what the two runs store.',
'C112':'Reading the year back from the name of a catalog, C43 for the file found, and the condition under which a worker takes an item in Model/Server.',
'C113':'Invariant of the loop that groups the records; sorting the groups permutes them; the order of the rows by a total order on the sort keys.',
'C114':'Invariant of the two loops that fill the counters, and the groups of catalogs as a partition.',
'C115':'Mutual induction over the tree of rules.',
'C116':'The rows stored by a run are those of the areas before the first that cannot be read; every prefix of them is a prefix of the areas and at most one row more; C113 for the report being written.',
'C117':'Each step (margin, chunks, stripping, joining) keeps the words, by induction over the text with the word so far; stripping and joining leave ends without white space; the chunks of paragraphs joined by an empty line are the paragraphs, by induction.',
'C118':'Each row is the dictionary of the columns of the result, which have each heading once (C91); the cells of a row are made one by one, by induction; the prefixes of the styles exclude each other by their first letter; the refutations are computed from audits of two students.',
'C119':'The loop over the codes yields each once (C42); the year is that of the last entry of the area; induction over the files.',
})
