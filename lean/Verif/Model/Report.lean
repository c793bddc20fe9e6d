import Mathlib.Data.List.Sort
import Mathlib.Data.Rat.Defs

/-!
# The reports of an area (`dp-report`)

The program `dp-report` (written in Rust) reads the stored results of all students of an area and
writes two HTML documents: the *report*, with a row for each student and a column for each part of
the area, and the *summary*, with a row for each part and the number of students who still need it.

Read as text from `/repo/formatter/src`, `/repo/reports/src` and `/repo/src/dp-report.rs`.

Simplified: a panic is `none`; the HTML is not a text but the list of its tables, with for each cell
the two classes and the things shown; numbers are rationals, and that a stored number can be read is
assumed; the parts of a result that no report shows (ranks, limits, messages) are left out.
-/

namespace Dp

/-- formatter/src/rule/mod.rs:93-111 `RuleStatus`. -/
inductive RpStatus
  | done | waived | needsMoreItems | pendingCurrent | pendingRegistered | pendingApproval | empty
  | failedInvariant
  deriving DecidableEq, Repr

/-- formatter/src/rule/mod.rs:114-125 `RuleStatus::is_passing`. -/
def RpStatus.isPassing : RpStatus → Bool
  | .done => true
  | .waived => true
  | .pendingCurrent => true
  | .needsMoreItems => false
  | .pendingRegistered => false
  | .pendingApproval => false
  | .empty => false
  | .failedInvariant => false

/-- formatter/src/rule/mod.rs:127-138 `RuleStatus::as_classname`. -/
def RpStatus.className : RpStatus → String
  | .done => "status--done"
  | .waived => "status--waived"
  | .pendingCurrent => "status--pending-current"
  | .needsMoreItems => "status--needs-more-items"
  | .pendingRegistered => "status--pending-registered"
  | .pendingApproval => "status--pending-approval"
  | .empty => "status--empty"
  | .failedInvariant => "status--failed-invariant"

/-- formatter/src/rule/mod.rs:140-151 `RuleStatus::is_waived`. -/
def RpStatus.isWaived : RpStatus → Bool
  | .waived => true
  | .done => false
  | .needsMoreItems => false
  | .pendingRegistered => false
  | .pendingCurrent => false
  | .pendingApproval => false
  | .empty => false
  | .failedInvariant => false

/-- formatter/src/student.rs:139-171 `Course`: the fields that a report uses. -/
structure RpCourse where
  clbid : String
  schedid : Option String
  inProgress : Bool
  subject : String
  number : String
  section_ : Option String
  subType : String
  name : String
  year : String
  term : String
  institution : String
  deriving DecidableEq, Repr

/-- formatter/src/student.rs:180-185 `Course::unique_id`. -/
def RpCourse.uniqueId (c : RpCourse) : String :=
  match c.schedid with
  | some sid => c.clbid ++ ":" ++ sid
  | none => c.clbid

/-- formatter/src/student.rs:187-192 `Course::unique_id_none`. -/
def RpCourse.uniqueIdNone (c : RpCourse) : String :=
  match c.schedid with
  | some sid => c.clbid ++ ":" ++ sid
  | none => c.clbid ++ ":None"

/-- formatter/src/student.rs:55-62 `StudentClassification`. -/
inductive RpClass
  | sr | jr | so | fy | nc
  deriving DecidableEq, Repr

/-- formatter/src/student.rs:64-74 `StudentClassification::to_string`. -/
def RpClass.text : RpClass → String
  | .sr => "SR"
  | .jr => "JR"
  | .so => "SO"
  | .fy => "FY"
  | .nc => "NC"

/-- formatter/src/student.rs:6-28 `Student`: the fields that a report uses. -/
structure RpStudent where
  stnum : String
  nameSort : String
  classification : RpClass
  classYear : String
  catalog : String
  courses : List RpCourse
  deriving DecidableEq, Repr

/-- formatter/src/student.rs:31-39 `Student::get_class_by_clbid`. -/
def RpStudent.getClass (s : RpStudent) (clbid : String) : Option RpCourse :=
  match s.courses.find? (fun c => c.clbid == clbid) with
  | some c => some c
  | none =>
    match s.courses.find? (fun c => c.uniqueId == clbid) with
    | some c => some c
    | none => s.courses.find? (fun c => c.uniqueIdNone == clbid)

/-- formatter/src/assertion.rs:17-50 `AssertionKey`. -/
inductive RpKey
  | courses | distinctCourses | terms | termsByName | termsByCourse | performances | recitals
  | subjects | areas | religions | regions | perspectives | credits | creditsOneSubject | grades
  deriving DecidableEq, Repr

/-- formatter/src/operator.rs:4-14 `Operator`. -/
inductive RpOp
  | notEqualTo | equalTo | isIn | notIn | lessThan | lessThanOrEqualTo | greaterThan
  | greaterThanOrEqualTo
  deriving DecidableEq, Repr

/-- formatter/src/to_record.rs:39-45 `Cell`. The text of the state of a query is kept as its
numbers (assertion.rs:203-232): `progress` is "✓ 1 remaining (needs 3, has 2)", `compare` is
"✗ 2 > 3". -/
inductive RpCell
  | text (t : String)
  | progress (ok : Bool) (remaining needs has : Rat)
  | compare (ok : Bool) (has : Rat) (op : RpOp) (expected : Rat)
  | course (c : RpCourse)
  | completed (cs : List RpCourse)
  | inProgress (cs : List RpCourse)
  deriving DecidableEq

/-- formatter/src/to_record.rs:3-9 `Record`. -/
structure RpRec where
  title : String
  subtitle : Option String
  status : RpStatus
  content : List RpCell
  deriving DecidableEq

/-- formatter/src/assertion.rs:689-711 `AssertionRule`: the fields that a report uses. -/
structure RpAssert where
  key : RpKey
  op : RpOp
  expected : Rat
  resolved : Option Rat
  inserted : List String
  resolvedClbids : List String
  status : RpStatus
  deriving DecidableEq

/-- formatter/src/assertion.rs:77-86, 713-726 `Assertion`. The conditions are left out: a row shows
both branches. -/
inductive RpAssertion
  | rule (r : RpAssert)
  | conditional (whenTrue : RpAssert) (whenFalse : Option RpAssert)
  | dynamic (whenTrue : RpAssert)

/-- formatter/src/rule/course.rs:8-24 `CourseRule`: the fields that a report uses; an empty `course`
or `ap` has been read as `None` (serde.rs:3-6). -/
structure RpCourseRule where
  claims : List String
  course : Option String
  ap : Option String
  crsid : Option String
  status : RpStatus
  deriving DecidableEq

/-- formatter/src/predicate_expression.rs:99-110 `StaticPredicateExpression`: the function and the
argument are given as `{:?}` writes them; the results of "and" and "or" are not shown. -/
inductive RpCond
  | expr (function argument : String) (result : Option Bool)
  | not (e : RpCond) (result : Option Bool)
  | and (es : List RpCond)
  | or (es : List RpCond)

/-- predicate_expression.rs:57-61, 86-90: the result as it is written. -/
def rpHeadline : Option Bool → String
  | none => "??"
  | some true => "t."
  | some false => "f!"

mutual
/-- predicate_expression.rs:10-24, 31-45, 52-65, 81-97: a condition as it is written (`Display`). -/
def rpCondText : RpCond → String
  | .expr function argument result =>
    "(" ++ function ++ " \"" ++ argument ++ "\" => " ++ rpHeadline result ++ ")"
  | .not e result => "(NOT " ++ rpCondText e ++ " => " ++ rpHeadline result ++ ")"
  | .and es => String.intercalate " and " (rpCondTexts es)
  | .or es => String.intercalate " or " (rpCondTexts es)

/-- The conditions of an "and" or an "or", each as it is written. -/
def rpCondTexts : List RpCond → List String
  | [] => []
  | e :: es => rpCondText e :: rpCondTexts es
end

/-- formatter/src/rule/mod.rs:20-35 `Rule`, with the fields that a report uses. -/
inductive RpRule
  | count (n : Nat) (items : List RpRule) (status : RpStatus)
  | course (c : RpCourseRule)
  | requirement (name : String) (path : List String) (result : Option RpRule) (status : RpStatus)
  | query (assertions : List RpAssertion) (status : RpStatus)
  | conditional (condition : RpCond) (whenTrue : RpRule) (whenFalse : Option RpRule)
      (status : RpStatus)
  | proficiency (name : String) (course : Option RpCourseRule) (status : RpStatus)

/-- formatter/src/rule/mod.rs:80-91 `Rule::status`. -/
def RpRule.status : RpRule → RpStatus
  | .count _ _ st => st
  | .course c => c.status
  | .requirement _ _ _ st => st
  | .query _ st => st
  | .conditional _ _ _ st => st
  | .proficiency _ _ st => st

/-- formatter/src/rule/count.rs:22-25: the test of `all_items_are_requirements` on an item. -/
def RpRule.isRequirement : RpRule → Bool
  | .requirement .. => true
  | _ => false

/-- The order of Rust's strings, vectors and tuples, on their codes (see `rpStr`, `rpStrs`):
lexicographic. -/
def rpLe : List Nat → List Nat → Bool
  | [], _ => true
  | _ :: _, [] => false
  | a :: as, b :: bs => if a < b then true else if b < a then false else rpLe as bs

/-- A code of a string (derived `Ord` of `String`, students.rs:101-131): the characters one up, and
a zero at the end, so that codes one after the other are compared as a tuple is. Rust compares the
bytes, which for UTF-8 is the order of the characters. -/
def rpStr (s : String) : List Nat := s.toList.map (fun c => c.toNat + 1) ++ [0]

/-- A code of a `Vec<String>`, in the same way. -/
def rpStrs (l : List String) : List Nat := (l.map (fun s => 1 :: rpStr s)).flatten ++ [0]

/-- A code of an `Option<String>`: `None` comes first. -/
def rpOptStr : Option String → List Nat
  | none => [0]
  | some s => 1 :: rpStr s

/-- Adding to a `BTreeSet<String>` (assertion.rs:359-366, to_record.rs:84, major_report.rs:43-47). -/
def rpSetInsert (x : String) : List String → List String
  | [] => [x]
  | y :: ys => if x = y then y :: ys else
      if rpLe (rpStr x) (rpStr y) then x :: y :: ys else y :: rpSetInsert x ys

/-- The elements of a `BTreeSet<String>` made of a list. -/
def rpSet (l : List String) : List String := l.foldr rpSetInsert []

/-- formatter/src/assertion.rs:172-193: what is counted. -/
def RpKey.statement : RpKey → String
  | .areas => "areas"
  | .courses => "courses"
  | .distinctCourses => "distinct courses"
  | .performances => "performances"
  | .recitals => "recitals"
  | .subjects => "subjects"
  | .terms => "terms"
  | .termsByCourse => "terms from the most common course"
  | .termsByName => "terms from the most common course, by name"
  | .credits => "credits"
  | .creditsOneSubject => "credits from a single subject"
  | .grades => "grade"
  | .religions => "religious traditions"
  | .regions => "regions"
  | .perspectives => "perspectives"

/-- formatter/src/assertion.rs:195-204: the header; `unimplemented!()` for `In` and `NotIn`. -/
def rpHeader (op : RpOp) (statement : String) : Option String :=
  match op with
  | .equalTo => some ("needs … " ++ statement)
  | .notEqualTo => some ("not … " ++ statement)
  | .isIn => none
  | .notIn => none
  | .lessThan => some ("fewer than … " ++ statement)
  | .lessThanOrEqualTo => some ("at most … " ++ statement)
  | .greaterThan => some ("more than … " ++ statement)
  | .greaterThanOrEqualTo => some ("at least … " ++ statement)

/-- formatter/src/assertion.rs:206-233: the state of the assertion. -/
def rpLeader (a : RpAssert) : RpCell :=
  let resolved := a.resolved.getD 0
  match a.op with
  | .greaterThanOrEqualTo =>
    .progress a.status.isPassing (max 0 (a.expected - resolved)) a.expected resolved
  | op => .compare a.status.isPassing resolved op a.expected

/-- formatter/src/assertion.rs:359-366 `AssertionRule::get_clbids`. -/
def RpAssert.clbids (a : RpAssert) : List String := rpSet (a.inserted ++ a.resolvedClbids)

/-- formatter/src/assertion.rs:368-386 `AssertionRule::is_course_or_credit`. -/
def RpAssert.isCourseOrCredit (a : RpAssert) : Bool :=
  match a.key with
  | .courses => true
  | .distinctCourses => true
  | .credits => true
  | _ => false

/-- formatter/src/assertion.rs:388-399 `AssertionRule::is_at_least`. -/
def RpAssert.isAtLeast (a : RpAssert) : Bool :=
  match a.op with
  | .greaterThanOrEqualTo => true
  | .equalTo => true
  | .greaterThan => true
  | _ => false

/-- formatter/src/assertion.rs:166-315 `AssertionRule::get_row`. Both branches on whether there are
courses write the same three records, so they are one here. -/
def rpAssertRow (s : RpStudent) (a : RpAssert) : Option (List RpRec) := do
  let header ← rpHeader a.op a.key.statement
  let courses ← a.clbids.mapM s.getClass
  let ip := courses.filter (·.inProgress)
  let done := courses.filter (fun c => !c.inProgress)
  some [
    { title := header, subtitle := some "status", status := a.status, content := [rpLeader a] },
    { title := header, subtitle := some "completed", status := a.status,
      content := if done.isEmpty then [] else [.completed done] },
    { title := header, subtitle := some "in-progress", status := a.status,
      content := if ip.isEmpty then [] else [.inProgress ip] }]

/-- formatter/src/assertion.rs:88-95, 402-412, 464-467: the rows of the three kinds of assertion. -/
def rpAssertionRow (s : RpStudent) : RpAssertion → Option (List RpRec)
  | .rule r => rpAssertRow s r
  | .conditional t f => do
    let ifTrue ← rpAssertRow s t
    let ifFalse ← match f with
      | some b => rpAssertRow s b
      | none => some []
    some (ifTrue ++ ifFalse)
  | .dynamic t => rpAssertRow s t

/-- formatter/src/assertion.rs:141-147, 443-451, 486-488 `is_course_or_credit`. -/
def RpAssertion.isCourseOrCredit : RpAssertion → Bool
  | .rule r => r.isCourseOrCredit
  | .conditional t f => t.isCourseOrCredit || (match f with
      | some b => b.isCourseOrCredit
      | none => false)
  | .dynamic t => t.isCourseOrCredit

/-- formatter/src/assertion.rs:149-155, 453-461, 490-492 `is_at_least`. -/
def RpAssertion.isAtLeast : RpAssertion → Bool
  | .rule r => r.isAtLeast
  | .conditional t f => t.isAtLeast || (match f with
      | some b => b.isAtLeast
      | none => false)
  | .dynamic t => t.isAtLeast

/-- formatter/src/rule/query.rs:187-203 `QueryRule::get_row`: the first assertion on a number of
courses or credits. -/
def rpQueryRow (s : RpStudent) (assertions : List RpAssertion) : Option (List RpRec) :=
  match assertions.filter (fun a => a.isCourseOrCredit && a.isAtLeast) with
  | [] => some []
  | a :: _ => rpAssertionRow s a

/-- formatter/src/rule/course.rs:80-84: the course that was claimed. -/
def RpCourseRule.claimed (s : RpStudent) (r : RpCourseRule) : Option RpCourse :=
  match r.claims with
  | [] => none
  | clbid :: _ => s.getClass clbid

/-- formatter/src/rule/course.rs:88-92: the title; `unwrap` panics. -/
def RpCourseRule.header (r : RpCourseRule) : Option String :=
  match r.course with
  | some c => some c
  | none => match r.ap with
    | some ap => some ap
    | none => r.crsid

/-- formatter/src/rule/course.rs:94-110: what is shown, and as what. -/
def rpCourseBody (course : Option RpCourse) (isWaived : Bool) (st : RpStatus) :
    List RpCell × RpStatus :=
  match course with
  | some c => if isWaived then ([.course c], .waived) else ([.course c], .done)
  | none => if isWaived then ([], .waived) else ([], st)

/-- formatter/src/rule/course.rs:79-124 `CourseRule::get_row`. -/
def rpCourseRow (s : RpStudent) (r : RpCourseRule) (isWaived : Bool) : Option (List RpRec) :=
  match r.header with
  | none => none
  | some header =>
    let body := rpCourseBody (r.claimed s) (isWaived || r.status.isWaived) r.status
    some [{ title := header, subtitle := none, status := body.2, content := body.1 }]

/-- formatter/src/rule/proficiency.rs:58-92 `ProficiencyRule::get_row`. -/
def rpProficiencyRow (s : RpStudent) (name : String) (course : Option RpCourseRule)
    (st : RpStatus) (isWaived : Bool) : Option (List RpRec) :=
  let isWaived := isWaived || st.isWaived
  match course with
  | some c =>
    match rpCourseRow s c isWaived with
    | some [r] => some [{ r with title := name }]
    | _ => none
  | none =>
    some [{ title := name, subtitle := none, status := if isWaived then .waived else st,
            content := [] }]

/-- formatter/src/rule/count.rs:156-188: what a rule that asks for several items does with a record
of its `k`th item, whose status is `st`. -/
def rpItemRec (showPrefix : Bool) (k : Nat) (st : RpStatus) (sub : RpRec) : RpRec :=
  if showPrefix then
    { title := "#" ++ toString k ++ " -> " ++ sub.title, subtitle := sub.subtitle, status := st,
      content := sub.content }
  else if st.isWaived then
    { title := sub.title, subtitle := sub.subtitle, status := .waived, content := [] }
  else if sub.content.isEmpty then
    { title := sub.title, subtitle := sub.subtitle, status := .empty, content := [] }
  else
    { title := sub.title, subtitle := sub.subtitle, status := st, content := sub.content }

mutual
/-- formatter/src/rule/mod.rs:56-66 `Rule::get_row`, with the rows of the kinds of rule:
count.rs:117-193, course.rs:79-124, requirement.rs:65-84, query.rs:187-203, conditional.rs:60-94,
proficiency.rs:58-92. -/
def rpRow (s : RpStudent) : RpRule → Bool → Option (List RpRec)
  | .count n items st, isWaived =>
    let isWaived := isWaived || st.isWaived
    if n = 1 then
      match rpRowFirst s items isWaived with
      | none => none
      | some (some sub) =>
        some (sub.map (fun r =>
          { title := "1 of these", subtitle := none, status := .waived, content := r.content }))
      | some none =>
        some [{ title := "1 of these", subtitle := none,
                status := if isWaived then .waived else .empty, content := [] }]
    else rpRowItems s (!items.all RpRule.isRequirement) items 1 isWaived
  | .course c, isWaived => rpCourseRow s c isWaived
  | .requirement name path result st, isWaived =>
    if path = ["$", "%Common Requirements"] then some []
    else
      match rpRowOpt s result (isWaived || st.isWaived) with
      | none => none
      | some sub => some (sub.map (fun r => { r with title := name ++ " → " ++ r.title }))
  | .query assertions _, _ => rpQueryRow s assertions
  | .conditional condition whenTrue whenFalse st, isWaived =>
    let isWaived := isWaived || st.isWaived
    let header := "Conditional: " ++ rpCondText condition
    match rpRow s whenTrue isWaived with
    | none => none
    | some ifTrue =>
      match rpRowOpt s whenFalse isWaived with
      | none => none
      | some ifFalse =>
        some (ifTrue.map (fun r =>
            { title := header, subtitle := some ("If yes: " ++ r.title),
              status := whenTrue.status, content := r.content }) ++
          ifFalse.map (fun r =>
            { title := header, subtitle := some ("Otherwise: " ++ r.title),
              status := (whenFalse.map RpRule.status).getD .empty, content := r.content }))
  | .proficiency name course st, isWaived => rpProficiencyRow s name course st isWaived

/-- requirement.rs:74-81, conditional.rs:65-69: the row of a rule that may be absent. -/
def rpRowOpt (s : RpStudent) : Option RpRule → Bool → Option (List RpRec)
  | none, _ => some []
  | some r, isWaived => rpRow s r isWaived

/-- count.rs:125, 127-136: the row of the first item that passes, if there is one. -/
def rpRowFirst (s : RpStudent) : List RpRule → Bool → Option (Option (List RpRec))
  | [], _ => some none
  | r :: rs, isWaived =>
    if r.status.isPassing then
      match rpRow s r isWaived with
      | none => none
      | some sub => some (some sub)
    else rpRowFirst s rs isWaived

/-- count.rs:156-190: the rows of all items, the first of which has number `k`. -/
def rpRowItems (s : RpStudent) (showPrefix : Bool) :
    List RpRule → Nat → Bool → Option (List RpRec)
  | [], _, _ => some []
  | r :: rs, k, isWaived =>
    match rpRow s r isWaived with
    | none => none
    | some sub =>
      match rpRowItems s showPrefix rs (k + 1) isWaived with
      | none => none
      | some rest => some (sub.map (rpItemRec showPrefix k r.status) ++ rest)
end

/-- formatter/src/area_of_study.rs:8-24 `AreaOfStudy`: the fields that a report uses. -/
structure RpArea where
  status : RpStatus
  result : RpRule

/-- formatter/src/area_of_study.rs:62-96 `AreaOfStudy::get_row`. -/
def rpAreaRow (s : RpStudent) (a : RpArea) : Option (List RpRec) := do
  let row ← rpRow s a.result false
  some ([
    { title := "student id", subtitle := none, status := a.status, content := [.text s.stnum] },
    { title := "name", subtitle := none, status := a.status, content := [.text s.nameSort] },
    { title := "classification", subtitle := none, status := a.status,
      content := [.text s.classification.text] },
    { title := "class year", subtitle := none, status := a.status,
      content := [.text s.classYear] }] ++ row)

mutual
/-- formatter/src/rule/mod.rs:68-77 `Rule::get_requirements`, with count.rs:195-200,
requirement.rs:86-95, conditional.rs:96-106. -/
def rpRequirements : RpRule → List String
  | .count _ items _ => rpRequirementsList items
  | .requirement name _ result _ => name :: rpRequirementsOpt result
  | .conditional _ t f _ => rpRequirements t ++ rpRequirementsOpt f
  | .course _ => []
  | .query _ _ => []
  | .proficiency _ _ _ => []

/-- requirement.rs:88-93, conditional.rs:98-101. -/
def rpRequirementsOpt : Option RpRule → List String
  | none => []
  | some r => rpRequirements r

/-- count.rs:195-200. -/
def rpRequirementsList : List RpRule → List String
  | [] => []
  | r :: rs => rpRequirements r ++ rpRequirementsList rs
end

/-- `starts_with`. -/
def rpStarts (pre s : String) : Bool := pre.toList.isPrefixOf s.toList

/-- The characters before the first `pat`, or all: `split(pat).take(1)`. -/
def rpBefore (pat : List Char) : List Char → List Char
  | [] => []
  | c :: cs => if pat.isPrefixOf (c :: cs) then [] else c :: rpBefore pat cs

/-- formatter/src/to_record.rs:76-85 `emphasis_requirement_names`. -/
def rpEmphasisNames (a : RpArea) : List String :=
  rpSet (((rpRequirements a.result).filter (rpStarts "Emphasis: ")).map
    (fun n => String.ofList (rpBefore " → ".toList n.toList)))

/-- reports/src/students.rs:127-131 `TableKey`. -/
abbrev RpTitle := String × Option String

/-- reports/src/students.rs:64-72, 101-105 `StudentRecord`, with the `TableGroup`'s titles. Its
catalog is the student's. -/
structure RpRecord where
  student : RpStudent
  cells : List RpRec
  emphases : List String
  titles : List RpTitle
  deriving DecidableEq

/-- students.rs:190-195: the title and subtitle of a record. -/
def RpRec.key (r : RpRec) : RpTitle := (r.title, r.subtitle)

/-- students.rs:189: a record of an emphasis. -/
def RpRec.isEmphasis (r : RpRec) : Bool := rpStarts "Emphasis:" r.title

/-- reports/src/students.rs:179-210: the record of a student. -/
def rpRecord (s : RpStudent) (a : RpArea) : Option RpRecord := do
  let cells ← rpAreaRow s a
  some { student := s, cells := cells, emphases := rpEmphasisNames a,
         titles := (cells.filter (fun r => !r.isEmphasis)).map RpRec.key }

/-- A row of the table `result` (students.rs:11-17). -/
structure RpStored where
  areaCode : String
  isActive : Bool
  version : Nat
  student : RpStudent
  area : RpArea

/-- students.rs:128-131: a code of a `TableKey`. -/
def rpTitleCode (t : RpTitle) : List Nat := rpStr t.1 ++ rpOptStr t.2

/-- students.rs:102-105: a code of a `TableGroup`. -/
def rpGroupCode (r : RpRecord) : List Nat :=
  rpStr r.student.catalog ++ (r.titles.map (fun t => 1 :: rpTitleCode t)).flatten ++ [0]

/-- students.rs:216-217: a code of the name and the number. -/
def rpNameCode (r : RpRecord) : List Nat := rpStr r.student.nameSort ++ rpStr r.student.stnum

/-- students.rs:213-219: the order of the records. -/
def rpRecordLe (a b : RpRecord) : Prop :=
  rpLe (rpGroupCode a ++ rpNameCode a) (rpGroupCode b ++ rpNameCode b) = true

instance : DecidableRel rpRecordLe := fun _ _ => inferInstanceAs (Decidable (_ = true))

/-- reports/src/students.rs:7-30, 150-223 `fetch_students`, `fetch_records`. The rows are those of
the table in the order of the students' identities (`ORDER BY`). -/
def rpFetch (db : List RpStored) (areaCode : String) : Option (List RpRecord) := do
  let rows := db.filter (fun r => decide (r.areaCode = areaCode) && r.isActive &&
    decide (r.version = 3))
  let records ← rows.mapM (fun r => rpRecord r.student r.area)
  some (records.insertionSort rpRecordLe)

/-- reports/src/students.rs:75-79 `get_cell_by_key`. -/
def RpRecord.cellByKey (r : RpRecord) (k : RpTitle) : Option RpRec :=
  r.cells.find? (fun c => decide (c.title = k.1) && decide (c.subtitle = k.2))

/-- reports/src/students.rs:93-95 `get_first_cell_with_key_title`. -/
def RpRecord.cellByTitle (r : RpRecord) (title : String) : Option RpRec :=
  r.cells.find? (fun c => decide (c.title = title))

/-- The different elements, in the order in which they first occur (`unique`). -/
def rpUnique {α : Type} [DecidableEq α] : List α → List α
  | [] => []
  | a :: as => a :: (rpUnique as).filter (fun b => decide (b ≠ a))

/-- `into_group_map`: the values of each key, in their order. A `HashMap` gives its keys in any
order; that is the argument `order` of the functions below. -/
def rpGroupMap {κ α : Type} [DecidableEq κ] (l : List (κ × α)) : List (κ × List α) :=
  (rpUnique (l.map Prod.fst)).map
    (fun k => (k, (l.filter (fun p => decide (p.1 = k))).map Prod.snd))

/-! ### The report -/

/-- major_report.rs:19: what a table has in common: the group and the names of the emphases. -/
abbrev RpTableKey := (String × List RpTitle) × List String

/-- major_report.rs:17-20: the groups of the records. -/
def rpGroups (records : List RpRecord) : List (RpTableKey × List RpRecord) :=
  rpGroupMap (records.map (fun r => (((r.student.catalog, r.titles), r.emphases), r)))

/-- reports/src/major_report.rs:6-11 `Table`. -/
structure RpTable where
  caption : String
  header : List RpTitle
  rows : List (List (RpTitle × List RpRec))

/-- major_report.rs:69-70: `row.entry(column).or_default().push(record)`. -/
def rpPush (k : RpTitle) (r : RpRec) : List (RpTitle × List RpRec) → List (RpTitle × List RpRec)
  | [] => [(k, [r])]
  | (k', rs) :: rest => if k' = k then (k', rs ++ [r]) :: rest else (k', rs) :: rpPush k r rest

/-- major_report.rs:65-79: the row of a student. -/
def rpTableRow (r : RpRecord) (titles : List RpTitle) : List (RpTitle × List RpRec) :=
  titles.foldl (fun row column =>
    match r.cellByKey column with
    | some c => rpPush column c row
    | none => row) []

/-- major_report.rs:50-58: the caption. -/
def rpCaption (catalogs : List String) (emphases : List String) : String :=
  if emphases.isEmpty then "Catalog: " ++ String.intercalate ", " (rpSet catalogs)
  else "Catalog: " ++ String.intercalate ", " (rpSet catalogs) ++ "; Emphases: " ++
    String.intercalate " & " emphases

/-- reports/src/major_report.rs:36-89 `to_table`. -/
def rpToTable (g : RpTableKey × List RpRecord) : RpTable :=
  { caption := rpCaption (g.2.map (fun r => r.student.catalog)) g.1.2
    header := g.1.1.2
    rows := g.2.map (fun r => rpTableRow r g.1.1.2) }

/-- A `<td>` of the report (major_report.rs:123-144): its two classes and what is in it. -/
structure RpTd where
  passing : Bool
  statusClass : String
  content : List RpCell
  deriving DecidableEq

/-- major_report.rs:123-135. -/
def rpTd (c : RpRec) : RpTd :=
  { passing := c.status.isPassing, statusClass := c.status.className, content := c.content }

/-- A table of the report as written: `<h2>`, `<th>`s, and for each `<tr>` its `<td>`s. -/
structure RpHtml where
  caption : String
  header : List RpTitle
  rows : List (List RpTd)
  deriving DecidableEq

/-- major_report.rs:118-145: the `<td>`s of a row; `tr.get(th).unwrap()` panics for a title that is
not there. -/
def rpRenderRow (header : List RpTitle) (row : List (RpTitle × List RpRec)) :
    Option (List RpTd) := do
  let cells ← header.mapM (fun th => row.lookup th)
  some (cells.flatten.map rpTd)

/-- reports/src/major_report.rs:91-152 `render_tables`. -/
def rpRender (tables : List RpTable) : Option (List RpHtml) :=
  tables.mapM (fun t => do
    let rows ← t.rows.mapM (rpRenderRow t.header)
    some { caption := t.caption, header := t.header, rows := rows })

/-- major_report.rs:29: the order of the captions. -/
def rpCaptionLe (a b : RpTable) : Prop := rpLe (rpStr a.caption) (rpStr b.caption) = true

instance : DecidableRel rpCaptionLe := fun _ _ => inferInstanceAs (Decidable (_ = true))

/-- reports/src/major_report.rs:13-34 `print_as_html`, where the hash map gives the groups as in
`order`. `sort_by_cached_key` is a stable sort, as `insertionSort` is. -/
def rpReport (order : List (RpTableKey × List RpRecord)) : Option (List RpHtml) :=
  rpRender ((order.map rpToTable).insertionSort rpCaptionLe)

/-! ### The summary -/

/-- students.rs:108-125 `titles_only`, `by_titles`: the titles without subtitles, and the catalog. -/
def rpByTitles (r : RpRecord) : List String × String :=
  (rpUnique (r.titles.map Prod.fst), r.student.catalog)

/-- major_summary.rs:97-103: the catalogs with the same titles. -/
def rpCatalogGroups (records : List RpRecord) : List (List String × List String) :=
  rpGroupMap (rpUnique (records.map rpByTitles))

/-- students.rs:142-147 `is_meta`. -/
def rpIsMeta (title : String) : Bool :=
  decide (title = "student id") || decide (title = "name") || decide (title = "classification") ||
    decide (title = "class year")

/-- reports/src/major_summary.rs:21-29 `TableCounter`: of each student only whether the cell
passes. -/
structure RpCounter where
  all : List Bool
  sr : List Bool
  jr : List Bool
  so : List Bool
  fy : List Bool
  nc : List Bool

/-- major_summary.rs:21: `TableCounter::default`. -/
def RpCounter.empty : RpCounter := ⟨[], [], [], [], [], []⟩

/-- reports/src/major_summary.rs:32-46 `insert_into_classification`. -/
def RpCounter.insert (c : RpCounter) (k : RpClass) (ok : Bool) : RpCounter :=
  let c := { c with all := c.all ++ [ok] }
  match k with
  | .sr => { c with sr := c.sr ++ [ok] }
  | .jr => { c with jr := c.jr ++ [ok] }
  | .so => { c with so := c.so ++ [ok] }
  | .fy => { c with fy := c.fy ++ [ok] }
  | .nc => { c with nc := c.nc ++ [ok] }

/-- reports/src/major_summary.rs:48-53 `format_classification`: the two numbers of "2 of 3". -/
def rpFormat (items : List Bool) : Nat × Nat :=
  (items.length - (items.filter id).length, items.length)

/-- major_summary.rs:178-180: `counters.entry(key).and_modify(…)`. -/
def rpModify (k : String) (f : RpCounter → RpCounter) :
    List (String × RpCounter) → List (String × RpCounter)
  | [] => []
  | (k', c) :: rest => if k' = k then (k', f c) :: rest else (k', c) :: rpModify k f rest

/-- major_summary.rs:163-181: the loop over the students for a title. -/
def rpCountTitle (group : List RpRecord) (counters : List (String × RpCounter)) (title : String) :
    List (String × RpCounter) :=
  group.foldl (fun cs r =>
    match r.cellByTitle title with
    | some c => rpModify title (fun k => k.insert r.student.classification c.status.isPassing) cs
    | none => cs) counters

/-- major_summary.rs:153-185: the counters of a table. -/
def rpCounters (titles : List String) (group : List RpRecord) : List (String × RpCounter) :=
  titles.foldl (rpCountTitle group)
    ((titles.filter (fun t => !rpIsMeta t)).map (fun t => (t, RpCounter.empty)))

/-- A row of the summary: the requirement, and the two numbers of each of the columns
(major_summary.rs:188-228). -/
structure RpSummaryRow where
  title : String
  overall : Nat × Nat
  sr : Nat × Nat
  jr : Nat × Nat
  so : Nat × Nat
  fy : Nat × Nat
  deriving DecidableEq

/-- major_summary.rs:188-228. -/
def rpSummaryRow (p : String × RpCounter) : RpSummaryRow :=
  { title := p.1, overall := rpFormat p.2.all, sr := rpFormat p.2.sr, jr := rpFormat p.2.jr,
    so := rpFormat p.2.so, fy := rpFormat p.2.fy }

/-- A table of the summary. -/
structure RpSummaryTable where
  caption : String
  rows : List RpSummaryRow
  deriving DecidableEq

/-- major_summary.rs:111-127, 137-243: the table of a group of catalogs. -/
def rpSummaryTable (records : List RpRecord) (g : List String × List String) : RpSummaryTable :=
  let matching := records.filter (fun r => g.2.any (fun c => decide (c = r.student.catalog)))
  { caption := "Catalog: " ++ String.intercalate ", " g.2
    rows := (rpCounters g.1 matching).map rpSummaryRow }

/-- major_summary.rs:103: the order of the groups, by their catalogs. -/
def rpCatalogsLe (a b : List String × List String) : Prop :=
  rpLe (rpStrs a.2) (rpStrs b.2) = true

instance : DecidableRel rpCatalogsLe := fun _ _ => inferInstanceAs (Decidable (_ = true))

/-- reports/src/major_summary.rs:65-135 `print_as_html`, where the hash map gives the groups as in
`order`. -/
def rpSummary (records : List RpRecord) (order : List (List String × List String)) :
    List RpSummaryTable :=
  (order.insertionSort rpCatalogsLe).map (rpSummaryTable records)

end Dp
