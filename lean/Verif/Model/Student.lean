import Verif.Model.Load
import Verif.Model.Transcript

/-
`Student.load` (`dp/data/student.py`) with everything it reads besides the courses: areas, music records and the labels of
template majors; `Student.constants`; and `run` (`dp/run.py`), which puts loading and auditing together.

Simplification: as in `Model/Transcript.lean`, a record of the student's file is a record with typed fields; a field that is
missing or has another type makes python raise.
-/
namespace Dp

/-! ### Areas -/

/-- one entry of `data['areas']`, `dp/data/area_pointer.py:60-69` -/
structure RawArea where
  code : String
  status : String := "declared"
  kind : String := "major"
  name : String := ""
  degree : String := ""
  gpa : Option Rat := none
  dept : Option String := none
  terms : Option Int := none
deriving DecidableEq, Repr

/-- `AreaStatus(value).name`, `dp/data/area_enums.py:5-10` -/
def areaStatusName (s : String) : Except Err String :=
  if s == "what-if" then .ok "WhatIf"
  else if s == "what-if-drop" then .ok "WhatIfDrop"
  else if s == "declared" then .ok "Declared"
  else if s == "certified" then .ok "Certified"
  else if s == "awarded" then .ok "Awarded"
  else .error .valueError

/-- `AreaType(value).name`, `dp/data/area_enums.py:14-18` -/
def areaKindName (s : String) : Except Err String :=
  if s == "degree" then .ok "Degree"
  else if s == "major" then .ok "Major"
  else if s == "concentration" then .ok "Concentration"
  else if s == "emphasis" then .ok "Emphasis"
  else .error .valueError

/-- `AreaPointer.from_dict`, `dp/data/area_pointer.py:55-69`. -/
def loadPointer (a : RawArea) : Except Err AreaPointer := do
  let status ← areaStatusName a.status
  let kind ← areaKindName a.kind
  .ok { code := a.code, status := status, kind := kind, name := a.name, degree := a.degree, gpa := a.gpa,
        dept := a.dept, termsSinceDeclaration := a.terms }

/-- the areas the audit looks at, `dp/data/student.py:92-94` -/
def loadPointers (code : String) (l : List RawArea) : Except Err (List AreaPointer) := do
  let ps ← mapE loadPointer l
  .ok (ps.filter (fun a => a.status ≠ "WhatIfDrop" || a.code == code))

/-! ### Music -/

/-- one entry of `data['performances']`, `dp/data/music.py:85-92`, or of `data['performance_attendances']`,
`dp/data/music.py:114-119`; `status` is the letter -/
structure RawSlip where
  id : String
  name : String := ""
  year : Int := 2019
  term : Int := 1
  role : Option String := none
  status : String := ""
deriving DecidableEq, Repr

/-- `muspf_status_lookup[...]` and its value, `dp/data/music.py:66-75` -/
def slipStatus (s : String) : Except Err (Option String) :=
  if s == "E" then .ok (some "entrance")
  else if s == "C" then .ok (some "continuance")
  else if s == "" then .ok none
  else .error .keyError

/-- `MusicPerformance.from_dict`, `dp/data/music.py:83-92`. -/
def loadPerformance (r : RawSlip) : Except Err MusicPerformance := do
  let status ← slipStatus r.status
  .ok { id := r.id, name := r.name, year := r.year, term := r.term, role := r.role, status := status }

/-- `MusicAttendance.from_dict`, `dp/data/music.py:113-120`. -/
def loadAttendance (r : RawSlip) : MusicPerformance :=
  { id := r.id, name := r.name, year := r.year, term := r.term }

/-- `MusicSlip.sort_order`, `dp/data/music.py:62-63`, compared as python compares tuples -/
def MusicPerformance.sortLe (a b : MusicPerformance) : Bool :=
  decide (a.year < b.year) || (a.year == b.year &&
    (decide (a.term < b.term) || (a.term == b.term &&
      (decide (a.name < b.name) || (a.name == b.name && decide (a.id ≤ b.id))))))

/-- `sorted(..., key=sort_order)`, `dp/data/student.py:107,110` -/
def sortSlips (l : List MusicPerformance) : List MusicPerformance :=
  l.insertionSort (fun a b => a.sortLe b = true)

/-- a proficiency as written in the file -/
inductive RawProf where
  | flag (b : Bool)
  | text (s : String)
deriving DecidableEq, Repr

/-- `MusicProficiencyStatus.parse`, `dp/data/music.py:132-141`. -/
def RawProf.parse : RawProf → Except Err ProfStatus
  | .flag true => .ok .yes
  | .flag false => .ok .no
  | .text s =>
    if s == "" then .ok .no
    else if s == "N" then .ok .no
    else if s == "Y" then .ok .yes
    else if s == "E" then .ok .exam
    else if s == "C" then .ok .class'
    else .error .valueError

/-- `data['proficiencies']`; absent entries are `'N'`, `dp/data/music.py:153-160` -/
structure RawProficiencies where
  guitar : RawProf := .text "N"
  keyboard1 : RawProf := .text "N"
  keyboard2 : RawProf := .text "N"
  keyboard3 : RawProf := .text "N"
  keyboard4 : RawProf := .text "N"

/-- `MusicProficiencies.from_dict`, `dp/data/music.py:152-160`. -/
def RawProficiencies.load (r : RawProficiencies) : Except Err Proficiencies := do
  let g ← r.guitar.parse
  let k1 ← r.keyboard1.parse
  let k2 ← r.keyboard2.parse
  let k3 ← r.keyboard3.parse
  let k4 ← r.keyboard4.parse
  .ok { guitar := g, keyboard1 := k1, keyboard2 := k2, keyboard3 := k3, keyboard4 := k4 }

/-- `text.split(', ')` -/
def splitCommaBlank : List Char → List Char → List (List Char)
  | acc, ',' :: ' ' :: cs => acc.reverse :: splitCommaBlank [] cs
  | acc, c :: cs => splitCommaBlank (c :: acc) cs
  | acc, [] => [acc.reverse]

/-- `text.strip()` -/
def stripBlanks (cs : List Char) : List Char :=
  ((cs.dropWhile (·.isWhitespace)).reverse.dropWhile (·.isWhitespace)).reverse

/-- `MusicMediums.parse_medium`, `dp/data/music.py:201-206`. -/
def parseMedium (s : String) : ConstVal :=
  if s.toList.contains ',' then
    .strs ((splitCommaBlank [] s.toList).map (fun w => String.ofList (stripBlanks w)))
  else .str s

/-! ### Template labels -/

/-- the parts a label is made of: the groups of `DEPTNUM_REGEX`, `dp/data/student.py:180-188`; a group that took no part in
the match is the empty text, as `match_groups.get(..., '') or ''` (`dp/data/student.py:218-222`) -/
structure LabelParts where
  subject : List Char
  num : List Char
  section' : List Char := []
  subType : List Char := []
  year : List Char := []
  term : List Char := []
  inst : List Char := []
deriving DecidableEq, Repr

/-- `[A-Z]` -/
def isCapital (c : Char) : Bool := decide ('A' ≤ c ∧ c ≤ 'Z')

/-- `[0-9]`; also for `\d`, which python matches against the digits of other scripts too (simplification) -/
def isDigit09 (c : Char) : Bool := decide ('0' ≤ c ∧ c ≤ '9')

/-- `[A-Z/]` -/
def isSubjectChar (c : Char) : Bool := isCapital c || c == '/'

/-- `.`, anything but a line break -/
def isAnyChar (c : Char) : Bool := c != '\n'

/-- `(?P<section>[A-Z])?` -/
def scanSection : List Char → List Char × List Char
  | c :: cs => if isCapital c then ([c], cs) else ([], c :: cs)
  | [] => ([], [])

/-- `(.(?P<sub_type>[A-Z]))?`; the point is not escaped and stands for any character -/
def scanSubType : List Char → List Char × List Char
  | a :: c :: cs => if isAnyChar a && isCapital c then ([c], cs) else ([], a :: c :: cs)
  | cs => ([], cs)

/-- `(\ (?P<year>\d{4})-(?P<term>.))?` -/
def scanYearTerm : List Char → List Char × List Char × List Char
  | ' ' :: a :: b :: c :: d :: '-' :: t :: cs =>
    if isDigit09 a && isDigit09 b && isDigit09 c && isDigit09 d && isAnyChar t then ([a, b, c, d], [t], cs)
    else ([], [], ' ' :: a :: b :: c :: d :: '-' :: t :: cs)
  | cs => ([], [], cs)

/-- what precedes the last `]`, if there is one -/
def beforeLastBracket (cs : List Char) : Option (List Char) :=
  match cs.reverse.dropWhile (· ≠ ']') with
  | [] => none
  | _ :: r => some r.reverse

/-- `(\ \[(?P<inst>.+)\])?`: up to the last `]` of the line -/
def scanInst : List Char → List Char
  | ' ' :: '[' :: cs => (beforeLastBracket (cs.takeWhile isAnyChar)).getD []
  | _ => []

/-- `DEPTNUM_REGEX.match(label)`, `dp/data/student.py:180-188`: every optional part is taken if it is there, and nothing after
them is looked at -/
def scanLabel (label : List Char) : Option LabelParts :=
  let subject := label.takeWhile isSubjectChar
  match label.dropWhile isSubjectChar with
  | ' ' :: a :: b :: c :: cs =>
    if 2 ≤ subject.length ∧ subject.length ≤ 5 ∧ isDigit09 a ∧ isDigit09 b ∧ isDigit09 c then
      let s := scanSection cs
      let t := scanSubType s.2
      let y := scanYearTerm t.2
      some { subject := subject, num := [a, b, c], section' := s.1, subType := t.1, year := y.1, term := y.2.1,
             inst := scanInst y.2.2 }
    else none
  | _ => none

/-- the end of `NAME_REGEX`: `inst]`, perhaps with a line break after it -/
def scanNameInst (cs : List Char) : Option (List Char) :=
  let cs := if cs.getLast? = some '\n' then cs.dropLast else cs
  if cs.getLast? = some ']' ∧ cs.dropLast ≠ [] ∧ cs.dropLast.all isAnyChar then some cs.dropLast else none

/-- `NAME_REGEX.match(label)`, `dp/data/student.py:190-195`: the name and the institution -/
def scanName (label : List Char) : Option (List Char × List Char) :=
  match label with
  | 'n' :: 'a' :: 'm' :: 'e' :: '=' :: cs =>
    let name := cs.takeWhile (fun c => c ≠ '(' && c ≠ '[')
    match cs.dropWhile (fun c => c ≠ '(' && c ≠ '[') with
    | [] => some (name, [])
    | '[' :: rest =>
      if name.getLast? = some ' ' then (scanNameInst rest).map (fun i => (name.dropLast, i)) else none
    | _ => none
  | _ => none

/-- a text, unless it is empty -/
def notEmpty (s : List Char) : Option String := if s = [] then none else some (String.ofList s)

/-- the filter of `parse_identified_course`, `dp/data/student.py:224-231` -/
def LabelParts.filter (p : LabelParts) : CourseFilter :=
  { course := some (String.ofList p.subject ++ " " ++ String.ofList p.num)
    section' := notEmpty p.section'
    subType := subTypeLookup (String.ofList p.subType)
    institution := notEmpty p.inst
    yearTerm := (parseInt p.year).map (fun n => (n, String.ofList p.term)) }

/-- `parse_identified_course`, `dp/data/student.py:213-257`. -/
def LabelParts.template (p : LabelParts) (transcript : List Course) : TemplateCourse :=
  let t : TemplateCourse :=
    { subject := String.ofList p.subject, num := String.ofList p.num, section' := String.ofList p.section',
      subType := String.ofList p.subType, term := String.ofList p.term, year := String.ofList p.year,
      institution := String.ofList p.inst }
  match transcript.find? p.filter.matches with
  | some c => { t with subject := c.subject, num := c.number, clbid := c.clbid }
  | none => t

/-- `parse_named_course`, `dp/data/student.py:260-288`. -/
def namedTemplate (name inst : String) (transcript : List Course) : TemplateCourse :=
  match transcript.find? (fun c => (name = "" ∨ c.name = name) ∧ (inst = "" ∨ c.institution = inst)) with
  | some c => { name := name, institution := inst, subject := c.subject, num := c.number, clbid := c.clbid }
  | none => { name := name, institution := inst }

/-- `parse_template_course_rule`, `dp/data/student.py:198-210`. -/
def parseTemplate (label : String) (transcript : List Course) : Option TemplateCourse :=
  match scanLabel label.toList with
  | some p => some (p.template transcript)
  | none => match scanName label.toList with
    | some (n, i) => some (namedTemplate (String.ofList n) (String.ofList i) transcript)
    | none => none

/-- the fields in the order in which `attr` compares them, `dp/data/student.py:20-30` -/
def TemplateCourse.fields (t : TemplateCourse) : List String :=
  [t.subject, t.num, t.section', t.subType, t.year, t.term, t.institution, t.name, t.clbid]

/-- `a <= b` of the pairs, as tuples -/
def templateLe (a b : String × TemplateCourse) : Bool := decide (a.1 :: a.2.fields ≤ b.1 :: b.2.fields)

/-- `templates`, `dp/data/student.py:121-127`: a set, then sorted, so neither order nor repetition of labels matters -/
def loadTemplates (l : List (String × List String)) (transcript : List Course) : List (String × TemplateCourse) :=
  ((l.flatMap (fun e => e.2.filterMap (fun label => (parseTemplate label transcript).map (fun t => (e.1, t))))).dedup).insertionSort
    (fun a b => templateLe a b = true)

/-! ### The student -/

/-- an exception of the student's file with the area it belongs to, `dp/run.py:26-30` -/
structure StudentExc where
  areaCode : String
  exc : RawExc

/-- the student's file, `dp/data/student.py:79-150` and `dp/run.py:26-30`, as far as an audit reads it -/
structure RawStudent where
  areas : List RawArea := []
  currentTerm : Option String := none
  rows : List Row := []
  performances : List RawSlip := []
  attendances : List RawSlip := []
  proficiencies : RawProficiencies := {}
  ppm : String := "Unknown"
  matriculation : Option String := none
  templates : List (String × List String) := []
  curriculum : String := "None"
  exceptions : List StudentExc := []

/-- `int(text)`, ValueError for others -/
def intOf (s : String) : Except Err Int :=
  match parseInt s.toList with
  | some n => .ok n
  | none => .error .valueError

/-- `matriculation`, `dp/data/student.py:115-119` -/
def loadMatriculation : Option String → Except Err Int
  | none => .ok 0
  | some s => if s = "" then .ok 0 else intOf s

/-- What `Student.load` returns, as far as an audit reads it. -/
structure Loaded where
  student : Student
  matriculation : Int
  ppm : ConstVal
  templates : List (String × TemplateCourse)
  code : String

/-- `Student.load`, `dp/data/student.py:79-154`.  The catalog year and the student's number are not used by audits. -/
def RawStudent.load (raw : RawStudent) (code : String) (overrides : List Override) (table : CreditTable) :
    Except Err Loaded := do
  let areas ← loadPointers code raw.areas
  let (courses, withFailed) ← loadStudentCourses raw.currentTerm overrides table raw.rows
  let performances ← mapE loadPerformance raw.performances
  let proficiencies ← raw.proficiencies.load
  let matriculation ← loadMatriculation raw.matriculation
  let _ ← intOf (if raw.curriculum = "None" then "0" else raw.curriculum)
  .ok { student := { courses := courses, coursesWithFailed := withFailed, areas := areas,
                     performances := sortSlips performances, recitals := sortSlips (raw.attendances.map loadAttendance),
                     proficiencies := proficiencies }
        matriculation := matriculation
        ppm := parseMedium raw.ppm
        templates := loadTemplates raw.templates courses
        code := code }

/-- `Student.constants`, `dp/data/student.py:156-170`. -/
def Loaded.constants (l : Loaded) : Constants :=
  { matriculationYear := l.matriculation
    primaryPerformingMedium := l.ppm
    currentAreaCode := l.code
    termsSinceDeclaringMajor :=
      ((l.student.areas.find? (fun a => a.code == l.code)).bind (·.termsSinceDeclaration)).getD 0 }

/-! ### `run` -/

/-- the error of the exception loader as an error -/
def LoadErr.err : LoadErr → Err
  | .valueError => .valueError
  | .keyError => .keyError
  | .typeError => .typeError

/-- a list of texts -/
def Y.asTexts (y : Y) : Except Err (List String) := do
  let l ← y.asList
  mapE Y.asText l

/-- one entry of `exceptions-migrations`, `dp/exception.py:98-104` -/
def loadMigration (y : Y) : Except Err Migration := do
  let d ← y.asDict
  let source ← Y.asTexts (← d.need "from-path")
  let target ← Y.asTexts (← d.need "to-path")
  let _ ← d.need "comment"
  let _ ← d.need "date"
  .ok { fromPath := source, toPath := target }

/-- `load_migrations(area_spec.get('exceptions-migrations', []))`, `dp/run.py:24`, `dp/exception.py:96-105` -/
def loadMigrations (spec : Dict) : Except Err (List Migration) :=
  match spec.get? "exceptions-migrations" with
  | none => .ok []
  | some y => do
    let l ← y.asList
    mapE loadMigration l

/-- `area_spec.get('credit', {})`, `dp/run.py:22`, with the `Decimal(...)` of `dp/data/course.py:335`.  Simplification: an
amount that is not a number is an error even if no course has the name. -/
def loadCreditTable (spec : Dict) : Except Err CreditTable := do
  let d ← spec.dict "credit"
  mapE (fun e => do
    let q ← Y.asDecimal e.2
    .ok (e.1, q)) d

/-- the exceptions of the area, `dp/run.py:26-30` -/
def loadExceptions (code : String) (migs : List Migration) (l : List StudentExc) : Except Err (List Exc) :=
  mapE (fun e => match loadException e.exc migs with
    | .ok x => .ok x
    | .error x => .error x.err) (l.filter (fun e => e.areaCode == code))

/-- an exception that changes a course, `dp/run.py:31` -/
def Exc.asOverride (e : Exc) : Option Override :=
  match e.kind with
  | .courseCredits c q => some (.credits c q)
  | .courseSubject c s => some (.subject c s)
  | _ => none

/-- what `run` has made of the two files when it starts auditing, `dp/run.py:19-33,49-54` -/
structure Prepared where
  loaded : Loaded
  exceptions : List Exc

/-- the first part of `run`, `dp/run.py:19-33` -/
def prepareStudent (raw : RawStudent) (spec : Dict) : Except Err Prepared := do
  let code ← Y.asText (← spec.need "code")
  let table ← loadCreditTable spec
  let migs ← loadMigrations spec
  let es ← loadExceptions code migs raw.exceptions
  let loaded ← raw.load code (es.filterMap Exc.asOverride) table
  .ok { loaded := loaded, exceptions := es }

/-- `run` without `transcript_only` and `gpa_only`, `dp/run.py:19-61`. -/
def runFiles (o : Orders) (args : Args) (raw : RawStudent) (spec : Dict) : Gen (Msg AreaResult) :=
  match prepareStudent raw spec with
  | .error e => .raise e
  | .ok p => match loadArea p.loaded.constants p.loaded.templates p.loaded.student p.exceptions false spec with
    | .error e => .raise e
    | .ok area => auditArea o area p.loaded.student p.exceptions args

/-! ### `gpa_only` -/

/-- `CourseInstance.year_term`, `dp/data/course.py:146-147` -/
def Course.yearTermText (c : Course) : String := toString c.year ++ "-" ++ c.term

/-- a row of the table of grades, `dp/run.py:110-142` -/
inductive GpaRow where
  /-- `[term, ' ', '0 courses', ' ']` -/
  | nothing (term : String)
  /-- `[term, ' ', ' ', ' ']` -/
  | term (term : String)
  /-- a course with its term, grade and points -/
  | course (c : Course)
  /-- `gpa:` -/
  | gpa (q : Rat)
  /-- `cum. gpa:` -/
  | cumulative (q : Rat)
  /-- `overall` -/
  | overall (q : Rat)
deriving DecidableEq, Repr

/-- the key `(c.year, c.term, c.course(), c.clbid)`, `dp/run.py:131`, compared as tuples -/
def Course.gpaLe (a b : Course) : Bool :=
  decide (a.year < b.year) || (a.year == b.year &&
    (decide (a.term < b.term) || (a.term == b.term &&
      (decide (a.identity < b.identity) || (a.identity == b.identity && decide (a.clbid ≤ b.clbid))))))

/-- the loop of `gpa_only`, `dp/run.py:118-140`.  Class ids are distinct (`dp/data/student.py:318-325`), so the sets of the code
have each course once; sums do not depend on their order. -/
def gpaRows (courses : List Course) : List String → List Course → List GpaRow
  | [], _ => []
  | t :: ts, cumulative =>
    let here := courses.filter (fun c => c.yearTermText == t)
    let applicable := gpaItems here
    if applicable = [] then .nothing t :: gpaRows courses ts cumulative
    else
      .term t :: ((applicable.insertionSort (fun a b => a.gpaLe b = true)).map .course
        ++ .gpa (gradePointAverage here) :: .cumulative (gradePointAverage (cumulative ++ applicable))
          :: gpaRows courses ts (cumulative ++ applicable))

/-- `gpa_only`, `dp/run.py:110-142`, without the row of headings -/
def gpaTable (courses : List Course) : List GpaRow :=
  gpaRows courses ((courses.map Course.yearTermText).dedup.insertionSort (· ≤ ·)) []
    ++ [.overall (gradePointAverage courses)]

/-- `run` with `gpa_only`, `dp/run.py:45-47` -/
def runGpa (raw : RawStudent) (spec : Dict) : Except Err (List GpaRow) := do
  let p ← prepareStudent raw spec
  .ok (gpaTable p.loaded.student.coursesWithFailed)

/-- a row of the transcript, `dp/run.py:38-42`: the course as named by `course()`, the name, the class id, the kind, the credits, the year
and term, the kind of class, the grade, and `Y` or `N`.  Simplification: kinds and grades are kept as values, and numbers as numbers. -/
structure TranscriptRow where
  course : String
  name : String
  clbid : String
  courseType : CourseType
  credits : Rat
  term : String
  subType : SubType
  gradeCode : GradeCode
  inGpa : String
deriving DecidableEq, Repr

/-- the row of a course, `dp/run.py:39-42` -/
def Course.transcriptRow (c : Course) : TranscriptRow :=
  { course := c.identity, name := c.name, clbid := c.clbid, courseType := c.courseType, credits := c.credits,
    term := toString c.year ++ "-" ++ c.term, subType := c.subType, gradeCode := c.gradeCode, inGpa := if c.isInGpa then "Y" else "N" }

/-- `run` with `transcript_only`, `dp/run.py:35-43`, without the row of headings -/
def runTranscript (raw : RawStudent) (spec : Dict) : Except Err (List TranscriptRow) := do
  let p ← prepareStudent raw spec
  .ok (p.loaded.student.courses.map Course.transcriptRow)

end Dp
