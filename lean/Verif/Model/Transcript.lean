import Verif.Model.Assertion

/-
Loading a transcript: `load_course`, `load_transcript` and the course part of
`Student.load`.

Simplification: a row is a record whose text fields are already parsed (the enums,
numbers and `int(year)`, `Decimal(credits)`, ...); a row with an unparsable field makes
python raise before anything is produced.  Rows that already are `CourseInstance`s
(`dp/data/course.py:299-300`, only passed by tests) are not modelled.
-/
namespace Dp

/-- `dp/data/course_enums.py:16-22`, `TranscriptCode`. -/
inductive TranscriptCode where
  | empty | carleton | wasIncomplete | individualMajor | repeatedLater | repeatInProgress
deriving DecidableEq, Repr

/-- A row of `data['courses']`, the keys read at `dp/data/course.py:302-328`. -/
structure Row where
  clbid : String
  attributes : List String := []
  courseType : CourseType := .semester
  credits : Rat := 1
  crsid : String := ""
  flagGpa : Bool := true
  flagIncomplete : Bool := false
  flagInProgress : Bool := false
  flagRepeat : Bool := false
  flagStolaf : Bool := true
  gereqs : List String := []
  gradeCode : GradeCode := .B
  gradeOption : GradeOption := .grade
  gradePoints : Rat := 3
  institution : String := "STOLAF"
  level : Int := 100
  name : String := ""
  number : String := ""
  schedid : Option String := none
  section' : String := ""
  subType : SubType := .normal
  subject : String := ""
  suGradeCode : Option GradeCode := none
  term : String := "1"
  transcriptCode : TranscriptCode := .empty
  year : Nat := 2019
deriving DecidableEq, Repr

/-- `CourseCreditOverride` and `CourseSubjectOverride`, `dp/exception.py:74-88`. -/
inductive Override where
  | credits (clbid : String) (credits : Rat)
  | subject (clbid : String) (subject : String)
deriving DecidableEq, Repr

/-- one step of the dictionary comprehension, for the `CourseCredits` entry -/
def creditsStep (clbid : String) (found : Option Rat) : Override → Option Rat
  | .credits c r => if c == clbid then some r else found
  | .subject _ _ => found

/-- one step of the dictionary comprehension, for the `CourseSubject` entry -/
def subjectStep (clbid : String) (found : Option String) : Override → Option String
  | .subject c s => if c == clbid then some s else found
  | .credits _ _ => found

/-- the `CourseCredits` entry of `{o.type: o for o in overrides if o.clbid == clbid}`,
`dp/data/course.py:330-332`: later entries overwrite earlier ones -/
def creditsOverride (overrides : List Override) (clbid : String) : Option Rat :=
  overrides.foldl (creditsStep clbid) none

/-- the `CourseSubject` entry of the same dictionary -/
def subjectOverride (overrides : List Override) (clbid : String) : Option String :=
  overrides.foldl (subjectStep clbid) none

/-- `credits_overrides`, the area's dictionary from `name=<course name>` to credits -/
abbrev CreditTable := List (String × Rat)

/-- the credits a row gets, `dp/data/course.py:334-341` -/
def rowCredits (overrides : List Override) (table : CreditTable) (r : Row) : Rat :=
  match creditsOverride overrides r.clbid with
  | some q => q
  | none => match table.lookup ("name=" ++ r.name) with
    | some q => q
    | none => r.credits

/-- the subject a row gets, `dp/data/course.py:343-344` -/
def rowSubject (overrides : List Override) (r : Row) : String :=
  match subjectOverride overrides r.clbid with
  | some s => s
  | none => r.subject

/-- `f"{year}{term}"`, `dp/data/course.py:365,397` -/
def Row.yearterm (r : Row) : String := toString r.year ++ r.term

/-- the suffix of the course identity, `dp/data/course.py:379-386` -/
def SubType.suffix : SubType → String
  | .lab => ".L"
  | .flac => ".F"
  | .discussion => ".D"
  | _ => ""

/-- `is_chbi`, `dp/data/course.py:389-397` -/
def chbiOf (identity : String) : Option Nat :=
  if identity == "CH/BI 125" then some 125
  else if identity == "CH/BI 126" then some 126
  else if identity == "CH/BI 127" then some 127
  else if identity == "CH/BI 227" then some 227
  else none

/-- the two flags `in_progress_this_term` and `in_progress_in_future`,
`dp/data/course.py:361-368`; `none` is no current term, as is the empty text -/
def progressFlags (current : Option String) (r : Row) : Bool × Bool :=
  match current with
  | none => (false, false)
  | some now =>
    if now ≠ "" ∧ (r.gradeCode = .IP ∨ r.gradeCode = .I) then
      if r.yearterm ≤ now then (true, false)
      else if now < r.yearterm then (false, true)
      else (false, false)
    else (false, false)

/-- `load_course`, `dp/data/course.py:288-438`. -/
def loadCourse (current : Option String) (overrides : List Override) (table : CreditTable) (r : Row) : Course :=
  let credits := rowCredits overrides table r
  let subject := rowSubject overrides r
  let flags := progressFlags current r
  let identity := subject ++ " " ++ r.number ++ r.subType.suffix
  { clbid := r.clbid
    crsid := r.crsid
    schedid := r.schedid.getD "None"
    identity := identity
    subject := subject
    number := r.number
    section' := if r.section' == "" then none else some r.section'
    subType := r.subType
    courseType := r.courseType
    name := r.name
    institution := r.institution
    attributes := r.attributes
    gereqs := r.gereqs
    level := r.level
    year := r.year
    term := r.term
    credits := credits
    gradeCode := r.gradeCode
    suGradeCode := r.suGradeCode
    gradeOption := r.gradeOption
    gradePoints := r.gradePoints
    gpaPoints := truncate2 (r.gradePoints * credits)
    isInGpa := r.flagGpa
    isInProgress := r.flagInProgress
    isInProgressThisTerm := flags.1
    isInProgressInFuture := flags.2
    isIncomplete := r.flagIncomplete
    isRepeat := r.flagRepeat
    isStolaf := r.flagStolaf
    isLab := r.subType == .lab
    isDuringCovid := r.yearterm == "20193"
    isChbi := chbiOf identity }

/-- `skip_grades`, `dp/data/student.py:299-307` -/
def GradeCode.skipped : GradeCode → Bool
  | .N | .U | .AU | .UA | .WF | .WP | .W => true
  | _ => false

/-- the four `continue`s of the loop, `dp/data/student.py:328-343` -/
def rowKept (includeFailed : Bool) (r : Row) : Bool :=
  if r.gradeOption = .audit then false
  else if r.transcriptCode = .repeatedLater ∨ r.transcriptCode = .repeatInProgress then false
  else if r.gradeCode.skipped then false
  else if r.gradeCode = .F then includeFailed
  else true

/-- the loop of `load_transcript`, `dp/data/student.py:314-345`: `clbids` are the class
ids seen.  A class id seen before is replaced by `clbid:schedid`, which must be new. -/
def transcriptLoop (load : Row → Course) (includeFailed : Bool) : List Row → List String → Except Err (List Course)
  | [], _ => .ok []
  | r :: rows, clbids =>
    let c := load r
    if clbids.contains c.clbid then
      let c' := { c with clbid := c.clbid ++ ":" ++ c.schedid }
      if c.clbid = c'.clbid then .error .assertion
      else if clbids.contains c'.clbid then .error .assertion
      else match transcriptLoop load includeFailed rows (clbids ++ [c'.clbid]) with
        | .error e => .error e
        | .ok cs => .ok (if rowKept includeFailed r then c' :: cs else cs)
    else match transcriptLoop load includeFailed rows (clbids ++ [c.clbid]) with
      | .error e => .error e
      | .ok cs => .ok (if rowKept includeFailed r then c :: cs else cs)

/-- `load_transcript`, `dp/data/student.py:291-345`, with all its courses collected. -/
def loadTranscript (current : Option String) (overrides : List Override) (table : CreditTable)
    (includeFailed : Bool) (rows : List Row) : Except Err (List Course) :=
  transcriptLoop (loadCourse current overrides table) includeFailed rows []

/-- The two course lists of `Student.load`, `dp/data/student.py:104-110`. -/
def loadStudentCourses (current : Option String) (overrides : List Override) (table : CreditTable)
    (rows : List Row) : Except Err (List Course × List Course) :=
  match loadTranscript current overrides table false rows with
  | .error e => .error e
  | .ok courses => match loadTranscript current overrides table true rows with
    | .error e => .error e
    | .ok withFailed => .ok (sortCourses courses, sortCourses withFailed)

end Dp
