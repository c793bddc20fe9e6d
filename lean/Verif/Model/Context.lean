import Verif.Model.Claim
import Verif.Model.Exceptions
import Verif.Model.Gen
import Verif.Model.Predicate

/-
The read-only part of `RequirementContext` (`dp/context.py`): the transcript and
its lookups, the student's other records and the exceptions.  The mutable claims
dictionary is passed separately as a `ClaimTable` (`Model/Claim.lean`), and the
cache of `has_exception_beneath` is left out because it never changes an answer
(proved as C06).
-/
namespace Dp

/-- `MusicProficiencyStatus`, `dp/data/music.py:126-130`. -/
inductive ProfStatus where
  | no | yes | exam | class'
deriving DecidableEq, Repr

/-- `MusicProficiencies`, `dp/data/music.py:145-150`. -/
structure Proficiencies where
  guitar : ProfStatus := .no
  keyboard1 : ProfStatus := .no
  keyboard2 : ProfStatus := .no
  keyboard3 : ProfStatus := .no
  keyboard4 : ProfStatus := .no
deriving DecidableEq, Repr

/-- The member of the record that `status` looks at, `dp/data/music.py:169-180`. -/
def Proficiencies.lookup (p : Proficiencies) (of : String) : Except Err ProfStatus :=
  if of == "Keyboard Level I" then .ok p.keyboard1
  else if of == "Keyboard Level II" then .ok p.keyboard2
  else if of == "Keyboard Level III" then .ok p.keyboard3
  else if of == "Keyboard Level IV" then .ok p.keyboard4
  else if of == "Guitar" then .ok p.guitar
  else .error .keyError

/-- `MusicProficiencies.status`, `dp/data/music.py:162-184`. -/
def Proficiencies.status (p : Proficiencies) (of : String) (examOnly : Bool) : Except Err Status :=
  match p.lookup of with
  | .error e => .error e
  | .ok s =>
    if examOnly then .ok (if s = .exam then .done else .empty)
    else .ok (if s = .yes ∨ s = .exam ∨ s = .class' then .done else .empty)

/-- `MusicProficiencies.passed_exam`, `dp/data/music.py:186-190`. -/
def Proficiencies.passedExam (p : Proficiencies) (of : String) : Except Err Bool :=
  match p.status of true with
  | .error e => .error e
  | .ok s => .ok (s == .done)

/-- The data a rule may look at (`RequirementContext`, `dp/context.py:36-54`);
`clbid_lookup_map_` is computed from the transcript (`dp/context.py:65`), see
`findCourseByClbid`. -/
structure Ctx where
  transcript : List Course := []
  withExcluded : List Course := []
  withFailed : List Course := []
  /-- `forced_clbid_lookup_map_` -/
  forced : List (String × Course) := []
  multicountable : Multicountable := []
  exceptions : ExcDict := []
  areas : List AreaPointer := []
  performances : List MusicPerformance := []
  /-- `MusicAttendance` (`dp/data/music.py:112`) has the fields of a performance
  without role and status. -/
  attendances : List MusicPerformance := []
  proficiencies : Proficiencies := {}

/-- `find_course_by_clbid` with the map of `with_transcript`,
`dp/context.py:65,109-110`: of two courses with one clbid the later is kept. -/
def Ctx.findCourseByClbid (x : Ctx) (clbid : String) : Option Course :=
  x.transcript.reverse.find? (fun c => c.clbid == clbid)

/-- `forced_clbid_lookup_map_.get`, `dp/context.py:115`. -/
def Ctx.forcedGet (x : Ctx) (clbid : String) : Option Course :=
  (x.forced.find? (fun e => e.1 == clbid)).map (·.2)

/-- `forced_course_by_clbid`, `dp/context.py:112-118`. -/
def Ctx.forcedCourseByClbid (x : Ctx) (clbid : String) : Except Err Course :=
  match x.findCourseByClbid clbid with
  | some c => .ok c
  | none => match x.forcedGet clbid with
    | some c => .ok c
    | none => .error .missingClbid

/-- `all_claimed`, `dp/context.py:82-83`: KeyError for a claimed clbid that is not
on the transcript. -/
def Ctx.allClaimed (x : Ctx) : ClaimTable → Except Err (List Course)
  | [] => .ok []
  | (k, _) :: rest => match x.findCourseByClbid k with
    | none => .error .keyError
    | some c => match Ctx.allClaimed x rest with
      | .error e => .error e
      | .ok cs => .ok (c :: cs)

/-- `has_claim`, `dp/context.py:85-86`. -/
def hasClaim (t : ClaimTable) (clbid : String) : Bool := t.has clbid && (t.get clbid).length > 0

/-- `CourseFilterArgs`, `dp/data/student.py:348-360`.  `year` and `term` are one
optional pair: `CourseRule.load` (`dp/rule/course.py:56-57`) requires a term
whenever there is a year, and a term alone is not looked at. -/
structure CourseFilter where
  ap : Option String := none
  course : Option String := none
  crsid : Option String := none
  institution : Option String := none
  name : Option String := none
  yearTerm : Option (Int × String) := none
  section' : Option String := none
  subType : Option SubType := none
  inProgress : Option Bool := none
  attr : Option String := none
deriving DecidableEq, Repr

/-- `_course_filter`, `dp/data/student.py:393-456`. -/
def CourseFilter.matches (f : CourseFilter) (c : Course) : Bool :=
  if f.institution.isNone && f.ap.isNone && !c.isStolaf then false
  else if f.crsid.any (· ≠ c.crsid) then false
  else if f.course.any (fun name =>
      c.identity ≠ name || f.section'.any (fun s => c.section' ≠ some s)
        || f.yearTerm.any (fun yt => c.year ≠ yt.1 || c.term ≠ yt.2)
        || f.subType.any (· ≠ c.subType)) then false
  else if f.attr.any (fun a => !c.attributes.contains a) then false
  else if f.name.any (· ≠ c.name) then false
  else if f.institution.any (· ≠ c.institution) then false
  else if f.ap.any (fun a => c.courseType ≠ .ap || c.name ≠ a) then false
  else if f.inProgress.any (· ≠ c.isInProgress) then false
  else true

/-- `SUB_TYPE_LOOKUP`, `dp/data/course_enums.py:37-42`. -/
def subTypeLookup (s : String) : Option SubType :=
  if s == "E" then some .ensemble
  else if s == "L" then some .lab
  else if s == "F" then some .flac
  else if s == "D" then some .discussion
  else none

/-- `evaluate_predicate_function`, `dp/conditional_expression.py:327-353`, with the
context methods `dp/context.py:120-136,186-194`. -/
def Ctx.fact (x : Ctx) (function argument : String) : Except Err Bool :=
  if function == "has-declared-area-code" then .ok (x.areas.any (fun a => a.code == argument))
  else if function == "has-course" then
    .ok (x.transcript.any (CourseFilter.matches { course := some argument }))
  else if function == "has-ip-course" then
    .ok (x.transcript.any (CourseFilter.matches { course := some argument, inProgress := some true }))
  else if function == "has-completed-course" then
    .ok (x.transcript.any (CourseFilter.matches { course := some argument, inProgress := some false }))
  else if function == "student-has-course-with-attribute" then
    .ok (x.transcript.any (CourseFilter.matches { attr := some argument }))
  else if function == "passed-proficiency-exam" then x.proficiencies.passedExam argument
  else if function == "has-override-exception" then .ok (hasWaiveForConditional x.exceptions argument)
  else .error .typeError

end Dp
