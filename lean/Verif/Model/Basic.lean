/-
Basic data types shared by the model.

Numbers: python `Decimal` values are modelled by exact rationals `Rat`
(simplification: python's 28-digit rounding on division is not modelled; sums,
products and comparisons of the two-decimal values that occur are exact in
both).  Strings are Lean `String`s; paths are lists of strings, as in python.
-/
namespace Dp

/-- `dp/status.py:4-13`, `ResultStatus`. -/
inductive Status where
  | empty | pendingApproval | needsMoreItems | pendingRegistered
  | pendingCurrent | done | waived | failedInvariant
deriving DecidableEq, Repr

namespace Status

/-- `dp/status.py:16`, `PassingStatuses` membership. -/
def passing : Status → Bool
  | waived | done | pendingCurrent | pendingRegistered => true
  | _ => false

/-- `dp/status.py:21`, `WAIVED_ONLY` membership. -/
def inWaivedOnly : Status → Bool
  | waived => true
  | _ => false

/-- `dp/status.py:22`, `WAIVED_AND_DONE` membership. -/
def inWaivedAndDone : Status → Bool
  | waived | done => true
  | _ => false

/-- `dp/status.py:23`, `WAIVED_DONE_CURRENT` membership. -/
def inWaivedDoneCurrent : Status → Bool
  | waived | done | pendingCurrent => true
  | _ => false

/-- `dp/status.py:24`, `WAIVED_DONE_CURRENT_PENDING` membership. -/
def inWaivedDoneCurrentPending : Status → Bool
  | waived | done | pendingCurrent | pendingRegistered => true
  | _ => false

/-- `dp/status.py:25`, `WAIVED_DONE_CURRENT_PENDING_INCOMPLETE` membership. -/
def inWaivedDoneCurrentPendingIncomplete : Status → Bool
  | waived | done | pendingCurrent | pendingRegistered | needsMoreItems => true
  | _ => false

/-- `dp/status.py:26`, `EMPTY_AND_DEPARTMENTAL` membership. -/
def inEmptyAndDepartmental : Status → Bool
  | empty | pendingApproval => true
  | _ => false

end Status

/-- `dp/data/course_enums.py:7-12`, `GradeOption`. -/
inductive GradeOption where
  | audit | grade | noGrade | pn | su
deriving DecidableEq, Repr

/-- `dp/data/course_enums.py:26-34`, `SubType`. -/
inductive SubType where
  | discussion | ensemble | flac | lab | research | seminar | topic | normal
deriving DecidableEq, Repr

/-- `dp/data/course_enums.py:46-62`, `CourseType`. -/
inductive CourseType where
  | semester | interim | summer | carleton | interimExchange | offCampusCourse
  | offCampusProgram | continuingEducation
  | ap | pseo | adjustment | geReq | other | transfer | paraCollege
deriving DecidableEq, Repr

/-- `dp/data/course_enums.py:68-85`, `CourseTypeSortOrder`. -/
def CourseType.sortOrder : CourseType → Nat
  | .semester | .interim | .summer | .carleton | .interimExchange
  | .offCampusCourse | .offCampusProgram | .continuingEducation => 1
  | .ap | .pseo | .adjustment | .geReq | .other | .transfer | .paraCollege => 2

/-- `dp/data/course_enums.py:89-118`, `GradeCode`. -/
inductive GradeCode where
  | A | Aplus | Aminus | B | Bplus | Bminus | C | Cplus | Cminus
  | D | Dplus | Dminus | F
  | BC | AB | NG | IP | I | P | N | S | U | AU | UA | WF | WP | W | REG
deriving DecidableEq, Repr

/-- `dp/data/course.py:17-54`, `CourseInstance`.  The mutable `hash_cache_`
field and `transcript_code` are left out (the former is a cache of
`hash(clbid)`, the latter is only read by `load_transcript`, modelled in
`Model/Transcript.lean` on records). -/
structure Course where
  clbid : String
  crsid : String := ""
  schedid : String := ""
  /-- `identity_`, returned by `course()` (`dp/data/course.py:116-117`) -/
  identity : String := ""
  subject : String := ""
  number : String := ""
  section' : Option String := none
  subType : SubType := .normal
  courseType : CourseType := .semester
  name : String := ""
  institution : String := "STOLAF"
  attributes : List String := []
  gereqs : List String := []
  level : Int := 100
  year : Int := 2019
  term : String := "1"
  credits : Rat := 1
  gradeCode : GradeCode := .B
  suGradeCode : Option GradeCode := none
  gradeOption : GradeOption := .grade
  gradePoints : Rat := 3
  gpaPoints : Rat := 3
  isInGpa : Bool := true
  isInProgress : Bool := false
  isInProgressThisTerm : Bool := false
  isInProgressInFuture : Bool := false
  isIncomplete : Bool := false
  isRepeat : Bool := false
  isStolaf : Bool := true
  isLab : Bool := false
  isDuringCovid : Bool := false
  isChbi : Option Nat := none
deriving DecidableEq, Repr

/-- Requirement / rule paths: `Tuple[str, ...]` everywhere in `dp`. -/
abbrev Path := List String

/-- `dp/claim.py`, `Claim`: which course, by which rule path, and whether the
attempt was refused. -/
structure Claim where
  course : Course
  claimedBy : Path
  failed : Bool
deriving DecidableEq, Repr

end Dp
