import Verif.Model.Assertion
import Mathlib.Data.List.Sort

/-
Rules, solutions and results (`dp/base/*.py`, `dp/rule/*.py`,
`dp/solution/*.py`, `dp/result/*.py`) as one tree type.  A rule, its solutions and
their results have the same fields in the code (all inherit from one `Base*Rule`
class); which of the three an object is, is the `Stage` tag.  Here: the data, and
what a tree reports (status, rank, claims).

Two rules of one area are taken to be the same exactly when their paths are
(python compares all fields; `load_rule` gives siblings distinct paths,
`dp/rule/count.py:148-150`).
-/
namespace Dp

/-- `isinstance(x, Rule | Solution | Result)`, `dp/base/bases.py:110-136`. -/
inductive Stage where
  | rule | solution | result
deriving DecidableEq, Repr

/-- `BaseCourseRule`, `dp/base/course.py:14-42`, with `overridden`/`path` of `Base`
(`dp/base/bases.py:24-28`) and `claim_attempt` of `CourseResult`
(`dp/result/course.py:12`).  `year`/`term` are one pair, see `CourseFilter`;
`hidden` is only displayed. -/
structure CourseData where
  path : Path
  course : Option String := none
  clbid : Option String := none
  crsid : Option String := none
  ap : Option String := none
  institution : Option String := none
  name : Option String := none
  grade : Option Rat := none
  gradeOption : Option GradeOption := none
  yearTerm : Option (Int × String) := none
  section' : Option String := none
  subType : Option String := none
  allowClaimed : Bool := false
  fromClaimed : Bool := false
  optional : Bool := false
  inserted : Bool := false
  forced : Bool := false
  autoWaived : Bool := false
  excluded : List String := []
  matched : Option Course := none
  overridden : Bool := false
  claim : Option Claim := none

/-- `QuerySource`, `dp/base/query.py:18-23`. -/
inductive QuerySource where
  | courses | claimed | areas | musicPerformances | musicAttendances
deriving DecidableEq, Repr

/-- `BaseQueryRule`, `dp/base/query.py:27-43`; `load_potentials` is not used by the audit. -/
structure QueryData where
  path : Path
  source : QuerySource := .courses
  dataType : DataType := .course
  assertions : List AnyAssertion := []
  limit : List Limit := []
  where' : Option Pred := none
  allowClaimed : Bool := false
  attemptClaims : Bool := true
  recordClaims : Bool := true
  includeFailed : Bool := false
  inserted : List String := []
  forceInserted : List String := []
  output : List Item := []
  successful : List Claim := []
  failed : List Claim := []
  excluded : List String := []
  overridden : Bool := false

/-- `BaseCountRule` without its items, `dp/base/count.py:19-23`.  `count` is a
natural number: `CountRule.load` asserts `count >= 0` (`dp/rule/count.py:179-180`). -/
structure CountData where
  path : Path
  count : Nat := 0
  audits : List AnyAssertion := []
  atMost : Bool := false
  overridden : Bool := false

/-- `BaseRequirementRule` without its result, `dp/base/requirement.py:14-22`. -/
structure ReqData where
  path : Path
  name : String := ""
  isAudited : Bool := false
  isContract : Bool := false
  inGpa : Bool := true
  disjoint : Option Bool := none
  overridden : Bool := false

/-- `BaseConditionalRule` without its branches, `dp/base/conditional.py:16-19`;
`condition` is the stored result of the condition, set when it is loaded. -/
structure CondData where
  path : Path
  condition : Option Bool := none
  overridden : Bool := false

/-- `BaseProficiencyRule` without its course, `dp/base/proficiency.py:15-18`. -/
structure ProfData where
  path : Path
  proficiency : String := ""
  status : Status := .empty
  overridden : Bool := false

/-- A rule, solution or result. -/
inductive Node where
  | course (s : Stage) (d : CourseData)
  | query (s : Stage) (d : QueryData)
  | count (s : Stage) (d : CountData) (items : List Node)
  | req (s : Stage) (d : ReqData) (result : Option Node)
  | cond (s : Stage) (d : CondData) (t : Node) (f : Option Node)
  | prof (s : Stage) (d : ProfData) (course : Option (Stage × CourseData))

/-- the `path` attribute -/
def Node.path : Node → Path
  | .course _ d => d.path
  | .query _ d => d.path
  | .count _ d _ => d.path
  | .req _ d _ => d.path
  | .cond _ d _ _ => d.path
  | .prof _ d _ => d.path

/-- which of the three classes an object belongs to -/
def Node.stage : Node → Stage
  | .course s _ => s
  | .query s _ => s
  | .count s _ _ => s
  | .req s _ _ => s
  | .cond s _ _ _ => s
  | .prof s _ _ => s

/-! ### Claims -/

/-- `claims` of a course rule, solution (`dp/base/bases.py:79-80`) or result
(`dp/result/course.py:43-47`). -/
def courseClaims (s : Stage) (d : CourseData) : List Claim :=
  match s, d.claim with
  | .result, some c => if c.failed then [] else [c]
  | _, _ => []

/-- `claims` of a query rule, solution (`dp/base/bases.py:79-80`) or result
(`dp/result/query.py:44-45`). -/
def queryClaims (s : Stage) (d : QueryData) : List Claim :=
  if s = .result then d.successful else []

/-- `claims` of a proficiency rule, solution or result (`dp/result/proficiency.py:37-38`). -/
def profClaims (s : Stage) (course : Option (Stage × CourseData)) : List Claim :=
  match s, course with
  | .result, some (s', d) => courseClaims s' d
  | _, _ => []

mutual
/-- `claims()`: `dp/base/count.py:41-42`, `dp/base/requirement.py:97-101`,
`dp/base/conditional.py:56-62`. -/
def Node.claims : Node → List Claim
  | .course s d => courseClaims s d
  | .query s d => queryClaims s d
  | .count _ _ items => Node.claimsList items
  | .req _ d r => if d.isAudited then [] else Node.claimsOpt r
  | .cond _ d t f => match d.condition with
    | some true => t.claims
    | some false => Node.claimsOpt f
    | none => []
  | .prof s _ c => profClaims s c
/-- `[claim for item in items for claim in item.claims()]` -/
def Node.claimsList : List Node → List Claim
  | [] => []
  | n :: ns => n.claims ++ Node.claimsList ns
/-- claims of an optional child -/
def Node.claimsOpt : Option Node → List Claim
  | none => []
  | some n => n.claims
end

mutual
/-- `claims_for_gpa()`: `dp/base/bases.py:82-83`, `dp/base/count.py:44-45`,
`dp/base/requirement.py:103-107`, `dp/base/conditional.py:64-70`. -/
def Node.claimsForGpa : Node → List Claim
  | .course s d => courseClaims s d
  | .query s d => queryClaims s d
  | .count _ _ items => Node.claimsForGpaList items
  | .req _ d r => if d.inGpa && !d.isAudited then Node.claimsForGpaOpt r else []
  | .cond _ d t f => match d.condition with
    | some true => t.claimsForGpa
    | some false => Node.claimsForGpaOpt f
    | none => []
  | .prof s _ c => profClaims s c
/-- `[claim for item in items for claim in item.claims_for_gpa()]` -/
def Node.claimsForGpaList : List Node → List Claim
  | [] => []
  | n :: ns => n.claimsForGpa ++ Node.claimsForGpaList ns
/-- claims of an optional child -/
def Node.claimsForGpaOpt : Option Node → List Claim
  | none => []
  | some n => n.claimsForGpa
end

/-- `set(claim.get_course() for claim in claims if claim.failed is False)`,
`dp/base/bases.py:85-89`; a set, as a list without duplicates. -/
def matchedOf (claims : List Claim) : List Course :=
  ((claims.filter (fun c => !c.failed)).map (·.course)).dedup

/-- `matched()` -/
def Node.matched (n : Node) : List Course := matchedOf n.claims

/-- `matched_for_gpa()` -/
def Node.matchedForGpa (n : Node) : List Course := matchedOf n.claimsForGpa

/-! ### Status -/

/-- `is_waived` of a course rule, solution (`dp/base/bases.py:94-95`) or result
(`dp/result/course.py:49-53`). -/
def courseWaived (s : Stage) (d : CourseData) : Bool :=
  match s with
  | .result => if d.claim.any (·.failed) then false else d.inserted || d.overridden
  | _ => d.overridden

/-- `BaseCourseRule.status`, `dp/base/course.py:91-112`. -/
def courseStatus (s : Stage) (d : CourseData) : Status :=
  if courseWaived s d then .waived
  else
    let matched := matchedOf (courseClaims s d)
    let hasIp := matched.any (·.isInProgress)
    if matched ≠ [] ∧ !hasIp then .done
    else
      let enrolled := matched.any (fun c => c.isInProgressThisTerm || c.isIncomplete)
      let registered := matched.any (·.isInProgressInFuture)
      if hasIp && enrolled && !registered then .pendingCurrent
      else if hasIp && registered then .pendingRegistered
      else if d.optional then .waived
      else .empty

/-- `BaseQueryRule.status`, `dp/base/query.py:85-112`. -/
def queryStatus (d : QueryData) : Status :=
  if d.overridden then .waived
  else
    let ss := d.assertions.map (·.status)
    if ss.contains .failedInvariant then .failedInvariant
    else if ss.all (·.inWaivedOnly) then .waived
    else if ss.all (·.inWaivedAndDone) then .done
    else if ss.all (·.inWaivedDoneCurrent) then .pendingCurrent
    else if ss.all (·.inWaivedDoneCurrentPending) then .pendingRegistered
    else if ss.all (·.inWaivedDoneCurrentPendingIncomplete) then .needsMoreItems
    else if ss.contains .empty && ss.any (·.inWaivedDoneCurrentPendingIncomplete) then .needsMoreItems
    else .empty

/-- `BaseCountRule.status` from the children's statuses, `dp/base/count.py:72-106`. -/
def countStatus (d : CountData) (children : List Status) : Status :=
  if d.overridden then .waived
  else
    let passing := children.filter (·.passing)
    let audits := d.audits.map (·.status)
    if children.contains .failedInvariant || audits.contains .failedInvariant then .failedInvariant
    else if children.all (·.inEmptyAndDepartmental) then .empty
    else if passing.length < d.count then .needsMoreItems
    else if passing ≠ [] ∧ passing.all (·.inWaivedOnly) ∧ audits.all (·.inWaivedOnly) then .waived
    else if passing.all (·.inWaivedAndDone) && audits.all (·.inWaivedAndDone) then .done
    else if passing.all (·.inWaivedDoneCurrent) && audits.all (·.inWaivedDoneCurrent) then .pendingCurrent
    else if passing.all (·.inWaivedDoneCurrentPending) && audits.all (·.inWaivedDoneCurrentPending) then
      .pendingRegistered
    else .needsMoreItems

/-- `BaseCountRule.audit_status`, `dp/base/count.py:108-136`. -/
def countAuditStatus (d : CountData) : Status :=
  if d.overridden then .waived
  else
    let ss := d.audits.map (·.status)
    match ss.dedup with
    | [s] => s
    | _ =>
      if ss.contains .failedInvariant then .failedInvariant
      else if ss.all (·.inWaivedOnly) then .waived
      else if ss.all (·.inWaivedAndDone) then .done
      else if ss.all (·.inWaivedDoneCurrent) then .pendingCurrent
      else if ss.all (·.inWaivedDoneCurrentPending) then .pendingRegistered
      else if ss.all (·.inEmptyAndDepartmental) then .empty
      else .needsMoreItems

/-- `BaseRequirementRule.status` from the child's status, `dp/base/requirement.py:39-54`.
Without a result `Base.status` (`dp/base/bases.py:52-71`) finds nothing matched and
rank 0, hence NeedsMoreItems. -/
def reqStatus (d : ReqData) (child : Option Status) : Status :=
  if d.overridden && (d.isAudited || d.isContract) then .done
  else if d.overridden then .waived
  else if d.isAudited then .pendingApproval
  else match child with
    | none => .needsMoreItems
    | some s => s

/-- `BaseProficiencyRule.status`, `dp/base/proficiency.py:45-55`. -/
def profStatus (d : ProfData) (course : Option (Stage × CourseData)) : Status :=
  if d.overridden then .waived
  else if d.status.inWaivedAndDone then d.status
  else match course with
    | some (s, c) => courseStatus s c
    | none => .empty

mutual
/-- `status()`; for conditionals `dp/base/conditional.py:32-38`. -/
def Node.status : Node → Status
  | .course s d => courseStatus s d
  | .query _ d => queryStatus d
  | .count _ d items => countStatus d (Node.statusList items)
  | .req _ d r => reqStatus d (Node.statusOpt r)
  | .cond _ d t f => match d.condition with
    | some true => t.status
    | some false => match Node.statusOpt f with
      | some s => s
      | none => .done
    | none => .done
  | .prof _ d c => profStatus d c
/-- `[r.status() for r in items]` -/
def Node.statusList : List Node → List Status
  | [] => []
  | n :: ns => n.status :: Node.statusList ns
/-- status of an optional child -/
def Node.statusOpt : Option Node → Option Status
  | none => none
  | some n => some n.status
end

/-! ### Rank -/

/-- the ranks attached to a status, `dp/base/course.py:80-89`, `dp/base/proficiency.py:34-43` -/
def statusRank (s : Status) : Rat × Rat :=
  if s = .done ∨ s = .waived then (1, 1)
  else if s = .pendingCurrent then (3/4, 1)
  else if s = .pendingRegistered then (1/2, 1)
  else (0, 1)

/-- `BaseCourseRule.rank`, `dp/base/course.py:74-89`. -/
def courseRank (s : Stage) (d : CourseData) : Rat × Rat :=
  if d.optional then (1, 1) else statusRank (courseStatus s d)

/-- sum of pairs, component by component -/
def sumPairs (l : List (Rat × Rat)) : Rat × Rat := ((l.map (·.1)).sum, (l.map (·.2)).sum)

/-- `BaseQueryRule.rank`, `dp/base/query.py:74-83`. -/
def queryRank (d : QueryData) : Rat × Rat :=
  if d.overridden then (1, 1) else sumPairs (d.assertions.map (·.rank))

/-- `max(l)`; ValueError on an empty sequence -/
def pyMax : List Rat → Except Err Rat
  | [] => .error .valueError
  | a :: l => .ok (l.foldl max a)

/-- `BaseCountRule.rank` from the children's ranks, `dp/base/count.py:47-70`. -/
def countRank (d : CountData) (ranks : List (Rat × Rat)) : Except Err (Rat × Rat) :=
  if d.overridden then .ok (1, 1)
  else
    let maxes := ranks.map (·.2)
    let itemMax : Except Err Rat :=
      if ranks.length = 2 ∧ d.count = 2 then .ok ((maxes.insertionSort (· ≤ ·)).take 2).sum
      else if d.count = 1 ∧ d.atMost = true then pyMax maxes
      else .ok maxes.sum
    match itemMax with
    | .error e => .error e
    | .ok m =>
      let itemRank := (ranks.map (·.1)).sum
      let auditRanks := d.audits.map (·.rank)
      let auditRank := (auditRanks.map (·.1)).sum
      .ok (itemRank + auditRank, max itemRank m + max auditRank (auditRanks.map (·.2)).sum)

mutual
/-- `rank()`; `dp/base/requirement.py:56-74`, `dp/base/conditional.py:40-46`,
`dp/base/proficiency.py:31-43`. -/
def Node.rank : Node → Except Err (Rat × Rat)
  | .course s d => .ok (courseRank s d)
  | .query _ d => .ok (queryRank d)
  | .count _ d items =>
    if d.overridden then .ok (1, 1)
    else match Node.rankList items with
      | .error e => .error e
      | .ok ranks => countRank d ranks
  | .req _ d r =>
    if d.overridden then .ok (1, 1)
    else if d.isAudited then .ok (0, 1)
    else Node.rankReq r
  | .cond _ d t f => match d.condition with
    | some true => t.rank
    | some false => Node.rankElse f
    | none => .ok (1, 1)
  | .prof _ d c => .ok (statusRank (profStatus d c))
/-- `[r.rank() for r in items]` -/
def Node.rankList : List Node → Except Err (List (Rat × Rat))
  | [] => .ok []
  | n :: ns => match n.rank with
    | .error e => .error e
    | .ok r => match Node.rankList ns with
      | .error e => .error e
      | .ok rs => .ok (r :: rs)
/-- a requirement's rank from its result (it is neither waived nor audited, so its
status is the result's), `dp/base/requirement.py:63-74` -/
def Node.rankReq : Option Node → Except Err (Rat × Rat)
  | none => .ok (0, 1)
  | some n => match n.rank with
    | .error e => .error e
    | .ok (r, m) => if n.status.passing then .ok (r + 1, m + 1) else .ok (r, m)
/-- the `else` branch of a conditional, `dp/base/conditional.py:43-46` -/
def Node.rankElse : Option Node → Except Err (Rat × Rat)
  | none => .ok (1, 1)
  | some n => n.rank
end

end Dp
