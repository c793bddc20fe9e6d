import Verif.Model.Print
import Verif.Model.Student

/-
A result as the JSON document that is stored for it (`to_dict` of `dp/area.py`, `dp/base/*.py`, `dp/assertion_clause.py`,
`dp/predicate_clause.py`, `dp/limit.py`, `dp/claim.py`) and the row that the server makes of it (`dp/server/audit.py`).

Left out of the documents, because the model of rules does not keep them: `hidden`, messages, labels, original values,
`resolved_items`, the path and the parts of conditions.  How decimals, the values in comparisons and the conditions are
written is left open (`Writes`).
-/
namespace Dp

/-- A JSON value. -/
inductive Json where
  | null
  | bool (b : Bool)
  | num (n : Int)
  | text (s : String)
  | list (l : List Json)
  | obj (fields : List (String × Json))

/-- How some values are written into a document. -/
structure Writes where
  /-- `str` of a Decimal -/
  decimal : Rat → String
  /-- `stringify_expected`, `dp/clause_helpers.py`; a list is one text here -/
  expected : Val → String
  /-- the type of a condition, for instance `pred-expr--and`, `dp/conditional_expression.py:96` -/
  condition : Option Bool → String
  /-- the identifier of an item, `to_identifier`, as `(type, key, value)`, `dp/data/clausable.py:11-18` -/
  item : Item → String × String × String

namespace Json

/-- `list(path)` -/
def path (p : Path) : Json := .list (p.map .text)

/-- a list of texts -/
def texts (l : List String) : Json := .list (l.map .text)

/-- a text or `None` -/
def optText : Option String → Json
  | none => .null
  | some s => .text s

/-- a truth value or `None` -/
def optBool : Option Bool → Json
  | none => .null
  | some b => .bool b

end Json

/-- `operator.name`, `dp/op.py:8-16` -/
def Operator.text : Operator → String
  | .lt => "LessThan"
  | .lte => "LessThanOrEqualTo"
  | .gt => "GreaterThan"
  | .gte => "GreaterThanOrEqualTo"
  | .eq => "EqualTo"
  | .neq => "NotEqualTo"
  | .in' => "In"
  | .nin => "NotIn"

/-- `DataType.value`, `dp/data_type.py` -/
def DataType.text : DataType → String
  | .course => "course"
  | .area => "area"
  | .musicPerformance => "music-performance"
  | .recital => "recital"

/-- `QuerySource.value`, `dp/base/query.py:18-23` -/
def QuerySource.text : QuerySource → String
  | .courses => "courses"
  | .claimed => "claimed"
  | .areas => "areas"
  | .musicPerformances => "music performances"
  | .musicAttendances => "music recitals"

/-- `RuleState.value`, `dp/base/bases.py:19-23` -/
def Stage.text : Stage → String
  | .rule => "rule"
  | .solution => "solution"
  | .result => "result"

/-- `str()` of a `GradeOption`, `dp/data/course_enums.py:7-12`: the name of the class and that of the member -/
def GradeOption.text : GradeOption → String
  | .audit => "GradeOption.Audit"
  | .grade => "GradeOption.Grade"
  | .noGrade => "GradeOption.NoGrade"
  | .pn => "GradeOption.PN"
  | .su => "GradeOption.SU"

/-- `condition.to_dict()`, `dp/conditional_expression.py:94-99` and the like, without its parts -/
def conditionJson (W : Writes) (r : Option Bool) : Json :=
  .obj [("type", .text (W.condition r)), ("result", .optBool r)]

mutual
/-- `to_dict` of the five filter classes, `dp/predicate_clause.py:112-116,127-131,142-146,160-167,203-217` -/
def Pred.toJson (W : Writes) : Pred → Json
  | .and ps => .obj [("type", .text "pred--and"), ("predicates", .list (Pred.toJsonList W ps))]
  | .or ps => .obj [("type", .text "pred--or"), ("predicates", .list (Pred.toJsonList W ps))]
  | .not p => .obj [("type", .text "pred--not"), ("predicate", p.toJson W)]
  | .cond r t f => .obj [("type", .text "pred--if"), ("condition", conditionJson W r), ("when_true", t.toJson W),
      ("when_false", Pred.toJsonOpt W f)]
  | .leaf l => .obj [("type", .text "predicate"), ("key", .text l.key), ("expected", .text (W.expected l.expected)),
      ("operator", .text l.op.text)]
/-- `[c.to_dict() for c in self.predicates]` -/
def Pred.toJsonList (W : Writes) : List Pred → List Json
  | [] => []
  | p :: ps => p.toJson W :: Pred.toJsonList W ps
/-- a filter or `None` -/
def Pred.toJsonOpt (W : Writes) : Option Pred → Json
  | none => .null
  | some p => p.toJson W
end

/-- `Limit.to_dict`, `dp/limit.py:40-47` -/
def Limit.toJson (W : Writes) (l : Limit) : Json :=
  .obj [("type", .text "limit"), ("at_most", .text (W.decimal l.atMost)),
    ("at_most_what", .text (match l.what with | .courses => "Courses" | .credits => "Credits")), ("where", l.where'.toJson W)]

/-- `Claim.to_dict`, `dp/claim.py:14-19` -/
def Claim.toJson (c : Claim) : Json :=
  .obj [("crsid", .text c.course.crsid), ("clbid", .text c.course.clbid), ("claimed_by", .path c.claimedBy)]

/-- `Assertion.to_dict`, `dp/assertion_clause.py:142-175` -/
def Assertion.toJson (W : Writes) (a : Assertion) : Json :=
  .obj [("type", .text "assertion"), ("path", .path a.path), ("status", .text a.state.text),
    ("rank", .text (W.decimal a.rank.1)), ("max_rank", .text (W.decimal a.rank.2)), ("where", Pred.toJsonOpt W a.where'),
    ("key", .text a.key), ("operator", .text a.op.text), ("expected", .text (W.decimal a.expected)),
    ("data-type", .text a.dataType.text), ("evaluated", .bool a.evaluated),
    ("resolved", .optText (a.resolved.map W.decimal)),
    ("resolved_clbids", .texts (a.resolvedClbids.insertionSort (· ≤ ·))),
    ("inserted_clbids", .texts (a.insertedClbids.insertionSort (· ≤ ·)))]

/-- an assertion or `None` -/
def Assertion.toJsonOpt (W : Writes) : Option Assertion → Json
  | none => .null
  | some a => a.toJson W

/-- `to_dict` of the three assertion classes, `dp/assertion_clause.py:142-175,328-335,432-438` -/
def AnyAssertion.toJson (W : Writes) : AnyAssertion → Json
  | .single a => a.toJson W
  | .cond c t f => .obj [("type", .text "assertion--if"), ("condition", conditionJson W c), ("when_true", t.toJson W),
      ("when_false", Assertion.toJsonOpt W f)]
  | .dyn _ r t => .obj [("type", .text "assertion--when"), ("condition", conditionJson W r), ("when_true", t.toJson W)]

/-- `Base.to_dict`, `dp/base/bases.py:31-43` -/
def baseJson (W : Writes) (path : Path) (state type : String) (status : Status) (rank : Rat × Rat) (overridden : Bool) :
    List (String × Json) :=
  [("path", .path path), ("state", .text state), ("type", .text type), ("status", .text status.text),
    ("rank", .text (W.decimal rank.1)), ("max_rank", .text (W.decimal rank.2)), ("overridden", .bool overridden)]

/-- `BaseCourseRule.to_dict`, `dp/base/course.py:44-69`; `year` and `term` are given together or not at all -/
def courseJson (W : Writes) (s : Stage) (d : CourseData) : Json :=
  .obj (baseJson W d.path s.text "course" (courseStatus s d) (courseRank s d) d.overridden ++
    [("course", .optText d.course), ("clbid", .optText d.clbid), ("crsid", .optText d.crsid), ("ap", .optText d.ap),
     ("institution", .optText d.institution), ("name", .optText d.name), ("grade", .optText (d.grade.map W.decimal)),
     ("grade_option", .optText (d.gradeOption.map GradeOption.text)),
     ("year", match d.yearTerm with | none => .null | some q => .num q.1), ("term", .optText (d.yearTerm.map (·.2))),
     ("section", .optText d.section'), ("sub_type", .optText d.subType), ("allow_claimed", .bool d.allowClaimed),
     ("from_claimed", .bool d.fromClaimed), ("optional", .bool d.optional), ("inserted", .bool d.inserted),
     ("forced", .bool d.forced), ("auto_waived", .bool d.autoWaived),
     ("excluded_clbids", .texts (d.excluded.insertionSort (· ≤ ·))),
     ("claims", .list ((courseClaims s d).map Claim.toJson)), ("matched_scedid", .optText (d.matched.map (·.schedid)))])

/-- `to_identifier().to_dict()`, `dp/base/query.py:62-64`, `dp/data/clausable.py:11-18` -/
def itemJson (W : Writes) (i : Item) : Json :=
  .obj [("type", .text (W.item i).1), ("key", .text (W.item i).2.1), ("value", .text (W.item i).2.2)]

/-- `BaseQueryRule.to_dict`, `dp/base/query.py:45-60`, with `only_failed_claims` of a result (`dp/result/query.py:41-42`) -/
def queryJson (W : Writes) (s : Stage) (d : QueryData) : Json :=
  .obj (baseJson W d.path s.text "query" (queryStatus d) (queryRank d) d.overridden ++
    [("source", .text d.source.text), ("data-type", .text d.dataType.text), ("limit", .list (d.limit.map (Limit.toJson W))),
     ("assertions", .list (d.assertions.map (AnyAssertion.toJson W))), ("where", Pred.toJsonOpt W d.where'),
     ("claims", .list ((queryClaims s d).map Claim.toJson)),
     ("failures", .list ((if s = .result then d.failed else []).map Claim.toJson)), ("inserted", .texts d.inserted),
     ("include_failed", .bool d.includeFailed), ("allow_claimed", .bool d.allowClaimed),
     ("output", .list (d.output.map (itemJson W)))])

/-- `BaseProficiencyRule.to_dict`, `dp/base/proficiency.py:21-27` -/
def profJson (W : Writes) (s : Stage) (d : ProfData) (course : Option (Stage × CourseData)) : Json :=
  .obj (baseJson W d.path s.text "proficiency" (profStatus d course) (statusRank (profStatus d course)) d.overridden ++
    [("course", match course with | none => .null | some (s', c) => courseJson W s' c), ("proficiency", .text d.proficiency),
     ("proficiency_status", .text d.status.text)])

mutual
/-- `to_dict` of all rules, solutions and results: those above, `dp/base/count.py:25-33`, `dp/base/requirement.py:24-34` and
`dp/base/conditional.py:21-27`.  `rank()` can raise. -/
def Node.toJson (W : Writes) : Node → Except Err Json
  | .course s d => .ok (courseJson W s d)
  | .query s d => .ok (queryJson W s d)
  | .prof s d c => .ok (profJson W s d c)
  | .count s d items => match (Node.count s d items).rank with
    | .error e => .error e
    | .ok rank => match Node.toJsonList W items with
      | .error e => .error e
      | .ok js => .ok (.obj (baseJson W d.path s.text "count" (countStatus d (Node.statusList items)) rank d.overridden ++
          [("count", .num d.count), ("at_most", .bool d.atMost), ("items", .list js),
           ("audit", .list (d.audits.map (AnyAssertion.toJson W))), ("audit_status", .text (countAuditStatus d).text)]))
  | .req s d r => match (Node.req s d r).rank with
    | .error e => .error e
    | .ok rank => match Node.toJsonOpt W r with
      | .error e => .error e
      | .ok j => .ok (.obj (baseJson W d.path s.text "requirement" (reqStatus d (Node.statusOpt r)) rank d.overridden ++
          [("name", .text d.name), ("result", j), ("is_audited", .bool d.isAudited), ("is_contract", .bool d.isContract),
           ("is_disjoint", .optBool d.disjoint), ("in_gpa", .bool d.inGpa)]))
  | .cond s d t f => match (Node.cond s d t f).rank with
    | .error e => .error e
    | .ok rank => match t.toJson W with
      | .error e => .error e
      | .ok jt => match Node.toJsonOpt W f with
        | .error e => .error e
        | .ok jf => .ok (.obj (baseJson W d.path s.text "conditional" (Node.cond s d t f).status rank d.overridden ++
            [("condition", conditionJson W d.condition), ("when_true", jt), ("when_false", jf)]))
/-- `[item.to_dict() for item in self.items]` -/
def Node.toJsonList (W : Writes) : List Node → Except Err (List Json)
  | [] => .ok []
  | n :: ns => match n.toJson W with
    | .error e => .error e
    | .ok j => match Node.toJsonList W ns with
      | .error e => .error e
      | .ok js => .ok (j :: js)
/-- an optional child or `None` -/
def Node.toJsonOpt (W : Writes) : Option Node → Except Err Json
  | none => .ok .null
  | some n => n.toJson W
end

/-- `AreaOfStudy.to_dict` of a result, `dp/area.py:48-60`; name, code and degree are those of the area file.  The attribute
`overridden` of an area is always false (`dp/area.py:156,275,367`). -/
def AreaResult.toJson (W : Writes) (a : Area) (name code : String) (r : AreaResult) : Except Err Json :=
  match r.rank with
  | .error e => .error e
  | .ok rank => match r.result.toJson W with
    | .error e => .error e
    | .ok j => .ok (.obj (baseJson W ["$"] Stage.result.text "area" r.status rank false ++
        [("name", .text name), ("kind", .text r.kind), ("code", .text code), ("degree", .text a.degree), ("result", j),
         ("gpa", .text (W.decimal r.gpa)), ("limit", .list (a.limit.map (Limit.toJson W))),
         ("ok", .bool r.ok), ("version", .num 3)]))

/-! ### The row of the server -/

/-- `o[k]` -/
def Json.at? : Json → String → Option Json
  | .obj fields, k => fields.lookup k
  | _, _ => none

/-- The columns of the inserted row that come from the audit, `dp/server/audit.py:126-152`. -/
structure StoredRow where
  result : Json
  rank : Option Json
  maxRank : Option Json
  gpa : Option Json
  ok : Option Json
  status : Option Json
  version : Option Json
  claimed : List (String × List Path)
  iterations : Int

/-- the first message with a result, `dp/server/audit.py:31-44` -/
def firstResult : List (Msg AreaResult) → Option (AreaResult × Int)
  | [] => none
  | .result r _ iters _ :: _ => some (r, iters)
  | _ :: rest => firstResult rest

/-- a text of the area file -/
def shownText (spec : Dict) (key : String) : String :=
  match spec.get? key with
  | some (.str s) => s
  | _ => ""

/-- What `audit` of the server inserts for a student and an area, `dp/server/audit.py:28-162`; `none`: nothing, because no
audit was completed or an exception was swallowed (lines 159-160).  `described` tells whether the file of the student has
the keys `name`, `name_sort`, `classification` and `class` (lines 146-149), which nothing else needs. -/
def serverAudit (o : Orders) (W : Writes) (described : Bool) (raw : RawStudent) (spec : Dict) : Option StoredRow :=
  match prepareStudent raw spec with
  | .error _ => none
  | .ok p => match loadArea p.loaded.constants p.loaded.templates p.loaded.student p.exceptions false spec with
    | .error _ => none
    | .ok area => match firstResult (auditArea o area p.loaded.student p.exceptions {}).items with
      | none => none
      | some (r, iters) => match r.toJson W area (shownText spec "name") (shownText spec "code") with
        | .error _ => none
        | .ok j =>
          if described then
            some { result := j, rank := j.at? "rank", maxRank := j.at? "max_rank", gpa := j.at? "gpa", ok := j.at? "ok",
                   status := j.at? "status", version := j.at? "version", claimed := r.keyedClaims, iterations := iters }
          else none

end Dp
