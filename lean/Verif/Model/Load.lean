import Verif.Model.LoadClause
import Verif.Model.Area

/-
Loading the rules of an area from the parsed area file: `dp/load_rule.py`, the `load` functions
of `dp/rule/*.py`, and `AreaOfStudy.load` with `prepare_common_rules` (`dp/area.py`).
-/
namespace Dp

/-- `TemplateCourse`, `dp/data/student.py:20-29`. -/
structure TemplateCourse where
  subject : String := ""
  num : String := ""
  section' : String := ""
  subType : String := ""
  year : String := ""
  term : String := ""
  institution : String := ""
  name : String := ""
  clbid : String := ""
deriving DecidableEq, Repr

/-- an entry that is only there when its text is given, `dp/data/student.py:34-50` -/
def givenEntry (key s value : String) : Dict := if s = "" then [] else [(key, .str value)]

/-- `to_course_rule_as_dict`, `dp/data/student.py:31-57`. -/
def TemplateCourse.asRule (t : TemplateCourse) : Except Err Y :=
  let d := givenEntry "clbid" t.clbid t.clbid ++ givenEntry "course" t.subject (t.subject ++ " " ++ t.num)
    ++ givenEntry "section" t.section' t.section' ++ givenEntry "sub_type" t.subType t.subType
    ++ givenEntry "institution" t.institution t.institution ++ givenEntry "ap" t.name t.name
  if t.year = "" then .ok (.map d)
  else if t.term = "" then .error .assertion
  else match parseInt t.year.toList with
    | some n => .ok (.map (d ++ [("year", .int n), ("term", .str t.term)]))
    | none => .error .valueError

/-- What loading reads besides the area file: the context (`dp/area.py:93-98`), the constants and
the student's template courses, in order, each under the name of its template
(`templates_as_dict`, `dp/data/student.py:172-177`). -/
structure Env where
  ctx : Ctx := {}
  c : Constants := {}
  templates : List (String × TemplateCourse) := []

/-! ### Course rules -/

/-- `f"*{course or ap or name or clbid or 'crsid:' + crsid}"`, `dp/rule/course.py:54`; TypeError when
nothing is given. -/
def courseLabel (course ap name clbid crsid : Option String) : Except Err String :=
  if given course then .ok ("*" ++ course.getD "")
  else if given ap then .ok ("*" ++ ap.getD "")
  else if given name then .ok ("*" ++ name.getD "")
  else if given clbid then .ok ("*" ++ clbid.getD "")
  else match crsid with
    | some s => .ok ("*crsid:" ++ s)
    | none => .error .typeError

/-- a part of the label that is only there when its text is given, `dp/rule/course.py:55-66` -/
def labelPart (pre : String) (s : Option String) (post : String) : String :=
  if given s then pre ++ s.getD "" ++ post else ""

/-- `allowed_keys`, `dp/rule/course.py:77-82`: `waived` is allowed but never read, `auto_waived` is
read but not allowed. -/
def courseRuleKeys : List String :=
  ["course", "grade", "allow_claimed", "from_claimed", "hidden", "ap", "grade_option", "institution",
   "name", "clbid", "inserted", "waived", "optional", "year", "term", "section", "sub_type", "crsid"]

/-- the year and term of a course rule; a year needs a term, `dp/rule/course.py:59-61` -/
def yearAndTerm (year : Option Int) (term : Option String) : Except Err (Option (Int × String)) :=
  match year, term with
  | some y, some t => .ok (some (y, t))
  | some _, none => .error .assertion
  | none, _ => .ok none

/-- the `grade` of a course rule, `dp/rule/course.py:91` -/
def loadMinGrade : Option String → Except Err (Option Rat)
  | none => .ok none
  | some s => match parseGrade s with
    | some g => .ok (some (gradePointsOf g))
    | none => .error .valueError

/-- the `grade_option` of a course rule, `dp/rule/course.py:92` -/
def loadGradeOption (s : Option String) : Except Err (Option GradeOption) :=
  if given s then
    match parseGradeOption (s.getD "") with
    | some o => .ok (some o)
    | none => .error .valueError
  else .ok none

/-- `CourseRule.load`, `dp/rule/course.py:37-107`. -/
def loadCourseRule (d : Dict) (path : Path) : Except Err CourseData := do
  let course ← d.text "course"
  let ap ← d.text "ap"
  let name ← d.text "name"
  let institution ← d.text "institution"
  let minGrade ← d.text "grade"
  let gradeOption ← d.text "grade_option"
  let clbid ← d.text "clbid"
  let crsid ← d.text "crsid"
  let inserted ← d.flag "inserted" false
  let autoWaived ← d.flag "auto_waived" false
  let sect ← d.text "section"
  let subType ← d.text "sub_type"
  let year ← d.number "year"
  let term ← d.text "term"
  let label ← courseLabel course ap name clbid crsid
  let yt ← yearAndTerm year term
  let ytText := match yt with
    | some (y, t) => " " ++ toString y ++ "-" ++ t
    | none => ""
  let seg := label ++ labelPart "" sect "" ++ labelPart "." subType "" ++ ytText
    ++ labelPart "(institution=" institution ")" ++ labelPart "(grade >= " minGrade ")"
  let fromClaimed ← d.flag "from_claimed" false
  let allowClaimed ← d.flag "allow_claimed" false
  let optional ← d.flag "optional" false
  let _ ← check (onlyKeys courseRuleKeys d)
  let _ ← check (given course || given ap || (given institution && given name) || given clbid || given crsid)
  let grade ← loadMinGrade minGrade
  let option ← loadGradeOption gradeOption
  .ok { path := path ++ [seg], course := course, clbid := clbid, crsid := crsid, ap := ap,
        institution := institution, name := name, grade := grade, gradeOption := option,
        yearTerm := yt, section' := sect, subType := subType,
        allowClaimed := fromClaimed || allowClaimed, fromClaimed := fromClaimed, optional := optional,
        inserted := inserted, autoWaived := autoWaived }

/-! ### Proficiency rules -/

/-- `ProficiencyRule.load`, `dp/rule/proficiency.py:30-44`.  The status is set when the rule is
audited, see `Model/Solve.lean`. -/
def loadProficiency (d : Dict) (path : Path) : Except Err Node := do
  let name ← (← d.need "proficiency").asText
  let path := path ++ [".proficiency=" ++ name]
  let _ ← check (onlyKeys ["proficiency", "course"] d)
  let course ← (match d.get? "course" with
    | none => .ok none
    | some y => do
      let cd ← y.asDict
      let r ← loadCourseRule cd path
      .ok (some (Stage.rule, r)))
  .ok (.prof .rule { path := path, proficiency := name } course)

/-! ### Query rules -/

/-- `QuerySource(s)`, `dp/base/query.py:18-23` -/
def parseSource (s : String) : Option QuerySource :=
  if s == "courses" then some .courses
  else if s == "claimed" then some .claimed
  else if s == "areas" then some .areas
  else if s == "music performances" then some .musicPerformances
  else if s == "music recitals" then some .musicAttendances
  else none

/-- the kind of records, `dp/rule/query.py:43-52` -/
def QuerySource.dataType : QuerySource → DataType
  | .courses | .claimed => .course
  | .areas => .area
  | .musicAttendances => .recital
  | .musicPerformances => .musicPerformance

/-- `allowed_keys`, `dp/rule/query.py:80` -/
def queryKeys : List String :=
  ["where", "limit", "claim", "assert", "all", "allow_claimed", "from", "load_potentials", "include_failed"]

/-- the assertions of a query, `dp/rule/query.py:63-78` -/
def loadQueryAssertions (env : Env) (dt : DataType) (path : Path) (d : Dict) : Except Err (List AnyAssertion) :=
  match d.get? "assert" with
  | some a => do
    let r ← loadAnyAssertion env.ctx env.c dt (path ++ [".assertions", "[0]"]) (.map [("assert", a)])
    .ok [r]
  | none => do
    let l ← (match d.get? "all" with
      | some v => v.asList
      | none => .error .valueError)
    mapIdxE (fun i y => loadAnyAssertion env.ctx env.c dt (path ++ [".assertions", indexSeg i]) y) 0 l

/-- `data.get('claim', True) is True` and `... in ('record', True)`, `dp/rule/query.py:98-99`; the number
1 equals `True` for `in` -/
def claimMode (d : Dict) : Bool × Bool :=
  match d.get? "claim" with
  | none => (true, true)
  | some (.bool b) => (b, b)
  | some (.str s) => (false, s == "record")
  | some (.int n) => (false, n == 1)
  | some _ => (false, false)

/-- `QueryRule.load`, `dp/rule/query.py:40-108`. -/
def loadQuery (env : Env) (d : Dict) (path : Path) : Except Err QueryData := do
  let path := path ++ [".query"]
  let src ← (← d.need "from").asText
  let source ← (match parseSource src with
    | some s => .ok s
    | none => .error .valueError)
  let dt := source.dataType
  let w ← loadOptFilter env.ctx env.c dt (d.opt "where")
  let limit ← loadLimits env.ctx env.c (d.opt "limit")
  let _ ← check (!d.has "limits") .valueError
  let as ← loadQueryAssertions env dt path d
  let _ ← check (!as.isEmpty)
  let _ ← check (!(d.has "assert" && d.has "all")) .valueError
  let _ ← check (onlyKeys queryKeys d)
  let allowClaimed ← d.flag "allow_claimed" false
  let includeFailed ← d.flag "include_failed" false
  let mode := claimMode d
  .ok { path := path, source := source, dataType := dt, assertions := as, limit := limit, where' := w,
        allowClaimed := allowClaimed || source = .claimed, attemptClaims := mode.1, recordClaims := mode.2,
        includeFailed := includeFailed,
        overridden := (getWaiveException env.ctx.exceptions path).isSome }

/-! ### Rules that contain rules

The functions below take the function that loads a contained rule (`load children path data`). -/

/-- how a contained rule is loaded; `None` for a hidden conditional (`dp/rule/conditional.py:52-53`) -/
abbrev Loader := Dict → Path → Y → Except Err (Option Node)

/-- `get_requirement_names`, `dp/rule/conditional.py:63-69`, `count.py:201-202`, `course.py:109-110`,
`proficiency.py:46-47`, `query.py:122-123`, `requirement.py:83-84` (all in `dp/rule`) -/
def Node.requirementNames : Node → List String
  | .req _ d _ => [d.name]
  | .count _ _ items => namesList items
  | .cond _ d t f => match d.condition with
    | some true => t.requirementNames
    | some false => namesOpt f
    | none => []
  | _ => []
where
  /-- of all items -/
  namesList : List Node → List String
    | [] => []
    | n :: ns => n.requirementNames ++ namesList ns
  /-- of an optional rule -/
  namesOpt : Option Node → List String
    | none => []
    | some n => n.requirementNames

/-- `allowed_keys`, `dp/rule/requirement.py:41-45` -/
def requirementKeys : List String :=
  ["in_gpa", "name", "result", "disjoint", "message", "contract", "requirements", "department_audited",
   "department-audited"]

/-- the result of a requirement with the check that it uses every requirement beneath it,
`dp/rule/requirement.py:49-57`; a hidden conditional has no `get_requirement_names` -/
def loadReqResult (load : Loader) (d : Dict) (path : Path) : Except Err (Option Node) :=
  match d.opt "result" with
  | none => .ok none
  | some y => do
    let kids ← d.dict "requirements"
    match ← load kids path y with
    | none => .error .other
    | some r => do
      let _ ← check (kids.keys.all (fun k => r.requirementNames.contains k))
      .ok (some r)

/-- `data.get("department_audited", data.get("department-audited", False))`, `dp/rule/requirement.py:59` -/
def auditedFlag (d : Dict) : Except Err Bool :=
  if d.has "department_audited" then d.flag "department_audited" false
  else d.flag "department-audited" false

/-- `RequirementRule.load`, `dp/rule/requirement.py:34-81`.  The message is only displayed; an empty one
is refused.  A message of blanks is not: it has become an empty paragraph by then (`Model/Autop`, C117). -/
def loadRequirement (load : Loader) (name : String) (d : Dict) (path : Path) : Except Err Node := do
  let path := path ++ ["%" ++ name]
  let _ ← check (onlyKeys requirementKeys d)
  let result ← loadReqResult load d path
  let audited ← auditedFlag d
  let _ ← check (audited || result.isSome) .typeError
  let message ← d.text "message"
  let _ ← check (!name.toList.all (·.isWhitespace))
  let _ ← check (message ≠ some "")
  let contract ← d.flag "contract" false
  let inGpa ← d.flag "in_gpa" true
  let disjoint ← (match d.opt "disjoint" with
    | none => .ok none
    | some (.bool b) => .ok (some b)
    | some _ => .error .typeError)
  .ok (.req .rule { path := path, name := name, isAudited := audited, isContract := contract, inGpa := inGpa,
                    disjoint := disjoint } result)

/-- `ConditionalRule.load`, `dp/rule/conditional.py:29-61`. -/
def loadConditional (x : Ctx) (load : Loader) (children : Dict) (d : Dict) (path : Path) :
    Except Err (Option Node) := do
  let path := path ++ [".cond"]
  let _ ← check (onlyKeys ["$if", "$then", "$else", "$hide-when-false"] d)
  let b ← loadCond x (← d.need "$if")
  let t ← load children (path ++ ["/t"]) (← d.need "$then")
  match t with
  | none => .error .assertion
  | some t => do
    let f ← (match d.opt "$else" with
      | none => .ok none
      | some y => load children (path ++ ["/f"]) y)
    let overridden := (getWaiveException x.exceptions path).isSome
    let hide ← d.flag "$hide-when-false" false
    .ok (if !overridden && !b && hide then none
      else some (.cond .rule { path := path, condition := some b, overridden := overridden } t f))

/-! ### Count rules -/

/-- `CountRule.can_load`, `dp/rule/count.py:36-47` -/
def isCount (d : Dict) : Bool :=
  (d.has "count" && d.has "of") || d.has "all" || d.has "any" || d.has "both" || d.has "either"

/-- the listed rules, `dp/rule/count.py:63-72` -/
def countItems (d : Dict) : Except Err (List Y) :=
  match d.get? "all" with
  | some v => v.asList
  | none => match d.get? "any" with
    | some v => v.asList
    | none => match d.get? "both" with
      | some v => v.asList
      | none => match d.get? "either" with
        | some v => v.asList
        | none => match d.get? "of" with
          | some v => v.asList
          | none => .error .keyError

/-- `expand_template`, `dp/load_rule.py:55-67` -/
def expandTemplates (templates : List (String × TemplateCourse)) : List Y → Except Err (List Y)
  | [] => .ok []
  | y :: ys => do
    let d ← y.asDict
    let here ← (match d.get? "template" with
      | some k => do
        let key ← k.asText
        mapE (fun e => TemplateCourse.asRule e.2) (templates.filter (fun e => e.1 == key))
      | none => .ok [y])
    let rest ← expandTemplates templates ys
    .ok (here ++ rest)

/-- the item standing for a requirement of an emphasis, `dp/rule/count.py:109,114` -/
def emphasisItem (key name : String) : Y := .map [("requirement", .str key), ("__emphasis", .str name)]

/-- is the emphasis an all-of rule of requirements without a post-audit, `dp/rule/count.py:88-93`?
`emph['result']['all']` raises KeyError when it is missing and the emphasis has no `requirements`. -/
def flattens (emph result : Dict) : Except Err Bool :=
  match result.get? "all" with
  | none => if emph.has "requirements" then .ok false else .error .keyError
  | some v => do
    let rules ← mapE Y.asDict (← v.asList)
    .ok ((emph.has "requirements" || rules.any (fun r => r.has "name"))
      && !result.has "audit" && rules.all (fun r => r.has "requirement" || r.has "name"))

/-- `{r['name']: r for r in emph['result']['all']}`, `dp/rule/count.py:100` -/
def namedRules : List Y → Except Err Dict
  | [] => .ok []
  | y :: ys => do
    let d ← y.asDict
    let name ← (← d.need "name").asText
    let rest ← namedRules ys
    .ok ((name, y) :: rest)

/-- The requirements an emphasis adds: pairs of key and body, in order, `dp/rule/count.py:76-114`.
Simplification: of two inline requirements of one name the code keeps the later body in the earlier place;
here both are kept. -/
def emphasisParts (emph : Dict) : Except Err (List (String × Y) × String) := do
  let name ← (← emph.need "name").asText
  let result ← (← emph.need "result").asDict
  let flat ← flattens emph result
  let key := "Emphasis: " ++ name
  if flat then do
    let reqs ← (match emph.get? "requirements" with
      | some v => v.asDict
      | none => do
        let l ← (← result.need "all").asList
        namedRules l)
    .ok (reqs.map (fun r => (key ++ " → " ++ r.1, r.2)), name)
  else .ok ([(key, .map emph)], name)

/-- the loop over the emphases, `dp/rule/count.py:75-114`: the requirements by name, and the added items -/
def addEmphases : Dict → List Dict → Except Err (Dict × List Y)
  | children, [] => .ok (children, [])
  | children, emph :: rest => do
    let (parts, name) ← emphasisParts emph
    let children' := parts.foldl (fun c p => c.set p.1 p.2) children
    let (final, items) ← addEmphases children' rest
    .ok (final, parts.map (fun p => emphasisItem p.1 name) ++ items)

/-- the items for insertions, `dp/rule/count.py:116-126` -/
def insertedItems (x : Ctx) : List Exc → Except Err (List Y)
  | [] => .ok []
  | e :: es => match e.kind with
    | .insertion clbid forced => do
      let c ← x.forcedCourseByClbid clbid
      let rest ← insertedItems x es
      .ok (.map [("course", .str c.identity), ("clbid", .str c.clbid), ("allow_claimed", .bool forced),
        ("inserted", .bool true)] :: rest)
    | _ => insertedItems x es

/-- the post-audit assertions, `dp/rule/count.py:130-143` -/
def loadAudits (env : Env) (path : Path) (d : Dict) : Except Err (List AnyAssertion) :=
  match d.opt "audit" with
  | none => .ok []
  | some y => do
    let a ← y.asDict
    match a.get? "all" with
    | some v => do
      let l ← v.asList
      mapIdxE (fun i y => loadAssertion env.ctx env.c .course (path ++ [".audit", indexSeg i]) y) 0 l
    | none => do
      let r ← loadAssertion env.ctx env.c .course (path ++ [".audit", "[0]"]) y
      .ok [r]

/-- where the `i`-th item is loaded, `dp/rule/count.py:147-156` -/
def childPath (path : Path) (i : Nat) (y : Y) : Except Err Path := do
  let d ← y.asDict
  let mark ← d.text "__emphasis"
  .ok (path ++ [if given mark then ".emphasis" else indexSeg i])

/-- the loop over the items, `dp/rule/count.py:145-160`: hidden conditionals are left out -/
def loadItems (load : Loader) (children : Dict) (path : Path) : Nat → List Y → Except Err (List Node)
  | _, [] => .ok []
  | i, y :: ys => do
    let p ← childPath path i y
    let n ← load children p y
    let rest ← loadItems load children path (i + 1) ys
    .ok (n.toList ++ rest)

/-- `allowed_keys`, `dp/rule/count.py:178` -/
def countKeys : List String := ["of", "all", "count", "any", "either", "both", "at_most", "audit"]

/-- `int(data["count"])`, `dp/rule/count.py:176` -/
def countNumber : Y → Except Err Int
  | .int n => .ok n
  | .str s => match parseInt s.toList with
    | some n => .ok n
    | none => .error .valueError
  | _ => .error .typeError

/-- `data["count"] == s` -/
def countIs (d : Dict) (s : String) : Bool :=
  match d.get? "count" with
  | some (.str t) => t == s
  | _ => false

/-- the number of items needed, `dp/rule/count.py:162-176` -/
def neededCount (d : Dict) (didInsert : Bool) (loaded : Nat) : Except Err Int :=
  if d.has "all" || countIs d "all" then .ok loaded
  else if d.has "any" || countIs d "any" then .ok 1
  else if d.has "both" then
    if didInsert then .ok loaded else if loaded = 2 then .ok 2 else .error .assertion
  else if d.has "either" then
    if didInsert || loaded = 2 then .ok 1 else .error .assertion
  else do
    let y ← d.need "count"
    countNumber y

/-- `CountRule.load`, `dp/rule/count.py:50-199`.  (Its last check never fires: a `requirements` key is not
allowed.) -/
def loadCount (env : Env) (load : Loader) (children : Dict) (emphases : List Dict) (d : Dict) (path : Path) :
    Except Err Node := do
  let path := path ++ [".count"]
  let listed ← countItems d
  let items ← expandTemplates env.templates listed
  let (children, emphItems) ← addEmphases children emphases
  let inserts ← insertedItems env.ctx (getInsertExceptions env.ctx.exceptions path)
  let items := items ++ emphItems ++ inserts
  let atMost ← d.flag "at_most" false
  let audits ← loadAudits env path d
  let loaded ← loadItems load children path 0 items
  let count ← neededCount d (!inserts.isEmpty) loaded.length
  let _ ← check (onlyKeys countKeys d)
  let _ ← check (0 ≤ count)
  let _ ← check (count < (if atMost then count + 1 else (items.length : Int) + 1))
  .ok (.count .rule { path := path, count := count.toNat, audits := audits, atMost := atMost } loaded)

/-! ### All rules -/

/-- `load_rule`, `dp/load_rule.py:18-52`, to a given depth. -/
def loadRule (env : Env) : Nat → Dict → List Dict → Path → Y → Except Err (Option Node)
  | 0, _, _, _, _ => .error .outOfFuel
  | n + 1, children, emphases, path, y => do
    let d ← y.asDict
    let load : Loader := fun kids p y => loadRule env n kids [] p y
    let _ ← check (emphases.isEmpty || isCount d)
    if d.has "proficiency" then do
      let r ← loadProficiency d path
      .ok (some r)
    else if d.has "course" || d.has "clbid" || d.has "crsid" || d.has "ap" then do
      let r ← loadCourseRule d path
      .ok (some (.course .rule r))
    else if d.has "from" then do
      let r ← loadQuery env d path
      .ok (some (.query .rule r))
    else if d.has "$if" then loadConditional env.ctx load children d path
    else if isCount d then do
      let r ← loadCount env load children emphases d path
      .ok (some r)
    else if d.has "name" then do
      let name ← (← d.need "name").asText
      let r ← loadRequirement load name d path
      .ok (some r)
    else if d.has "requirement" then do
      let name ← (← d.need "requirement").asText
      let body ← (← children.need name).asDict
      let r ← loadRequirement load name body path
      .ok (some r)
    else .error .valueError

/-- deep enough for loading a rule: every step goes to a part of the rule, of the requirements by name, of an
emphasis; the remaining steps are a few at the top -/
def ruleFuel (children : Dict) (emphases : List Dict) (y : Y) : Nat :=
  y.size + Y.sizeDict children + (emphases.map (fun e => Y.sizeDict e + 1)).sum + 4

/-! ### The common requirements of majors -/

/-- a requirement with a query as its result -/
def commonSpec (message : String) (result : Y) : Y := .map [("message", .str message), ("result", result)]

/-- `{key: {op: value}}` -/
def clause (key op : String) (v : Y) : Y := .map [(key, .map [(op, v)])]

/-- the query all common requirements are made of; the order of keys does not matter -/
def commonQuery (w : Y) (action op : String) (n : Int) : Y :=
  .map [("from", .str "courses"), ("allow_claimed", .bool true), ("claim", .bool false), ("where", w),
        ("assert", clause action op (.int n))]

/-- `dp/area.py:440-463` -/
def cOrBetterSpec : Y := commonSpec
  "Of the credits counting toward the minimum requirements for a major, a total of six (6.00) must be completed with a grade of C or higher."
  (commonQuery
    (.map [("$and", .list [
      .map [("$or", .list [
        .map [("grade", .map [("$gte", .str "C"), ("$during_covid", .str "C-")])],
        clause "is_in_progress" "$eq" (.bool true)])],
      clause "credits" "$gt" (.int 0)])])
    "sum(credits)" "$gte" 6)

/-- `dp/area.py:473-500` -/
def suSpec (isBm : Bool) : Y :=
  if isBm then commonSpec "No courses in a B.M Music major may be taken S/U."
    (commonQuery (clause "grade_option" "$eq" (.str "s/u")) "count(courses)" "$eq" 0)
  else commonSpec
    "Only one full-course equivalent (1.00-credit course) taken S/U may count toward the minimum requirements for a major."
    (commonQuery
      (.map [("$and", .list [clause "grade_option" "$eq" (.str "s/u"), clause "credits" "$eq" (.int 1)])])
      "count(courses)" "$lte" 1)

/-- double major in studio art and art history, `dp/area.py:519-523` -/
def isHistoryAndStudio (areaCode : String) (others : List String) : Bool :=
  (areaCode == "140" && others.contains "135") || (areaCode == "135" && others.contains "140")

/-- `dp/area.py:515-583` -/
def outsideSpec (dept : Option String) (areaCode : String) (others : List String) : Y :=
  match dept with
  | none => .map [("message", .str "21 total credits must be completed outside of the courses in the major"),
      ("department-audited", .bool true)]
  | some dept =>
    if isHistoryAndStudio areaCode others then commonSpec
      "Students who double-major in studio art and art history are required to complete at least 18 full-course credits outside the SIS 'ART' subject code."
      (commonQuery (.map [("$and", .list [clause "subject" "$neq" (.str "ART"), clause "subject" "$neq" (.str "REG"),
          clause "subject" "$neq" (.str "OFFC"), clause "credits" "$eq" (.int 1)])])
        "sum(credits)" "$gte" 18)
    else if areaCode == "450" then commonSpec
      "21 total credits must be completed outside of the SIS 'subject' codes of the major: 'MUSIC', 'MUSPF', and 'MUSEN'."
      (commonQuery (.map [("$and", .list [
          clause "subject" "$nin" (.list [.str "MUSIC", .str "MUSPF", .str "MUSEN"]),
          clause "subject" "$neq" (.str "REG"), clause "subject" "$neq" (.str "OFFC")])])
        "sum(credits)" "$gte" 21)
    else commonSpec
      ("21 total credits must be completed outside of the SIS 'subject' code of the major, '" ++ dept ++ "'.")
      (commonQuery (.map [("$and", .list [clause "subject" "$neq" (.str dept), clause "subject" "$neq" (.str "REG"),
          clause "subject" "$neq" (.str "OFFC")])])
        "sum(credits)" "$gte" 21)

/-- one common rule: `load_rule(data={"requirement": name}, children={name: ...}, path=[..., f"[{i}]"])`,
`dp/area.py:436-466,502-508,585-591` -/
def loadCommon (env : Env) (name : String) (spec : Y) (i : Nat) : Except Err Node := do
  let data : Y := .map [("requirement", .str name)]
  match ← loadRule env (ruleFuel [(name, spec)] [] data) [(name, spec)] []
      ["$", "%Common Requirements", ".count", indexSeg i] data with
  | some r => .ok r
  | none => .error .assertion

/-- `prepare_common_rules`, `dp/area.py:425-595`. -/
def prepareCommonRules (env : Env) (degree : Option String) (dept : Option String) (otherAreas : List AreaPointer)
    (areaCode : String) : Except Err (List Node) := do
  let isBm := degree == some "B.M."
  let r0 ← loadCommon env "Credits at a C or higher" cOrBetterSpec 0
  let r1 ← loadCommon env "Credits taken S/U" (suSpec isBm) 1
  if isBm then .ok [r0, r1]
  else do
    let others := (otherAreas.filter (fun p => p.code ≠ areaCode)).map (·.code)
    let r2 ← loadCommon env "Credits outside the major" (outsideSpec dept areaCode others) 2
    .ok [r0, r1, r2]

/-! ### Areas -/

/-- `multicountable`, `dp/area.py:129-135` -/
def loadMulticountable (d : Dict) : Except Err Multicountable :=
  mapE (fun e => do
    let paths ← mapE (fun y => do
      let segs ← mapE Y.asText (← y.asList)
      .ok (segs.map (fun s => "%" ++ s))) (← Y.asList e.2)
    .ok (e.1, paths)) d

/-- `allowed_keys`, `dp/area.py:137` -/
def areaKeys : List String :=
  ["name", "type", "major", "degree", "code", "emphases", "result", "requirements", "limit", "multicountable",
   "credit", "exceptions-migrations"]

/-- the context rules are loaded in, `dp/area.py:93-98` -/
def loadCtx (st : Student) (es : List Exc) : Ctx :=
  { transcript := st.courses, withFailed := st.coursesWithFailed, exceptions := groupExceptions es,
    areas := st.areas, proficiencies := st.proficiencies }

/-- the declared emphases, `dp/area.py:91,104-107` -/
def declaredEmphases (st : Student) (emphases : Dict) (all : Bool) : Except Err (List Dict) :=
  mapE (fun e => Y.asDict e.2) (emphases.filter (fun e =>
    all || st.areas.any (fun a => a.kind == "Emphasis" && a.code == e.1)))

/-- `AreaOfStudy.load` without the emphases' own check, `dp/area.py:84-164`. -/
def loadAreaRules (c : Constants) (templates : List (String × TemplateCourse)) (st : Student) (es : List Exc)
    (allEmphases checkOnly : Bool) (spec : Dict) (emphases : Dict) : Except Err Area := do
  let env : Env := { ctx := loadCtx st es, c := c, templates := templates }
  let code ← spec.text "code"
  let code := code.getD "<null>"
  let pointer := st.areas.reverse.find? (fun p => p.code == code)
  let declared ← declaredEmphases st emphases allEmphases
  let children ← spec.dict "requirements"
  let data ← spec.need "result"
  let loaded ← loadRule env (ruleFuel children declared data) children declared ["$"] data
  match loaded with
  | none => .error .assertion
  | some rule => do
    let result := if checkOnly then applyBlocks es rule else prepareRule env.ctx es rule
    let limit ← loadLimits env.ctx c (spec.opt "limit")
    let multi ← loadMulticountable (← spec.dict "multicountable")
    let _ ← check (onlyKeys areaKeys spec)
    let kind ← spec.text "type"
    let degree ← spec.text "degree"
    let common ← prepareCommonRules env degree (pointer.bind (·.dept)) st.areas code
    .ok { kind := kind.getD "test", degree := degree.getD "None", limit := limit, result := result,
          multicountable := multi, commonRules := common }

/-- the check of the emphases, `dp/area.py:86-89`: each is loaded as an area without exceptions, and so are its
own emphases -/
def checkEmphases (c : Constants) (templates : List (String × TemplateCourse)) (st : Student) :
    Nat → Dict → Except Err Unit
  | 0, _ => .error .outOfFuel
  | _ + 1, [] => .ok ()
  | n + 1, (_, y) :: rest => do
    let spec ← y.asDict
    let emphases ← spec.dict "emphases"
    let _ ← checkEmphases c templates st n emphases
    let _ ← loadAreaRules c templates st [] false true spec emphases
    checkEmphases c templates st n rest

/-- `AreaOfStudy.load`, `dp/area.py:69-164`. -/
def loadArea (c : Constants) (templates : List (String × TemplateCourse)) (st : Student) (es : List Exc)
    (allEmphases : Bool) (spec : Dict) : Except Err Area := do
  let emphases ← spec.dict "emphases"
  let _ ← checkEmphases c templates st (Y.sizeDict emphases + 1) emphases
  loadAreaRules c templates st es allEmphases false spec emphases

end Dp
