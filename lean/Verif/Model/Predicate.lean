import Verif.Model.Op

/-
Model of course filters (`dp/predicate_clause.py`, `dp/data/course.py`) and of
the conditions used in `$if` (`dp/conditional_expression.py`).
-/
namespace Dp

/-- `Predicate`, `dp/predicate_clause.py:180-185` (without `original`, which is
only displayed). -/
structure PredLeaf where
  key : String
  op : Operator
  expected : Val
  duringCovid : Option Val := none
deriving DecidableEq, Repr

/-- `SomePredicate`, `dp/predicate_clause.py:234-240`. A condition is kept as
its `result` (read at `dp/predicate_clause.py:171`), which may be `None`. -/
inductive Pred where
  | and (ps : List Pred)
  | or (ps : List Pred)
  | not (p : Pred)
  | cond (result : Option Bool) (whenTrue : Pred) (whenFalse : Option Pred)
  | leaf (l : PredLeaf)

mutual
/-- `apply` of the five predicate classes, `dp/predicate_clause.py:118-120,
133-135,148-150,169-176,229-231`, given how leaves are evaluated. The
`lru_cache`s are left out. -/
def Pred.apply (leaf : PredLeaf → Except Err Bool) : Pred → Except Err Bool
  | .and ps => Pred.applyAll leaf ps
  | .or ps => Pred.applyAny leaf ps
  | .not p => match p.apply leaf with
    | .ok b => .ok (!b)
    | .error e => .error e
  | .cond result t e =>
    if result == some true then t.apply leaf
    else Pred.applyElse leaf e
  | .leaf l => leaf l

/-- `all(p.apply(to) for p in self.predicates)`, `dp/predicate_clause.py:120` -/
def Pred.applyAll (leaf : PredLeaf → Except Err Bool) : List Pred → Except Err Bool
  | [] => .ok true
  | p :: ps => match p.apply leaf with
    | .error e => .error e
    | .ok false => .ok false
    | .ok true => Pred.applyAll leaf ps

/-- `any(p.apply(to) for p in self.predicates)`, `dp/predicate_clause.py:135` -/
def Pred.applyAny (leaf : PredLeaf → Except Err Bool) : List Pred → Except Err Bool
  | [] => .ok false
  | p :: ps => match p.apply leaf with
    | .error e => .error e
    | .ok true => .ok true
    | .ok false => Pred.applyAny leaf ps

/-- the `elif`/`else` of `ConditionalPredicate.apply`, `dp/predicate_clause.py:173-176` -/
def Pred.applyElse (leaf : PredLeaf → Except Err Bool) : Option Pred → Except Err Bool
  | none => .ok false
  | some p => p.apply leaf
end

/-- `Predicate.compare`, `dp/predicate_clause.py:219-221`. -/
def PredLeaf.compare (l : PredLeaf) (v : Val) : Except Err Bool := applyOperator l.op v l.expected

/-- `Predicate.compare_in_covid`, `dp/predicate_clause.py:223-227` (a loaded
`expected` is never `None`, `dp/predicate_clause.py:335-339`). -/
def PredLeaf.compareInCovid (l : PredLeaf) (v : Val) : Except Err Bool :=
  match l.duringCovid with
  | none => l.compare v
  | some e => applyOperator l.op v e

/-- member names of `SubType`, `dp/data/course_enums.py:26-34` -/
def SubType.pyName : SubType → String
  | .discussion => "Discussion" | .ensemble => "Ensemble" | .flac => "Flac" | .lab => "Lab"
  | .research => "Research" | .seminar => "Seminar" | .topic => "Topic" | .normal => "Normal"

/-- member names of `CourseType`, `dp/data/course_enums.py:46-62` -/
def CourseType.pyName : CourseType → String
  | .semester => "Semester" | .interim => "Interim" | .summer => "Summer" | .carleton => "Carleton"
  | .interimExchange => "InterimExchange" | .offCampusCourse => "OffCampusCourse"
  | .offCampusProgram => "OffCampusProgram" | .continuingEducation => "ContinuingEducation"
  | .ap => "AP" | .pseo => "PSEO" | .adjustment => "Adjustment" | .geReq => "GeReq"
  | .other => "Other" | .transfer => "Transfer" | .paraCollege => "ParaCollege"

/-- an int or Decimal field; simplification: `str(Decimal)` is taken to be the
text of the rational (credits are only ever compared with Decimals,
`dp/predicate_clause.py:391-392`). -/
def numVal (v : Rat) : Val := .sc (.num v (toString v))
/-- an int field -/
def intVal (v : Int) : Val := .sc (.num v (toString v))
/-- a bool field -/
def boolVal (b : Bool) : Val := .sc (.num (if b then 1 else 0) (if b then "True" else "False"))
/-- a str field -/
def strVal (s : String) : Val := .sc (.str s)

/-- `CourseInstance.apply_predicate` and its lookup table,
`dp/data/course.py:149-285`. -/
def applyCourseLeaf (c : Course) (l : PredLeaf) : Except Err Bool :=
  if l.key == "ap" then
    if c.courseType == .ap then l.compare (strVal c.name) else .ok false
  else if l.key == "attributes" || l.key == "attribute" then
    l.compare (.tup (c.attributes.map .str))
  else if l.key == "clbid" then l.compare (strVal c.clbid)
  else if l.key == "course" then l.compare (strVal c.identity)
  else if l.key == "course_type" then l.compare (strVal c.courseType.pyName)
  else if l.key == "credits" then l.compare (numVal c.credits)
  else if l.key == "crsid" then l.compare (strVal c.crsid)
  else if l.key == "gereqs" then l.compare (.tup (c.gereqs.map .str))
  else if l.key == "grade" then
    if c.isDuringCovid then
      match c.gradeCode, c.suGradeCode with
      | .S, some g => l.compareInCovid (.sc (.grade g))
      | g, _ => l.compareInCovid (.sc (.grade g))
    else l.compare (.sc (.grade c.gradeCode))
  else if l.key == "grade_option" then l.compare (.sc (.option c.gradeOption))
  else if l.key == "institution" then l.compare (strVal c.institution)
  else if l.key == "is_in_gpa" then l.compare (boolVal c.isInGpa)
  else if l.key == "is_in_progress" then l.compare (boolVal c.isInProgress)
  else if l.key == "is_stolaf" then l.compare (boolVal c.isStolaf)
  else if l.key == "lab" then l.compare (boolVal c.isLab)
  else if l.key == "level" then l.compare (intVal c.level)
  else if l.key == "name" then l.compare (strVal c.name)
  else if l.key == "number" then l.compare (strVal c.number)
  else if l.key == "semester" then l.compare (strVal c.term)
  else if l.key == "subject" then
    match c.isChbi with
    | some n => if n == 125 || n == 126 then l.compare (strVal "CHEM") else l.compare (strVal "BIO")
    | none => l.compare (strVal c.subject)
  else if l.key == "type" then l.compare (strVal c.subType.pyName)
  else if l.key == "year" then l.compare (intVal c.year)
  else .error .assertion

/-- `predicate.apply(course)`. -/
def Pred.applyCourse (p : Pred) (c : Course) : Except Err Bool := p.apply (applyCourseLeaf c)

/-! ### Conditions -/

/-- The condition as written in the area file (`dp/conditional_expression.py`):
a tree over named tests such as `has-course: X`. -/
inductive CondSpec where
  | and (es : List CondSpec)
  | or (es : List CondSpec)
  | not (e : CondSpec)
  | test (function argument : String)

/-- A loaded condition, with its stored `result`
(`dp/conditional_expression.py:77-216`). -/
inductive CondExpr where
  | and (es : List CondExpr) (result : Option Bool)
  | or (es : List CondExpr) (result : Option Bool)
  | not (e : CondExpr) (result : Option Bool)
  | test (function argument : String) (result : Option Bool)

/-- the `result` attribute -/
def CondExpr.result : CondExpr → Option Bool
  | .and _ r | .or _ r | .not _ r | .test _ _ r => r

/-- python truth of an optional bool -/
def truthy (r : Option Bool) : Bool := r == some true

mutual
/-- `load` of the static condition classes,
`dp/conditional_expression.py:86-92,117-123,148-153,187-202`; `facts` answers
`evaluate_predicate_function`. -/
def CondExpr.load (facts : String → String → Bool) : CondSpec → CondExpr
  | .and es => let cs := CondExpr.loadAll facts es
    .and cs (some (cs.all (fun e => truthy e.result)))
  | .or es => let cs := CondExpr.loadAll facts es
    .or cs (some (cs.any (fun e => truthy e.result)))
  | .not e => let c := CondExpr.load facts e
    .not c (some (!truthy c.result))
  | .test f a => .test f a (some (facts f a))

/-- `tuple(load_predicate_expression(e) for e in ...)` -/
def CondExpr.loadAll (facts : String → String → Bool) : List CondSpec → List CondExpr
  | [] => []
  | e :: es => CondExpr.load facts e :: CondExpr.loadAll facts es
end

mutual
/-- `evaluate`, `dp/conditional_expression.py:101-105,132-136,162-166,212-216`. -/
def CondExpr.evaluate (facts : String → String → Bool) : CondExpr → CondExpr
  | .and es r =>
    if r.isSome then .and es r
    else
      let ev := CondExpr.evaluateAll facts es
      .and ev (some (ev.all (fun e => truthy e.result)))
  | .or es r =>
    if r.isSome then .or es r
    else
      let ev := CondExpr.evaluateAll facts es
      .or ev (some (ev.any (fun e => truthy e.result)))
  | .not e r =>
    if r.isSome then .not e r
    else
      let ev := CondExpr.evaluate facts e
      .not ev (some (!truthy ev.result))
  | .test f a r => if r.isSome then .test f a r else .test f a (some (facts f a))

/-- `tuple(e.evaluate(ctx) for e in self.expressions)` -/
def CondExpr.evaluateAll (facts : String → String → Bool) : List CondExpr → List CondExpr
  | [] => []
  | e :: es => CondExpr.evaluate facts e :: CondExpr.evaluateAll facts es
end

/-! ### Loading filters -/

/-- A filter as written in the area file, before loading: `$and`, `$or`, `$not`,
`$if`/`$then`/`$else`, or a dictionary of comparisons.  Simplification: the
comparisons' expected values are taken already processed
(`dp/predicate_clause.py:301-376` only converts them). -/
inductive RawPred where
  | and (ps : List RawPred)
  | or (ps : List RawPred)
  | not (p : RawPred)
  | ite (c : CondSpec) (t : RawPred) (e : Option RawPred)
  | dict (clauses : List PredLeaf)

mutual
/-- `load_predicate`, `dp/predicate_clause.py:243-298`. -/
def loadPredicate (facts : String → String → Bool) : RawPred → Except Err Pred
  | .and ps => match loadPredicates facts ps with
    | .error e => .error e
    | .ok [] => .error .assertion
    | .ok (q :: qs) => .ok (.and (q :: qs))
  | .or ps => match loadPredicates facts ps with
    | .error e => .error e
    | .ok [] => .error .assertion
    | .ok (q :: qs) => .ok (.or (q :: qs))
  | .not p => match loadPredicate facts p with
    | .error e => .error e
    | .ok q => .ok (.not q)
  | .ite c t e => match loadPredicate facts t with
    | .error x => .error x
    | .ok t' => match loadElse facts e with
      | .error x => .error x
      | .ok e' => .ok (.cond (CondExpr.load facts c).result t' e')
  | .dict clauses => match clauses with
    | [l] => .ok (.leaf l)
    | ls => .ok (.and (ls.map .leaf))

/-- `tuple(load_predicate(p) for p in ...)`, `dp/predicate_clause.py:256,264` -/
def loadPredicates (facts : String → String → Bool) : List RawPred → Except Err (List Pred)
  | [] => .ok []
  | p :: ps => match loadPredicate facts p with
    | .error e => .error e
    | .ok q => match loadPredicates facts ps with
      | .error e => .error e
      | .ok qs => .ok (q :: qs)

/-- the optional `$else`, `dp/predicate_clause.py:280-282` -/
def loadElse (facts : String → String → Bool) : Option RawPred → Except Err (Option Pred)
  | none => .ok none
  | some p => match loadPredicate facts p with
    | .error e => .error e
    | .ok q => .ok (some q)
end

/-! ### Other filtered records -/

/-- `AreaPointer`, `dp/data/area_pointer.py:18-26`; the enum members are kept by
their names; `terms_since_declaration` is only read by `Student.constants`
(`dp/data/student.py:160`). -/
structure AreaPointer where
  code : String
  status : String := "Declared"
  kind : String := "Major"
  name : String := ""
  degree : String := ""
  gpa : Option Rat := none
  dept : Option String := none
  termsSinceDeclaration : Option Int := none
deriving DecidableEq, Repr

/-- `AreaPointer.apply_predicate`, `dp/data/area_pointer.py:71-93`. -/
def applyAreaLeaf (a : AreaPointer) (l : PredLeaf) : Except Err Bool :=
  if l.key == "code" then l.compare (strVal a.code)
  else if l.key == "status" then l.compare (strVal a.status)
  else if l.key == "kind" || l.key == "type" then l.compare (strVal a.kind)
  else if l.key == "name" then l.compare (strVal a.name)
  else if l.key == "degree" then l.compare (strVal a.degree)
  else if l.key == "gpa" then
    match a.gpa with
    | some g => l.compare (numVal g)
    | none => .ok false
  else .error .typeError

/-- `MusicPerformance`, `dp/data/music.py:17-21,79-81`; `status` is the enum's value. -/
structure MusicPerformance where
  id : String
  name : String := ""
  year : Int := 2019
  term : Int := 1
  role : Option String := none
  status : Option String := none
deriving DecidableEq, Repr

/-- `MusicPerformance.apply_predicate` with `MusicSlip.apply_predicate`,
`dp/data/music.py:38-48,94-105`. -/
def applyPerformanceLeaf (m : MusicPerformance) (l : PredLeaf) : Except Err Bool :=
  if l.key == "status" then
    match m.status with
    | none => .ok false
    | some s => l.compare (strVal s)
  else if l.key == "role" then
    match m.role with
    | none => .ok false
    | some r => if r == "" then .ok false else l.compare (strVal r)
  else if l.key == "name" then l.compare (strVal m.name)
  else if l.key == "year" then l.compare (intVal m.year)
  else if l.key == "term" then l.compare (intVal m.term)
  else .error .typeError

/-! ### Conditions over the courses of a query -/

/-- `DynamicPredicateExpression*`, `dp/conditional_expression.py:219-324`. -/
inductive DynCond where
  | and (es : List DynCond)
  | or (es : List DynCond)
  | hasAttribute (a : String)
  | hasSingleAttribute (a : String)

mutual
/-- `evaluate_against_data` on a freshly loaded (result `None`) expression,
`dp/conditional_expression.py:260-262,289-293,320-324,356-370`; the attribute
test is `course_filter(attribute=...)`, `dp/data/student.py:427-429`. -/
def DynCond.eval (data : List Course) : DynCond → Bool
  | .and es => DynCond.evalAll data es
  | .or es => DynCond.evalAny data es
  | .hasAttribute a => data.any (fun c => c.attributes.contains a)
  | .hasSingleAttribute a => (data.filter (fun c => c.attributes.contains a)).length == 1
def DynCond.evalAll (data : List Course) : List DynCond → Bool
  | [] => true
  | e :: es => e.eval data && DynCond.evalAll data es
def DynCond.evalAny (data : List Course) : List DynCond → Bool
  | [] => false
  | e :: es => e.eval data || DynCond.evalAny data es
end

end Dp
