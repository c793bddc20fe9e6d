import Verif.Model.Yaml
import Verif.Model.Assertion

/-
Loading the parts of a rule: conditions, filters, limits and assertions
(`dp/constants.py`, `dp/conditional_expression.py`, `dp/predicate_clause.py`, `dp/limit.py`,
`dp/assertion_clause.py`).
-/
namespace Dp

/-! ### Constants -/

/-- The values a constant can have: `Constants`, `dp/constants.py:21-25`. -/
inductive ConstVal where
  | int (n : Int)
  | str (s : String)
  | strs (l : List String)

/-- `Constants`, `dp/constants.py:21-25`. -/
structure Constants where
  matriculationYear : Int := 0
  termsSinceDeclaringMajor : Int := 0
  primaryPerformingMedium : ConstVal := .str ""
  currentAreaCode : String := ""

/-- `Constants.get_by_name` of a text, `dp/constants.py:27-57`; an unknown name after `$`
raises ValueError. -/
def Constants.getByName (c : Constants) (v : String) : Except Err ConstVal :=
  if v.toList.head? ≠ some '$' then .ok (.str v)
  else if v == "$matriculation-year" then .ok (.int c.matriculationYear)
  else if v == "$terms-since-declaring-major" then .ok (.int c.termsSinceDeclaringMajor)
  else if v == "$primary-performing-medium" then .ok c.primaryPerformingMedium
  else if v == "$current-area-code" then .ok (.str c.currentAreaCode)
  else if v == "$current-area-code-music-exam" then .ok (.str ("Exam: " ++ c.currentAreaCode))
  else .error .valueError

/-! ### Conditions -/

mutual
/-- `load_predicate_expression` and the `load` functions it calls,
`dp/conditional_expression.py:86-92,117-123,148-153,187-202,381-404`: the stored result.
Every accepted dictionary has exactly one key. -/
def loadCond (x : Ctx) : Y → Except Err Bool
  | .map [(k, .list l)] =>
    if k == "$and" then do
      let bs ← loadConds x l
      .ok (bs.all id)
    else if k == "$or" then do
      let bs ← loadConds x l
      .ok (bs.any id)
    else .error .typeError
  | .map [(k, .str s)] => x.fact k s
  | .map [(k, v)] =>
    if k == "$not" then do
      let b ← loadCond x v
      .ok (!b)
    else .error .typeError
  | _ => .error .typeError
/-- `tuple(load_predicate_expression(e) for e in ...)` -/
def loadConds (x : Ctx) : List Y → Except Err (List Bool)
  | [] => .ok []
  | y :: ys => do
    let b ← loadCond x y
    let bs ← loadConds x ys
    .ok (b :: bs)
end

mutual
/-- `load_dynamic_predicate_expression` and the `load` functions it calls,
`dp/conditional_expression.py:236-250,275-280,306-311,410-434`. -/
def loadDyn : Y → Except Err DynCond
  | .map [(k, .list l)] =>
    if k == "$and" then do
      let es ← loadDyns l
      .ok (.and es)
    else if k == "$or" then do
      let es ← loadDyns l
      .ok (.or es)
    else .error .typeError
  | .map [(k, .str s)] =>
    if k == "query-has-course-with-attribute" then .ok (.hasAttribute s)
    else if k == "query-has-single-course-with-attribute" then .ok (.hasSingleAttribute s)
    else .error .typeError
  | _ => .error .typeError
/-- `tuple(load_dynamic_predicate_expression(e) for e in ...)` -/
def loadDyns : List Y → Except Err (List DynCond)
  | [] => .ok []
  | y :: ys => do
    let e ← loadDyn y
    let es ← loadDyns ys
    .ok (e :: es)
end

/-! ### Filters -/

/-- `Operator(k)`, `dp/op.py:9-17` -/
def parseOperator (k : String) : Option Operator :=
  if k == "$lt" then some .lt
  else if k == "$lte" then some .lte
  else if k == "$gt" then some .gt
  else if k == "$gte" then some .gte
  else if k == "$eq" then some .eq
  else if k == "$neq" then some .neq
  else if k == "$in" then some .in'
  else if k == "$nin" then some .nin
  else none

/-- the operators among the keys of a clause: `[k for k in value.keys() if is_operator(k)]`
with the assertion that there is one, `dp/predicate_clause.py:323-326`,
`dp/assertion_clause.py:634-637` -/
def theOperator (d : Dict) : Except Err (Operator × Y) :=
  match d.filterMap (fun e => (parseOperator e.1).map (fun op => (op, e.2))) with
  | [r] => .ok r
  | _ => .error .assertion

/-- `GradeCode(s)`, `dp/data/course_enums.py:89-118` -/
def parseGrade (s : String) : Option GradeCode :=
  if s == "A" then some .A else if s == "A+" then some .Aplus else if s == "A-" then some .Aminus
  else if s == "B" then some .B else if s == "B+" then some .Bplus else if s == "B-" then some .Bminus
  else if s == "C" then some .C else if s == "C+" then some .Cplus else if s == "C-" then some .Cminus
  else if s == "D" then some .D else if s == "D+" then some .Dplus else if s == "D-" then some .Dminus
  else if s == "F" then some .F
  else if s == "BC" then some .BC else if s == "AB" then some .AB else if s == "NG" then some .NG
  else if s == "IP" then some .IP else if s == "I" then some .I else if s == "P" then some .P
  else if s == "N" then some .N else if s == "S" then some .S else if s == "U" then some .U
  else if s == "AU" then some .AU else if s == "UA" then some .UA else if s == "WF" then some .WF
  else if s == "WP" then some .WP else if s == "W" then some .W else if s == "DP_REG" then some .REG
  else none

/-- `GradeOption(s)`, `dp/data/course_enums.py:7-12` -/
def parseGradeOption (s : String) : Option GradeOption :=
  if s == "audit" then some .audit
  else if s == "grade" then some .grade
  else if s == "no grade" then some .noGrade
  else if s == "p/n" then some .pn
  else if s == "s/u" then some .su
  else none

/-- `str_to_grade_points`, `dp/lib.py:30-31`, with `grade_code_to_points`,
`dp/data/course_enums.py:178-192` -/
def gradePointsOf : GradeCode → Rat
  | .Aplus | .A => 4
  | .Aminus => 37 / 10
  | .Bplus => 33 / 10
  | .B => 3
  | .Bminus => 27 / 10
  | .Cplus => 23 / 10
  | .C => 2
  | .Cminus => 17 / 10
  | .Dplus => 13 / 10
  | .D => 1
  | .Dminus => 7 / 10
  | _ => 0

/-- a constant as comparison value -/
def ConstVal.val : ConstVal → Val
  | .int n => intVal n
  | .str s => strVal s
  | .strs l => .tup (l.map .str)

/-- one element of a list of values, with constants replaced and flattened,
`dp/predicate_clause.py:363-365`.  Simplification: elements that are lists, dictionaries or
floats are errors. -/
def loadElement (c : Constants) : Y → Except Err (List Sc)
  | .null => .ok [.missing]
  | .bool b => .ok [.num (if b then 1 else 0) (if b then "True" else "False")]
  | .int n => .ok [.num n (toString n)]
  | .str s => do
    match ← c.getByName s with
    | .int n => .ok [.num n (toString n)]
    | .str t => .ok [.str t]
    | .strs l => .ok (l.map .str)
  | _ => .error .typeError

/-- `load_expected_value` before `clause_value_process`, `dp/predicate_clause.py:346-365` -/
def loadRawValue (c : Constants) : Y → Except Err Val
  | .null => .error .assertion
  | .bool b => .ok (boolVal b)
  | .int n => .ok (intVal n)
  | .float _ => .error .typeError
  | .str s => do
    let v ← c.getByName s
    .ok v.val
  | .list l => do
    let es ← mapE (loadElement c) l
    .ok (.tup es.flatten)
  | .map _ => .error .typeError

/-- `GradeCode(v)` of an element -/
def gradeElement : Sc → Except Err Sc
  | .str s => match parseGrade s with
    | some g => .ok (.grade g)
    | none => .error .valueError
  | _ => .error .valueError

/-- `clause_value_process`, `dp/predicate_clause.py:373-409`.  Simplification: `Decimal` of
a list (python reads a triple as sign, digits, exponent) is an error. -/
def processValue (key : String) (v : Val) : Except Err Val :=
  if key == "grade" then
    match v with
    | .tup l => do
      let l' ← mapE gradeElement l
      .ok (.tup l')
    | .sc s => do
      let g ← gradeElement s
      .ok (.sc g)
  else if key == "grade_option" then
    match v with
    | .sc (.str s) => match parseGradeOption s with
      | some o => .ok (.sc (.option o))
      | none => .error .valueError
    | _ => .error .valueError
  else if key == "credits" || key == "gpa" then
    match v with
    | .sc (.num q t) => .ok (.sc (.num q t))
    | .sc (.str s) => match parseDecimal s with
      | some q => .ok (.sc (.num q s))
      | none => .error .other
    | _ => .error .typeError
  else .ok v

/-- `load_expected_value`, `dp/predicate_clause.py:345-370` -/
def loadValue (c : Constants) (key : String) (y : Y) : Except Err Val := do
  let v ← loadRawValue c y
  processValue key v

/-- the keys of `clause_application_lookup`, `dp/data/course.py:261-285` -/
def courseKeys : List String :=
  ["ap", "attributes", "attribute", "clbid", "course", "course_type", "credits", "crsid", "gereqs",
   "grade", "grade_option", "institution", "is_in_gpa", "is_in_progress", "is_stolaf", "lab", "level",
   "name", "number", "semester", "subject", "type", "year"]

/-- `allowed_keys` of a filter, `dp/predicate_clause.py:312-319`; recitals raise -/
def filterKeys : DataType → Except Err (List String)
  | .course => .ok courseKeys
  | .area => .ok ["code", "status", "kind", "type", "name", "degree", "gpa"]
  | .musicPerformance => .ok ["name", "status", "role"]
  | .recital => .error .other

/-- the null checks of `load_single_predicate`, `dp/predicate_clause.py:336-339`; only a list or a
text can be iterated -/
def valueOk (op : Operator) (v : Val) : Except Err Unit :=
  if op = .in' ∨ op = .nin then
    match v with
    | .tup l => check (l.all (· ≠ .missing))
    | .sc (.str _) => .ok ()
    | .sc _ => .error .typeError
  else .ok ()

/-- `load_single_predicate`, `dp/predicate_clause.py:301-342`.  Keys of the clause other than the
operator and `$during_covid` are not looked at. -/
def loadLeaf (c : Constants) (mode : DataType) (key : String) (y : Y) : Except Err PredLeaf := do
  let d ← y.asDict
  let allowed ← filterKeys mode
  let _ ← check (allowed.contains key)
  let (op, raw) ← theOperator d
  let v ← loadValue c key raw
  let covid ← (match d.get? "$during_covid" with
    | none => .ok none
    | some raw' => (loadValue c key raw').map some)
  let _ ← valueOk op v
  .ok { key := key, op := op, expected := v, duringCovid := covid }

/-- `load_predicate`, `dp/predicate_clause.py:243-298`, to a given depth (`Y.size` is deep enough,
see `loadFilter`). -/
def loadPred (x : Ctx) (c : Constants) (mode : DataType) : Nat → Y → Except Err Pred
  | 0, _ => .error .outOfFuel
  | n + 1, y => do
    let d ← y.asDict
    if d.has "$and" then do
      let _ ← check (d.length = 1)
      let l ← (← d.need "$and").asList
      let ps ← mapE (loadPred x c mode n) l
      let _ ← check (!ps.isEmpty)
      .ok (.and ps)
    else if d.has "$or" then do
      let _ ← check (d.length = 1)
      let l ← (← d.need "$or").asList
      let ps ← mapE (loadPred x c mode n) l
      let _ ← check (!ps.isEmpty)
      .ok (.or ps)
    else if d.has "$not" then do
      let _ ← check (d.length = 1)
      let p ← loadPred x c mode n (← d.need "$not")
      .ok (.not p)
    else if d.has "$if" then do
      let b ← loadCond x (← d.need "$if")
      let t ← loadPred x c mode n (← d.need "$then")
      let e ← (match d.opt "$else" with
        | none => .ok none
        | some ye => (loadPred x c mode n ye).map some)
      .ok (.cond (some b) t e)
    else do
      let ls ← mapE (fun e => loadLeaf c mode e.1 e.2) d
      match ls with
      | [l] => .ok (.leaf l)
      | ls => .ok (.and (ls.map .leaf))

/-- `load_predicate`, `dp/predicate_clause.py:243-298`. -/
def loadFilter (x : Ctx) (c : Constants) (mode : DataType) (y : Y) : Except Err Pred :=
  loadPred x c mode y.size y

/-- an optional filter, `dp/rule/query.py:55-57`, `dp/assertion_clause.py:609-611` -/
def loadOptFilter (x : Ctx) (c : Constants) (mode : DataType) (o : Option Y) : Except Err (Option Pred) :=
  match o with
  | none => .ok none
  | some y => (loadFilter x c mode y).map some

/-! ### Limits -/

/-- `text.split()`: the words between blanks -/
def splitWords (s : String) : List String :=
  (((s.toList.splitOnP (·.isWhitespace)).filter (fun w => !w.isEmpty))).map (fun w => String.ofList w)

/-- the amount and what it counts, `dp/limit.py:61-77`; `int(at_most)` cuts off the fraction of a number that is not written as
a text.  Simplification: such numbers with an exponent are errors. -/
def loadAmount : Y → Except Err (Rat × AtMostWhat)
  | .int n => .ok ((n : Rat), .courses)
  | .bool b => .ok ((if b then 1 else 0), .courses)
  | .float t => match parseDecimal t with
    | some q => .ok ((truncInt q : Rat), .courses)
    | none => .error .other
  | .str s => match parseInt s.toList with
    | some n => .ok ((n : Rat), .courses)
    | none => match splitWords s with
      | [n, what] => match parseDecimal n with
        | none => .error .other
        | some q =>
          if what == "course" || what == "courses" then .ok (q, .courses)
          else if what == "credit" || what == "credits" then .ok (q, .credits)
          else .error .valueError
      | _ => .error .valueError
  | _ => .error .typeError

/-- the `at-most` value: `data.get("at most", data.get("at-most", data.get("at_most", None)))`,
`dp/limit.py:49-52` -/
def atMostValue (d : Dict) : Except Err Y :=
  match (if d.has "at most" then d.opt "at most"
         else if d.has "at-most" then d.opt "at-most" else d.opt "at_most") with
  | some v => .ok v
  | none => .error .other

/-- the keys a limit may have, `dp/limit.py:54` -/
def limitKeys : List String := ["at most", "at-most", "at_most", "where", "message"]

/-- `Limit.load`, `dp/limit.py:47-79`. -/
def loadLimit (x : Ctx) (c : Constants) (y : Y) : Except Err Limit := do
  let d ← y.asDict
  let v ← atMostValue d
  let _ ← check (onlyKeys limitKeys d)
  let w ← loadFilter x c .course (← d.need "where")
  let (q, what) ← loadAmount v
  let message ← d.text "message"
  .ok { atMost := q, what := what, where' := w, message := message }

/-- `LimitSet.load`, `dp/limit.py:137-141`. -/
def loadLimits (x : Ctx) (c : Constants) (y : Option Y) : Except Err (List Limit) :=
  match y with
  | none => .ok []
  | some v => do
    let l ← v.asList
    mapE (loadLimit x c) l

/-! ### Assertions -/

/-- `course_actions`, `area_actions`, `other_actions`, `dp/apply_clause.py:240-268`, and their
choice, `dp/assertion_clause.py:624-629` -/
def actionKeys : DataType → List String
  | .course => ["count(courses)", "count(distinct_courses)", "count(terms_from_most_common_course)",
      "count(terms_from_most_common_course_by_name)", "count(math_perspectives)",
      "count(religion_traditions)", "count(intlr_regions)", "count(subjects)", "count(terms)",
      "count(years)", "sum(credits)", "sum(credits_from_single_subject)", "average(grades)",
      "average(credits)"]
  | .area => ["count(areas)"]
  | _ => ["count(items)", "count(performances)", "count(seminars)", "count(recitals)"]

/-- one change of the expected number: `ValueChange.load` and its application,
`dp/assertion_clause.py:45-63,650-661` -/
def applyChange (x : Ctx) (expected : Rat) (y : Y) : Except Err Rat := do
  match y with
  | .list [cond, action] =>
    let b ← loadCond x cond
    let d ← action.asDict
    match d with
    | [(mode, amount)] =>
      let _ ← check (["add", "subtract", "set"].contains mode) .valueError
      let q ← amount.asDecimal
      .ok (if !b then expected
        else if mode == "add" then expected + q
        else if mode == "subtract" then expected - q
        else q)
    | _ => .error .assertion
  | _ => .error .typeError

/-- all changes, in order -/
def applyChanges (x : Ctx) : Rat → List Y → Except Err Rat
  | q, [] => .ok q
  | q, y :: ys => do
    let q' ← applyChange x q y
    applyChanges x q' ys

/-- `load_expected_value`, `dp/assertion_clause.py:705-726`. -/
def loadExpected (c : Constants) : Y → Except Err Rat
  | .int n => .ok (n : Rat)
  | .str s => do
    match ← c.getByName s with
    | .int n => .ok (n : Rat)
    | .str t => (Y.str t).asDecimal
    | .strs _ => .error .assertion
  | .null => .error .assertion
  | .bool _ => .error .assertion
  | _ => .error .typeError

/-- the keys of the comparison, `dp/assertion_clause.py:677` -/
def comparisonKeys : List String :=
  ["where", "message", "label", "assert", "$changes", "at_most", "treat_in_progress_as_pass",
   "$lt", "$lte", "$gt", "$gte", "$eq", "$neq", "$in", "$nin"]

/-- the value set by an exception at exactly this path, `dp/assertion_clause.py:663-665` -/
def overrideValue (d : ExcDict) (p : Path) (expected : Rat) : Rat :=
  match getValueException d p with
  | some e => match e.kind with
    | .value v => v
    | _ => expected
  | none => expected

/-- the list of changes, `dp/assertion_clause.py:643-646` -/
def changesOf (d : Dict) : Except Err (List Y) :=
  match d.get? "$changes" with
  | none => .ok []
  | some (.list l) => .ok l
  | some (.map []) => .ok []
  | some _ => .error .typeError

/-- `load_single_assertion`, `dp/assertion_clause.py:596-702`.  The dictionary around the
comparison is not checked for unknown keys. -/
def loadSingle (x : Ctx) (c : Constants) (dataType : DataType) (path : Path) (y : Y) :
    Except Err Assertion := do
  let path := path ++ [".assert"]
  let data ← y.asDict
  let w ← loadOptFilter x c dataType (data.opt "where")
  let _ ← data.text "message"
  let _ ← data.text "label"
  let body ← (← data.need "assert").asDict
  match body with
  | [(key, value)] =>
    let _ ← check ((actionKeys dataType).contains key)
    let d ← value.asDict
    let (op, raw) ← theOperator d
    let _ ← check (op ≠ .in' ∧ op ≠ .nin)
    let _ ← check (!d.has "$ifs")
    let changes ← changesOf d
    let written ← loadExpected c raw
    let changed ← applyChanges x written changes
    let expected := overrideValue x.exceptions path changed
    let atMost ← d.flag "at_most" false
    let treat ← d.flag "treat_in_progress_as_pass" false
    let overridden := (getWaiveException x.exceptions path).isSome
    let _ ← check (onlyKeys comparisonKeys d)
    .ok { path := path, state := if overridden then .waived else .empty, dataType := dataType,
          where' := w, key := key, op := op, expected := expected, atMost := atMost,
          treatInProgressAsPass := treat, overridden := overridden }
  | _ => .error .assertion

/-- `Assertion.load` with `ConditionalAssertion.load`, `dp/assertion_clause.py:93-109,304-327`. -/
def loadAssertion (x : Ctx) (c : Constants) (dataType : DataType) (path : Path) (y : Y) :
    Except Err AnyAssertion := do
  let data ← y.asDict
  if data.has "$if" then do
    let b ← loadCond x (← data.need "$if")
    let t ← loadSingle x c dataType (path ++ ["/t"]) (← data.need "$then")
    let f ← (match data.opt "$else" with
      | none => .ok none
      | some ye => (loadSingle x c dataType (path ++ ["/f"]) ye).map some)
    .ok (.cond (some b) t f)
  else do
    let a ← loadSingle x c dataType path y
    .ok (.single a)

/-- `DynamicConditionalAssertion.load`, `dp/assertion_clause.py:411-430`. -/
def loadAnyAssertion (x : Ctx) (c : Constants) (dataType : DataType) (path : Path) (y : Y) :
    Except Err AnyAssertion := do
  let data ← y.asDict
  if data.has "$when" then do
    let _ ← check (dataType = .course)
    let cond ← loadDyn (← data.need "$when")
    let t ← loadSingle x c dataType (path ++ ["/t"]) (← data.need "$then")
    .ok (.dyn cond none t)
  else loadAssertion x c dataType path y

end Dp
