import Verif.Model.Context
import Verif.Model.Limit
import Mathlib.Data.List.Dedup

/-
Assertions: `dp/apply_clause.py`, `dp/assertion_clause.py`, `dp/lib.py`.
-/
namespace Dp

/-! ### Counting and summing (`dp/apply_clause.py`) -/

/-- The records an assertion can be evaluated on (`Clausable`). -/
inductive Item where
  | course (c : Course)
  | area (a : AreaPointer)
  | performance (m : MusicPerformance)
  | attendance (m : MusicPerformance)
deriving DecidableEq, Repr

/-- `item.apply_predicate`; attendances have no status and role keys
(`dp/data/music.py:38-48,112`). -/
def Item.applyLeaf : Item → PredLeaf → Except Err Bool
  | .course c, l => applyCourseLeaf c l
  | .area a, l => applyAreaLeaf a l
  | .performance m, l => applyPerformanceLeaf m l
  | .attendance m, l =>
    if l.key == "status" || l.key == "role" then .error .typeError else applyPerformanceLeaf m l

/-- `[item for item in data if where.apply(item)]` -/
def filterItems (p : Pred) : List Item → Except Err (List Item)
  | [] => .ok []
  | i :: is => match p.apply i.applyLeaf with
    | .error e => .error e
    | .ok b => match filterItems p is with
      | .error e => .error e
      | .ok rest => .ok (if b then i :: rest else rest)

/-- `AppliedClauseResult`, `dp/apply_clause.py:14-28`; the displayed `data` is left
out.  `courses` stands for a set or tuple; only membership is ever used. -/
structure Applied where
  value : Rat
  courses : List Course := []
deriving DecidableEq, Repr

/-- `grade_point_average_items`, `dp/lib.py:9-10`. -/
def gpaItems (cs : List Course) : List Course := cs.filter (·.isInGpa)

/-- `Decimal.quantize(Decimal('1.00'), rounding=ROUND_DOWN)`: cut towards zero to
two decimals. -/
def truncate2 (q : Rat) : Rat := (truncInt (q * 100) : Rat) / 100

/-- `grade_point_average`, `dp/lib.py:13-27`. -/
def gradePointAverage (cs : List Course) : Rat :=
  let gp := ((gpaItems cs).map (·.gpaPoints)).sum
  let credits := ((gpaItems cs).map (·.credits)).sum
  if credits = 0 then 0 else truncate2 (gp / credits)

/-- `yearterm`, `dp/data/course.py:399`. -/
def Course.yearterm (c : Course) : String := toString c.year ++ c.term

/-- the loops that keep a course when its key is new:
`dp/apply_clause.py:44-53,86-102,105-115,157-167` -/
def countNew (key : Course → String) (cs : List Course) : Applied :=
  let (keys, courses) := cs.foldl (init := ([], [])) fun (acc : List String × List Course) c =>
    if acc.1.contains (key c) then acc else (acc.1 ++ [key c], acc.2 ++ [c])
  { value := (keys.length : Rat), courses := courses }

/-- `Counter(...).most_common(1)[0]`: the first key (in order of first occurrence)
with the greatest count. -/
def mostCommon (keys : List String) : Option String :=
  (keys.foldl (init := []) fun acc k => if acc.contains k then acc else acc ++ [k]).foldl
    (init := none) fun best k =>
      match best with
      | none => some k
      | some b => if keys.count b < keys.count k then some k else some b

/-- `count_terms_from_most_common_course[_by_name]`, `dp/apply_clause.py:56-83`.
`again` is what a second iteration over `data` gives: the same courses for a list,
nothing for an exhausted generator. -/
def countTermsMostCommon (key : Course → String) (cs again : List Course) : Applied :=
  match mostCommon (cs.map key) with
  | none => { value := 0 }
  | some k =>
    let courses := again.filter (fun c => key c == k)
    { value := ((courses.map Course.yearterm).dedup.length : Rat), courses := courses }

/-- `count_subjects`' key, `dp/apply_clause.py:91-96`. -/
def subjectKey (c : Course) : String :=
  if c.subject == "CH/BI" then (if c.number == "125" || c.number == "126" then "CHEM" else "BIO")
  else c.subject

/-- `s.startswith(p)` -/
def hasPrefix (s p : String) : Bool := s.toList.take p.toList.length == p.toList

/-- `count_math_perspectives`, `count_religion_traditions`, `count_intlr_regions`,
`dp/apply_clause.py:118-154`. -/
def countBuckets (pre : String) (cs : List Course) : Applied :=
  { value := (((cs.flatMap (·.attributes)).filter (hasPrefix · pre)).dedup.length : Rat),
    courses := cs.filter (fun c => c.attributes.any (hasPrefix · pre)) }

/-- the subjects' credit totals and the greatest `(credits, subject)` pair,
`dp/apply_clause.py:208-213` -/
def bestSubject (cs : List Course) : Option String :=
  ((cs.map (·.subject)).dedup.foldl (init := none) fun best s =>
    let total := sumCredits (cs.filter (fun c => c.subject == s))
    match best with
    | none => some (total, s)
    | some (t, b) => if t < total ∨ (t = total ∧ b < s) then some (total, s) else some (t, b)).map (·.2)

/-- `avg_or_0`, `dp/apply_clause.py:292-296`. -/
def avgOr0 (items : List Rat) : Rat := if items = [] then 0 else items.sum / (items.length : Rat)

/-- `course_actions` and `apply_clause_to_assertion_with_courses`,
`dp/apply_clause.py:37-274`.  `again` as in `countTermsMostCommon`. -/
def applyCourses (key : String) (cs again : List Course) : Except Err Applied :=
  if key == "count(courses)" then .ok { value := (cs.dedup.length : Rat), courses := cs.dedup }
  else if key == "count(distinct_courses)" then .ok (countNew (·.crsid) cs)
  else if key == "count(terms_from_most_common_course)" then
    .ok (countTermsMostCommon (·.crsid) cs again)
  else if key == "count(terms_from_most_common_course_by_name)" then
    .ok (countTermsMostCommon (fun c => c.subject ++ ": " ++ c.name) cs again)
  else if key == "count(math_perspectives)" then .ok (countBuckets "math_perspective_" cs)
  else if key == "count(religion_traditions)" then .ok (countBuckets "rel_tradition_" cs)
  else if key == "count(intlr_regions)" then .ok (countBuckets "intlr_region_" cs)
  else if key == "count(subjects)" then .ok (countNew subjectKey cs)
  else if key == "count(terms)" then .ok (countNew Course.yearterm cs)
  else if key == "count(years)" then .ok (countNew (fun c => toString c.year) cs)
  else if key == "sum(credits)" then
    let cs' := cs.filter (fun c => c.credits ≠ 0)
    .ok { value := sumCredits cs', courses := cs' }
  else if key == "sum(credits_from_single_subject)" then
    let cs' := cs.filter (fun c => c.credits ≠ 0)
    match bestSubject cs' with
    | none => .ok { value := 0 }
    | some s =>
      let best := cs'.filter (fun c => c.subject == s)
      .ok { value := sumCredits best, courses := best }
  else if key == "average(grades)" then
    .ok { value := gradePointAverage cs, courses := gpaItems again }
  else if key == "average(credits)" then
    .ok { value := avgOr0 ((cs.map (·.credits)).filter (· ≠ 0)),
          courses := again.filter (fun c => c.credits ≠ 0) }
  else .error .assertion

/-- attribute access fails on a record of the wrong kind (an inserted course among
areas or performances) -/
def itemCourses : List Item → Except Err (List Course)
  | [] => .ok []
  | .course c :: rest => match itemCourses rest with
    | .error e => .error e
    | .ok cs => .ok (c :: cs)
  | _ :: _ => .error .other

/-- `a.code for a in data`, `dp/apply_clause.py:171` -/
def itemCodes : List Item → Except Err (List String)
  | [] => .ok []
  | .area a :: rest => match itemCodes rest with
    | .error e => .error e
    | .ok cs => .ok (a.code :: cs)
  | _ :: _ => .error .other

/-- `a.id for a in data`, `dp/apply_clause.py:176,181` -/
def itemIds : List Item → Except Err (List String)
  | [] => .ok []
  | .performance m :: rest | .attendance m :: rest => match itemIds rest with
    | .error e => .error e
    | .ok cs => .ok (m.id :: cs)
  | _ :: _ => .error .other

/-- `apply_clause_to_assertion_with_areas`, `dp/apply_clause.py:170-172,277-280`. -/
def applyAreas (key : String) (is : List Item) : Except Err Applied :=
  if key == "count(areas)" then
    match itemCodes is with
    | .error e => .error e
    | .ok codes => .ok { value := (codes.dedup.length : Rat) }
  else .error .assertion

/-- `apply_clause_to_assertion_with_data`, `dp/apply_clause.py:31-34,175-187,283-286`.
Simplification: `count(items)` counts distinct records, the code distinct `repr`s. -/
def applyItems (key : String) (is : List Item) : Except Err Applied :=
  if key == "count(items)" then .ok { value := (is.dedup.length : Rat) }
  else if key == "count(performances)" || key == "count(recitals)" then
    match itemIds is with
    | .error e => .error e
    | .ok ids => .ok { value := (ids.dedup.length : Rat) }
  else if key == "count(seminars)" then .error .typeError
  else .error .assertion

/-! ### Assertions (`dp/assertion_clause.py`) -/

/-- `DataType`, `dp/data_type.py:5-9`. -/
inductive DataType where
  | course | area | musicPerformance | recital
deriving DecidableEq, Repr

/-- `Assertion`, `dp/assertion_clause.py:68-92`; display-only fields (`original`,
`changes`, `message`, `label`, `resolved_items`) are left out. -/
structure Assertion where
  path : Path
  state : Status := .empty
  dataType : DataType := .course
  where' : Option Pred := none
  key : String
  op : Operator
  expected : Rat
  atMost : Bool := false
  treatInProgressAsPass : Bool := false
  evaluated : Bool := false
  overridden : Bool := false
  resolved : Option Rat := none
  resolvedClbids : List String := []
  insertedClbids : List String := []

/-- `apply_operator(lhs=value, op=op, rhs=expected)` on two Decimals. -/
def compareNum (op : Operator) (v e : Rat) : Except Err Bool := applyOperator op (numVal v) (numVal e)

/-- The status of an unmet comparison, `dp/assertion_clause.py:495-508,522-535,578-591`. -/
def unmetStatus (op : Operator) (v e : Rat) : Status :=
  if op = .gt ∧ 0 < v ∧ v ≤ e then .needsMoreItems
  else if op = .gte ∧ 0 < v ∧ v < e then .needsMoreItems
  else if op = .eq ∧ 0 < v ∧ v < e then .needsMoreItems
  else if op = .lt ∨ op = .lte then .failedInvariant
  else .empty

/-- `evaluate_with_areas`, `evaluate_with_items`, `dp/assertion_clause.py:486-537`. -/
def evaluatePlain (a : Assertion) (r : Applied) : Except Err (Status × Applied) :=
  match compareNum a.op r.value a.expected with
  | .error e => .error e
  | .ok true => .ok (.done, r)
  | .ok false => .ok (unmetStatus a.op r.value a.expected, r)

/-- The status of a met comparison over courses, `dp/assertion_clause.py:545-576`. -/
def metStatus (a : Assertion) (cs : List Course) (r : Applied) : Except Err Status :=
  let hasIp := r.courses.any (·.isInProgress)
  let noIp : Except Err Bool :=
    if hasIp then
      -- the non-IP courses are given as a one-shot generator
      match applyCourses a.key (cs.filter (fun c => !c.isInProgress)) [] with
      | .error e => .error e
      | .ok r' => compareNum a.op r'.value a.expected
    else .ok true
  match noIp with
  | .error e => .error e
  | .ok ok =>
    if a.treatInProgressAsPass || ok then .ok .done
    else if hasIp then
      let enrolled := r.courses.any (·.isInProgressThisTerm)
      let registered := r.courses.any (·.isInProgressInFuture)
      let incomplete := r.courses.any (·.isIncomplete)
      if !(enrolled || registered || incomplete) then .error .assertion
      else if (enrolled || incomplete) && !registered then .ok .pendingCurrent
      else if registered then .ok .pendingRegistered
      else .error .other
    else .ok .done

/-- `evaluate_with_courses`, `dp/assertion_clause.py:540-593`. -/
def evaluateCourses (a : Assertion) (cs : List Course) : Except Err (Status × Applied) :=
  match applyCourses a.key cs cs with
  | .error e => .error e
  | .ok r => match compareNum a.op r.value a.expected with
    | .error e => .error e
    | .ok true => match metStatus a cs r with
      | .error e => .error e
      | .ok s => .ok (s, r)
    | .ok false => .ok (unmetStatus a.op r.value a.expected, r)

/-- `Assertion.evaluate`, `dp/assertion_clause.py:235-246`. -/
def Assertion.evaluate (a : Assertion) (is : List Item) : Except Err (Status × Applied) :=
  match a.dataType with
  | .course => match itemCourses is with
    | .error e => .error e
    | .ok cs => evaluateCourses a cs
  | .area => match applyAreas a.key is with
    | .error e => .error e
    | .ok r => evaluatePlain a r
  | .musicPerformance | .recital => match applyItems a.key is with
    | .error e => .error e
    | .ok r => evaluatePlain a r

/-- the insertion loop, `dp/assertion_clause.py:200-213`: the extended data and the
inserted clbids -/
def insertInto (x : Ctx) : List Exc → List Item → List String → Except Err (List Item × List String)
  | [], out, ins => .ok (out, ins)
  | e :: es, out, ins => match e.kind with
    | .insertion clbid forced => match x.forcedCourseByClbid clbid with
      | .error err => .error err
      | .ok c =>
        if forced then insertInto x es (out ++ [.course c]) (ins ++ [c.clbid])
        else match x.findCourseByClbid clbid with
          | some c' => insertInto x es (out ++ [.course c']) (ins ++ [c'.clbid])
          | none => insertInto x es out ins
    | _ => insertInto x es out ins

/-- the block loop, `dp/assertion_clause.py:215-221`; `list.remove` drops the first
equal element -/
def blockFrom (x : Ctx) : List Exc → List Item → Except Err (List Item)
  | [], out => .ok out
  | e :: es, out => match e.kind with
    | .block clbid => match x.forcedCourseByClbid clbid with
      | .error err => .error err
      | .ok c => blockFrom x es (out.erase (.course c))
    | _ => blockFrom x es out

/-- `Assertion.audit_and_resolve`, `dp/assertion_clause.py:191-233`. -/
def Assertion.audit (x : Ctx) (a : Assertion) (data : List Item) : Except Err Assertion :=
  if a.overridden then .ok a
  else
    let filtered : Except Err (List Item) := match a.where' with
      | none => .ok data
      | some p => filterItems p data
    match filtered with
    | .error e => .error e
    | .ok f => match insertInto x (getInsertExceptions x.exceptions a.path) f [] with
      | .error e => .error e
      | .ok (out, ins) => match blockFrom x (getBlockExceptions x.exceptions a.path) out with
        | .error e => .error e
        | .ok out' => match a.evaluate out' with
          | .error e => .error e
          | .ok (s, r) => .ok { a with
              evaluated := true, state := s, resolved := some r.value,
              resolvedClbids := r.courses.map (·.clbid), insertedClbids := ins }

/-- `Assertion.rank`, `dp/assertion_clause.py:257-272`. -/
def Assertion.rank (a : Assertion) : Rat × Rat :=
  if a.state = .done ∨ a.state = .waived then (1, 1)
  else match a.resolved with
    | none => (0, 1)
    | some v =>
      if a.op = .lt ∨ a.op = .lte then (0, 1)
      else if a.expected ≠ 0 then (min 1 (v / a.expected), 1)
      else (0, 1)

/-- The three assertion classes, `dp/assertion_clause.py:68-92,293-298,401-405`.
A conditional assertion is loaded with its condition's result
(`dp/conditional_expression.py:187-202`), which is what `condition` keeps; for a
dynamic one `result` is the stored result, `none` until evaluated. -/
inductive AnyAssertion where
  | single (a : Assertion)
  | cond (condition : Option Bool) (whenTrue : Assertion) (whenFalse : Option Assertion)
  | dyn (condition : DynCond) (result : Option Bool) (whenTrue : Assertion)

/-- `audit_and_resolve` of the three classes, `dp/assertion_clause.py:191-233,337-350,440-447`. -/
def AnyAssertion.audit (x : Ctx) (a : AnyAssertion) (data : List Item) : Except Err AnyAssertion :=
  match a with
  | .single a => match a.audit x data with
    | .error e => .error e
    | .ok a' => .ok (.single a')
  | .cond (some true) t f => match t.audit x data with
    | .error e => .error e
    | .ok t' => .ok (.cond (some true) t' f)
  | .cond (some false) t (some f) => match f.audit x data with
    | .error e => .error e
    | .ok f' => .ok (.cond (some false) t (some f'))
  | .cond (some false) t none => .ok (.cond (some false) t none)
  | .cond none _ _ => .error .other
  | .dyn c r t => match itemCourses data with
    | .error e => .error e
    | .ok cs =>
      if c.eval cs then match t.audit x data with
        | .error e => .error e
        | .ok t' => .ok (.dyn c (some true) t')
      else .ok (.dyn c r t)

/-- `status` of the three classes, `dp/assertion_clause.py:248-249,352-358,449-456`. -/
def AnyAssertion.status : AnyAssertion → Status
  | .single a => a.state
  | .cond (some true) t _ => t.state
  | .cond (some false) _ (some f) => f.state
  | .cond _ _ _ => .empty
  | .dyn _ (some true) t => t.state
  | .dyn _ (some false) _ => .empty
  | .dyn _ none _ => .done

/-- `rank` of the three classes, `dp/assertion_clause.py:257-272,360-366,458-465`. -/
def AnyAssertion.rank : AnyAssertion → Rat × Rat
  | .single a => a.rank
  | .cond (some true) t _ => t.rank
  | .cond (some false) _ (some f) => f.rank
  | .cond _ _ _ => (0, 1)
  | .dyn _ (some true) t => t.rank
  | .dyn _ (some false) _ => (0, 1)
  | .dyn _ none _ => (1, 1)

/-- `any`/`or` over the branches: the `is_*_clause` methods of the conditional
classes, `dp/assertion_clause.py:380-398,473-483`. -/
def AnyAssertion.anyBranch (f : Assertion → Bool) : AnyAssertion → Bool
  | .single a => f a
  | .cond _ t (some e) => f t || f e
  | .cond _ t none => f t
  | .dyn _ _ t => f t

/-- `is_simple_count_clause`, `dp/assertion_clause.py:274-275`. -/
def Assertion.isSimpleCount (a : Assertion) : Bool := a.key == "count(courses)" || a.key == "count(terms)"
/-- `is_simple_sum_clause`, `dp/assertion_clause.py:277-278`. -/
def Assertion.isSimpleSum (a : Assertion) : Bool := a.key == "sum(credits)"
/-- `is_lt_clause`, `dp/assertion_clause.py:280-281`. -/
def Assertion.isLt (a : Assertion) : Bool := a.op == .lt || a.op == .lte
/-- `is_at_least_0_clause`, `dp/assertion_clause.py:283-284`. -/
def Assertion.isAtLeast0 (a : Assertion) : Bool := a.op == .gte && a.expected == 0

/-- `max_expected`, `dp/assertion_clause.py:289-290,368-371,467-468`. -/
def AnyAssertion.maxExpected : AnyAssertion → Rat
  | .single a => a.expected
  | .cond _ t (some f) => max t.expected f.expected
  | .cond _ t none => t.expected
  | .dyn _ _ t => t.expected

/-- `range(a, b)` -/
def pyRange (a b : Int) : List Int := (List.range (b - a).toNat).map (fun i : Nat => a + (i : Int))

/-- `input_size_range`, `dp/assertion_clause.py:729-767`. -/
def inputSizeRange (a : Assertion) (maximum : Int) : Gen Int :=
  let expected := truncInt a.expected
  if a.expected ≠ (expected : Rat) then .raise .typeError
  else if a.op = .eq ∨ (a.op = .gte ∧ a.atMost = true) then
    if maximum < expected then .one maximum else .ofList (pyRange expected (expected + 1))
  else if a.op = .neq then
    .ofList (pyRange 0 expected ++ pyRange (expected + 1) (max (expected + 1) (maximum + 1)))
  else if a.op = .gte then
    if maximum < expected then .one maximum
    else .ofList (pyRange expected (max (expected + 1) (maximum + 1)))
  else if a.op = .gt then
    if maximum < expected then .one maximum
    else .ofList (pyRange (expected + 1) (max (expected + 2) (maximum + 1)))
  else if a.op = .lt then .ofList (pyRange 0 expected)
  else if a.op = .lte then .ofList (pyRange 0 (expected + 1))
  else .raise .typeError

/-- `input_size_range` of the three classes, `dp/assertion_clause.py:286-287,373-378,470-471`. -/
def AnyAssertion.inputSizeRange (a : AnyAssertion) (maximum : Int) : Gen Int :=
  match a with
  | .single a => Dp.inputSizeRange a maximum
  | .cond (some false) _ (some f) => Dp.inputSizeRange f maximum
  | .cond _ t _ => Dp.inputSizeRange t maximum
  | .dyn _ _ t => Dp.inputSizeRange t maximum

end Dp
