import Verif.Model.Tree
import Verif.Model.Comb
import Verif.Model.LazyProduct
import Verif.Model.PathOrder

/-
Generating the solutions of a rule (`dp/rule/*.py`, the `from_rule` functions of
`dp/solution/*.py`).  The search for solutions never reads the claims made so far.

Where the code keeps `partial(r.solutions, ctx=ctx)` and runs it again and again
(`lazy_product`), the model keeps the finished generator: running it again gives the
same items, because it only reads the context.
-/
namespace Dp

/-- Iteration orders of the python sets whose order can matter: inside
`limited_transcripts` called for the rule at a path, of the set `matched()` of a
result in `CountSolution.audit`, and of the set of independent children in
`solve_independent_children`. -/
structure Orders where
  limit : Path → SetOrder
  matched : Path → List Course → List Course
  children : List Node → List Node

/-- every order visits exactly the elements of its set -/
def Orders.Lawful (o : Orders) : Prop :=
  (∀ p, (o.limit p).Lawful) ∧ (∀ p l, (o.matched p l).Perm l) ∧ (∀ l, (o.children l).Perm l)

/-- the orders of insertion -/
def Orders.insertion : Orders := ⟨fun _ => .insertion, fun _ l => l, fun l => l⟩

/-! ### Course rules (`dp/rule/course.py`) -/

/-- the arguments of `course_filter` in `find_courses`, `dp/context.py:97-107` -/
def CourseData.filter (d : CourseData) : CourseFilter :=
  { ap := d.ap, course := d.course, crsid := d.crsid, institution := d.institution, name := d.name,
    yearTerm := d.yearTerm, section' := d.section', subType := subTypeLookup (d.subType.getD "") }

/-- `find_courses(rule=rule)`, `dp/context.py:88-107`.  Simplification: an empty
`clbid` text counts as given (python tests truth). -/
def Ctx.findCourses (x : Ctx) (d : CourseData) : List Course :=
  match d.clbid with
  | some clbid => (x.findCourseByClbid clbid).toList
  | none => x.transcript.filter d.filter.matches

/-- `CourseSolution.from_rule`, `dp/solution/course.py:18-40`: `from_claimed`,
`auto_waived` and `excluded_clbids` are not passed on. -/
def courseSolution (d : CourseData) (course : Option Course) (wasInserted := false)
    (wasForced := false) (overridden := false) : CourseData :=
  { d with fromClaimed := false, autoWaived := false, excluded := [], claim := none,
           overridden := overridden, inserted := d.inserted || wasInserted, forced := wasForced,
           matched := course }

/-- the first loop of `CourseRule.solutions`, `dp/rule/course.py:145-157` -/
def courseInsertSolutions (x : Ctx) (d : CourseData) : List Exc → Gen CourseData
  | [] => .nil
  | e :: es => match e.kind with
    | .insertion clbid forced => match x.forcedCourseByClbid clbid with
      | .error err => .raise err
      | .ok c =>
        if d.excluded.contains c.clbid then courseInsertSolutions x d es
        else (Gen.one (courseSolution d (some c) true forced)).append (courseInsertSolutions x d es)
    | _ => courseInsertSolutions x d es

/-- the tests of the second loop of `CourseRule.solutions`, `dp/rule/course.py:163-174` -/
def courseAcceptable (d : CourseData) (c : Course) : Bool :=
  !d.excluded.contains c.clbid
    && !(d.grade.any (fun g => !c.isInProgress && decide (c.gradePoints < g)))
    && !(d.gradeOption.any (fun g => c.gradeOption ≠ g))

/-- a generator, or another one if it yields nothing (and does not raise) -/
def Gen.orElse {α : Type} (g h : Gen α) : Gen α :=
  match g.items, g.err with
  | [], none => h
  | _, _ => g

/-- `CourseRule.solutions`, `dp/rule/course.py:135-181`. -/
def courseSolutions (x : Ctx) (d : CourseData) : Gen CourseData :=
  if d.autoWaived || (getWaiveException x.exceptions d.path).isSome then
    .one (courseSolution d none (overridden := true))
  else
    ((courseInsertSolutions x d (getInsertExceptions x.exceptions d.path)).append
      (.ofList (((x.findCourses d).filter (courseAcceptable d)).map (fun c => courseSolution d (some c))))).orElse
      (.one (courseSolution d none))

/-- `CourseRule._has_potential`, `dp/rule/course.py:194-202`. -/
def courseHasPotential (x : Ctx) (d : CourseData) : Bool :=
  d.autoWaived || existsBeneath x.exceptions d.path || !(x.findCourses d).isEmpty

/-- `insert.clbid` of an insertion -/
def Exc.insertClbid (e : Exc) : Option String :=
  match e.kind with
  | .insertion clbid _ => some clbid
  | _ => none

/-- `CourseRule._all_matches`, `dp/rule/course.py:207-221`. -/
def courseMatches (x : Ctx) (d : CourseData) : List Course :=
  (((getInsertExceptions x.exceptions d.path).filterMap Exc.insertClbid).filter
      (fun k => !d.excluded.contains k)).filterMap x.findCourseByClbid
    ++ (if d.fromClaimed then [] else (x.findCourses d).filter (fun c => !d.excluded.contains c.clbid))

/-- `CourseRule.get_required_courses`, `dp/rule/course.py:112-126`. -/
def courseRequired (x : Ctx) (d : CourseData) : List Course :=
  if d.fromClaimed then []
  else
    let inserted := (getInsertExceptions x.exceptions d.path).filterMap Exc.insertClbid
    match (courseMatches x d).filter (fun c => !inserted.contains c.clbid) with
    | [c] => [c]
    | _ => []

/-! ### Query rules (`dp/rule/query.py`) -/

/-- `QueryRule.get_data`, `dp/rule/query.py:128-152`. -/
def queryData (x : Ctx) (d : QueryData) : List Item :=
  match d.source with
  | .courses =>
    ((if d.includeFailed then x.withFailed else x.transcript).filter
      (fun c => !d.excluded.contains c.clbid)).map Item.course
  | .claimed => []
  | .areas => x.areas.map Item.area
  | .musicPerformances => x.performances.map Item.performance
  | .musicAttendances => x.attendances.map Item.attendance

/-- what `get_filtered_data` returns: the data, the inserted and the force-inserted clbids -/
structure Filtered where
  data : List Item
  inserted : List String := []
  forceInserted : List String := []

/-- the insertion loop of `get_filtered_data`, `dp/rule/query.py:163-175` -/
def queryInsert (x : Ctx) (d : QueryData) : List Exc → Filtered → Except Err Filtered
  | [], acc => .ok acc
  | e :: es, acc => match e.kind with
    | .insertion clbid forced =>
      if d.excluded.contains clbid then queryInsert x d es acc
      else if forced then match x.forcedCourseByClbid clbid with
        | .error err => .error err
        | .ok c => queryInsert x d es
            ⟨acc.data ++ [.course c], acc.inserted ++ [clbid], acc.forceInserted ++ [clbid]⟩
      else queryInsert x d es
          ⟨acc.data ++ (x.findCourseByClbid clbid).toList.map Item.course, acc.inserted ++ [clbid],
            acc.forceInserted⟩
    | _ => queryInsert x d es acc

/-- `QueryRule.get_filtered_data`, `dp/rule/query.py:154-177`. -/
def queryFiltered (x : Ctx) (d : QueryData) : Except Err Filtered :=
  let data : Except Err (List Item) := match d.where' with
    | some p => filterItems p (queryData x d)
    | none => .ok (queryData x d)
  match data with
  | .error e => .error e
  | .ok data =>
    if d.source = .courses ∨ d.source = .claimed then
      queryInsert x d (getInsertExceptions x.exceptions d.path) ⟨data, [], []⟩
    else .ok ⟨data, [], []⟩

/-- `flatten_assertions`, `dp/rule/query.py:323-334`. -/
def flattenAssertions (as : List AnyAssertion) : List Assertion :=
  as.flatMap fun
    | .single a => [a]
    | .cond _ t f => t :: f.toList
    | .dyn _ _ t => [t]

/-- `max(..., key=max_expected, default=None)`: the first of the greatest -/
def largestExpected : List Assertion → Option Assertion
  | [] => none
  | a :: as => match largestExpected as with
    | none => some a
    | some b => if a.expected < b.expected then some b else some a

/-- all non-empty combinations, the smaller first: `for n in range(1, len + 1)`,
`dp/rule/query.py:355-356,380-381` -/
def allCombos {α : Type} (l : List α) : List (List α) :=
  (List.range l.length).flatMap (fun n => combos (n + 1) l)

/-- `itertools.combinations(items, n)`: ValueError for a negative `n` -/
def combosInt {α : Type} (items : List α) (n : Int) : Gen (List α) :=
  if n < 0 then .raise .valueError else .ofList (combos n.toNat items)

/-- `iterate_item_set__count_shortcut`, `dp/rule/query.py:363-366`. -/
def countShortcut (a : Assertion) (items : List Course) : Gen (List Course) :=
  (inputSizeRange a items.length).bind (combosInt items)

/-- `iterate_item_set__sum_shortcut`, `dp/rule/query.py:369-384`. -/
def sumShortcut (a : Assertion) (items : List Course) : Gen (List Course) :=
  if sumCredits items < a.expected then .one items
  else .ofList ((allCombos items).filter (fun c => decide (a.expected ≤ sumCredits c)))

/-- `iterate_item_set` for a query on courses, `dp/rule/query.py:337-357`. -/
def iterateCourseSet (assertions : List AnyAssertion) (items : List Course) : Gen (List Course) :=
  let flat := flattenAssertions assertions
  match largestExpected (flat.filter (·.isSimpleCount)) with
  | some a => countShortcut a items
  | none => match largestExpected (flat.filter (·.isSimpleSum)) with
    | some a => sumShortcut a items
    | none => .ofList (allCombos items)

/-- `QuerySolution.from_rule`, `dp/solution/query.py:29-55`. -/
def querySolution (d : QueryData) (output : List Item) (inserted forceInserted : List String := []) :
    QueryData :=
  { d with inserted := d.inserted ++ inserted, forceInserted := d.forceInserted ++ forceInserted,
           output := output, successful := [], failed := [] }

/-- the courses added to a combination because of insertions, `dp/rule/query.py:207-217` -/
def addInserted (f : Filtered) (itemSet combo : List Course) : List Course :=
  combo ++ itemSet.filter (fun c =>
    (f.inserted.contains c.clbid || f.forceInserted.contains c.clbid)
      && !(combo.map (·.clbid)).contains c.clbid)

/-- the loop over limited transcripts, `dp/rule/query.py:201-220` -/
def queryCourseSolutions (o : SetOrder) (d : QueryData) (f : Filtered) (courses : List Course) :
    Gen QueryData :=
  (limitedTranscripts o d.limit courses f.forceInserted).bind fun itemSet =>
    if !d.attemptClaims then
      .one (querySolution d (itemSet.map .course) f.inserted f.forceInserted)
    else (iterateCourseSet d.assertions itemSet).map fun combo =>
      querySolution d ((addInserted f itemSet combo).map .course) f.inserted f.forceInserted

/-- `QueryRule.solutions`, `dp/rule/query.py:179-233`. -/
def querySolutions (x : Ctx) (o : Orders) (d : QueryData) : Gen QueryData :=
  if d.overridden then .one (querySolution d [])
  else match queryFiltered x d with
    | .error e => .raise e
    | .ok f =>
      let fallback := Gen.one (querySolution d [] f.inserted f.forceInserted)
      match d.source with
      | .claimed => fallback
      | .courses => match itemCourses f.data with
        | .error e => .raise e
        | .ok courses => (queryCourseSolutions (o.limit d.path) d f courses).orElse fallback
      | _ => .one (querySolution d f.data f.inserted f.forceInserted)

/-- `any(where.apply(item) for item in data)`, `dp/rule/query.py:284` -/
def anyItem (p : Pred) : List Item → Except Err Bool
  | [] => .ok false
  | i :: is => match p.apply i.applyLeaf with
    | .error e => .error e
    | .ok true => .ok true
    | .ok false => anyItem p is

/-- `QueryRule._has_potential`, `dp/rule/query.py:266-284`. -/
def queryHasPotential (x : Ctx) (d : QueryData) : Except Err Bool :=
  if existsBeneath x.exceptions d.path then .ok true
  else if d.assertions.any (·.anyBranch (·.isLt)) then .ok true
  else if d.assertions.any (·.anyBranch (·.isAtLeast0)) then .ok true
  else if d.source = .claimed then .ok true
  else match d.where' with
    | none => .ok (!(queryData x d).isEmpty)
    | some p => anyItem p (queryData x d)

/-- `QueryRule.all_matches`, `dp/rule/query.py:286-288`. -/
def queryMatches (x : Ctx) (d : QueryData) : Except Err (List Item) :=
  match queryFiltered x d with
  | .error e => .error e
  | .ok f => .ok f.data

/-! ### All rules -/

mutual
/-- `has_potential`: `dp/rule/course.py:186-202`, `query.py:258-284`, `count.py:464-476`,
`requirement.py:127-145`, `conditional.py:113-119`, `proficiency.py:68-69` (all in `dp/rule`). -/
def Node.hasPotential (x : Ctx) : Node → Except Err Bool
  | .course _ d => .ok (courseHasPotential x d)
  | .query _ d => queryHasPotential x d
  | .count _ d items =>
    if existsBeneath x.exceptions d.path then .ok true else Node.anyPotential x items
  | .req _ d r =>
    if existsBeneath x.exceptions d.path then .ok true
    else if d.isAudited then .ok false
    else Node.optPotential x r
  | .cond _ d t f => match d.condition with
    | some true => t.hasPotential x
    | some false => Node.optPotential x f
    | none => .ok false
  | .prof _ _ _ => .ok true
/-- `any(r.has_potential(ctx=ctx) for r in items)` -/
def Node.anyPotential (x : Ctx) : List Node → Except Err Bool
  | [] => .ok false
  | n :: ns => match n.hasPotential x with
    | .error e => .error e
    | .ok true => .ok true
    | .ok false => Node.anyPotential x ns
/-- potential of an optional child -/
def Node.optPotential (x : Ctx) : Option Node → Except Err Bool
  | none => .ok false
  | some n => n.hasPotential x
end

mutual
/-- `all_matches`: `dp/rule/course.py:204-221`, `query.py:286-288`, `count.py:478-479`,
`requirement.py:147-151`, `conditional.py:121-127`, `proficiency.py:71-72` (all in `dp/rule`). -/
def Node.allMatches (x : Ctx) : Node → Except Err (List Item)
  | .course _ d => .ok ((courseMatches x d).map .course)
  | .query _ d => queryMatches x d
  | .count _ _ items => Node.listMatches x items
  | .req _ _ r => Node.optMatches x r
  | .cond _ d t f => match d.condition with
    | some true => t.allMatches x
    | some false => Node.optMatches x f
    | none => .ok []
  | .prof _ _ c => match c with
    | some (_, d) => .ok ((courseMatches x d).map .course)
    | none => .ok []
/-- `[course for rule in items for course in rule.all_matches(ctx=ctx)]` -/
def Node.listMatches (x : Ctx) : List Node → Except Err (List Item)
  | [] => .ok []
  | n :: ns => match n.allMatches x with
    | .error e => .error e
    | .ok a => match Node.listMatches x ns with
      | .error e => .error e
      | .ok b => .ok (a ++ b)
/-- matches of an optional child -/
def Node.optMatches (x : Ctx) : Option Node → Except Err (List Item)
  | none => .ok []
  | some n => n.allMatches x
end

mutual
/-- `get_required_courses`: `dp/rule/course.py:112-126`, `query.py:125-126`, `count.py:204-208`,
`requirement.py:86-89`, `conditional.py:71-77`, `proficiency.py:49-52` (all in `dp/rule`). -/
def Node.requiredCourses (x : Ctx) : Node → List Course
  | .course _ d => courseRequired x d
  | .query _ _ => []
  | .count _ d items => if d.count ≠ items.length then [] else Node.listRequired x items
  | .req _ _ r => Node.optRequired x r
  | .cond _ d t f => match d.condition with
    | some true => t.requiredCourses x
    | some false => Node.optRequired x f
    | none => []
  | .prof _ _ c => match c with
    | some (_, d) => courseRequired x d
    | none => []
/-- required courses of all children -/
def Node.listRequired (x : Ctx) : List Node → List Course
  | [] => []
  | n :: ns => n.requiredCourses x ++ Node.listRequired x ns
/-- required courses of an optional child -/
def Node.optRequired (x : Ctx) : Option Node → List Course
  | none => []
  | some n => n.requiredCourses x
end

mutual
/-- `exclude_required_courses`: `dp/base/bases.py:142-143`, `dp/rule/query.py:110-113`,
`count.py:210-212`, `requirement.py:91-96`, `conditional.py:79-85`. -/
def Node.exclude (clbids : List String) : Node → Node
  | .course s d => .course s d
  | .query s d => .query s { d with excluded := d.excluded ++ clbids }
  | .count s d items => .count s d (Node.excludeList clbids items)
  | .req s d r => .req s d (Node.excludeOpt clbids r)
  | .cond s d t f => .cond s d (t.exclude clbids) (Node.excludeOpt clbids f)
  | .prof s d c => .prof s d c
/-- for all children -/
def Node.excludeList (clbids : List String) : List Node → List Node
  | [] => []
  | n :: ns => n.exclude clbids :: Node.excludeList clbids ns
/-- for an optional child -/
def Node.excludeOpt (clbids : List String) : Option Node → Option Node
  | none => none
  | some n => some (n.exclude clbids)
end

mutual
/-- `apply_block_exception`: `dp/base/bases.py:145-146`, `dp/rule/course.py:128-133`,
`query.py:115-120`, `count.py:214-216`, `requirement.py:98-103`, `conditional.py:87-93`. -/
def Node.applyBlock (path : Path) (clbid : String) : Node → Node
  | .course s d => .course s (if d.path = path then { d with excluded := d.excluded ++ [clbid] } else d)
  | .query s d => .query s (if d.path = path then { d with excluded := d.excluded ++ [clbid] } else d)
  | .count s d items => .count s d (Node.applyBlockList path clbid items)
  | .req s d r => .req s d (Node.applyBlockOpt path clbid r)
  | .cond s d t f => .cond s d (t.applyBlock path clbid) (Node.applyBlockOpt path clbid f)
  | .prof s d c => .prof s d c
/-- for all children -/
def Node.applyBlockList (path : Path) (clbid : String) : List Node → List Node
  | [] => []
  | n :: ns => n.applyBlock path clbid :: Node.applyBlockList path clbid ns
/-- for an optional child -/
def Node.applyBlockOpt (path : Path) (clbid : String) : Option Node → Option Node
  | none => none
  | some n => some (n.applyBlock path clbid)
end

/-- The block loop of `AreaOfStudy.load`, `dp/area.py:121-125`. -/
def applyBlocks (es : List Exc) (n : Node) : Node :=
  es.foldl (fun n e => match e.kind with
    | .block clbid => n.applyBlock e.path clbid
    | _ => n) n

/-- `AreaOfStudy.load` after the rule has been loaded, `dp/area.py:110-125`. -/
def prepareRule (x : Ctx) (es : List Exc) (n : Node) : Node :=
  applyBlocks es (n.exclude ((n.requiredCourses x).map (·.clbid)))

/-! ### Solutions of counts -/

/-- `CountSolution.from_rule` on the sorted items, `dp/solution/count.py:22-30`,
`dp/rule/count.py:344-345` -/
def countSolution (d : CountData) (items : List Node) : Gen Node :=
  match sortByPath Node.path items with
  | .error e => .raise e
  | .ok l => .one (.count .solution { d with overridden := false } l)

/-- `CountRule.make_combinations`, `dp/rule/count.py:332-345`; the potential rules
come with their solutions. -/
def makeCombinations (d : CountData) (potential : List (Node × Gen Node)) (results others : List Node)
    (size : Nat) : Gen Node :=
  Gen.forList (combos size potential) fun selected =>
    let deselected := others.filter (fun n => !(selected.map (·.1.path)).contains n.path)
    (lazyProduct (selected.map (·.2))).bind fun sols =>
      countSolution d (sols ++ deselected ++ results)

/-- `CountRule.range`, `dp/rule/count.py:218-225`: `lo` and `hi - lo`. -/
def countSizes (d : CountData) (n : Nat) : List Nat :=
  let hi := if d.atMost then d.count + 1 else n + 1
  (List.range (hi - d.count)).map (· + d.count)

/-- `CountRule.solutions` from line 262 on, `dp/rule/count.py:262-299`: `potential`
are the sorted potential rules (with their solutions), `results` the solved
children and `others` the children that are not solved. -/
def countSolutions (d : CountData) (nItems : Nat) (potential : List (Node × Gen Node))
    (results others : List Node) : Gen Node :=
  ((Gen.forList (countSizes d nItems) (makeCombinations d potential results others)).orElse
    (if potential.isEmpty then .nil
      else makeCombinations d potential results others potential.length)).orElse
    (countSolution d (others ++ results))

/-- keep the items whose test is true; the first error stops -/
def filterE {α : Type} (f : α → Except Err Bool) : List α → Except Err (List α)
  | [] => .ok []
  | a :: as => match f a with
    | .error e => .error e
    | .ok b => match filterE f as with
      | .error e => .error e
      | .ok rest => .ok (if b then a :: rest else rest)

/-- `CountRule.solutions` without a search for independent children,
`dp/rule/count.py:227-299`. -/
def plainCountSolutions (x : Ctx) (d : CountData) (items : List Node) (sols : List (Gen Node)) : Gen Node :=
  if (getWaiveException x.exceptions d.path).isSome then
    .one (.count .solution { d with overridden := true } items)
  else match filterE (fun p => p.1.hasPotential x) (items.zip sols) with
    | .error e => .raise e
    | .ok pot => match sortByPath (fun p => p.1.path) pot with
      | .error e => .raise e
      | .ok sorted => countSolutions d items.length sorted [] items

/-- `RequirementSolution.from_rule`, `dp/solution/requirement.py:20-31`. -/
def reqSolution (d : ReqData) (overridden : Bool) (r : Option Node) : Node :=
  .req .solution { d with overridden := overridden } r

/-- `ProficiencyRule.solutions`, `dp/rule/proficiency.py:54-63`, with `from_rule` and
`overridden_from_rule`, `dp/solution/proficiency.py:18-34`.  `next()` of a generator
without items cannot happen here (`courseSolutions` yields or raises); it would be the
RuntimeError of PEP 479. -/
def profSolutions (x : Ctx) (d : ProfData) (c : Option (Stage × CourseData)) : Gen Node :=
  if (getWaiveException x.exceptions d.path).isSome then
    .one (.prof .solution { d with overridden := true, status := .empty } c)
  else match c with
    | none => .one (.prof .solution { d with overridden := false, status := .empty } none)
    | some (_, cd) => match (courseSolutions x cd).items with
      | s :: _ => .one (.prof .solution { d with overridden := false, status := .empty } (some (.solution, s)))
      | [] => .raise ((courseSolutions x cd).err.getD .runtimeError)

mutual
/-- `solutions(ctx=ctx)`, that is with `depth=None`: `dp/rule/course.py:135-181`,
`query.py:179-233`, `count.py:227-299`, `requirement.py:105-116`, `conditional.py:95-103`,
`proficiency.py:54-63` (all in `dp/rule`). -/
def Node.solutions (x : Ctx) (o : Orders) : Node → Gen Node
  | .course _ d => (courseSolutions x d).map (Node.course .solution)
  | .query _ d => (querySolutions x o d).map (Node.query .solution)
  | .count _ d items => plainCountSolutions x d items (Node.solutionsList x o items)
  | .req _ d r =>
    if (getWaiveException x.exceptions d.path).isSome then .one (reqSolution d true r)
    else match Node.solutionsOpt x o r with
      | none => .one (reqSolution d false none)
      | some g => g.map (fun s => reqSolution d false (some s))
  | .cond _ d t f => match d.condition with
    | some true => (t.solutions x o).map (fun s => .cond .solution d s f)
    | some false => match Node.solutionsOpt x o f with
      | some g => g.map (fun s => .cond .solution d t (some s))
      | none => .nil
    | none => .nil
  | .prof _ d c => profSolutions x d c
/-- the solutions of each child -/
def Node.solutionsList (x : Ctx) (o : Orders) : List Node → List (Gen Node)
  | [] => []
  | n :: ns => n.solutions x o :: Node.solutionsList x o ns
/-- the solutions of an optional child -/
def Node.solutionsOpt (x : Ctx) (o : Orders) : Option Node → Option (Gen Node)
  | none => none
  | some n => some (n.solutions x o)
end

end Dp
