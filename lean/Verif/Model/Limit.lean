import Verif.Model.PredEq
import Verif.Model.Comb
import Verif.Model.LazyProduct
import Mathlib.Data.List.Sort
import Mathlib.Data.List.Dedup

/-
Model of limits (`dp/limit.py`).

Python sets are modelled by duplicate-free lists; wherever the code iterates
over a set in an order that matters, the order is supplied by a `SetOrder`,
over which every theorem quantifies.
-/
namespace Dp

/-- `CourseInstance.sort_order`, `dp/data/course.py:70-72`, compared as python
compares tuples. -/
def Course.sortLe (a b : Course) : Bool :=
  decide (a.courseType.sortOrder < b.courseType.sortOrder) ||
  (a.courseType.sortOrder == b.courseType.sortOrder &&
    (decide (a.year < b.year) || (a.year == b.year &&
      (decide (a.term < b.term) || (a.term == b.term && decide (a.clbid ≤ b.clbid))))))

/-- `sorted(courses, key=sort_order)` (a stable sort, like python's). -/
def sortCourses (l : List Course) : List Course := l.insertionSort (fun a b => a.sortLe b = true)

/-- `AtMostWhat`, `dp/limit.py:27-29`. -/
inductive AtMostWhat where
  | courses | credits
deriving DecidableEq, Repr

/-- `Limit`, `dp/limit.py:33-37`; `message` stands for it and the other parts
that are only displayed but take part in equality. -/
structure Limit where
  atMost : Rat
  what : AtMostWhat := .courses
  where' : Pred
  message : Option String := none
deriving DecidableEq

/-- `int(self.at_most)`: truncation towards zero, `dp/limit.py:94`. -/
def truncInt (q : Rat) : Int := Int.tdiv q.num q.den

/-- `sum(c.credits for c in courses)`, `dp/limit.py:101,108`. -/
def sumCredits (l : List Course) : Rat := (l.map (·.credits)).sum

/-- `Limit.iterate_courses`, `dp/limit.py:93-98`. -/
def Limit.iterateCourses (l : Limit) (cs : List Course) : List (List Course) :=
  (List.range (truncInt l.atMost + 1).toNat).flatMap (fun n => combos n cs)

/-- `Limit.iterate_credits`, `dp/limit.py:100-110`. -/
def Limit.iterateCredits (l : Limit) (cs : List Course) : List (List Course) :=
  if sumCredits cs ≤ l.atMost then [cs]
  else (List.range (cs.length + 1)).flatMap
    (fun n => (combos n cs).filter (fun c => decide (sumCredits c ≤ l.atMost)))

/-- `Limit.iterate`, `dp/limit.py:80-91`.  Simplification: courses with the same
sort order are taken in the order they were added to the set. -/
def Limit.iterate (l : Limit) (cs : List Course) : List (List Course) :=
  let cs := sortCourses cs
  match l.what with
  | .courses => l.iterateCourses cs
  | .credits => l.iterateCredits cs

/-- what one course adds to a limit's counter, `dp/limit.py:178-181` -/
def Limit.amount (l : Limit) (c : Course) : Rat :=
  match l.what with
  | .courses => 1
  | .credits => c.credits

/-- `clause_counters[limit] += d` on the `defaultdict`, `dp/limit.py:167,179,181` -/
def bump (f : Limit → Rat) (l : Limit) (d : Rat) : Limit → Rat := fun k => if k = l then f k + d else f k

/-- The inner loop of `LimitSet.check` for one course, `dp/limit.py:170-181`;
`none` is `return False`. -/
def checkCourse (c : Course) : List Limit → (Limit → Rat) → Except Err (Option (Limit → Rat))
  | [], f => .ok (some f)
  | l :: ls, f =>
    match l.where'.applyCourse c with
    | .error e => .error e
    | .ok false => checkCourse c ls f
    | .ok true =>
      if f l ≥ l.atMost then .ok none
      else checkCourse c ls (bump f l (l.amount c))

/-- `LimitSet.check` from given counters, `dp/limit.py:169-183`. -/
def checkFrom (limits : List Limit) : List Course → (Limit → Rat) → Except Err Bool
  | [], _ => .ok true
  | c :: cs, f =>
    match checkCourse c limits f with
    | .error e => .error e
    | .ok none => .ok false
    | .ok (some f') => checkFrom limits cs f'

/-- `LimitSet.check`, `dp/limit.py:166-183`, on the courses in iteration order. -/
def checkLimits (limits : List Limit) (cs : List Course) : Except Err Bool :=
  checkFrom limits cs (fun _ => 0)

/-- `matched_items`: a `defaultdict(set)` keyed by limits, `dp/limit.py:219` -/
abbrev MatchDict := List (Limit × List Course)

/-- `matched_items[limit].add(c)`, `dp/limit.py:228` -/
def MatchDict.add : MatchDict → Limit → Course → MatchDict
  | [], l, c => [(l, [c])]
  | (k, ms) :: d, l, c =>
    if k = l then (k, if ms.contains c then ms else ms ++ [c]) :: d
    else (k, ms) :: MatchDict.add d l c

/-- The inner probing loop, `dp/limit.py:222-228`.  `forced` decides
`c.clbid in forced_items`. -/
def probeLimit (forced : Course → Bool) (l : Limit) : List Course → MatchDict → Except Err MatchDict
  | [], d => .ok d
  | c :: cs, d =>
    if forced c then probeLimit forced l cs d
    else match l.where'.applyCourse c with
      | .error e => .error e
      | .ok true => probeLimit forced l cs (d.add l c)
      | .ok false => probeLimit forced l cs d

/-- The probing loop, `dp/limit.py:219-228`. -/
def probeAll (forced : Course → Bool) (cs : List Course) : List Limit → MatchDict → Except Err MatchDict
  | [], d => .ok d
  | l :: ls, d =>
    match probeLimit forced l cs d with
    | .error e => .error e
    | .ok d' => probeAll forced cs ls d'

/-- Iteration orders of the sets met on the way: of `these_items` in the call
to `check` and of `[*unmatched_items, *these_items]`, for the `i`-th tuple of
the product (`dp/limit.py:169,255`). -/
structure SetOrder where
  check : Nat → List Course → List Course
  combo : Nat → List Course → List Course

/-- An iteration order visits exactly the elements of the set. -/
def SetOrder.Lawful (o : SetOrder) : Prop :=
  ∀ i l, (o.check i l).Perm l ∧ (o.combo i l).Perm l

/-- the order of insertion -/
def SetOrder.insertion : SetOrder := ⟨fun _ l => l, fun _ l => l⟩

/-- equality of two sets held as lists, `dp/limit.py:249` -/
def sameSet (a b : List Course) : Bool := a.all (fun c => b.contains c) && b.all (fun c => a.contains c)

/-- The loop over the product, `dp/limit.py:241-259`: `i` counts the tuples,
`emitted` is `emitted_solutions`. -/
def emitLoop (limits : List Limit) (unmatched : List Course) (o : SetOrder) :
    Nat → List (List Course) → List (List (List Course)) → Gen (List Course)
  | _, _, [] => .nil
  | i, emitted, results :: rest =>
    let these := results.flatten.dedup
    match checkLimits limits (o.check i these) with
    | .error e => .raise e
    | .ok false => emitLoop limits unmatched o (i + 1) emitted rest
    | .ok true =>
      if emitted.any (sameSet these) then emitLoop limits unmatched o (i + 1) emitted rest
      else (Gen.one (sortCourses (o.combo i (unmatched ++ these)))).append
        (emitLoop limits unmatched o (i + 1) (these :: emitted) rest)

/-- `LimitSet.limited_transcripts`, `dp/limit.py:185-259`. -/
def limitedTranscripts (o : SetOrder) (limits : List Limit) (courses : List Course)
    (forcedClbids : List String) : Gen (List Course) :=
  if limits = [] then .one courses
  else
    let allCourses := courses.dedup
    let forced := fun c => forcedClbids.contains c.clbid
    match probeAll forced courses limits [] with
    | .error e => .raise e
    | .ok matched =>
      let allMatched := matched.flatMap (·.2)
      let unmatched := allCourses.filter (fun c => !allMatched.contains c)
      let prod := lazyProduct (matched.map (fun lm => Gen.ofList (lm.1.iterate lm.2)))
      (emitLoop limits unmatched o 0 [] prod.items).append ⟨[], prod.err⟩

/-- The courses loop of `LimitSet.apply_limits`, for one course,
`dp/limit.py:147-159`: the counters afterwards and whether the course may be
yielded. Counters count courses whatever `at_most_what` is. -/
def applyLimitsCourse (c : Course) : List Limit → (Limit → Rat) → Except Err (Bool × (Limit → Rat))
  | [], f => .ok (true, f)
  | l :: ls, f =>
    match l.where'.applyCourse c with
    | .error e => .error e
    | .ok false => applyLimitsCourse c ls f
    | .ok true =>
      if f l ≥ l.atMost then .ok (false, f)
      else applyLimitsCourse c ls (bump f l 1)

/-- `LimitSet.apply_limits`, `dp/limit.py:142-164` (not called anywhere in `dp`). -/
def applyLimits (limits : List Limit) : List Course → (Limit → Rat) → Gen Course
  | [], _ => .nil
  | c :: cs, f =>
    match applyLimitsCourse c limits f with
    | .error e => .raise e
    | .ok (true, f') => (Gen.one c).append (applyLimits limits cs f')
    | .ok (false, f') => applyLimits limits cs f'

end Dp
