import Verif.Model.Load

/-
The index of courses and attributes that areas refer to (`dp/bin/discover.py`): what it finds in an area, and how
it brings its two tables up to date.
-/
namespace Dp

/-! ### Finding -/

/-- a python value that is not empty or missing, as tested in `dp/bin/discover.py:86-93` -/
def filled : Option String → Bool
  | none => false
  | some s => s != ""

/-- `find_courses_in_rule` of a course rule, `dp/bin/discover.py:85-103`.  `hidden`: whether the rule at a path is
marked as hidden in the area file; rules of the model do not carry the mark, which only concerns displays. -/
def CourseData.mentioned (hidden : Path → Bool) (d : CourseData) : List String :=
  if !filled d.course && !filled d.crsid then []
  else if filled d.institution || filled d.clbid || filled d.ap || filled d.name then []
  else if hidden d.path then []
  else if filled d.crsid then d.crsid.toList
  else d.course.toList

mutual
/-- `find_courses_in_rule`, `dp/bin/discover.py:84-119`.  Queries and conditional rules are passed over. -/
def Node.mentioned (hidden : Path → Bool) : Node → List String
  | .course _ d => d.mentioned hidden
  | .prof _ _ c => match c with
    | none => []
    | some p => p.2.mentioned hidden
  | .count _ _ items => Node.mentionedList hidden items
  | .req _ _ r => Node.mentionedOpt hidden r
  | .query _ _ => []
  | .cond _ _ _ _ => []
/-- the loop over the items, `dp/bin/discover.py:112-113` -/
def Node.mentionedList (hidden : Path → Bool) : List Node → List String
  | [] => []
  | n :: ns => n.mentioned hidden ++ Node.mentionedList hidden ns
/-- the optional result, `dp/bin/discover.py:115-119` -/
def Node.mentionedOpt (hidden : Path → Bool) : Option Node → List String
  | none => []
  | some n => n.mentioned hidden
end

/-- a row of the table of courses: `CourseReference`, `dp/bin/discover.py:28`; both of the last two may be null in
the database -/
structure CourseRef where
  code : String
  course : Option String
  crsid : Option String
deriving DecidableEq, Repr

/-- `BucketReference`, `dp/bin/discover.py:29`, and a row of its table -/
structure BucketRef where
  code : String
  catalog : String
  bucket : String
deriving DecidableEq, Repr

/-- `course.isdigit()`; simplification: only the digits 0 to 9 count, where python allows those of other scripts -/
def isDigits (s : String) : Bool := !s.toList.isEmpty && s.toList.all (·.isDigit)

/-- `dp/bin/discover.py:59-64` -/
def courseRef (code course : String) : CourseRef :=
  if isDigits course then ⟨code, some "", some course⟩ else ⟨code, some course, none⟩

/-- the courses of one area file, `dp/bin/discover.py:59-64` -/
def Area.courseRefs (hidden : Path → Bool) (code : String) (a : Area) : List CourseRef :=
  (a.result.mentioned hidden).map (courseRef code)

/-- the values yielded for an attribute, `dp/bin/discover.py:247-251`, as they are printed -/
def attributeValues : Val → List String
  | .sc (.str s) => [s]
  | .sc _ => []
  | .tup l => l.map Sc.pyStr

mutual
/-- `find_buckets_in_clause`, `dp/bin/discover.py:233-254` -/
def Pred.buckets : Pred → List String
  | .and ps => Pred.bucketsList ps
  | .or ps => Pred.bucketsList ps
  | .cond _ t f => t.buckets ++ Pred.bucketsOpt f
  | .not p => p.buckets
  | .leaf l => if l.key == "attributes" then attributeValues l.expected else []
/-- the loop over the predicates, `dp/bin/discover.py:234-236` -/
def Pred.bucketsList : List Pred → List String
  | [] => []
  | p :: ps => p.buckets ++ Pred.bucketsList ps
/-- the optional alternative, `dp/bin/discover.py:240-241` -/
def Pred.bucketsOpt : Option Pred → List String
  | none => []
  | some p => p.buckets
end

/-- `find_buckets_in_assertion` of a plain assertion, `dp/bin/discover.py:220-222` -/
def Assertion.buckets (a : Assertion) : List String := Pred.bucketsOpt a.where'

/-- `find_buckets_in_assertion`, `dp/bin/discover.py:219-230`; the conditions are passed over -/
def AnyAssertion.buckets : AnyAssertion → List String
  | .single a => a.buckets
  | .cond _ t f => t.buckets ++ (match f with | none => [] | some f => f.buckets)
  | .dyn _ _ t => t.buckets

/-- `find_buckets_in_rule` of a query, `dp/bin/discover.py:198-206` -/
def QueryData.buckets (d : QueryData) : List String :=
  d.limit.flatMap (fun l => l.where'.buckets) ++ Pred.bucketsOpt d.where' ++ d.assertions.flatMap AnyAssertion.buckets

mutual
/-- `find_buckets_in_rule`, `dp/bin/discover.py:197-216`.  Conditional rules and the audits of a count rule are passed
over. -/
def Node.buckets : Node → List String
  | .query _ d => d.buckets
  | .count _ _ items => Node.bucketsList items
  | .req _ _ r => Node.bucketsOpt r
  | .course _ _ => []
  | .prof _ _ _ => []
  | .cond _ _ _ _ => []
/-- the loop over the items, `dp/bin/discover.py:209-210` -/
def Node.bucketsList : List Node → List String
  | [] => []
  | n :: ns => n.buckets ++ Node.bucketsList ns
/-- the optional result, `dp/bin/discover.py:212-216` -/
def Node.bucketsOpt : Option Node → List String
  | none => []
  | some n => n.buckets
end

/-- the attributes of one area file, `dp/bin/discover.py:66-71` -/
def Area.buckets (a : Area) : List String :=
  a.limit.flatMap (fun l => l.where'.buckets) ++ a.result.buckets

/-- `dp/bin/discover.py:66-71` -/
def Area.bucketRefs (catalog code : String) (a : Area) : List BucketRef := a.buckets.map (fun b => ⟨code, catalog, b⟩)

/-- how the area is loaded: for no student, with all emphases, `dp/bin/discover.py:57` -/
def discoverArea (spec : Dict) : Except Err Area := loadArea {} [] {} [] true spec

/-- `main`, `dp/bin/discover.py:38-71`: what is found in the given files, each with its catalog, its code and its
text.  Files that do not end in `.yaml` are left out before; a code with a dash or a dot is passed over; the first file
that cannot be loaded ends the program.  `hidden` is as for `Node.mentioned`, for every code. -/
def discoverFiles (hidden : String → Path → Bool) : List (String × String × Dict) →
    Except Err (List CourseRef × List BucketRef)
  | [] => .ok ([], [])
  | (catalog, code, spec) :: rest =>
    if code.toList.contains '-' || code.toList.contains '.' then discoverFiles hidden rest
    else match discoverArea spec with
      | .error e => .error e
      | .ok a => match discoverFiles hidden rest with
        | .error e => .error e
        | .ok (cs, bs) => .ok (a.courseRefs (hidden code) code ++ cs, a.bucketRefs catalog code ++ bs)

/-! ### The table of courses -/

/-- one `DELETE`, `dp/bin/discover.py:153-165`: whether it deletes the row -/
def CourseRef.deletes (ref row : CourseRef) : Bool :=
  match ref.course, ref.crsid with
  | some course, _ => row.code == ref.code && row.course == some course
  | none, some crsid => row.code == ref.code && row.crsid == some crsid
  | none, none => false

/-- the loop of `INSERT … ON CONFLICT DO NOTHING`, `dp/bin/discover.py:136-141`.  `conflict`: whether a constraint of
the table refuses the new row. -/
def insertRefs (conflict : List CourseRef → CourseRef → Bool) : List CourseRef → List CourseRef → List CourseRef
  | table, [] => table
  | table, r :: rs => insertRefs conflict (if conflict table r then table else table ++ [r]) rs

/-- the loop of `DELETE`s over the fetched rows, `dp/bin/discover.py:148-165` -/
def deleteRefs (refs : List CourseRef) : List CourseRef → List CourseRef → List CourseRef
  | table, [] => table
  | table, row :: fetched =>
    deleteRefs refs (if refs.contains row then table else table.filter (fun r => !row.deletes r)) fetched

/-- `insert_course_refs`, `dp/bin/discover.py:134-167`: the table when it commits.  Exceptions of the database, which
leave the table as it was, are not modelled. -/
def syncCourses (conflict : List CourseRef → CourseRef → Bool) (refs table : List CourseRef) : List CourseRef :=
  let inserted := insertRefs conflict table refs
  deleteRefs refs inserted inserted

/-- one run after the other, each with what it has found -/
def syncAll (conflict : List CourseRef → CourseRef → Bool) : List (List CourseRef) → List CourseRef → List CourseRef
  | [], table => table
  | refs :: rest, table => syncAll conflict rest (syncCourses conflict refs table)

/-! ### The table of attributes -/

/-- the loop of `INSERT … ON CONFLICT DO NOTHING`, `dp/bin/discover.py:171-176` -/
def insertBuckets (conflict : List BucketRef → BucketRef → Bool) : List BucketRef → List BucketRef → List BucketRef
  | table, [] => table
  | table, r :: rs => insertBuckets conflict (if conflict table r then table else table ++ [r]) rs

/-- the loop of `DELETE`s over the fetched rows, `dp/bin/discover.py:183-192` -/
def deleteBuckets (refs : List BucketRef) : List BucketRef → List BucketRef → List BucketRef
  | table, [] => table
  | table, row :: fetched =>
    deleteBuckets refs (if refs.contains row then table else table.filter (fun r =>
      !(r.code == row.code && r.catalog == row.catalog && r.bucket == row.bucket))) fetched

/-- `insert_bucket_refs`, `dp/bin/discover.py:169-194`: the table when it commits -/
def syncBuckets (conflict : List BucketRef → BucketRef → Bool) (refs table : List BucketRef) : List BucketRef :=
  let inserted := insertBuckets conflict table refs
  deleteBuckets refs inserted inserted

/-- one run after the other -/
def syncBucketsAll (conflict : List BucketRef → BucketRef → Bool) : List (List BucketRef) → List BucketRef →
    List BucketRef
  | [], table => table
  | refs :: rest, table => syncBucketsAll conflict rest (syncBuckets conflict refs table)

end Dp
