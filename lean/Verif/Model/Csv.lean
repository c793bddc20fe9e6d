import Verif.Model.Print

/-
The spreadsheet (`dp/stringify_csv.py`, `dp/bin/csvify.py`): one row for each audited student.

As in `Model/Print`, the row is made from the result itself and not from its dictionary.  `Csvify` hands a flag `waived` down,
which has no effect: it is read in `assertion`, where `rule['assertion']` raises KeyError in any case (no dictionary of an assertion
has this key, `dp/assertion_clause.py:148-164,329-335,433-438`), and in the part of `count` after a loop that always returns
(`dp/stringify_csv.py:171`).
-/
namespace Dp

/-- a cell; `none` is python's `None`, which is written as an empty cell -/
abbrev SheetCell := Option String

/-- `Csvify.course`, `dp/stringify_csv.py:90-96`: for a course that is not passing nothing is yielded. -/
def csvCourse (s : Stage) (d : CourseData) : List (String × SheetCell) :=
  if (courseStatus s d).passing then [(noneText d.course, d.course)] else []

/-- `Csvify.proficiency`, `dp/stringify_csv.py:98-101` -/
def csvProf (d : ProfData) (course : Option (Stage × CourseData)) : List (String × SheetCell) :=
  [(d.proficiency, match course with
    | some (_, c) => c.course
    | none => if (profStatus d course).passing then some "done" else some "")]

/-- `Csvify.query` and `Csvify.assertion`, `dp/stringify_csv.py:103-155`: the filter is written out, then the first assertion raises
KeyError. -/
def csvQuery (S : Shows) (d : QueryData) : Except Err (List (String × SheetCell)) :=
  let filter : Except Err String := match d.where' with
    | none => .ok ""
    | some w => strPredicate S false w
  match filter with
  | .error e => .error e
  | .ok _ => if d.assertions.isEmpty then .ok [] else .error .keyError

mutual
/-- `Csvify.dispatch`, `dp/stringify_csv.py:64-68`, with `requirement` (73-88), `count` (157-181) and the methods above.  There is no
method for conditional rules.  `header` is how the name of a requirement is written (75-78). -/
def Node.csv (S : Shows) (header : String → String) : Node → Except Err (List (String × SheetCell))
  | .course s d => .ok (csvCourse s d)
  | .query _ d => csvQuery S d
  | .prof _ d c => .ok (csvProf d c)
  | .cond _ _ _ _ => .error .keyError
  | .count _ d items =>
    if d.count = 1 ∧ items ≠ [] then Node.csvFirst S header items else Node.csvList S header items
  | .req _ _ none => .error .typeError
  | .req _ d (some (.course _ c)) => .ok [(header d.name, c.course)]
  | .req _ d (some n) => match n.csv S header with
    | .error e => .error e
    | .ok cols => .ok (cols.map (fun c => (header d.name ++ "\n↳ " ++ c.1, c.2)))
/-- the loop over the items of a count, `dp/stringify_csv.py:180-181` -/
def Node.csvList (S : Shows) (header : String → String) : List Node → Except Err (List (String × SheetCell))
  | [] => .ok []
  | n :: ns => match n.csv S header with
    | .error e => .error e
    | .ok a => match Node.csvList S header ns with
      | .error e => .error e
      | .ok b => .ok (a ++ b)
/-- the loop of a count of one, `dp/stringify_csv.py:163-171`: it returns after the first item -/
def Node.csvFirst (S : Shows) (header : String → String) : List Node → Except Err (List (String × SheetCell))
  | [] => .ok []
  | n :: _ => n.csv S header
end

/-- `Csvify.process`, `dp/stringify_csv.py:56-62`; `stnum` is `'000000'` (`dp/bin/csvify.py:29`). -/
def AreaResult.csv (S : Shows) (header : String → String) (r : AreaResult) : Except Err (List (String × SheetCell)) :=
  match r.result.csv S header with
  | .error e => .error e
  | .ok cols => .ok ([("Student", some "000000"), ("GPA", some (S.number r.gpa)), ("Status", some r.status.text),
      ("Classification", some "???"), ("Ant. Grad. Date", some "May 2000")] ++ cols)

/-- writing to a dictionary: a key keeps its place -/
def setCell (row : List (String × SheetCell)) (k : String) (v : SheetCell) : List (String × SheetCell) :=
  match row with
  | [] => [(k, v)]
  | (k', v') :: rest => if k' = k then (k', v) :: rest else (k', v') :: setCell rest k v

/-- `dict(csvifier.process(output))`, `dp/bin/csvify.py:31` -/
def csvDict (cols : List (String × SheetCell)) : List (String × SheetCell) := cols.foldl (fun row c => setCell row c.1 c.2) []

/-- `row.get(key, "")` of `csv.DictWriter` -/
def cellOf (row : List (String × SheetCell)) (k : String) : SheetCell :=
  match row.find? (fun c => c.1 == k) with
  | some c => c.2
  | none => some ""

/-- the rows of all files, `dp/bin/csvify.py:21-31` -/
def csvDicts (S : Shows) (header : String → String) : List AreaResult → Except Err (List (List (String × SheetCell)))
  | [] => .ok []
  | r :: rs => match r.csv S header with
    | .error e => .error e
    | .ok cols => match csvDicts S header rs with
      | .error e => .error e
      | .ok rows => .ok (csvDict cols :: rows)

/-- `main` of `csvify`, `dp/bin/csvify.py:15-42`: the headings and the rows.  The headings are the keys of the first row (IndexError if
there is none); `csv.DictWriter` raises ValueError for a row with another key and leaves missing cells empty. -/
def csvify (S : Shows) (header : String → String) (rs : List AreaResult) : Except Err (List String × List (List SheetCell)) :=
  match csvDicts S header rs with
  | .error e => .error e
  | .ok [] => .error .indexError
  | .ok (first :: rest) =>
    let keys := first.map (·.1)
    if (first :: rest).all (fun row => row.all (fun c => keys.contains c.1)) then
      .ok (keys, (first :: rest).map (fun row => keys.map (cellOf row)))
    else .error .valueError

end Dp
