import Verif.Model.Csv

/-
The sheet for Excel (`dp/bin/excelify.py`): the rows of `Model/Csv`, put into cells by their place.
-/
namespace Dp

/-- the names of the styles, `dp/bin/excelify.py:16-64` -/
inductive ExcelStyle where
  | plain | done | pending | partly | failed
deriving DecidableEq, Repr

/-- `str.replace`; the first argument is how many characters of an occurrence are left to be skipped -/
def excelReplace (old new : List Char) : Nat → List Char → List Char
  | _, [] => []
  | n + 1, _ :: cs => excelReplace old new n cs
  | 0, c :: cs => if old.isPrefixOf (c :: cs) then new ++ excelReplace old new (old.length - 1) cs else c :: excelReplace old new 0 cs

/-- `compute_style`, `dp/bin/excelify.py:164-186` -/
def excelStyle (value : String) : ExcelStyle × String :=
  let starts (p : String) : Bool := p.toList.isPrefixOf value.toList
  let replace (p q : String) : String := String.ofList (excelReplace p.toList q.toList 0 value.toList)
  if starts "done:" then (.done, value)
  else if starts "pending-current:" then (.pending, replace "pending-current:" "in-progress:")
  else if starts "needs-more-items:" then (.partly, replace "needs-more-items:" "partial:")
  else if starts "failed-invariant:" then (.failed, value)
  else if !value.toList.contains ':' then (if value.isEmpty then (.plain, value) else (.done, value))
  else (.plain, value)

/-- `Csvify.process`, `dp/stringify_csv.py:56-62`, with the number taken from the name of the file, `dp/bin/excelify.py:95-100` -/
def AreaResult.excel (S : Shows) (header : String → String) (stnum : String) (r : AreaResult) : Except Err (List (String × SheetCell)) :=
  match r.result.csv S header with
  | .error e => .error e
  | .ok cols => .ok ([("Student", some stnum), ("GPA", some (S.number r.gpa)), ("Status", some r.status.text),
      ("Classification", some "???"), ("Ant. Grad. Date", some "May 2000")] ++ cols)

/-- the rows of all files, `dp/bin/excelify.py:87-100` -/
def excelDicts (S : Shows) (header : String → String) : List (String × AreaResult) → Except Err (List (List (String × SheetCell)))
  | [] => .ok []
  | s :: rs => match s.2.excel S header s.1 with
    | .error e => .error e
    | .ok cols => match excelDicts S header rs with
      | .error e => .error e
      | .ok rows => .ok (csvDict cols :: rows)

/-- the cells of a row from the column `i` on (from zero), `dp/bin/excelify.py:121-131`: a `None` has no `startswith` (AttributeError) -/
def excelCells : Nat → List (String × SheetCell) → Except Err (List (SheetCell × ExcelStyle))
  | _, [] => .ok []
  | i, c :: rest =>
    let cell : Except Err (SheetCell × ExcelStyle) :=
      if i < 5 then .ok (c.2, .plain)
      else match c.2 with
        | none => .error .other
        | some value => .ok (some (excelStyle value).2, (excelStyle value).1)
    match cell with
    | .error e => .error e
    | .ok x => match excelCells (i + 1) rest with
      | .error e => .error e
      | .ok xs => .ok (x :: xs)

/-- the loop over the rows, `dp/bin/excelify.py:117-131` -/
def excelRows : List (List (String × SheetCell)) → Except Err (List (List (SheetCell × ExcelStyle)))
  | [] => .ok []
  | row :: rows => match excelCells 0 row with
    | .error e => .error e
    | .ok x => match excelRows rows with
      | .error e => .error e
      | .ok xs => .ok (x :: xs)

/-- `main` of `excelify`, `dp/bin/excelify.py:67-141`: the headings in the first row, and the cells of the others, each from the first column on.
Simplification: the widths of the columns are left out. -/
def excelify (S : Shows) (header : String → String) (rs : List (String × AreaResult)) :
    Except Err (List String × List (List (SheetCell × ExcelStyle))) :=
  match excelDicts S header rs with
  | .error e => .error e
  | .ok [] => .error .indexError
  | .ok (first :: rest) => match excelRows (first :: rest) with
    | .error e => .error e
    | .ok table => .ok (first.map (·.1), table)

end Dp
