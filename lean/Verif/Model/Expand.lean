import Verif.Model.Server
import Verif.Model.Gen

/-
The program that lists the audits of some students (`dp/bin/expand.py`).
-/
namespace Dp

/-- a line that is printed, `dp/bin/expand.py:38-39`: the student's file, and the parts of the path of the area's file (the root, the directory
of the catalog, and the code of the area before `.yaml`).  Simplification: the two paths are not made absolute. -/
structure ExpandLine where
  file : String
  root : String
  catalog : String
  code : String
deriving DecidableEq, Repr

/-- `expand_student(student=student, area_code=area_code)`, `dp/bin/expand.py:42-69`: what it yields, and whether it gets to its end.  A code
that is empty is taken for none. -/
def expandWanted (order : List String → List String) (code : Option String) (st : Fetched) : List (String × String × String) × Bool :=
  match st.catalog with
  | .year year => expandLoop st year (match code with
    | some c => if c = "" then order st.codes else [c]
    | none => order st.codes)
  | .text => ([], true)
  | .other => ([], false)

/-- the loop over the files, `dp/bin/expand.py:32-39`: the lines, and the exception.  `read` gives the student in a file, or `none` if it
raises. -/
def expandLines (read : String → Option Fetched) (order : List String → List String) (root : String) (code : Option String) :
    List String → List ExpandLine × Option Err
  | [] => ([], none)
  | file :: files => match read file with
    | none => ([], some .other)
    | some st =>
      let lines := (expandWanted order code st).1.map (fun item => ({ file, root, catalog := item.2.1, code := item.2.2 } : ExpandLine))
      if (expandWanted order code st).2 then
        (lines ++ (expandLines read order root code files).1, (expandLines read order root code files).2)
      else (lines, some .other)

/-- `cli` of `expand`, `dp/bin/expand.py:14-39`.  `student` and `code` are the two arguments, `stdin` the lines of the standard input, `root`
the variable `AREA_ROOT`.  For another `student` than `-` the name `args.area_codes` is looked up, which the parser does not define
(AttributeError). -/
def expandCli (strip : String → String) (glob : String → List String) (read : String → Option Fetched) (order : List String → List String)
    (root : Option String) (student : String) (code : Option String) (stdin : List String) : List ExpandLine × Option Err :=
  if student = "-" then
    match root with
    | none => ([], some .assertion)
    | some r => if r = "" then ([], some .assertion)
      else expandLines read order r code (((stdin.map strip).filter (fun line => line ≠ "")).flatMap glob)
  else ([], some .other)

end Dp
