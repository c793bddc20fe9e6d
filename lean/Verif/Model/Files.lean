import Verif.Model.Server

/-
Finding the file of an area (`dp/run.py`).
-/
namespace Dp

/-- the greatest of some names, `max(...)` in `dp/run.py:82`.  The paths compared differ in
the folder only. -/
def greatestName : List String → Option String
  | [] => none
  | f :: fs => match greatestName fs with
    | none => some f
    | some g => if g < f then some f else some g

/-- `find_area`, `dp/run.py:69-84`: the folder of the file found.  `files` are the folders
beneath the root with the codes of the files in them.  The folder of a year is named as in
`dp/bin/expand.py:67`.  Codes with characters that are special in `glob` are not modelled. -/
def findArea (files : List (String × String)) (catalog : Int) (code : String) : Option String :=
  greatestName ((files.filter (fun f =>
    f.1.toList.contains '-' && f.2 == code && !decide (catalogYears catalog < f.1))).map (·.1))

end Dp
