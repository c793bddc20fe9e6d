import Verif.Model.Load

/-
The program that validates area files: `dp/bin/validate.py`.
-/
namespace Dp

/-- the constants an area is validated with, `dp/bin/validate.py:37` -/
def validateConstants : Constants := { matriculationYear := 200 }

/-- one area file, `dp/bin/validate.py:33-38`: loaded for nobody, without exceptions; the exception that is shown, if any.
`file`: what the file says, or the exception raised by opening or parsing it. -/
def validateFile (file : Except Err Dict) : Option Err :=
  match file with
  | .error e => some e
  | .ok spec => match loadArea validateConstants [] {} [] false spec with
    | .error e => some e
    | .ok _ => none

/-- the loop over the files, `dp/bin/validate.py:24-46`: the names that are shown, each with the exception shown after it.  With `--break`
the first exception ends the loop. -/
def validateLoop (breakOnErr : Bool) : List (String × Except Err Dict) → List (String × Option Err)
  | [] => []
  | (name, file) :: rest => match validateFile file with
    | none => (name, none) :: validateLoop breakOnErr rest
    | some e => if breakOnErr then [(name, some e)] else (name, some e) :: validateLoop breakOnErr rest

/-- `main`, `dp/bin/validate.py:15-50`: what is shown, and the exit code -/
def validateProgram (breakOnErr : Bool) (files : List (String × Except Err Dict)) : List (String × Option Err) × Nat :=
  (validateLoop breakOnErr files, 0)

end Dp
