import Verif.Model.Student
import Verif.Model.Files
import Verif.Model.Json

/-
The programs around an audit: loading the file of an area (`dp/run.py`), the command line (`dp/__main__.py`), the batch
(`dp/bin/batch.py`) and the index of students that feeds it (`dp/bin/index.py`).
-/
namespace Dp

/-! ### The file of an area -/

/-- what stands in for an area without a file, `dp/run.py:95-107`; in the message, quotation marks within the name of the
file are not escaped -/
def missingArea (stem : String) : Dict :=
  [("name", .str stem), ("type", .str "error"), ("code", .str stem),
   ("result", .map [("all", .list [.map [("name", .str "Error"),
     ("message", .str ("The '" ++ stem ++ "' area specification for this catalog year has not yet been transcribed.")),
     ("department_audited", .bool true)]])])]

/-- `load_area`, `dp/run.py:87-107`.  `file`: what the file says, if there is one. -/
def loadAreaFile (stem : String) (file : Option Dict) : Dict :=
  match file with
  | some d => d
  | none => missingArea stem

/-! ### The command line -/

/-- how a program ends: with an exit code, or with an exception that nothing catches -/
inductive Exit where
  | code (n : Nat)
  | raised (e : Err)
deriving DecidableEq, Repr

/-- what the programs write: to standard output a report, and to standard error the rest -/
inductive Output (τ : Type) where
  | report (text : τ)
  | estimate (n : Int)
  | progress
deriving DecidableEq, Repr

/-- the loop of `main`, `dp/__main__.py:77-115`, over the messages and the exception after them.  `render` is `result_str`,
lines 118-162; with `--quiet` it is not called. -/
def mainLoop {ρ τ : Type} (quiet : Bool) (render : ρ → Except Err τ) (tail : Option Err) :
    List (Msg ρ) → List (Output τ) × Exit
  | [] => ([], match tail with
    | none => .code 0
    | some e => .raised e)
  | .noAudits :: _ => ([], .code 2)
  | .estimate n :: ms =>
    let rest := mainLoop quiet render tail ms
    (if quiet then rest.1 else .estimate n :: rest.1, rest.2)
  | .progress _ _ _ _ :: ms =>
    let rest := mainLoop quiet render tail ms
    (if quiet then rest.1 else .progress :: rest.1, rest.2)
  | .result r _ _ _ :: ms =>
    if quiet then mainLoop quiet render tail ms
    else match render r with
      | .error e => ([], .raised e)
      | .ok t =>
        let rest := mainLoop quiet render tail ms
        (.report t :: rest.1, rest.2)

/-- `main` without `--transcript` and `--gpa`, `dp/__main__.py:71-115`.  The student's file exists; `file` is the area's, if
it does. -/
def mainProgram {τ : Type} (o : Orders) (args : Args) (quiet : Bool) (render : AreaResult → Except Err τ) (raw : RawStudent)
    (stem : String) (file : Option Dict) : List (Output τ) × Exit :=
  let msgs := runFiles o args raw (loadAreaFile stem file)
  mainLoop quiet render msgs.err msgs.items

/-! ### The batch -/

/-- the tuples of words, compared as python does -/
def wordsLe : List String → List String → Bool
  | [], _ => true
  | _ :: _, [] => false
  | a :: as, b :: bs => if a = b then wordsLe as bs else decide (a < b)

/-- put a line in its place -/
def insertLine (l : List String) : List (List String) → List (List String)
  | [] => [l]
  | m :: ms => if wordsLe l m then l :: m :: ms else m :: insertLine l ms

/-- `sorted(...)`, `dp/bin/batch.py:35` -/
def sortLines : List (List String) → List (List String)
  | [] => []
  | l :: ls => insertLine l (sortLines ls)

/-- `sorted(set(...)) * n`, `dp/bin/batch.py:35`.  The lines come as their words. -/
def batchItems (n : Nat) (lines : List (List String)) : List (List String) :=
  (List.replicate n (sortLines lines.dedup)).flatten

/-- what a batch reads: the students' files by number, and the area files by folder and code -/
structure BatchFiles where
  students : String → Option RawStudent
  areas : List (String × String)
  text : String → String → Dict

/-- `int(catalog.split('-')[0])`, `dp/bin/batch.py:48` -/
def catalogNumber (catalog : String) : Option Int := parseInt (catalog.toList.takeWhile (· != '-'))

/-- the messages of one audit, `dp/bin/batch.py:65-105`: the reports, and the exit code if it ends the program -/
def batchMessages {τ : Type} (render : AreaResult → Except Err τ) (tail : Option Err) :
    List (Msg AreaResult) → List τ × Option Exit
  | [] => ([], tail.map (fun _ => .code 1))
  | .noAudits :: _ => ([], some (.code 2))
  | .estimate _ :: ms => batchMessages render tail ms
  | .progress _ _ _ _ :: ms => batchMessages render tail ms
  | .result r _ _ _ :: ms => match render r with
    | .error _ => ([], some (.code 1))
    | .ok t =>
      let rest := batchMessages render tail ms
      (t :: rest.1, rest.2)

/-- one round of the loop, `dp/bin/batch.py:44-110`, without `--transcript` and `--invocation`: what is reported, and how the
program ends here, if it does.  A line that has not three words raises; so does a student without a file. -/
def batchStep {τ : Type} (o : Orders) (fs : BatchFiles) (render : List String → AreaResult → Except Err τ) (line : List String) :
    List (List String × τ) × Option Exit :=
  match line with
  | [stnum, catalog, code] => match catalogNumber catalog with
    | none => ([], some (.raised .valueError))
    | some year => match findArea fs.areas year code with
      | none => ([], some (.code 1))
      | some folder => match fs.students stnum with
        | none => ([], some (.raised .other))
        | some raw =>
          let msgs := runFiles o {} raw (fs.text folder code)
          let out := batchMessages (render line) msgs.err msgs.items
          (out.1.map (fun t => (line, t)), out.2)
  | _ => ([], some (.raised .valueError))

/-- the loop of `main`, `dp/bin/batch.py:44-112` -/
def batchLoop {τ : Type} (o : Orders) (fs : BatchFiles) (render : List String → AreaResult → Except Err τ) :
    List (List String) → List (List String × τ) × Exit
  | [] => ([], .code 0)
  | l :: ls => match batchStep o fs render l with
    | (out, some e) => (out, e)
    | (out, none) =>
      let rest := batchLoop o fs render ls
      (out ++ rest.1, rest.2)

/-- `main`, `dp/bin/batch.py:15-112`: the reports with the lines they are for, and how the program ends -/
def batchProgram {τ : Type} (o : Orders) (fs : BatchFiles) (render : List String → AreaResult → Except Err τ) (n : Nat)
    (lines : List (List String)) : List (List String × τ) × Exit :=
  let items := batchItems n lines
  if items.isEmpty then ([], .code 1) else batchLoop o fs render items

/-! ### The index of students -/

/-- a row of the table, `dp/bin/index.py:44-55`; the columns that only a query reads are left to `rest` -/
structure IndexRow where
  stnum : String
  catalog : String
  code : String
  rest : List String := []
deriving DecidableEq, Repr

/-- a student's file: its number, and the rows of its areas, `dp/bin/index.py:73-77`, as far as they do not name the student.
Missing keys, which raise, are not modelled. -/
structure IndexFile where
  stnum : String
  areas : List (String × String × List String)
deriving DecidableEq, Repr

/-- the rows inserted for one file, `dp/bin/index.py:73-77` -/
def IndexFile.rows (f : IndexFile) : List IndexRow := f.areas.map (fun a => ⟨f.stnum, a.1, a.2.1, a.2.2⟩)

/-- `files.difference(known_stnums)`, `dp/bin/index.py:57-62`: the names to be indexed.  `dir`: the names of the files, each
once, in the order of the set. -/
def toIndex (table : List IndexRow) (dir : List (String × IndexFile)) : List (String × IndexFile) :=
  dir.filter (fun f => !(table.map (·.stnum)).contains f.1)

/-- the table after a run, `dp/bin/index.py:57-77` -/
def indexRun (table : List IndexRow) (dir : List (String × IndexFile)) : List IndexRow :=
  table ++ (toIndex table dir).flatMap (fun f => f.2.rows)

/-- one run after the other, each on the files as they are then -/
def indexRuns : List IndexRow → List (List (String × IndexFile)) → List IndexRow
  | table, [] => table
  | table, d :: ds => indexRuns (indexRun table d) ds

/-- the label of a catalog, `catalog || '-' || substr(catalog + 1, 3, 2)`, `dp/bin/index.py:83`.  Simplification: a catalog that
is not a whole number counts as 0. -/
def indexLabel (catalog : String) : String :=
  catalog ++ "-" ++ String.ofList (((toString (((parseInt catalog.toList).getD 0) + 1)).toList.drop 2).take 2)

/-- the line about the progress, `dp/bin/index.py:64-68,79-80`, as the words that a reader of the output sees: it is written to
standard output too, and without a new line until the end -/
def indexProgress (n : Nat) : List (List String) :=
  if n = 0 then []
  else [(List.range n).flatMap (fun i =>
    if i % 100 = 0 then ["indexing", toString i ++ "/" ++ toString n, "items"]
    else if i + 1 = n then ["indexing", toString (i + 1) ++ "/" ++ toString n, "items"]
    else [])]

/-- the printed lines, `dp/bin/index.py:82-93`, as their words; `query`: which rows are asked for.  Left out: the order, and that
a word with blanks is read as several. -/
def indexLines (query : IndexRow → Bool) (table : List IndexRow) : List (List String) :=
  (table.filter query).map (fun r => [r.stnum, indexLabel r.catalog, r.code])

/-- all that a run of the index prints, `dp/bin/index.py:57-93` -/
def indexOutput (query : IndexRow → Bool) (table : List IndexRow) (dir : List (String × IndexFile)) : List (List String) :=
  indexProgress (toIndex table dir).length ++ indexLines query (indexRun table dir)

end Dp
