import Verif.Model.Json
import Verif.Model.Files

/-
Asking the server for an audit of a file (`dp/server/whatif.py`), and what a worker makes of an item of the queue
(`dp/server/worker.py:91-117`).
-/
namespace Dp

/-- `main`, `dp/server/whatif.py:14-35`: the queue afterwards, and the exception, if any.  `stnum`: the student number in the file, or the
exception if there is none; `id` and `ts` are what the database gives the new row, and `linkOnly` is its default for this column, which is not
in the statement. -/
def whatIf (stnum : Except Err String) (year : Int) (code : String) (id : Nat) (ts : Int) (linkOnly : Bool) (queue : List QueueRow) :
    List QueueRow × Option Err :=
  match stnum with
  | .error e => (queue, some e)
  | .ok stnum =>
    (queue ++ [{ id := id, priority := 100, ts := ts, student := stnum, catalog := catalogYears year, code := code, linkOnly := linkOnly }], none)

/-- `int(area_catalog.split('-')[0])`, `dp/server/worker.py:95` -/
def workerYear (catalog : String) : Except Err Int := intOf (String.ofList (catalog.toList.takeWhile (· ≠ '-')))

/-- What a worker does with an item, `dp/server/worker.py:91-128`, as a step of `Model/Server`: `files` are the area files beneath the root,
`load` reads one of them, `input` is the student in the item; either may raise. -/
def workerAct (o : Orders) (W : Writes) (dump : Json → String) (described : Bool) (files : List (String × String))
    (load : String → String → Except Err Dict) (input : Except Err RawStudent) (q : QueueRow) : WAct :=
  match workerYear q.catalog with
  | .error _ => .noResult
  | .ok year => match findArea files year q.code with
    | none => .areaMissing
    | some folder => match load folder q.code with
      | .error _ => .noResult
      | .ok spec => match input with
        | .error _ => .noResult
        | .ok raw => match serverAudit o W described raw spec with
          | none => .noResult
          | some stored => .result (dump stored.result)

end Dp
