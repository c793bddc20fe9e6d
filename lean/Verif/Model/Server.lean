import Mathlib.Tactic.Common
import Mathlib.Data.List.Dedup

/-
The audit queue: workers that take items from a database queue, audit them and store
the results (`dp/server/worker.py`, `dp/server/audit.py`), the clearing of expired results
(`dp/server/clear_expired.py`) and the filling of the queue (`dp/server/batch.py`,
`dp/bin/expand.py`).

PostgreSQL is modelled as far as these programs rely on it: a statement runs in one step
and sees what has been committed plus the changes of its own transaction (READ COMMITTED);
COMMIT makes the changes of a transaction visible in one step; a failed statement aborts the
transaction, whose COMMIT then rolls back; when a connection goes away its transaction is
rolled back; a statement that would change a row changed by an open transaction waits.
-/
namespace Dp

/-! ### The tables -/

/-- a row of the table `queue` (`dp/server/worker.py:62-74`), without the parts that are only
handed on to the audit -/
structure QueueRow where
  id : Nat
  priority : Int := 1
  ts : Int := 0
  student : String
  catalog : String
  code : String
  expires : Option Int := none
  linkOnly : Bool := false
deriving DecidableEq, Repr

/-- a row of the table `result` (`dp/server/audit.py:70-125`); `result` stands for the whole
JSON document.  `source` is not in the table: it says which queue item the row was made for,
to be able to state properties. -/
structure ResultRow where
  id : Nat
  student : String
  catalog : String
  code : String
  result : String
  ts : Int
  expires : Option Int := none
  linkOnly : Bool := false
  active : Bool := false
  revision : Nat := 0
  source : Nat := 0
deriving DecidableEq, Repr

/-- the two tables, as committed -/
structure Db where
  queue : List QueueRow := []
  results : List ResultRow := []
deriving DecidableEq, Repr

/-! ### Storing one result (`dp/server/audit.py:46-152`) -/

/-- the statements executed for a result -/
inductive Stmt
  | deleteSame | deactivate | insert
deriving DecidableEq, Repr

/-- the statements for one result, `dp/server/audit.py:46-150` -/
def stmtsFor (linkOnly : Bool) : List Stmt :=
  if linkOnly then [.insert] else [.deleteSame, .deactivate, .insert]

/-- the rows of `DELETE FROM result ...`, `dp/server/audit.py:48-54` -/
def isSame (q : QueueRow) (text : String) (r : ResultRow) : Bool :=
  r.student == q.student && r.catalog == q.catalog && r.code == q.code && r.result == text

/-- the rows of `UPDATE result SET is_active = false ...`, `dp/server/audit.py:57-64`: of any
catalog -/
def isActiveOf (q : QueueRow) (r : ResultRow) : Bool :=
  r.student == q.student && r.code == q.code && r.active

/-- `coalesce((SELECT max(revision) ...), 0) + 1`, `dp/server/audit.py:119` -/
def nextRevision (q : QueueRow) (rs : List ResultRow) : Nat :=
  ((rs.filter (fun r => r.student == q.student && r.code == q.code)).map (·.revision)).foldr max 0 + 1

/-- the row of `INSERT INTO result ...`, `dp/server/audit.py:70-150` -/
def newRow (q : QueueRow) (text : String) (id : Nat) (now : Int) (rs : List ResultRow) : ResultRow :=
  { id := id, student := q.student, catalog := q.catalog, code := q.code, result := text, ts := now,
    expires := q.expires, linkOnly := q.linkOnly, active := !q.linkOnly, revision := nextRevision q rs,
    source := q.id }

/-- one statement, on the rows it sees -/
def runStmt (q : QueueRow) (text : String) (id : Nat) (now : Int) : Stmt → List ResultRow → List ResultRow
  | .deleteSame, rs => rs.filter (fun r => !isSame q text r)
  | .deactivate, rs => rs.map (fun r => if isActiveOf q r then { r with active := false } else r)
  | .insert, rs => rs ++ [newRow q text id now rs]

/-- all statements of a result, when nothing else happens meanwhile -/
def storeResult (q : QueueRow) (text : String) (id : Nat) (now : Int) (rs : List ResultRow) : List ResultRow :=
  (stmtsFor q.linkOnly).foldl (fun rs st => runStmt q text id now st rs) rs

/-! ### Clearing expired results (`dp/server/clear_expired.py`) -/

/-- `i.student_id = r.student_id AND i.catalog = r.catalog AND i.area_code = r.area_code`,
`dp/server/clear_expired.py:25` -/
def sameAudit (i r : ResultRow) : Bool := i.student == r.student && i.catalog == r.catalog && i.code == r.code

/-- the `WHERE` clause, `dp/server/clear_expired.py:21-26`.  A missing `expires_at` makes
the comparison NULL, which is not true.  The subquery ranges over a set with `r` itself in it,
so `ts < max(ts)` says that some row has a greater `ts`. -/
def isCleared (now : Int) (rs : List ResultRow) (r : ResultRow) : Bool :=
  r.expires.any (fun e => decide (e ≤ now)) &&
    decide (r.ts < ((rs.filter (fun i => sameAudit i r)).map (·.ts)).foldr max r.ts)

/-- `DELETE FROM result r WHERE ...`, `dp/server/clear_expired.py:18-27` -/
def clearExpired (now : Int) (rs : List ResultRow) : List ResultRow := rs.filter (fun r => !isCleared now rs r)

/-! ### Workers (`dp/server/worker.py`) -/

/-- What an open transaction has changed: the queue rows it has deleted, the result rows it
has deleted and deactivated (by id) and inserted. -/
structure Tx where
  taken : List QueueRow := []
  deleted : List Nat := []
  deactivated : List Nat := []
  inserted : List ResultRow := []
  aborted : Bool := false
deriving DecidableEq, Repr

/-- what a transaction sees of the results -/
def Tx.view (tx : Tx) (rs : List ResultRow) : List ResultRow :=
  ((rs ++ tx.inserted).filter (fun r => !tx.deleted.contains r.id)).map
    (fun r => if tx.deactivated.contains r.id then { r with active := false } else r)

/-- where a worker is in `process_queue`, `dp/server/worker.py:57-128` -/
inductive Phase
  /-- before `BEGIN`, line 60 -/
  | start
  /-- before the `DELETE ... RETURNING`, line 62 -/
  | fetch
  /-- has an item, before its audit has a result, lines 91-114 -/
  | working (q : QueueRow)
  /-- has a result, `left` are the statements still to execute, `dp/server/audit.py:42-154` -/
  | storing (q : QueueRow) (text : String) (left : List Stmt)
  /-- before the `COMMIT` of line 117 or 123 -/
  | finish
  /-- before the `COMMIT` of line 81 -/
  | leave
  /-- waiting for a notification, lines 40-54 -/
  | waiting
  /-- the process is gone -/
  | dead
deriving DecidableEq, Repr

/-- a worker with its connection's transaction, if one is open -/
structure Worker where
  phase : Phase := .start
  tx : Option Tx := none
deriving DecidableEq, Repr

/-- the whole system -/
structure Sys where
  db : Db := {}
  workers : List Worker := []
  clock : Int := 0
  /-- the sequence of result ids -/
  nextResult : Nat := 0
  /-- the sequence of queue ids -/
  nextItem : Nat := 0
deriving DecidableEq, Repr

/-- what a worker may do next -/
inductive WAct
  /-- `curs.execute('BEGIN;')`, line 60 -/
  | begin
  /-- the `DELETE ... RETURNING`, lines 62-82, giving the row with this id, or none -/
  | take (choice : Option Nat)
  /-- no area file: `continue`, lines 98-100 -/
  | areaMissing
  /-- an exception before the audit has a result (lines 121-123, or swallowed by `audit`),
  or an audit without result -/
  | noResult
  /-- the audit has a result, `dp/server/audit.py:42-44` -/
  | result (text : String)
  /-- the next statement -/
  | stmt
  /-- the next statement fails; `audit` swallows the exception, `dp/server/audit.py:159-160` -/
  | sqlError
  /-- an exception between the statements, swallowed as well -/
  | raise
  /-- `COMMIT` -/
  | commit
  /-- a notification arrives, lines 46-54 -/
  | notify
  /-- the process dies or loses its connection -/
  | crash
  /-- the process is started anew -/
  | restart
deriving DecidableEq, Repr

/-- what may happen next -/
inductive Act
  /-- an item is queued (its id comes from the sequence) -/
  | enqueue (q : QueueRow)
  | tick (ms : Nat)
  | worker (i : Nat) (a : WAct)
  /-- `clear_expired` runs -/
  | clear
deriving DecidableEq, Repr

/-- the ids of the queue rows deleted by open transactions -/
def Sys.takenIds (s : Sys) : List Nat := s.workers.flatMap (fun w => (w.tx.toList.flatMap (·.taken)).map (·.id))

/-- the queue rows that `FOR UPDATE SKIP LOCKED` considers -/
def Sys.available (s : Sys) : List QueueRow := s.db.queue.filter (fun q => !s.takenIds.contains q.id)

/-- `ORDER BY priority DESC, ts`, `dp/server/worker.py:68`: `q` may come before `q'` -/
def QueueRow.before (q q' : QueueRow) : Bool :=
  decide (q'.priority < q.priority) || (decide (q'.priority = q.priority) && decide (q.ts ≤ q'.ts))

/-- the result rows changed by the transactions of other workers -/
def Sys.changedByOthers (s : Sys) (i : Nat) : List Nat :=
  (s.workers.eraseIdx i).flatMap (fun w => w.tx.toList.flatMap (fun tx => tx.deleted ++ tx.deactivated))

/-- replace a worker -/
def Sys.set (s : Sys) (i : Nat) (w : Worker) : Sys := { s with workers := s.workers.set i w }

/-- one statement of a transaction; `none`: it has to wait for another transaction -/
def Tx.stmt (s : Sys) (i : Nat) (tx : Tx) (q : QueueRow) (text : String) : Stmt → Option Tx
  | .deleteSame =>
    let ids := ((tx.view s.db.results).filter (isSame q text)).map (·.id)
    if ids.any (s.changedByOthers i).contains then none else some { tx with deleted := tx.deleted ++ ids }
  | .deactivate =>
    let ids := ((tx.view s.db.results).filter (isActiveOf q)).map (·.id)
    if ids.any (s.changedByOthers i).contains then none else some { tx with deactivated := tx.deactivated ++ ids }
  | .insert => some { tx with inserted := tx.inserted ++ [newRow q text s.nextResult s.clock (tx.view s.db.results)] }

/-- what `COMMIT` makes of the tables -/
def Db.commit (db : Db) (tx : Tx) : Db :=
  if tx.aborted then db
  else { queue := db.queue.filter (fun q => !(tx.taken.map (·.id)).contains q.id), results := tx.view db.results }

/-- where a worker is after a statement, `left` being the statements still to execute -/
def afterStmt (q : QueueRow) (text : String) : List Stmt → Phase
  | [] => .finish
  | left => .storing q text left

/-- one step of worker `i`, which is `w`; `none`: it cannot do that now -/
def stepWorker (s : Sys) (i : Nat) (w : Worker) : WAct → Option Sys
  | .begin => match w.phase with
    -- with a transaction already open, `BEGIN` is a warning only
    | .start => some (s.set i { phase := .fetch, tx := some (w.tx.getD {}) })
    | _ => none
  | .take choice => match w.phase, w.tx with
    | .fetch, some tx => match choice with
      | none => if s.available = [] then some (s.set i { phase := .leave, tx := some tx }) else none
      | some id => match s.available.find? (fun q => q.id == id) with
        | none => none
        | some q =>
          if s.available.all (q.before ·) then
            some (s.set i { phase := .working q, tx := some { tx with taken := tx.taken ++ [q] } })
          else none
    | _, _ => none
  | .areaMissing => match w.phase with
    | .working _ => some (s.set i { w with phase := .start })
    | _ => none
  | .noResult => match w.phase with
    | .working _ => some (s.set i { w with phase := .finish })
    | _ => none
  | .result text => match w.phase with
    | .working q => some (s.set i { w with phase := .storing q text (stmtsFor q.linkOnly) })
    | _ => none
  | .stmt => match w.phase, w.tx with
    | .storing q text (st :: left), some tx => match tx.stmt s i q text st with
      | none => none
      | some tx' => some { s.set i ⟨afterStmt q text left, some tx'⟩ with nextResult := s.nextResult + 1 }
    | _, _ => none
  | .sqlError => match w.phase, w.tx with
    | .storing _ _ _, some tx => some (s.set i { phase := .finish, tx := some { tx with aborted := true } })
    | _, _ => none
  | .raise => match w.phase with
    | .storing _ _ _ => some (s.set i { w with phase := .finish })
    | _ => none
  | .commit => match w.phase, w.tx with
    | .finish, some tx => some { s.set i { phase := .start, tx := none } with db := s.db.commit tx }
    | .leave, some tx => some { s.set i { phase := .waiting, tx := none } with db := s.db.commit tx }
    | _, _ => none
  | .notify => match w.phase with
    | .waiting => some (s.set i { w with phase := .start })
    | _ => none
  | .crash => some (s.set i { phase := .dead, tx := none })
  | .restart => match w.phase with
    | .dead => some (s.set i {})
    | _ => none

/-- one step of the system -/
def Sys.step (s : Sys) : Act → Option Sys
  | .enqueue q => some { s with db := { s.db with queue := s.db.queue ++ [{ q with id := s.nextItem }] },
                                nextItem := s.nextItem + 1 }
  | .tick ms => some { s with clock := s.clock + ms }
  | .clear => some { s with db := { s.db with results := clearExpired s.clock s.db.results } }
  | .worker i a => match s.workers[i]? with
    | none => none
    | some w => stepWorker s i w a

/-- any number of steps; `none` if one of them is impossible -/
def Sys.run (s : Sys) : List Act → Option Sys
  | [] => some s
  | a :: as => match s.step a with
    | none => none
    | some s' => s'.run as

/-! ### Filling the queue (`dp/server/batch.py`, `dp/bin/expand.py`) -/

/-- a catalog field: a year, a text that is no number, or something else (a number, null) -/
inductive YearField
  | year (y : Int) | text | other
deriving DecidableEq, Repr

/-- an entry of `student['areas']`; `catalog` may be missing -/
structure DeclaredArea where
  code : String
  kind : String
  catalog : Option YearField := none
deriving DecidableEq, Repr

/-- a fetched student -/
structure Fetched where
  stnum : String
  catalog : YearField
  areas : List DeclaredArea
deriving DecidableEq, Repr

/-- `area_catalog + '-' + str(int(area_catalog) + 1)[2:]`, `dp/bin/expand.py:67` -/
def catalogYears (year : Int) : String :=
  toString year ++ "-" ++ String.ofList ((toString (year + 1)).toList.drop 2)

/-- `area_dict.get(code)`, `dp/bin/expand.py:46,61`: of two areas with one code the later -/
def Fetched.area? (st : Fetched) (code : String) : Option DeclaredArea :=
  st.areas.reverse.find? (fun a => a.code == code)

/-- the year of an area, `dp/bin/expand.py:61-67`; `none`: an exception -/
def Fetched.yearOf (st : Fetched) (year : Int) (code : String) : Option Int :=
  match (st.area? code).bind (·.catalog) with
  | none => some year
  | some (.year y) => some y
  | some _ => none

/-- the loop of `expand_student`, `dp/bin/expand.py:60-69`: what it yields, and whether it gets
to its end (or raises) -/
def expandLoop (st : Fetched) (year : Int) : List String → List (String × String × String) × Bool
  | [] => ([], true)
  | code :: codes => match st.yearOf year code with
    | none => ([], false)
    | some y => let (items, ok) := expandLoop st year codes
                ((st.stnum, catalogYears y, code) :: items, ok)

/-- the codes of a student's areas, `dp/bin/expand.py:45,58` -/
def Fetched.codes (st : Fetched) : List String :=
  ((st.areas.filter (fun a => a.kind != "emphasis")).map (·.code)).dedup

/-- `expand_student(student=student)`, `dp/bin/expand.py:42-69`.  `order` is the order of the
set of codes. -/
def expandStudent (order : List String → List String) (st : Fetched) : List (String × String × String) × Bool :=
  match st.catalog with
  | .year year => expandLoop st year (order st.codes)
  | .text => ([], true)
  | .other => ([], false)

/-- the tests of `fetch_and_queue`, `dp/server/batch.py:44-54` -/
def queueable (queued blocked : List (String × String)) (filter : Option String)
    (item : String × String × String) : Bool :=
  !queued.contains (item.1, item.2.2) && !blocked.contains (item.1, item.2.2) &&
    !(filter.any (· ≠ item.2.2))

/-- what one call of `fetch_and_queue` does to the shared connection, one after the other:
the `INSERT`s, `dp/server/batch.py:58-61`, and `conn.commit()`, line 63. -/
inductive BAct
  | insert (item : String × String × String)
  | commit
deriving DecidableEq, Repr

/-- the calls of one `fetch_and_queue`, `dp/server/batch.py:29-65`; an exception of
`expand_student` skips the commit -/
def queueActs (order : List String → List String) (queued blocked : List (String × String)) (filter : Option String)
    (st : Fetched) : List BAct :=
  let (items, ok) := expandStudent order st
  (items.filter (queueable queued blocked filter)).map .insert ++ (if ok then [.commit] else [])

/-- The connection all threads share, `dp/server/batch.py:132-136,154-166`: what it has
committed, what the open transaction has inserted, and whether that has failed; and what
others have put into the queue meanwhile. -/
structure BatchDb where
  committed : List (String × String × String) := []
  pending : List (String × String × String) := []
  aborted : Bool := false
  others : List (String × String × String) := []
deriving DecidableEq, Repr

/-- one call on the shared connection; `fails`: the database refuses the statement.  The
answer is false when the call raises, which ends that student's `fetch_and_queue`. -/
def BatchDb.act (b : BatchDb) (fails : Bool) : BAct → BatchDb × Bool
  | .insert item =>
    if b.aborted then (b, false)
    else if fails then ({ b with aborted := true }, false)
    else ({ b with pending := b.pending ++ [item] }, true)
  | .commit =>
    if b.aborted then ({ b with pending := [], aborted := false }, true)
    else ({ b with committed := b.committed ++ b.pending, pending := [] }, true)

/-- who comes next: a thread (and whether the database refuses its statement), or another
program that queues an item -/
inductive BTurn
  | thread (i : Nat) (fails : Bool)
  | other (item : String × String × String)
deriving DecidableEq, Repr

/-- The threads take turns.  `tasks` are the calls the students' `fetch_and_queue`s have left. -/
def runBatch (b : BatchDb) (tasks : List (List BAct)) : List BTurn → BatchDb × List (List BAct)
  | [] => (b, tasks)
  | .other item :: rest => runBatch { b with others := b.others ++ [item] } tasks rest
  | .thread i fails :: rest => match tasks[i]? with
    | some (a :: left) =>
      runBatch (b.act fails a).1 (tasks.set i (if (b.act fails a).2 then left else [])) rest
    | _ => runBatch b tasks rest

end Dp
