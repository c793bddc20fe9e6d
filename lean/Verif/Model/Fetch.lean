import Verif.Model.Testbed
import Verif.Model.Server

/-
What the testbed takes from the server, and how single audits of it are looked up (`dp/testbed/fetch.py`, `query.py`, `extract.py`,
`run.py`).
-/
namespace Dp

/-- a row of the server's table of results with the columns that are fetched, `dp/testbed/fetch.py:53-76`: `hasResult`: the column `result` is
not NULL; `whole`: the other columns that may not be NULL in the testbed (`dp/testbed/db.py:8-26`) are not.  Simplification: of the columns only
the duration and the student are kept, as in `TbDb`. -/
structure FetchRow where
  row : ResultRow
  run : Int
  duration : Rat
  raw : RawStudent
  hasResult : Bool := true
  whole : Bool := true

/-- the key of the row in the testbed, `dp/testbed/fetch.py:54-56` -/
def FetchRow.key (r : FetchRow) : TbKey := ⟨r.row.student, r.row.catalog, r.row.code⟩

/-- the arguments of `fetch`, `dp/testbed/__main__.py:47-51` -/
structure FetchArgs where
  latest : Bool := false
  run : Option Int := none
  clear : Bool := false

/-- `fetch__select_run` and where it is called, `dp/testbed/fetch.py:18-20,91-106`; `typed`: what the user types when asked -/
def fetchSelect (a : FetchArgs) (typed : Except Err Int) : Except Err (Option Int) :=
  if a.latest then .ok none
  else match a.run with
    | some n => if n = 0 then typed.map some else .ok (some n)
    | none => typed.map some

/-- the condition of the query, `dp/testbed/fetch.py:71-75` -/
def FetchRow.wanted (sel : Option Int) (r : FetchRow) : Bool :=
  r.hasResult && match sel with
    | some n => r.run == n
    | none => r.row.active

/-- the loop over the rows, `dp/testbed/fetch.py:79-88`: a row with a key that is in the table (the unique index), or with a NULL, raises -/
def insertFetched : List (TbKey × Rat × RawStudent) → List FetchRow → Except Err (List (TbKey × Rat × RawStudent))
  | table, [] => .ok table
  | table, r :: rs =>
    if r.whole && !table.any (fun t => t.1 = r.key) then insertFetched (table ++ [(r.key, r.duration, r.raw)]) rs else .error .other

/-- `fetch`, `dp/testbed/fetch.py:10-88`: the tables afterwards, and the exception, if any; `killed`: before the second transaction is
committed.  Simplification: the server's table does not change meanwhile. -/
def fetchAudits (a : FetchArgs) (typed : Except Err Int) (killed : Bool) (srv : List FetchRow) (db : TbDb) : TbDb × Option Err :=
  match fetchSelect a typed with
  | .error e => (db, some e)
  | .ok sel =>
    let db' := if a.clear then { db with server := [] } else db
    match insertFetched db'.server (srv.filter (fun r => r.wanted sel)) with
    | .error e => (db', some e)
    | .ok table => if killed then (db', some .other) else ({ db' with server := table }, none)

/-- `query`, `dp/testbed/query.py:6-24` -/
def queryAudits (db : TbDb) (stnum catalog code : Option String) : List TbKey :=
  (db.server.map (·.1)).filter (fun k => stnum.all (fun s => k.stnum == s) && catalog.all (fun c => k.catalog == c) && code.all (fun c => k.code == c))

/-- `do_extract`, `dp/testbed/extract.py:8-27`: the student whose file is written, `none`: there is no record; `order`: in which order the rows
are found, of which the first is taken.  The catalog is not looked at. -/
def extractStudent (order : List (TbKey × Rat × RawStudent) → List (TbKey × Rat × RawStudent)) (db : TbDb) (k : TbKey) : Option RawStudent :=
  (order (db.server.filter (fun r => r.1.stnum == k.stnum && r.1.code == k.code))).head?.map (·.2.2)

/-- `run_one`, `dp/testbed/run.py:12-33`: the result that is printed.  Simplification: what is printed is the report of this result; loading
the student once more for the report is left out. -/
def runOne (r : TbRun) (db : TbDb) (k : TbKey) : Except Err String :=
  match db.server.find? (fun s => s.1 = k) with
  | none => .error .typeError
  | some _ => match r.area k.catalog k.code with
    | .error e => .error e
    | .ok none => .error .keyError
    | .ok (some spec) => match r.audit db false k spec with
      | .error e => .error e
      | .ok none => .error .assertion
      | .ok (some row) => .ok row.result

end Dp
