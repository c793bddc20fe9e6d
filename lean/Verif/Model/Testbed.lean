import Verif.Model.Front

/-
The testbed: audits are run once for the baseline and once for a branch of the program, and the two are compared
(`dp/testbed/audit.py`, `batch.py`, `compare.py`).
-/
namespace Dp

/-- the columns `stnum`, `catalog` and `code`, `dp/testbed/db.py` -/
structure TbKey where
  stnum : String
  catalog : String
  code : String
deriving DecidableEq, Repr

/-- the other columns of a stored audit, `dp/testbed/audit.py:49-63`.  Simplification: SQLite keeps the numbers as doubles. -/
structure TbRow where
  iterations : Int
  duration : Rat
  gpa : Rat
  ok : Bool
  rank : Rat
  maxRank : Rat
  status : Status
  result : String
deriving DecidableEq

/-- `estimate`, `dp/testbed/audit.py:72-105` -/
def testbedEstimate (o : Orders) (raw : RawStudent) (spec : Dict) : Except Err (Option Int) :=
  match (runFiles o { estimateOnly := true } raw spec).items, (runFiles o { estimateOnly := true } raw spec).err with
  | [], none => .ok none
  | [], some e => .error e
  | .estimate n :: _, _ => .ok (some n)
  | _ :: _, _ => .error .assertion

/-- the loop over the messages, `dp/testbed/audit.py:46-69`.  `late i`: the time is up when the `i`-th message comes (TimeoutError,
`.other`); `secs`: the time measured; `write`: how the result is written, which may raise; `tail`: the exception after the messages. -/
def testbedMessages (write : AreaResult → Except Err String) (late : Nat → Bool) (secs : Rat) (tail : Option Err) :
    Nat → List (Msg AreaResult) → Except Err (Option TbRow)
  | _, [] => match tail with
    | some e => .error e
    | none => .ok none
  | _, .result r _ iters _ :: _ => match write r with
    | .error e => .error e
    | .ok text => match r.rank with
      | .error e => .error e
      | .ok (rank, maxRank) =>
        .ok (some { iterations := iters, duration := secs, gpa := r.gpa, ok := r.ok, rank := rank, maxRank := maxRank,
                    status := r.status, result := text })
  | i, _ :: ms => if late i then .error .other else testbedMessages write late secs tail (i + 1) ms

/-- `audit`, `dp/testbed/audit.py:11-69`, for a student whose file is in the table, or not -/
def testbedAudit (o : Orders) (write : AreaResult → Except Err String) (late : Nat → Bool) (secs : Rat) (raw : Option RawStudent)
    (spec : Dict) : Except Err (Option TbRow) :=
  match raw with
  | none => .error .assertion
  | some raw => match testbedEstimate o raw spec with
    | .error e => .error e
    | .ok none => .error .assertion
    | .ok (some _) =>
      testbedMessages write late secs (runFiles o {} raw spec).err 0 (runFiles o {} raw spec).items

/-- the tables, `dp/testbed/db.py:5-84`: of the server, the key, the duration and the file of the student; of a branch, its name too -/
structure TbDb where
  server : List (TbKey × Rat × RawStudent) := []
  baseline : List (TbKey × TbRow) := []
  branch : List (String × TbKey × TbRow) := []

/-- What one run of the testbed depends on: the program (`o`, `write`), the area files (`none`: there is no file; an error: it cannot be
parsed), the times, the order in which the audits end, and whether the run is killed before it ends.  Simplification: the cache of area files
gives back what the file says. -/
structure TbRun where
  o : Orders
  write : AreaResult → Except Err String
  area : String → String → Except Err (Option Dict)
  late : TbKey → Nat → Bool := fun _ _ => false
  secs : TbKey → Rat := fun _ => 0
  order : List TbKey → List TbKey := id
  killed : Bool := false

/-- the audits to be run, `dp/testbed/batch.py:39-58`: recorded as shorter than a time, and of one area code if one is asked for -/
def selectAudits (min : Rat) (filter : Option String) (recorded : List (TbKey × Rat)) : List TbKey :=
  (recorded.filter (fun r => decide (r.2 < min) && filter.all (fun c => r.1.code == c))).map (·.1)

/-- the area of an audit, if there is a file, `dp/testbed/batch.py:75-76,94,99` -/
def TbRun.spec? (r : TbRun) (k : TbKey) : Option Dict :=
  match r.area k.catalog k.code with
  | .ok d => d
  | .error _ => none

/-- one audit of a run; only runs for the baseline have a time limit, `dp/testbed/batch.py:81-83,89-97` -/
def TbRun.audit (r : TbRun) (db : TbDb) (baseline : Bool) (k : TbKey) (spec : Dict) : Except Err (Option TbRow) :=
  testbedAudit r.o r.write (fun i => baseline && r.late k i) (r.secs k) ((db.server.find? (fun s => s.1 = k)).map (·.2.2)) spec

/-- the loop over the audits as they end, `dp/testbed/batch.py:107-140`: an audit that raises is passed over, one without a result raises, and
so does a second row with a key (the unique index) -/
def storeAudits (audit : TbKey → Except Err (Option TbRow)) : List (TbKey × TbRow) → List TbKey → Except Err (List (TbKey × TbRow))
  | table, [] => .ok table
  | table, k :: ks => match audit k with
    | .error _ => storeAudits audit table ks
    | .ok none => .error .assertion
    | .ok (some row) => if table.any (fun t => t.1 = k) then .error .other else storeAudits audit (table ++ [(k, row)]) ks

/-- the tables after the first transaction, `dp/testbed/batch.py:28-35`; `none` is the baseline -/
def TbDb.cleared (db : TbDb) : Option String → TbDb
  | none => { db with baseline := [] }
  | some b => { db with branch := db.branch.filter (fun r => r.1 != b) }

/-- the tables after the second transaction, `dp/testbed/batch.py:131-140` -/
def TbDb.stored (db : TbDb) (rows : List (TbKey × TbRow)) : Option String → TbDb
  | none => { db with baseline := db.baseline ++ rows }
  | some b => { db with branch := db.branch ++ rows.map (fun r => (b, r.1, r.2)) }

/-- the recorded durations, `dp/testbed/batch.py:39-55` -/
def TbDb.recorded (db : TbDb) : Option String → List (TbKey × Rat)
  | none => db.server.map (fun s => (s.1, s.2.1))
  | some _ => db.baseline.map (fun b => (b.1, b.2.duration))

/-- `run_batch`, `dp/testbed/batch.py:25-140`: the tables afterwards, and the exception, if any.  With `copy` the connection that was closed
is used once more, lines 65-67, which raises.  Simplification: if there is nothing from the server it would be fetched first (line 26); here
this is an exception. -/
def runTestbed (r : TbRun) (copy : Bool) (target : Option String) (min : Rat) (filter : Option String) (db : TbDb) : TbDb × Option Err :=
  if db.server.isEmpty then (db, some .other)
  else
    let db' := db.cleared target
    let audits := selectAudits min filter (db'.recorded target)
    if target.isNone && copy then (db', some .other)
    else match mapE (fun k : TbKey => r.area k.catalog k.code) audits with
      | .error e => (db', some e)
      | .ok _ =>
        let known := audits.filter (fun k => (r.spec? k).isSome)
        match storeAudits (fun k => r.audit db' target.isNone k ((r.spec? k).getD [])) [] (r.order known) with
        | .error e => (db', some e)
        | .ok rows => if r.killed then (db', some .other) else (db'.stored rows target, none)

/-- the choices of `--mode`, `dp/testbed/compare.py:59-81` -/
inductive CompareMode where
  | data | ok | gpa

/-- the condition of the view, `dp/testbed/compare.py:49-52` -/
def TbRow.differs (b r : TbRow) : Bool := b.ok != r.ok || b.gpa != r.gpa || b.rank != r.rank || b.maxRank != r.maxRank

/-- the further condition, `dp/testbed/compare.py:59-81` -/
def CompareMode.asks : CompareMode → TbRow → TbRow → Bool
  | .data, _, _ => true
  | .ok, b, r => b.ok != r.ok
  | .gpa, b, r => b.gpa != r.gpa

/-- `compare`, `dp/testbed/compare.py:11-96`: the rows shown, before the two lines of sums, with the values of the baseline and of the branch.
A row of the baseline that the left join finds no partner for has NULL in all columns of the branch, and no comparison with NULL holds. -/
def compareRuns (db : TbDb) (run : String) (mode : CompareMode) : Except Err (List (TbKey × TbRow × TbRow)) :=
  if (db.branch.filter (fun r => r.1 == run)).isEmpty then .error .assertion
  else .ok ((db.baseline.flatMap (fun b =>
      (db.branch.filter (fun r => decide (r.2.1 = b.1) && b.2.differs r.2.2 && r.1 == run && mode.asks b.2 r.2.2)).map
        (fun r => (b.1, b.2, r.2.2)))).insertionSort
    (fun x y => wordsLe [x.1.stnum, x.1.catalog, x.1.code] [y.1.stnum, y.1.catalog, y.1.code] = true))

end Dp
