import Verif.Model.Report

/-!
# The nightly reports

Storing the reports of all areas: `dp-report batch --to-database`, and the server's worker that runs
it once a day.

Read as text from `/repo/src/dp-report.rs`, `/repo/reports/src/database.rs`, `/repo/reports/src/lib.rs`
and `/repo/dp/server/reports_worker.py`.

Simplified: the HTML is a list of tables, as in `Model/Report`; the time of the last change is left
out; a panic and an error both end the program.
-/

namespace Dp

/-- reports/src/lib.rs:9-12 `ReportType`. -/
inductive RpKind | report | summary
  deriving DecidableEq

/-- reports/src/database.rs:36-39: the name of the kind in the table. -/
def RpKind.name : RpKind → String
  | .report => "report"
  | .summary => "summary"

/-- What `run_report` returns: one of the two documents. -/
inductive RpContent
  | report (doc : List RpHtml)
  | summary (doc : List RpSummaryTable)
  deriving DecidableEq

/-- A row of the table `report` (reports/src/database.rs:43-44). -/
structure RpReportRow where
  kind : String
  area : String
  content : RpContent
  deriving DecidableEq

/-- What a run meets: the table `result` when the students of an area are fetched, which can have
changed since the areas were listed, and the orders that the two hash maps have for this area. -/
structure RpRun where
  results : String → List RpStored
  reportOrder : String → List (RpTableKey × List RpRecord) → List (RpTableKey × List RpRecord)
  summaryOrder : String → List (List String × List String) → List (List String × List String)

/-- reports/src/lib.rs:14-25 `run_report`. -/
def rpRunReport (run : RpRun) (code : String) (records : List RpRecord) :
    RpKind → Option RpContent
  | .report => (rpReport (run.reportOrder code (rpGroups records))).map .report
  | .summary => some (.summary (rpSummary records (run.summaryOrder code (rpCatalogGroups records))))

/-- reports/src/database.rs:28-55 `record_report`: the row with this kind and area gets the new
content, or there is a new row. -/
def rpRecordReport (row : RpReportRow) : List RpReportRow → List RpReportRow
  | [] => [row]
  | r :: rest =>
    if r.kind = row.kind ∧ r.area = row.area then { r with content := row.content } :: rest
    else r :: rpRecordReport row rest

/-- database.rs:76-80: the order of the codes. -/
def rpCodeLe (a b : String) : Prop := rpLe (rpStr a) (rpStr b) = true

instance : DecidableRel rpCodeLe := fun _ _ => inferInstanceAs (Decidable (_ = true))

/-- reports/src/database.rs:57-83 `collect_area_codes`. -/
def rpCodes (db : List RpStored) : List String :=
  (rpUnique ((db.filter (fun r => r.isActive)).map (fun r => r.areaCode))).insertionSort rpCodeLe

/-- src/dp-report.rs:82-95: the loop over the two kinds: the rows stored, and whether the program
goes on. -/
def rpBatchKinds (run : RpRun) (code : String) (records : List RpRecord) :
    List RpKind → List RpReportRow × Bool
  | [] => ([], true)
  | k :: ks =>
    match rpRunReport run code records k with
    | none => ([], false)
    | some content =>
      let rest := rpBatchKinds run code records ks
      (⟨k.name, code, content⟩ :: rest.1, rest.2)

/-- src/dp-report.rs:75-97: the loop over the areas. -/
def rpBatchAreas (run : RpRun) : List String → List RpReportRow × Bool
  | [] => ([], true)
  | code :: codes =>
    match rpFetch (run.results code) code with
    | none => ([], false)
    | some records =>
      match rpBatchKinds run code records [.report, .summary] with
      | (rows, false) => (rows, false)
      | (rows, true) =>
        let rest := rpBatchAreas run codes
        (rows ++ rest.1, rest.2)

/-- src/dp-report.rs:69-98 `batch --to-database`: the rows stored, each in a transaction of its own
(database.rs:34, 52), and whether the program ends without an error. `db` is the table `result` when
the areas are listed. -/
def rpBatch (db : List RpStored) (run : RpRun) : List RpReportRow × Bool :=
  rpBatchAreas run (rpCodes db)

/-- The table `report` after the rows were stored one after the other. -/
def rpStoreAll (rows table : List RpReportRow) : List RpReportRow :=
  rows.foldl (fun t r => rpRecordReport r t) table

/-- A day of the worker: the results when the areas are listed, what the run meets, and the number
of rows stored before the program was killed, if it was. -/
structure RpDay where
  db : List RpStored
  run : RpRun
  killed : Option Nat

/-- The table `report` after a day. -/
def rpDay (table : List RpReportRow) (d : RpDay) : List RpReportRow :=
  let rows := (rpBatch d.db d.run).1
  rpStoreAll (match d.killed with | none => rows | some n => rows.take n) table

/-- dp/server/reports_worker.py:18-27 `worker`: a run each day, whatever came of the one before. -/
def rpWorker (days : List RpDay) (table : List RpReportRow) : List RpReportRow :=
  days.foldl rpDay table

end Dp
