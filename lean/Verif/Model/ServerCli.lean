import Verif.Model.Json
import Verif.Model.Server

/-
The audit of two files that is stored in the server's database from the command line (`dp/server/cli.py`).
-/
namespace Dp

/-- what the command line asks for, `dp/server/cli.py:21-32`; catalog and code are the names of the folder and of the area file -/
structure CliAsk where
  student : String
  catalog : String
  code : String
  linkOnly : Bool

/-- `main`, `dp/server/cli.py:20-54`, for files that can be read: the id that is printed (`none`: "stored with id None") and the rows
afterwards.  `link_only` is always true (line 47).  `audit` swallows its exceptions, so the transaction is always committed; `dump` is
`json.dumps`, `id` and `now` are what the database gives the new row. -/
def serverCli (o : Orders) (W : Writes) (dump : Json → String) (described : Bool) (raw : RawStudent) (spec : Dict) (ask : CliAsk) (id : Nat)
    (now : Int) (rows : List ResultRow) : Option Nat × List ResultRow :=
  match serverAudit o W described raw spec with
  | none => (none, rows)
  | some stored =>
    (some id, storeResult { id := 0, student := ask.student, catalog := ask.catalog, code := ask.code, linkOnly := true }
      (dump stored.result) id now rows)

end Dp
