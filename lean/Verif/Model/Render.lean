import Verif.Model.Testbed

/-
The stored audits as the testbed prints them (`dp/testbed/render.py`).
-/
namespace Dp

/-- what is printed, `dp/testbed/render.py:91-117`: one audit; the words "no changes"; the differences of two texts; the two texts -/
inductive TbShown where
  | one (text : String)
  | noChanges
  | diff (base branch : String)
  | both (base branch : String)
deriving DecidableEq

/-- the last part of `render`, `dp/testbed/render.py:91-117`, for the audits of the base and of the branch; `text`: `render_result`, lines
120-131.  Simplification: the lists of lines are equal if and only if the texts are. -/
def renderTwo (text : RawStudent → String → Except Err String) (diff : Bool) (raw : RawStudent) (base branch : String) : Except Err TbShown :=
  match text raw base with
  | .error e => .error e
  | .ok x => match text raw branch with
    | .error e => .error e
    | .ok y => if diff then (if x = y then .ok .noChanges else .ok (.diff x y)) else .ok (.both x y)

/-- `render`, `dp/testbed/render.py:13-117`; `server`: the column `result` of the table of the server, which is not in `TbDb`.  A NULL of the
left join cannot be parsed (TypeError).  Simplification: the stored texts can be parsed, and are not empty. -/
def renderAudit (text : RawStudent → String → Except Err String) (server : TbKey → String) (branch base : String) (diff : Bool) (db : TbDb)
    (k : TbKey) : Except Err TbShown :=
  let one (raw : RawStudent) (result : String) : Except Err TbShown := match text raw result with
    | .error e => .error e
    | .ok x => .ok (.one x)
  let student := (db.server.find? (fun s => s.1 = k)).map (·.2.2)
  let stored (b : String) : Option TbRow := (db.branch.find? (fun r => r.1 = b ∧ r.2.1 = k)).map (·.2.2)
  let baseline : Option TbRow := (db.baseline.find? (fun r => r.1 = k)).map (·.2)
  if branch = "server" then
    match student with
    | none => .error .assertion
    | some raw => one raw (server k)
  else if branch = "baseline" then
    match student with
    | none => .error .assertion
    | some raw => match baseline with
      | none => .error .typeError
      | some b => one raw b.result
  else if base = "baseline" then
    match student, stored branch with
    | some raw, some r => match baseline with
      | none => .error .typeError
      | some b => renderTwo text diff raw b.result r.result
    | _, _ => .error .assertion
  else
    match student, stored base, stored branch with
    | some raw, some b, some r => renderTwo text diff raw b.result r.result
    | _, _, _ => .error .assertion

end Dp
