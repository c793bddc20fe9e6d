import Verif.Model.Basic

/-
Model of exceptions: loading, path migrations, grouping and lookup
(`dp/exception.py`, `dp/context.py`).
-/
namespace Dp

/-- The subclasses of `RuleException` (`dp/exception.py:22-84`).  An
`OverrideException` always carries status Done (`dp/exception.py:124`). -/
inductive ExcKind where
  | insertion (clbid : String) (forced : Bool)
  | override
  | block (clbid : String)
  | value (v : Rat)
  | courseCredits (clbid : String) (credits : Rat)
  | courseSubject (clbid : String) (subject : String)
deriving DecidableEq, Repr

/-- `RuleException` (`dp/exception.py:22-29`). -/
structure Exc where
  path : Path
  kind : ExcKind
deriving DecidableEq, Repr

/-- The `data` dictionary given to `load_exception` (`dp/exception.py:108`);
absent keys are `none`, and `Decimal(...)` of the text is taken as already
parsed (simplification). -/
structure RawExc where
  type : String
  path : Path
  clbid : Option String := none
  value : Option Rat := none
  credits : Option Rat := none
  subject : Option String := none

/-- `Migration` (`dp/exception.py:87-92`), without date and comment. -/
structure Migration where
  fromPath : Path
  toPath : Path

/-- One turn of the loop `dp/exception.py:112-115`: if the slice
`path[0:len(from)]` equals `from`, it is assigned `to`. -/
def applyMigration (path : Path) (mig : Migration) : Path :=
  if path.take mig.fromPath.length == mig.fromPath then
    mig.toPath ++ path.drop mig.fromPath.length
  else path

/-- The migration loop, `dp/exception.py:111-116`. -/
def applyMigrations (path : Path) (migs : List Migration) : Path :=
  migs.foldl applyMigration path

/-- Python errors that loading can raise. -/
inductive LoadErr where
  | valueError | keyError | typeError
deriving DecidableEq, Repr

/-- `load_exception`, `dp/exception.py:108-133`.  An unknown type makes
`ExceptionAction(...)` raise ValueError; missing keys raise KeyError. -/
def loadException (data : RawExc) (migs : List Migration) : Except LoadErr Exc :=
  let path := applyMigrations data.path migs
  if data.type == "insert" then
    match data.clbid with
    | some c => .ok ⟨path, .insertion c false⟩
    | none => .error .keyError
  else if data.type == "force-insert" then
    match data.clbid with
    | some c => .ok ⟨path, .insertion c true⟩
    | none => .error .keyError
  else if data.type == "override" then .ok ⟨path, .override⟩
  else if data.type == "block" then
    match data.clbid with
    | some c => .ok ⟨path, .block c⟩
    | none => .error .keyError
  else if data.type == "value" then
    match data.value with
    | some v => .ok ⟨path, .value v⟩
    | none => .error .keyError
  else if data.type == "course-credits" then
    match data.clbid, data.credits with
    | some c, some v => .ok ⟨path, .courseCredits c v⟩
    | _, _ => .error .keyError
  else if data.type == "course-subject" then
    match data.clbid, data.subject with
    | some c, some v => .ok ⟨path, .courseSubject c v⟩
    | _, _ => .error .keyError
  else .error .valueError

/-- `ExceptionsDict` (`dp/context.py:18`): a dict from path to exceptions, in
insertion order. -/
abbrev ExcDict := List (Path × List Exc)

/-- `grouped[e.path].append(e)` (`dp/context.py:29-30`). -/
def ExcDict.add (d : ExcDict) (e : Exc) : ExcDict :=
  match d with
  | [] => [(e.path, [e])]
  | (p, g) :: rest => if p == e.path then (p, g ++ [e]) :: rest else (p, g) :: ExcDict.add rest e

/-- `group_exceptions`, `dp/context.py:26-32`. -/
def groupExceptions (es : List Exc) : ExcDict := es.foldl ExcDict.add []

/-- `path in self.exceptions` (`dp/context.py:145,157,...`). -/
def ExcDict.has (d : ExcDict) (p : Path) : Bool := d.any (fun e => e.1 == p)

/-- `self.exceptions.get(path, [])` (`dp/context.py:160`). -/
def ExcDict.get (d : ExcDict) (p : Path) : List Exc :=
  match d with
  | [] => []
  | (q, g) :: rest => if q == p then g else ExcDict.get rest p

/-- `e.path[:len(path)] == path` (`dp/context.py:146`). -/
def startsWithPath (q p : Path) : Bool := q.take p.length == p

/-- `isinstance(e, InsertionException)` (`dp/context.py:161`). -/
def Exc.isInsertion (e : Exc) : Bool := match e.kind with | .insertion _ _ => true | _ => false
/-- `isinstance(e, OverrideException)` (`dp/context.py:181`). -/
def Exc.isOverride (e : Exc) : Bool := match e.kind with | .override => true | _ => false
/-- `isinstance(e, BlockException)` (`dp/context.py:201`). -/
def Exc.isBlock (e : Exc) : Bool := match e.kind with | .block _ => true | _ => false
/-- `isinstance(e, ValueException)` (`dp/context.py:209`). -/
def Exc.isValue (e : Exc) : Bool := match e.kind with | .value _ => true | _ => false

/-- The uncached computation in `has_exception_beneath`, `dp/context.py:144-150`. -/
def existsBeneath (d : ExcDict) (p : Path) : Bool :=
  d.has p || d.any (fun (_, g) => g.any (fun e => startsWithPath e.path p))

/-- `exceptions_path_lookup_cache` (`dp/context.py:47`). -/
abbrev PathCache := List (Path × Bool)

/-- `cache.get(path, None)` (`dp/context.py:139`). -/
def PathCache.get? (c : PathCache) (p : Path) : Option Bool :=
  match c with
  | [] => none
  | (q, b) :: rest => if q == p then some b else PathCache.get? rest p

/-- `has_exception_beneath`, `dp/context.py:138-154`: answer and new cache.
(The new entry is put in front; the key was absent.) -/
def hasExceptionBeneath (d : ExcDict) (c : PathCache) (p : Path) : Bool × PathCache :=
  match c.get? p with
  | some b => (b, c)
  | none =>
    let b := existsBeneath d p
    (b, (p, b) :: c)

/-- A sequence of lookups on one context. -/
def runLookups (d : ExcDict) (c : PathCache) : List Path → List Bool
  | [] => []
  | p :: ps =>
    let (b, c') := hasExceptionBeneath d c p
    b :: runLookups d c' ps

/-- `get_insert_exceptions`, `dp/context.py:156-162`. -/
def getInsertExceptions (d : ExcDict) (p : Path) : List Exc :=
  if !d.has p then [] else (d.get p).filter Exc.isInsertion

/-- `get_insert_exceptions_beneath`, `dp/context.py:164-174`. -/
def getInsertExceptionsBeneath (d : ExcDict) (p : Path) : List Exc :=
  if !existsBeneath d p then []
  else d.flatMap (fun (q, g) => if startsWithPath q p then g.filter Exc.isInsertion else [])

/-- `get_waive_exception`, `dp/context.py:176-184`. -/
def getWaiveException (d : ExcDict) (p : Path) : Option Exc :=
  if !d.has p then none else (d.get p).find? Exc.isOverride

/-- `has_waive_exception_for_conditional_expression`, `dp/context.py:186-194`
(an override's status is always Done). -/
def hasWaiveForConditional (d : ExcDict) (key : String) : Bool :=
  (getWaiveException d [key]).isSome

/-- `get_block_exceptions`, `dp/context.py:196-202`. -/
def getBlockExceptions (d : ExcDict) (p : Path) : List Exc :=
  if !d.has p then [] else (d.get p).filter Exc.isBlock

/-- `get_value_exception`, `dp/context.py:204-212`. -/
def getValueException (d : ExcDict) (p : Path) : Option Exc :=
  if !d.has p then none else (d.get p).find? Exc.isValue

end Dp
