import Verif.Model.Basic

/-
Model of the claim table of `RequirementContext` (`dp/context.py`).
-/
namespace Dp

/-- `RequirementContext.claims` (`dp/context.py:44`): a python dict from clbid
to the list of claims, in insertion order.  Dict values are owned lists. -/
abbrev ClaimTable := List (String × List Claim)

/-- `AreaOfStudy.multicountable` (`dp/area.py:39,130-136`): course name to the
requirement paths that may count it.  A python dict; modelled as an
association list. -/
abbrev Multicountable := List (String × List Path)

/-- `clbid in self.claims` (`dp/context.py:256`). -/
def ClaimTable.has (t : ClaimTable) (k : String) : Bool :=
  t.any (fun e => e.1 == k)

/-- `self.claims[clbid]` for reading (`dp/context.py:262,306`); a missing key
gives the default `[]`. -/
def ClaimTable.get (t : ClaimTable) (k : String) : List Claim :=
  match t with
  | [] => []
  | (k', v) :: rest => if k' == k then v else ClaimTable.get rest k

/-- `self.claims[clbid].append(claim)` (`dp/context.py:259,281,332,348,353`):
appends to the existing list, or inserts a new key at the end. -/
def ClaimTable.append (t : ClaimTable) (k : String) (c : Claim) : ClaimTable :=
  match t with
  | [] => [(k, [c])]
  | (k', v) :: rest =>
    if k' == k then (k', v ++ [c]) :: rest else (k', v) :: ClaimTable.append rest k c

/-- `self.multicountable.get(name)` (`dp/context.py:269,307`). -/
def Multicountable.get? (m : Multicountable) (name : String) : Option (List Path) :=
  match m with
  | [] => none
  | (k, v) :: rest => if k == name then some v else Multicountable.get? rest name

/-- `r[0] == '%'` (`dp/context.py:304,309`).  Simplification: on an empty
segment python raises IndexError, here the test is false; loaded paths have no
empty segments. -/
def isReqSegment (s : String) : Bool := s.toList.head? == some '%'

/-- `tuple(r for r in path if r[0] == '%')` (`dp/context.py:304,309`). -/
def reqsOnly (p : Path) : Path := p.filter isReqSegment

/-- `RequirementContext._make_multicountable_claim`, `dp/context.py:284-354`.

`prior_claimers` is a list of *tuples* of segments, while the comprehension in
lines 336-340 iterates over the *segments* (strings) of the applicable path;
a string never equals a tuple, so the filter keeps every segment.  That is
what `available` below says: the membership test is identically `false`. -/
def makeMulticountableClaim (m : Multicountable) (t : ClaimTable) (course : Course)
    (path : Path) : Claim × ClaimTable :=
  let ok : Claim := { course := course, claimedBy := path, failed := false }
  let no : Claim := { course := course, claimedBy := path, failed := true }
  let pathReqsOnly := reqsOnly path
  let priorClaims := t.get course.clbid
  let applicableReqpaths := (m.get? course.identity).getD []
  match applicableReqpaths.find? (fun rp => rp == pathReqsOnly) with
  | none =>
    if priorClaims.isEmpty then (ok, t.append course.clbid ok) else (no, t)
  | some reqpath =>
    let segmentAmongPriorClaimers : String → Bool := fun _ => false
    let available := reqpath.filter (fun seg => !segmentAmongPriorClaimers seg)
    if available.isEmpty then
      if priorClaims.isEmpty then (ok, t.append course.clbid ok) else (no, t)
    else
      (ok, t.append course.clbid ok)

/-- `RequirementContext.make_claim`, `dp/context.py:233-282`. -/
def makeClaim (m : Multicountable) (t : ClaimTable) (course : Course) (path : Path)
    (allowClaimed : Bool) : Claim × ClaimTable :=
  let ok : Claim := { course := course, claimedBy := path, failed := false }
  let no : Claim := { course := course, claimedBy := path, failed := true }
  if allowClaimed then (ok, t)
  else if !t.has course.clbid then (ok, t.append course.clbid ok)
  else
    let priorClaims := t.get course.clbid
    if (m.get? course.identity).isSome then makeMulticountableClaim m t course path
    else if !priorClaims.isEmpty then (no, t)
    else (ok, t.append course.clbid ok)

/-- One call of `make_claim`. -/
structure ClaimRequest where
  course : Course
  path : Path
  allowClaimed : Bool
deriving DecidableEq, Repr

/-- A sequence of `make_claim` calls on one context: the claims returned, in
order, and the final table. -/
def runClaims (m : Multicountable) (t : ClaimTable) : List ClaimRequest → List Claim × ClaimTable
  | [] => ([], t)
  | r :: rs =>
    let (c, t') := makeClaim m t r.course r.path r.allowClaimed
    let (cs, t'') := runClaims m t' rs
    (c :: cs, t'')

/-! ### Contexts with shared, mutable dictionaries

`fresh_claims`, `set_claims`, `reset_claims` and `with_empty_claims`
(`dp/context.py:214-231`) are about *which dictionary object* a context points
to, so they are modelled over a heap of dictionaries. -/

/-- Heap of claim dictionaries; an address is an index. -/
abbrev Heap := List ClaimTable

/-- Programs run against one context object: calls of `make_claim`, a
`with ctx.fresh_claims():` block (`dp/solve.py:26`), work on
`ctx.with_empty_claims()` (`dp/solve.py:28`, `dp/area.py:221`), or an exception. -/
inductive CtxCmd where
  | claim (r : ClaimRequest)
  | fresh (body : List CtxCmd)
  | inner (body : List CtxCmd)
  | raise

/-- State: the heap, and the address held by `ctx.claims`. -/
structure CtxState where
  heap : Heap
  cur : Nat

/-- `ctx.claims` read through the reference. -/
def CtxState.claims (s : CtxState) : ClaimTable := s.heap.getD s.cur []

/-- allocate a dictionary: `defaultdict(list)` / `defaultdict(list, {...})`
(`dp/context.py:225,228,231`). -/
def CtxState.alloc (s : CtxState) (t : ClaimTable) : CtxState :=
  { heap := s.heap ++ [t], cur := s.heap.length }

mutual
/-- Interpreter of one command; the `Bool` is true when it raised. -/
def runCtx (m : Multicountable) (s : CtxState) : CtxCmd → CtxState × Bool
  | .claim r =>
    -- `dp/context.py:233-282`, mutating the dictionary in place
    let (_, t') := makeClaim m s.claims r.course r.path r.allowClaimed
    ({ s with heap := s.heap.set s.cur t' }, false)
  | .fresh body =>
    -- `dp/context.py:214-222`: keep the reference, point to a new dict, run
    -- the body, and in `finally` point to a copy of the kept dictionary.
    let saved := s.cur
    let s1 := s.alloc []
    let (s2, raised) := runCtxs m s1 body
    (s2.alloc (s2.heap.getD saved []), raised)
  | .inner body =>
    -- `dp/context.py:230-231`: another context object with its own new dict;
    -- the outer context keeps its reference
    let saved := s.cur
    let s1 := s.alloc []
    let (s2, raised) := runCtxs m s1 body
    ({ heap := s2.heap, cur := saved }, raised)
  | .raise => (s, true)

/-- Sequencing, stopping at an exception. -/
def runCtxs (m : Multicountable) (s : CtxState) : List CtxCmd → CtxState × Bool
  | [] => (s, false)
  | c :: cs =>
    let (s1, raised) := runCtx m s c
    if raised then (s1, true) else runCtxs m s1 cs
end

end Dp
