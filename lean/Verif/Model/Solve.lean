import Verif.Model.Rule

/-
Auditing solutions (`dp/solution/*.py`), `find_best_solution` (`dp/solve.py`) and the
solutions of the topmost rule, where independent children are solved on their own
(`dp/rule/count.py`).
-/
namespace Dp

/-! ### Auditing leaves -/

/-- `CourseSolution.audit`, `dp/solution/course.py:42-65`, with
`CourseResult.from_solution`, `dp/result/course.py:14-41`. -/
def courseAudit (x : Ctx) (d : CourseData) (t : ClaimTable) : Except Err (CourseData × ClaimTable) :=
  let result (claim : Option Claim) (overridden : Bool) : CourseData :=
    { d with claim := claim, overridden := overridden, forced := false, matched := none,
             fromClaimed := false, autoWaived := false, excluded := [] }
  if d.overridden then .ok (result none true, t)
  else match d.matched with
    | none => .ok (result none false, t)
    | some c =>
      if d.fromClaimed && !hasClaim t c.clbid then .ok (result none false, t)
      else
        let (claim, t') := makeClaim x.multicountable t c d.path (d.forced || d.allowClaimed)
        if d.fromClaimed && claim.failed then .error .assertion
        else .ok (result (some claim) false, t')

/-- what `collect_*` return, `dp/solution/query.py:18-22` -/
structure Collected where
  items : List Item := []
  successful : List Claim := []
  failed : List Claim := []

/-- the loop of `collect_courses` when claims are attempted, `dp/solution/query.py:129-141` -/
def claimLoop (x : Ctx) (d : QueryData) : List Course → ClaimTable → Collected → Collected × ClaimTable
  | [], t, acc => (acc, t)
  | c :: cs, t, acc =>
    let (claim, t') := makeClaim x.multicountable t c d.path
      (d.allowClaimed || d.forceInserted.contains c.clbid)
    if claim.failed then claimLoop x d cs t' { acc with failed := acc.failed ++ [claim] }
    else claimLoop x d cs t'
      { acc with successful := acc.successful ++ [claim], items := acc.items ++ [.course c] }

/-- the loops that only record claims, `dp/solution/query.py:143-148,177-186`: they
call `make_claim` with `allow_claimed=True`, which leaves the table alone -/
def recordLoop (x : Ctx) (path : Path) (t : ClaimTable) (cs : List Course) : List Claim :=
  cs.map (fun c => (makeClaim x.multicountable t c path true).1)

/-- `collect_courses`, `dp/solution/query.py:117-161`. -/
def collectCourses (x : Ctx) (d : QueryData) (t : ClaimTable) : Except Err (Collected × ClaimTable) :=
  match itemCourses d.output with
  | .error e => .error e
  | .ok cs =>
    if d.attemptClaims then .ok (claimLoop x d cs t {})
    else if d.recordClaims then
      .ok ({ items := cs.map .course, successful := recordLoop x d.path t cs }, t)
    else .ok ({ items := cs.map .course }, t)

/-- `[ctx.forced_course_by_clbid(clbid) for clbid in clbids]`, `dp/solution/query.py:174-176` -/
def forcedCourses (x : Ctx) : List String → Except Err (List Course)
  | [] => .ok []
  | k :: ks => match x.forcedCourseByClbid k with
    | .error e => .error e
    | .ok c => match forcedCourses x ks with
      | .error e => .error e
      | .ok cs => .ok (c :: cs)

/-- `collect_claimed_courses`, `dp/solution/query.py:163-192`. -/
def collectClaimed (x : Ctx) (d : QueryData) (t : ClaimTable) : Except Err (Collected × ClaimTable) :=
  match x.allClaimed t with
  | .error e => .error e
  | .ok all =>
    let filtered : Except Err (List Item) := match d.where' with
      | some p => filterItems p (all.map .course)
      | none => .ok (all.map .course)
    match filtered with
    | .error e => .error e
    | .ok is => match itemCourses is with
      | .error e => .error e
      | .ok cs => match forcedCourses x d.inserted with
        | .error e => .error e
        | .ok ins =>
          let output := cs.filter (fun c => !d.excluded.contains c.clbid) ++ ins
          .ok ({ items := output.map .course,
                 successful := if d.recordClaims then recordLoop x d.path t output else [] }, t)

/-- the choice of the collector, `dp/solution/query.py:69-80` -/
def collect (x : Ctx) (d : QueryData) (t : ClaimTable) : Except Err (Collected × ClaimTable) :=
  match d.source with
  | .courses => collectCourses x d t
  | .claimed => collectClaimed x d t
  | _ => .ok ({ items := d.output }, t)

/-- `tuple(a.audit_and_resolve(data, ctx=ctx) for a in assertions)` -/
def auditAssertions (x : Ctx) (data : List Item) : List AnyAssertion → Except Err (List AnyAssertion)
  | [] => .ok []
  | a :: as => match a.audit x data with
    | .error e => .error e
    | .ok a' => match auditAssertions x data as with
      | .error e => .error e
      | .ok as' => .ok (a' :: as')

/-- `has_non_primary_lt_clause`, `dp/solution/query.py:101`. -/
def nonPrimaryLt (as : List AnyAssertion) : Bool :=
  as.any (·.anyBranch (·.isLt)) && !as.all (·.anyBranch (·.isLt))

/-- `QuerySolution.audit`, `dp/solution/query.py:57-115`. -/
def queryAudit (x : Ctx) (d : QueryData) (t : ClaimTable) : Except Err (QueryData × ClaimTable) :=
  if d.overridden then .ok ({ d with successful := [], failed := [] }, t)
  else match collect x d t with
    | .error e => .error e
    | .ok (col, t') =>
      let assertions : Except Err (List AnyAssertion) :=
        if d.source = .courses ∧ col.items = [] ∧ nonPrimaryLt d.assertions = true then .ok d.assertions
        else auditAssertions x col.items d.assertions
      match assertions with
      | .error e => .error e
      | .ok as => .ok ({ d with assertions := as, successful := col.successful, failed := col.failed }, t')

/-- `ProficiencySolution.audit`, `dp/solution/proficiency.py:36-43`. -/
def profAudit (x : Ctx) (d : ProfData) (c : Option (Stage × CourseData)) (t : ClaimTable) :
    Except Err (Node × ClaimTable) :=
  if d.overridden then .ok (.prof .result { d with status := .waived, overridden := true } c, t)
  else match x.proficiencies.status d.proficiency false with
    | .error e => .error e
    | .ok st => match c with
      | some (.solution, cd) => match courseAudit x cd t with
        | .error e => .error e
        | .ok (cd', t') =>
          .ok (.prof .result { d with status := st, overridden := false } (some (.result, cd')), t')
      | _ => .ok (.prof .result { d with status := st, overridden := false } c, t)

/-! ### Auditing trees -/

/-- `item for sol in results for item in sol.matched()`, `dp/solution/count.py:42`; each
`matched()` is a set, visited in the order `o` says. -/
def matchedItems (o : Orders) (results : List Node) : List Item :=
  results.flatMap (fun r => (o.matched r.path r.matched).map .course)

mutual
/-- `r.audit(ctx=ctx) if isinstance(r, Solution) else r`: the callers' test
(`dp/solution/count.py:41`, `requirement.py:52-56`, `conditional.py:23-30`) is built in.
For counts `dp/solution/count.py:32-45`, for requirements `dp/solution/requirement.py:39-56`,
for conditionals `dp/solution/conditional.py:20-30` and `dp/result/conditional.py:16-24`. -/
def Node.audit (x : Ctx) (o : Orders) : Node → ClaimTable → Except Err (Node × ClaimTable)
  | .course .solution d, t => match courseAudit x d t with
    | .error e => .error e
    | .ok (d', t') => .ok (.course .result d', t')
  | .query .solution d, t => match queryAudit x d t with
    | .error e => .error e
    | .ok (d', t') => .ok (.query .result d', t')
  | .count .solution d items, t =>
    if d.overridden then .ok (.count .result d items, t)
    else match Node.auditList x o items t with
      | .error e => .error e
      | .ok (results, t') => match auditAssertions x (matchedItems o results) d.audits with
        | .error e => .error e
        | .ok as => .ok (.count .result { d with audits := as } results, t')
  | .req .solution d r, t =>
    if d.overridden then .ok (.req .result d r, t)
    else match Node.auditOpt x o r t with
      | .error e => .error e
      | .ok (r', t') => .ok (.req .result d r', t')
  | .cond .solution d th f, t => match d.condition with
    | some true => match th.audit x o t with
      | .error e => .error e
      | .ok (th', t') => .ok (.cond .result d th' f, t')
    | some false => match Node.auditOpt x o f t with
      | .error e => .error e
      | .ok (f', t') => .ok (.cond .result d th f', t')
    | none => .ok (.cond .result d th f, t)
  | .prof .solution d c, t => profAudit x d c t
  | n, t => .ok (n, t)
/-- audit the children from left to right, on one claim table -/
def Node.auditList (x : Ctx) (o : Orders) : List Node → ClaimTable → Except Err (List Node × ClaimTable)
  | [], t => .ok ([], t)
  | n :: ns, t => match n.audit x o t with
    | .error e => .error e
    | .ok (r, t') => match Node.auditList x o ns t' with
      | .error e => .error e
      | .ok (rs, t'') => .ok (r :: rs, t'')
/-- audit an optional child -/
def Node.auditOpt (x : Ctx) (o : Orders) : Option Node → ClaimTable → Except Err (Option Node × ClaimTable)
  | none, t => .ok (none, t)
  | some n, t => match n.audit x o t with
    | .error e => .error e
    | .ok (r, t') => .ok (some r, t')
end

/-! ### The best solution (`dp/solve.py`) -/

/-- The loop of `find_best_solution`, `dp/solve.py:27-47`.  State: the best result
with its rank, and the claims of the last solution tried.  `tail` is the exception
the generator of solutions ends with, if any. -/
def bestLoop (x : Ctx) (o : Orders) (tail : Option Err) :
    List Node → Option (Node × Rat) → Option ClaimTable → Except Err (Option (Node × Rat) × Option ClaimTable)
  | [], best, inner => match tail with
    | some e => .error e
    | none => .ok (best, inner)
  | s :: ss, best, _ => match s.audit x o [] with
    | .error e => .error e
    | .ok (r, t) => match r.rank with
      | .error e => .error e
      | .ok (rank, _) =>
        let best := match best with
          | none => (r, rank)
          | some b => if b.2 < rank then (r, rank) else b
        if r.status.inWaivedAndDone then .ok (some (r, rank), some t)
        else bestLoop x o tail ss (some best) (some t)

/-- `d[k] = v` on a dict in insertion order -/
def ClaimTable.set (t : ClaimTable) (k : String) (v : List Claim) : ClaimTable :=
  match t with
  | [] => [(k, v)]
  | (k', v') :: rest => if k' == k then (k', v) :: rest else (k', v') :: ClaimTable.set rest k v

/-- `{**a, **b}`, `dp/solve.py:51` -/
def mergeTables (a b : ClaimTable) : ClaimTable := b.foldl (fun t e => t.set e.1 e.2) a

/-- `find_best_solution`, `dp/solve.py:15-55`: the best result and the context's claims
afterwards.  Without any solution the local variable `inner_ctx` is unbound. -/
def findBest (x : Ctx) (o : Orders) (rule : Node) (t : ClaimTable) (merge : Bool) :
    Except Err (Option Node × ClaimTable) :=
  let g := rule.solutions x o
  match bestLoop x o g.err g.items none none with
  | .error e => .error e
  | .ok (best, inner) =>
    if merge then match inner with
      | none => .error .unboundLocal
      | some i => .ok (best.map (·.1), mergeTables t i)
    else .ok (best.map (·.1), t)

/-! ### Independent children (`dp/rule/count.py:374-462`) -/

mutual
/-- `is_always_disjoint`: `dp/base/bases.py:97-98`, `dp/base/requirement.py:76-83`,
`dp/rule/query.py:290-294`. -/
def Node.alwaysDisjoint : Node → Bool
  | .query _ d => d.allowClaimed && !d.attemptClaims && d.source ≠ .claimed
  | .req _ d r => d.disjoint = some true || Node.alwaysDisjointOpt r
  | _ => false
/-- for an optional child -/
def Node.alwaysDisjointOpt : Option Node → Bool
  | none => false
  | some n => n.alwaysDisjoint
end

mutual
/-- `is_never_disjoint`: `dp/base/bases.py:100-101`, `dp/base/requirement.py:85-92`,
`dp/rule/query.py:296-300`. -/
def Node.neverDisjoint : Node → Bool
  | .query _ d => d.source = .claimed
  | .req _ d r => d.disjoint = some false || Node.neverDisjointOpt r
  | _ => false
/-- for an optional child -/
def Node.neverDisjointOpt : Option Node → Bool
  | none => false
  | some n => n.neverDisjoint
end

/-- `itertools.combinations(l, 2)` -/
def pairsOf {α : Type} : List α → List (α × α)
  | [] => []
  | a :: l => l.map (fun b => (a, b)) ++ pairsOf l

/-- `all_rule_matches`, `dp/rule/count.py:391-394`. -/
def matchTable (x : Ctx) : List Node → Except Err (List (Node × List Item))
  | [] => .ok []
  | n :: ns => match n.allMatches x with
    | .error e => .error e
    | .ok m => match matchTable x ns with
      | .error e => .error e
      | .ok rest => .ok ((n, m) :: rest)

/-- the test of the loop `dp/rule/count.py:406-418`: the two rules do not get in each
other's way -/
def pairDisjoint (p : (Node × List Item) × (Node × List Item)) : Bool :=
  (p.1.1.alwaysDisjoint && p.2.1.alwaysDisjoint) || p.1.2.all (fun i => !p.2.2.contains i)

/-- `find_independent_children`, `dp/rule/count.py:374-425`: the disjoint and the
non-disjoint rules (sets of rules, known by their paths). -/
def findIndependent (x : Ctx) (items : List Node) : Except Err (List Node × List Node) :=
  match matchTable x items with
  | .error e => .error e
  | .ok table =>
    if table.length = 1 then .ok (items, [])
    else
      let clashing := (pairsOf table).filter (fun p => !pairDisjoint p)
      let nonDisjoint := (table.map (·.1)).filter (·.neverDisjoint)
        ++ clashing.flatMap (fun p => [p.1.1, p.2.1])
      let bad (n : Node) : Bool := (nonDisjoint.map Node.path).contains n.path
      .ok (items.filter (fun n => !bad n), items.filter bad)

/-- `solve_independent_children`, `dp/rule/count.py:427-462`: the results of the
children (in the order they were solved) and the claims afterwards. -/
def solveIndependent (x : Ctx) (o : Orders) :
    List Node → ClaimTable → Except Err (List (Node × Option Node) × ClaimTable)
  | [], t => .ok ([], t)
  | n :: ns, t => match findBest x o n t true with
    | .error e => .error e
    | .ok (r, t') => match solveIndependent x o ns t' with
      | .error e => .error e
      | .ok (rs, t'') => .ok ((n, r) :: rs, t'')

/-- `CountRule.solutions` with `depth=1`, `dp/rule/count.py:227-299`: the solutions, and
the context's claims once the first one has been asked for. -/
def topCountSolutions (x : Ctx) (o : Orders) (d : CountData) (items : List Node) (t : ClaimTable) :
    Gen Node × ClaimTable :=
  if (getWaiveException x.exceptions d.path).isSome then
    (.one (.count .solution { d with overridden := true } items), t)
  else match filterE (fun n => n.hasPotential x) items with
    | .error e => (.raise e, t)
    | .ok pot =>
      if pot = [] ∨ d.audits ≠ [] then
        (plainCountSolutions x d items (Node.solutionsList x o items), t)
      else match findIndependent x pot with
        | .error e => (.raise e, t)
        | .ok (indep, codep) => match solveIndependent x o (o.children indep) t with
          | .error e => (.raise e, t)
          | .ok (solved, t') =>
            match sortByPath Node.path (solved.filterMap (·.2)) with
            | .error e => (.raise e, t')
            | .ok results =>
              let solvedPaths := (solved.filter (·.2.isSome)).map (·.1.path)
              let others := items.filter (fun n => !solvedPaths.contains n.path)
              match sortByPath Node.path codep with
              | .error e => (.raise e, t')
              | .ok sorted =>
                (countSolutions d items.length (sorted.map (fun n => (n, n.solutions x o))) results others, t')

mutual
/-- `solutions(ctx=ctx, depth=1)`: only counts and conditionals look at the depth
(`dp/rule/count.py:242`, `dp/rule/conditional.py:95-103`). -/
def Node.topSolutions (x : Ctx) (o : Orders) : Node → ClaimTable → Gen Node × ClaimTable
  | .count _ d items, t => topCountSolutions x o d items t
  | .cond _ d th f, t => match d.condition with
    | some true =>
      let (g, t') := th.topSolutions x o t
      (g.map (fun s => .cond .solution d s f), t')
    | some false => match Node.topSolutionsOpt x o f t with
      | some (g, t') => (g.map (fun s => .cond .solution d th (some s)), t')
      | none => (.nil, t)
    | none => (.nil, t)
  | .course s d, t => ((Node.course s d).solutions x o, t)
  | .query s d, t => ((Node.query s d).solutions x o, t)
  | .req s d r, t => ((Node.req s d r).solutions x o, t)
  | .prof s d c, t => ((Node.prof s d c).solutions x o, t)
/-- for an optional child -/
def Node.topSolutionsOpt (x : Ctx) (o : Orders) : Option Node → ClaimTable → Option (Gen Node × ClaimTable)
  | none, _ => none
  | some n, t => some (n.topSolutions x o t)
end

end Dp
