import Verif.Model.Solve

/-
The area level: `dp/area.py` (solutions, audits, results) and the audit run
(`dp/audit.py`).
-/
namespace Dp

/-! ### Estimates -/

/-- `sum(ncr(n=len, r=n) for n in range(1, len + 1))`, `dp/rule/query.py:412-416,419-420` -/
def sumNcr (len : Nat) : Int := ((List.range len).map (fun n : Nat => ncr len (n + 1))).sum

/-- `estimate_item_set` for a query on courses, `dp/rule/query.py:387-420`. -/
def estimateCourseSet (assertions : List AnyAssertion) (items : List Course) : Except Err Int :=
  let flat := flattenAssertions assertions
  match largestExpected (flat.filter (·.isSimpleCount)) with
  | some a =>
    let g := inputSizeRange a items.length
    match g.err with
    | some e => .error e
    | none => .ok (g.items.map (fun n => ncr items.length n)).sum
  | none => match largestExpected (flat.filter (·.isSimpleSum)) with
    | some a => .ok (if sumCredits items < a.expected then 1 else sumNcr items.length)
    | none => .ok (sumNcr items.length)

/-- the loop of `QueryRule.estimate` over limited transcripts, `dp/rule/query.py:244-248` -/
def estimateSets (d : QueryData) : List (List Course) → Except Err Int
  | [] => .ok 0
  | s :: ss => match if d.source = .courses then estimateCourseSet d.assertions s else .ok 1 with
    | .error e => .error e
    | .ok n => match estimateSets d ss with
      | .error e => .error e
      | .ok m => .ok ((if d.attemptClaims then 0 else 1) + n + m)

/-- `QueryRule.estimate`, `dp/rule/query.py:235-256`. -/
def queryEstimate (x : Ctx) (o : Orders) (d : QueryData) : Except Err Int :=
  if (getWaiveException x.exceptions d.path).isSome then .ok 1
  else match queryFiltered x d with
    | .error e => .error e
    | .ok f =>
      let acc : Except Err Int :=
        if d.source = .courses ∨ d.source = .claimed then
          match itemCourses f.data with
          | .error e => .error e
          | .ok courses =>
            let g := limitedTranscripts (o.limit d.path) d.limit courses f.forceInserted
            match estimateSets d g.items, g.err with
            | .error e, _ => .error e
            | .ok _, some e => .error e
            | .ok n, none => .ok n
        else .ok 1
      match acc with
      | .error e => .error e
      | .ok n => .ok (if n = 0 then n + 1 else n)

/-- sum of results, stopping at the first error -/
def sumE : List (Except Err Int) → Except Err Int
  | [] => .ok 0
  | .error e :: _ => .error e
  | .ok n :: rest => match sumE rest with
    | .error e => .error e
    | .ok m => .ok (n + m)

/-- all results, stopping at the first error -/
def seqE {α : Type} : List (Except Err α) → Except Err (List α)
  | [] => .ok []
  | .error e :: _ => .error e
  | .ok a :: rest => match seqE rest with
    | .error e => .error e
    | .ok as => .ok (a :: as)

/-- `CountRule.count_combinations`, `dp/rule/count.py:355-372`.  Simplification: the
dict of estimates is keyed by the joined path; siblings have distinct paths. -/
def countCombinations (potential : List (Node × Except Err Int)) (size : Nat) : Except Err Int :=
  sumE ((combos size potential).map fun selected =>
    match seqE (selected.map (·.2)) with
    | .error e => .error e
    | .ok es => .ok (mult es))

/-- `CountRule.estimate` from line 316 on, `dp/rule/count.py:316-330`. -/
def countEstimate (d : CountData) (nItems : Nat) (potential : List (Node × Except Err Int)) :
    Except Err Int :=
  match sumE ((countSizes d nItems).map (countCombinations potential)) with
  | .error e => .error e
  | .ok acc =>
    let acc' : Except Err Int :=
      if acc = 0 ∧ potential ≠ [] then countCombinations potential potential.length else .ok acc
    match acc' with
    | .error e => .error e
    | .ok n => .ok (if n = 0 then 1 else n)

/-- `CountRule.estimate` without a search for independent children, `dp/rule/count.py:301-330`. -/
def plainCountEstimate (x : Ctx) (d : CountData) (items : List Node) (ests : List (Except Err Int)) :
    Except Err Int :=
  if (getWaiveException x.exceptions d.path).isSome then .ok 1
  else match filterE (fun p => p.1.hasPotential x) (items.zip ests) with
    | .error e => .error e
    | .ok pot => match sortByPath (fun p => p.1.path) pot with
      | .error e => .error e
      | .ok sorted => countEstimate d items.length sorted

mutual
/-- `estimate(ctx=ctx)`: `dp/rule/course.py:183-184`, `query.py:235-256`, `count.py:301-330`,
`requirement.py:118-125`, `conditional.py:105-111`, `proficiency.py:65-66` (all in `dp/rule`). -/
def Node.estimate (x : Ctx) (o : Orders) : Node → Except Err Int
  | .course _ _ => .ok 1
  | .query _ d => queryEstimate x o d
  | .count _ d items => plainCountEstimate x d items (Node.estimateList x o items)
  | .req _ d r =>
    if (getWaiveException x.exceptions d.path).isSome then .ok 1
    else match Node.estimateOpt x o r with
      | none => .ok 1
      | some e => e
  | .cond _ d t f => match d.condition with
    | some true => t.estimate x o
    | some false => match Node.estimateOpt x o f with
      | some e => e
      | none => .ok 0
    | none => .ok 0
  | .prof _ _ _ => .ok 1
/-- estimates of all children -/
def Node.estimateList (x : Ctx) (o : Orders) : List Node → List (Except Err Int)
  | [] => []
  | n :: ns => n.estimate x o :: Node.estimateList x o ns
/-- estimate of an optional child -/
def Node.estimateOpt (x : Ctx) (o : Orders) : Option Node → Option (Except Err Int)
  | none => none
  | some n => some (n.estimate x o)
end

/-- `CountRule.estimate` with `depth=1`, `dp/rule/count.py:301-330`. -/
def topCountEstimate (x : Ctx) (o : Orders) (d : CountData) (items : List Node) : Except Err Int :=
  if (getWaiveException x.exceptions d.path).isSome then .ok 1
  else match filterE (fun n => n.hasPotential x) items with
    | .error e => .error e
    | .ok pot =>
      if pot = [] ∨ d.audits ≠ [] then plainCountEstimate x d items (Node.estimateList x o items)
      else match findIndependent x pot with
        | .error e => .error e
        | .ok (_, codep) => match sortByPath Node.path codep with
          | .error e => .error e
          | .ok sorted => countEstimate d items.length (sorted.map (fun n => (n, n.estimate x o)))

mutual
/-- `estimate(ctx=ctx, depth=1)` -/
def Node.topEstimate (x : Ctx) (o : Orders) : Node → Except Err Int
  | .count _ d items => topCountEstimate x o d items
  | .cond _ d t f => match d.condition with
    | some true => t.topEstimate x o
    | some false => match Node.topEstimateOpt x o f with
      | some e => e
      | none => .ok 0
    | none => .ok 0
  | .course s d => (Node.course s d).estimate x o
  | .query s d => (Node.query s d).estimate x o
  | .req s d r => (Node.req s d r).estimate x o
  | .prof s d c => (Node.prof s d c).estimate x o
/-- for an optional child -/
def Node.topEstimateOpt (x : Ctx) (o : Orders) : Option Node → Option (Except Err Int)
  | none => none
  | some n => some (n.topEstimate x o)
end

/-! ### Areas (`dp/area.py`) -/

/-- the parts of `Student` (`dp/data/student.py:35-60`) that an audit reads -/
structure Student where
  courses : List Course := []
  coursesWithFailed : List Course := []
  areas : List AreaPointer := []
  performances : List MusicPerformance := []
  recitals : List MusicPerformance := []
  proficiencies : Proficiencies := {}

/-- `AreaOfStudy`, `dp/area.py:29-46`, without names and codes; its own `overridden`
is never set (`dp/area.py:153`). -/
structure Area where
  kind : String := "test"
  degree : String := ""
  limit : List Limit := []
  result : Node
  multicountable : Multicountable := []
  commonRules : List Node := []

/-- `forced_clbids`, `dp/area.py:170`. -/
def forcedClbids (es : List Exc) : List String :=
  (es.filterMap fun e => match e.kind with
    | .insertion clbid true => some clbid
    | _ => none).dedup

/-- the context of one limited transcript, `dp/area.py:171,178-200` -/
def areaCtx (a : Area) (st : Student) (es : List Exc) (transcript : List Course) : Ctx :=
  { transcript := transcript
    withExcluded := st.courses
    withFailed := st.coursesWithFailed
    forced := (st.courses.filter (fun c => (forcedClbids es).contains c.clbid)).reverse.map (fun c => (c.clbid, c))
    multicountable := a.multicountable
    exceptions := groupExceptions es
    areas := st.areas
    performances := st.performances
    attendances := st.recitals
    proficiencies := st.proficiencies }

/-- `AreaSolution`, `dp/area.py:256-259`: a solution with its context and the claims
that context holds when the solution is handed out. -/
structure AreaSolution where
  solution : Node
  ctx : Ctx
  claims : ClaimTable

/-- `AreaOfStudy.solutions` for one limited transcript, `dp/area.py:195-223`: only the
first solution gets the context in which independent children were solved
(`ctx = ctx.with_empty_claims()` after each one).  (The optimisation switched by an
environment variable, lines 176 and 205-209, is off.) -/
def transcriptSolutions (o : Orders) (a : Area) (st : Student) (es : List Exc) (t : ClaimTable)
    (transcript : List Course) : Gen AreaSolution × ClaimTable :=
  let x := areaCtx a st es transcript
  match a.result.topSolutions x o t with
  | (⟨[], err⟩, t') => (⟨[], err⟩, t')
  | (⟨s :: ss, err⟩, t') => (⟨⟨s, x, t'⟩ :: ss.map (fun s => ⟨s, x, []⟩), err⟩, [])

/-- the loop over limited transcripts, `dp/area.py:191-223` -/
def areaLoop (o : Orders) (a : Area) (st : Student) (es : List Exc) (tail : Option Err) :
    List (List Course) → ClaimTable → Gen AreaSolution
  | [], _ => ⟨[], tail⟩
  | tr :: trs, t =>
    let (g, t') := transcriptSolutions o a st es t tr
    g.append (areaLoop o a st es tail trs t')

/-- `AreaOfStudy.solutions`, `dp/area.py:167-225`. -/
def Area.solutions (o : Orders) (a : Area) (st : Student) (es : List Exc) : Gen AreaSolution :=
  let trs := limitedTranscripts (o.limit []) a.limit st.courses (forcedClbids es)
  areaLoop o a st es trs.err trs.items []

/-- `AreaOfStudy.estimate`, `dp/area.py:227-253`. -/
def Area.estimate (o : Orders) (a : Area) (st : Student) (es : List Exc) : Except Err Int :=
  let trs := limitedTranscripts (o.limit []) a.limit st.courses (forcedClbids es)
  match sumE (trs.items.map (fun tr => a.result.topEstimate (areaCtx a st es tr) o)), trs.err with
  | .error e, _ => .error e
  | .ok _, some e => .error e
  | .ok n, none => .ok n

/-- `find_best_solution(...)` and the assertion that there is one, `dp/area.py:315-323` -/
def commonResult (x : Ctx) (o : Orders) (rule : Node) : Except Err Node :=
  match findBest x o rule [] false with
  | .error e => .error e
  | .ok (none, _) => .error .assertion
  | .ok (some r, _) => .ok r

/-- the results of the common rules, `dp/area.py:315-330`: the first two in the context
of the claimed courses, the third, if any, in the context of the whole transcript -/
def commonItems (claimed whole : Ctx) (o : Orders) : List Node → Except Err (List Node)
  | [] | [_] => .error .indexError
  | r0 :: r1 :: rest => match commonResult claimed o r0 with
    | .error e => .error e
    | .ok c0 => match commonResult claimed o r1 with
      | .error e => .error e
      | .ok c1 => match rest with
        | [] => .ok [c0, c1]
        | r2 :: _ => match commonResult whole o r2 with
          | .error e => .error e
          | .ok c2 => .ok [c0, c1, c2]

/-- `audit_common_major_requirements`, `dp/area.py:296-346`. -/
def auditCommon (o : Orders) (a : Area) (x : Ctx) (result : Node) : Except Err Node :=
  match a.commonRules with
  | [] => .error .indexError
  | r0 :: _ =>
    match forcedCourses x ((getInsertExceptionsBeneath x.exceptions r0.path).filterMap Exc.insertClbid) with
    | .error e => .error e
    | .ok ins =>
      let base := { x with withExcluded := [], withFailed := [], forced := [] }
      let whole := { base with transcript := x.withExcluded }
      let claimed := { base with
        transcript := o.matched ["$"] result.matched
        forced := ins.reverse.map (fun c => (c.clbid, c)) }
      match commonItems claimed whole o a.commonRules with
      | .error e => .error e
      | .ok items => .ok (.req .result
          { path := ["$", "%Common Requirements"], name := "Common " ++ a.degree ++ " Major Requirements",
            inGpa := false }
          (some (.count .result
            { path := ["$", "%Common Requirements", ".count"], count := items.length } items)))

/-- `AreaResult`, `dp/area.py:350-353`. -/
structure AreaResult where
  kind : String
  result : Node
  ctx : Ctx

/-- `AreaSolution.audit`, `dp/area.py:280-294`. -/
def AreaSolution.audit (o : Orders) (a : Area) (s : AreaSolution) : Except Err AreaResult :=
  match s.solution.audit s.ctx o s.claims with
  | .error e => .error e
  | .ok (r, _) =>
    if a.kind = "major" then
      match auditCommon o a s.ctx r with
      | .error e => .error e
      | .ok common => match r with
        | .count .result d items =>
          .ok ⟨a.kind, .count .result { d with count := d.count + 1 } (items ++ [common]), s.ctx⟩
        | _ => .error .assertion
    else .ok ⟨a.kind, r, s.ctx⟩

/-- `is_waived()`: `dp/base/bases.py:94-95`, `dp/result/course.py:49-53`. -/
def Node.isWaived : Node → Bool
  | .course s d => courseWaived s d
  | .query _ d => d.overridden
  | .count _ d _ => d.overridden
  | .req _ d _ => d.overridden
  | .cond _ d _ _ => d.overridden
  | .prof _ d _ => d.overridden

/-- `AreaResult.status`, `dp/area.py:383-391`. -/
def AreaResult.status (r : AreaResult) : Status :=
  if r.result.isWaived then .waived else r.result.status

/-- `AreaResult.rank`, `dp/area.py:393-397`. -/
def AreaResult.rank (r : AreaResult) : Except Err (Rat × Rat) := r.result.rank

/-- `AreaResult.claims`, `dp/area.py:399-400`. -/
def AreaResult.claims (r : AreaResult) : List Claim := r.result.claims

/-- `AreaResult.gpa`, `dp/area.py:372-381`. -/
def AreaResult.gpa (r : AreaResult) : Rat :=
  gradePointAverage (if r.kind = "degree" then r.ctx.withFailed else r.result.matchedForGpa)

/-! ### The audit run (`dp/audit.py`) -/

/-- `Arguments`, `dp/audit.py:14-24`, as far as `audit` reads them. -/
structure Args where
  estimateOnly : Bool := false
  printAll : Bool := false
  printOnly : List Int := []
  stopAfter : Option Int := none
  progressEvery : Int := 1000
  auditEach : Int := 1

/-- The messages, `dp/audit.py:27-64`, without times. -/
inductive Msg (ρ : Type) where
  | estimate (n : Int)
  | noAudits
  | progress (bestRank : Rat) (bestI : Option Int) (iters total : Int)
  | result (r : ρ) (bestI : Option Int) (iters total : Int)
  deriving DecidableEq

/-- one audited solution, as the loop sees it: the result, its rank and its status -/
structure Outcome (ρ : Type) where
  result : ρ
  rank : Rat
  status : Status

/-- the variables of `audit`, `dp/audit.py:72-78` -/
structure RunState (ρ : Type) where
  total : Int := 0
  audited : Int := 0
  best : Option (ρ × Rat × Int) := none
  printedSome : Bool := false

/-- the part of `audit` after the loop, `dp/audit.py:146-166` -/
def runEnd {ρ : Type} (args : Args) (s : RunState ρ) : Gen (Msg ρ) :=
  match s.best with
  | none => .one .noAudits
  | some (r, _, i) =>
    if args.printAll || s.printedSome then .nil
    else .one (.result r (some i) s.audited s.total)

/-- keep the better of the best solution so far and this one (the `total`-th),
`dp/audit.py:104-110` -/
def betterOf {ρ : Type} (best : Option (ρ × Rat × Int)) (out : Outcome ρ) (total : Int) : ρ × Rat × Int :=
  match best with
  | none => (out.result, out.rank, total)
  | some b => if b.2.1 < out.rank then (out.result, out.rank, total) else b

/-- the loop of `audit`, `dp/audit.py:86-144`, followed by the rest.  A solution is
represented by what auditing it would give; `tail` is the exception the generator of
solutions ends with, if any.  Modulo by zero raises (ZeroDivisionError, `.other`). -/
def runLoop {ρ : Type} (args : Args) (tail : Option Err) :
    List (Except Err (Outcome ρ)) → RunState ρ → Gen (Msg ρ)
  | [], s => match tail with
    | some e => .raise e
    | none => runEnd args s
  | sol :: sols, s =>
    let total := s.total + 1
    if args.printOnly ≠ [] ∧ ¬ args.printOnly.contains total then
      runLoop args tail sols { s with total := total }
    else if args.auditEach = 0 then .raise .other
    else if total % args.auditEach ≠ 0 then runLoop args tail sols { s with total := total }
    else
      let audited := s.audited + 1
      match sol with
      | .error e => .raise e
      | .ok out =>
        let best := betterOf s.best out total
        if out.status.inWaivedAndDone then
          runEnd args { s with total := total, audited := audited, best := some (out.result, out.rank, total) }
        else if args.progressEvery = 0 then .raise .other
        else
          let progress : Gen (Msg ρ) :=
            if audited % args.progressEvery = 0 then
              .one (.progress best.2.1 (some best.2.2) audited total)
            else .nil
          let printed := s.printedSome || args.printOnly.contains total
          let print : Gen (Msg ρ) :=
            if args.printAll || args.printOnly.contains total then
              .one (.result out.result (some best.2.2) audited total)
            else .nil
          let s' : RunState ρ := ⟨total, audited, some best, printed⟩
          progress.append (print.append
            (if args.stopAfter.any (fun n => decide (n ≤ audited)) then runEnd args s'
              else runLoop args tail sols s'))

/-- `audit`, `dp/audit.py:67-166`, on an estimate and the solutions. -/
def runAudit {ρ : Type} (args : Args) (estimate : Except Err Int)
    (sols : Gen (Except Err (Outcome ρ))) : Gen (Msg ρ) :=
  match estimate with
  | .error e => .raise e
  | .ok n => (Gen.one (.estimate n)).append
      (if args.estimateOnly then .nil else runLoop args sols.err sols.items {})

/-- auditing a solution of an area: `sol.audit()`, its rank and status, `dp/audit.py:100-102` -/
def AreaSolution.outcome (o : Orders) (a : Area) (s : AreaSolution) : Except Err (Outcome AreaResult) :=
  match s.audit o a with
  | .error e => .error e
  | .ok r => match r.rank with
    | .error e => .error e
    | .ok (rank, _) => .ok ⟨r, rank, r.status⟩

/-- `audit(area=..., student=..., args=..., exceptions=...)`, `dp/audit.py:67-166`. -/
def auditArea (o : Orders) (a : Area) (st : Student) (es : List Exc) (args : Args) : Gen (Msg AreaResult) :=
  runAudit args (a.estimate o st es) ((a.solutions o st es).map (AreaSolution.outcome o a))

end Dp
