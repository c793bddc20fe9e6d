import Verif.Model.Area

/-
The printed report of a result (`dp/stringify_v3.py`) and the table of claimed courses
(`keyed_claims`, `dp/area.py:402-416`).

The code first turns a result into a dictionary (`to_dict`) and prints that; here the lines are made from the result
itself.  Of `to_dict` only what can raise is kept: the ranks of all parts (`Node.dict`).  How numbers, paths, comparisons,
conditions, assertions and courses are written out is left open (`Shows`): nothing depends on it.
-/
namespace Dp

/-- How values are written into the text of a report. -/
structure Shows where
  /-- `f"{float(rank):.4g}"` -/
  rank : Rat → String
  /-- `str(max_rank)`, `str(gpa)`, `str(at_most)` -/
  number : Rat → String
  /-- `json.dumps(path)` -/
  path : Path → String
  /-- `repr` of a text -/
  quoted : String → String
  /-- `str_single_predicate`, `dp/stringify_v3.py:430-462` -/
  comparison : PredLeaf → String
  /-- `str_expression` of the condition of a filter, `dp/stringify_v3.py:465-496` -/
  filterCondition : Pred → String
  /-- `str_expression` of the condition of a rule -/
  ruleCondition : CondData → String
  /-- `str_expression` of the condition of an assertion -/
  assertionCondition : AnyAssertion → String
  /-- `str_clause_line`, `dp/stringify_v3.py:544-576` -/
  assertion : Assertion → String
  /-- `get_resolved_items`, `dp/stringify_v3.py:636-647` -/
  resolvedItems : Assertion → String
  /-- `f"{course.course().strip()} {course.name!r}"` -/
  course : Course → String
  /-- `course.verbose()` -/
  verbose : Course → String
  /-- `f'{course.course()} "{course.name}" ({course.clbid})'` -/
  failure : Course → String
  /-- `f'{course.course_with_term()} "{course.name}"'` -/
  label : Course → String
  /-- `int(clbid)`: fails on a text that is not a whole number -/
  classNumber : String → Option String

/-- the options of a report: `show_paths`, `show_ranks`, `only_path` (where `None` and `[]` are the same) -/
structure PrintOpts where
  showPaths : Bool := true
  showRanks : Bool := true
  onlyPath : Path := []

/-- `ResultStatus.value`, `dp/status.py:4-13`. -/
def Status.text : Status → String
  | .empty => "empty"
  | .pendingApproval => "pending-approval"
  | .needsMoreItems => "needs-more-items"
  | .pendingRegistered => "pending-registered"
  | .pendingCurrent => "pending-current"
  | .done => "done"
  | .waived => "waived"
  | .failedInvariant => "failed-invariant"

/-- `calculate_emoji`, `dp/stringify_v3.py:99-115`. -/
def Status.emoji : Status → String
  | .waived => "💜"
  | .done => "💚"
  | .pendingCurrent => "💖"
  | .pendingRegistered => "🧡"
  | .needsMoreItems => "💙"
  | .pendingApproval => "❓"
  | .empty => "🌀"
  | .failedInvariant => "🚫️"

/-- `" " * n` -/
def blanks (n : Nat) : String := String.ofList (List.replicate n ' ')

/-- `transcript.get(clbid, None)` in `{c.clbid: c for c in transcript}`, `dp/stringify_v3.py:26` -/
def courseFor (transcript : List Course) (clbid : String) : Option Course :=
  transcript.reverse.find? (fun c => c.clbid == clbid)

/-- `print_path`, `dp/stringify_v3.py:93-96`, under `if show_paths` -/
def printPath (S : Shows) (p : PrintOpts) (path : Path) (indent : Nat) : List String :=
  if p.showPaths then [blanks indent ++ S.path path] else []

/-- the rank in front of a line, for instance `dp/stringify_v3.py:180-181` -/
def rankText (S : Shows) (p : PrintOpts) (rank : Rat × Rat) (s : Status) : String :=
  if p.showRanks then "(" ++ S.rank rank.1 ++ "|" ++ S.number rank.2 ++ "|" ++ (if s.passing then "t" else "f") ++ ") "
  else ""

/-- `emojify_course`, `dp/stringify_v3.py:145-165`; `waived` tells whether the given status is "waived" -/
def emojifyCourse (course : Option Course) (waived : Bool) : String :=
  match course with
  | none => if waived then "💜 [wvd]" else "🌀      "
  | some c =>
    if waived then "💜 [ovr]"
    else if c.isIncomplete then "⛔️ [dnf]"
    else if c.isInProgressThisTerm then "💖 [ip!]"
    else if c.isInProgressInFuture then "🧡 [ip-]"
    else if c.isInProgress then "💙 [ip?]"
    else if c.isRepeat then "💕 [rep]"
    else "💚 [ ok]"

/-- `str()` of a text that may be `None` -/
def noneText : Option String → String
  | none => "None"
  | some s => s

mutual
/-- `str_predicate`, `dp/stringify_v3.py:390-427`: there is no case for `$not`. -/
def strPredicate (S : Shows) (nested : Bool) : Pred → Except Err String
  | .leaf l => .ok (S.comparison l)
  | .or ps => match strPredicates S ps with
    | .error e => .error e
    | .ok ts => .ok (if nested then "(" ++ String.intercalate " or " ts ++ ")" else String.intercalate " or " ts)
  | .and ps => match strPredicates S ps with
    | .error e => .error e
    | .ok ts => .ok (if nested then "(" ++ String.intercalate " and " ts ++ ")" else String.intercalate " and " ts)
  | .cond r t f => match strPredicate S false t with
    | .error e => .error e
    | .ok tt => match strElse S f with
      | .error e => .error e
      | .ok ft =>
        let text := "If: [" ++ S.filterCondition (.cond r t f) ++ "] Then (" ++ (if r = some true then "t." else "") ++
          "): [" ++ tt ++ "] Else (" ++ (if r = some false then "f!" else "") ++ "): [" ++ ft ++ "]"
        .ok (if nested then "(" ++ text ++ ")" else text)
  | .not _ => .error .other
/-- the parts of a compound filter -/
def strPredicates (S : Shows) : List Pred → Except Err (List String)
  | [] => .ok []
  | p :: ps => match strPredicate S true p with
    | .error e => .error e
    | .ok t => match strPredicates S ps with
      | .error e => .error e
      | .ok ts => .ok (t :: ts)
/-- the `else` of a conditional filter, `dp/stringify_v3.py:414-417` -/
def strElse (S : Shows) : Option Pred → Except Err String
  | none => .ok "do nothing"
  | some p => strPredicate S false p
end

/-- the lines about limits, `dp/stringify_v3.py:135-138,302-305` -/
def printLimits (S : Shows) (pre : String) : List Limit → Except Err (List String)
  | [] => .ok []
  | l :: ls => match strPredicate S false l.where' with
    | .error e => .error e
    | .ok w => match printLimits S pre ls with
      | .error e => .error e
      | .ok rest => .ok ((pre ++ "- at most " ++ S.number l.atMost ++ " " ++
          (match l.what with | .courses => "Courses" | .credits => "Credits") ++ " where " ++ w) :: rest)

/-- the lines "resolved courses", `dp/stringify_v3.py:584-602` -/
def printResolved (S : Shows) (transcript : List Course) (pre : String) (inserted : List String) (a : Assertion) :
    List String → Except Err (List String)
  | [] => .ok []
  | k :: ks =>
    let ins := if inserted.contains k || a.insertedClbids.contains k then " [ins]" else ""
    let line : Except Err String := match courseFor transcript k with
      | none => match S.classNumber k with
        | none => .error .valueError
        | some t => .ok (pre ++ "  -" ++ ins ++ " #" ++ t)
      | some c => .ok (pre ++ "               -" ++ ins ++ " " ++ emojifyCourse (some c) false ++ " " ++ S.verbose c)
    match line with
    | .error e => .error e
    | .ok t => match printResolved S transcript pre inserted a ks with
      | .error e => .error e
      | .ok ts => .ok (t :: ts)

/-- `str_single_assertion`, `dp/stringify_v3.py:521-602`; the class ids come sorted from `to_dict`. -/
def printAssertion (S : Shows) (p : PrintOpts) (transcript : List Course) (indent : Nat) (inserted : List String)
    (a : Assertion) : Except Err (List String) :=
  let pre := blanks indent ++ blanks 6
  let head := printPath S p a.path indent ++
    [blanks indent ++ rankText S p a.rank a.state ++ " - " ++ a.state.emoji ++ " " ++ S.assertion a ++ " [" ++ a.state.text ++ "]"]
  let filter : Except Err (List String) := match a.where' with
    | none => .ok []
    | some w => match strPredicate S false w with
      | .error e => .error e
      | .ok t => .ok [pre ++ blanks 13 ++ "where " ++ t]
  match filter with
  | .error e => .error e
  | .ok fs =>
    let items := if a.resolved.isSome then [pre ++ blanks 13 ++ "resolved items: " ++ S.resolvedItems a] else []
    if a.resolvedClbids.isEmpty then .ok (head ++ fs ++ items)
    else match printResolved S transcript pre inserted a (a.resolvedClbids.insertionSort (· ≤ ·)) with
      | .error e => .error e
      | .ok rs => .ok (head ++ fs ++ items ++ [pre ++ blanks 13 ++ "resolved courses:"] ++ rs)

/-- `str_conditional_assertion`, `dp/stringify_v3.py:605-633`, given the branches -/
def printBranches (S : Shows) (p : PrintOpts) (transcript : List Course) (indent : Nat) (inserted : List String)
    (whole : AnyAssertion) (path : Path) (result : Option Bool) (t : Assertion) (f : Option Assertion) :
    Except Err (List String) :=
  match printAssertion S p transcript (indent + 4) inserted t with
  | .error e => .error e
  | .ok ts =>
    let falseMark := if result = some false then "f!" else ""
    let other : Except Err (List String) := match f with
      | none => .ok [blanks indent ++ "Otherwise (" ++ falseMark ++ "): do nothing"]
      | some f => match printAssertion S p transcript (indent + 4) inserted f with
        | .error e => .error e
        | .ok fs => .ok ((blanks indent ++ "Otherwise: " ++ falseMark) :: fs)
    match other with
    | .error e => .error e
    | .ok fs => .ok (printPath S p path indent ++ [blanks indent ++ "If: " ++ S.assertionCondition whole,
        blanks indent ++ "Then: " ++ (if result = some true then "t." else "")] ++ ts ++ fs)

/-- `str_assertion_clause`, `dp/stringify_v3.py:499-518`.  The path of a conditional assertion is not kept by the
model; that of its first branch stands for it. -/
def printAnyAssertion (S : Shows) (p : PrintOpts) (transcript : List Course) (indent : Nat) (inserted : List String)
    (a : AnyAssertion) : Except Err (List String) :=
  match a with
  | .single s => printAssertion S p transcript indent inserted s
  | .cond c t f => printBranches S p transcript indent inserted a t.path c t f
  | .dyn _ r t => printBranches S p transcript indent inserted a t.path r t none

/-- `for a in …: yield from str_assertion_clause(a, …)` -/
def printAssertions (S : Shows) (p : PrintOpts) (transcript : List Course) (indent : Nat) (inserted : List String) :
    List AnyAssertion → Except Err (List String)
  | [] => .ok []
  | a :: as => match printAnyAssertion S p transcript indent inserted a with
    | .error e => .error e
    | .ok l => match printAssertions S p transcript indent inserted as with
      | .error e => .error e
      | .ok ls => .ok (l ++ ls)

/-- `print_course`, `dp/stringify_v3.py:168-201`. -/
def printCourse (S : Shows) (p : PrintOpts) (transcript : List Course) (indent : Nat) (s : Stage) (d : CourseData) :
    List String :=
  let course := match courseClaims s d with
    | [] => none
    | c :: _ => courseFor transcript c.course.clbid
  let status := courseStatus s d
  let shown := match course with
    | some c => S.course c
    | none => if (d.course = none ∨ d.course = some "") ∧ d.ap ≠ some "" then noneText d.ap else noneText d.course
  let institution := match d.institution with
    | none => ""
    | some i => if i = "" then "" else " [" ++ i ++ "]"
  printPath S p d.path indent ++
    [blanks indent ++ rankText S p (courseRank s d) status ++ emojifyCourse course (decide (status = .waived)) ++ " " ++
      shown ++ institution]

/-- `print_proficiency`, `dp/stringify_v3.py:204-228`: without a course, `rule['course']['status']` raises TypeError. -/
def printProf (S : Shows) (p : PrintOpts) (transcript : List Course) (indent : Nat) (d : ProfData)
    (course : Option (Stage × CourseData)) : Except Err (List String) :=
  let status := profStatus d course
  let mark := if status = .waived then "💜 [wvd]" else if status = .done then "💚 [ ok]" else "🌀      "
  match course with
  | none => .error .typeError
  | some (s, c) => .ok (printPath S p d.path indent ++
      [blanks indent ++ rankText S p (statusRank status) status ++ mark ++ " Proficiency=" ++ d.proficiency] ++
      (if (courseStatus s c).inWaivedAndDone then printCourse S p transcript (indent + 4) s c else []))

/-- the lines about the courses of a query, `dp/stringify_v3.py:307-327` -/
def printClaimLines (S : Shows) (transcript : List Course) (pre : String) (s : Stage) (d : QueryData) : List String :=
  let claims := queryClaims s d
  let failures := if s = .result then d.failed else []
  let missing (k : String) := pre ++ "    !!!!! \"!!!!!\" (" ++ k ++ ")"
  (if claims.isEmpty then [] else (pre ++ " Matching courses:") :: claims.map (fun c =>
    match courseFor transcript c.course.clbid with
    | none => missing c.course.clbid
    | some course => pre ++ "    " ++ (if d.inserted.contains c.course.clbid then "[ins] " else "") ++
        emojifyCourse (some course) false ++ " " ++ S.verbose course)) ++
  (if failures.isEmpty then [] else (pre ++ " Pre-claimed courses which cannot be re-claimed:") :: failures.map (fun c =>
    match courseFor transcript c.course.clbid with
    | some course => pre ++ "    " ++ S.failure course
    | none => missing c.course.clbid))

/-- `print_query`, `dp/stringify_v3.py:281-331`: the status is printed only beside a filter. -/
def printQuery (S : Shows) (p : PrintOpts) (transcript : List Course) (indent : Nat) (s : Stage) (d : QueryData) :
    Except Err (List String) :=
  let pre := blanks indent
  let status := queryStatus d
  let rank := rankText S p (queryRank d) status
  let filter : Except Err (List String) := match d.where' with
    | none => .ok []
    | some w => match strPredicate S false w with
      | .error e => .error e
      | .ok t => .ok [pre ++ status.emoji ++ " [" ++ status.text ++ "] Given courses matching " ++ t]
  match filter with
  | .error e => .error e
  | .ok fs => match printLimits S (pre ++ " ") d.limit with
    | .error e => .error e
    | .ok ls => match printAssertions S p transcript (indent + 4) d.inserted d.assertions with
      | .error e => .error e
      | .ok as => .ok (printPath S p d.path indent ++ fs ++
          (if d.limit.isEmpty then [] else (pre ++ " Subject to these limits:") :: ls) ++
          printClaimLines S transcript pre s d ++
          [(if p.showRanks then rank else pre) ++ " There must be:"] ++ as)

/-- `descr`, `dp/stringify_v3.py:247-260` -/
def countText (count size ok : Nat) : String :=
  (if count = 1 ∧ size = 2 then "either of (these " ++ toString size ++ ")"
    else if count = 2 ∧ size = 2 then "both of (these " ++ toString size ++ ")"
    else if count = size then "all of (these " ++ toString size ++ ")"
    else if count = 1 then "any of (these " ++ toString size ++ ")"
    else "at least " ++ toString count ++ " of " ++ toString size) ++
  " (ok: " ++ toString ok ++ "; need: " ++ toString count ++ ")"

/-- the lines of `print_count` before its items, `dp/stringify_v3.py:231-271` -/
def printCountHead (S : Shows) (p : PrintOpts) (transcript : List Course) (indent : Nat) (d : CountData)
    (rank : Rat × Rat) (status : Status) (children : List Status) : Except Err (List String) :=
  let pre := blanks indent ++ rankText S p rank status
  let head := printPath S p d.path indent ++
    [pre ++ status.emoji ++ " " ++ countText d.count children.length (children.filter (·.inWaivedAndDone)).length]
  if d.audits.isEmpty then .ok head
  else match printAssertions S p transcript (indent + 4) [] d.audits with
    | .error e => .error e
    | .ok as => .ok (head ++ [pre ++ " This requirement has a post-audit [status=" ++ (countAuditStatus d).text ++ "]:",
        pre ++ " There must be:"] ++ as ++ [""])

mutual
/-- `print_result`, `dp/stringify_v3.py:60-90`, with `print_count` (231-278), `print_requirement` (334-360) and
`print_conditional` (363-387); the last does not hand `only_path` on. -/
def Node.print (S : Shows) (p : PrintOpts) (transcript : List Course) (indent : Nat) : Node → Except Err (List String)
  | .course s d => .ok (printCourse S p transcript indent s d)
  | .query s d => printQuery S p transcript indent s d
  | .prof _ d c => printProf S p transcript indent d c
  | .count s d items => match (Node.count s d items).rank with
    | .error e => .error e
    | .ok rank => match printCountHead S p transcript indent d rank (countStatus d (Node.statusList items)) (Node.statusList items) with
      | .error e => .error e
      | .ok head => match Node.printList S p transcript (indent + 4) (decide (items.length ≠ 2)) items with
        | .error e => .error e
        | .ok ls => .ok (head ++ ls)
  | .req s d r =>
    if p.onlyPath ≠ [] ∧ d.path.take p.onlyPath.length ≠ p.onlyPath then .ok []
    else match (Node.req s d r).rank with
      | .error e => .error e
      | .ok rank =>
        let status := reqStatus d (Node.statusOpt r)
        let pre := blanks indent ++ rankText S p rank status
        let head := printPath S p d.path indent ++
          [pre ++ status.emoji ++ " Requirement(" ++ d.name ++ ") [" ++ status.text ++ "]"]
        if d.isAudited then .ok (head ++ [pre ++ "    is manually audited"])
        else match Node.printOpt S p transcript (indent + 4) r with
          | .error e => .error e
          | .ok ls => .ok (head ++ ls)
  | .cond s d t f => match (Node.cond s d t f).rank with
    | .error e => .error e
    | .ok rank =>
      let pre := blanks indent ++ rankText S p rank (Node.cond s d t f).status
      match t.print S { p with onlyPath := [] } transcript (indent + 4) with
      | .error e => .error e
      | .ok ts => match Node.printOpt S { p with onlyPath := [] } transcript (indent + 4) f with
        | .error e => .error e
        | .ok fs => .ok (printPath S p d.path indent ++ [pre ++ "If " ++ S.ruleCondition d ++ ":", pre ++ "Then:"] ++ ts ++
            (if f.isSome then [pre ++ "Otherwise:"] else [pre ++ "Otherwise, do nothing"]) ++ fs)
/-- the loop over the items of a count, `dp/stringify_v3.py:273-278`: blank lines between them, unless there are two -/
def Node.printList (S : Shows) (p : PrintOpts) (transcript : List Course) (indent : Nat) (gap : Bool) :
    List Node → Except Err (List String)
  | [] => .ok []
  | n :: ns => match n.print S p transcript indent with
    | .error e => .error e
    | .ok l => match Node.printList S p transcript indent gap ns with
      | .error e => .error e
      | .ok ls => .ok (l ++ (if gap && !ns.isEmpty then [""] else []) ++ ls)
/-- an optional child -/
def Node.printOpt (S : Shows) (p : PrintOpts) (transcript : List Course) (indent : Nat) : Option Node → Except Err (List String)
  | none => .ok []
  | some n => n.print S p transcript indent
end

mutual
/-- What `to_dict` of a rule can raise: the exception of `rank()` of any of its parts (`dp/base/bases.py:31-43`,
`dp/base/count.py:25-33`, `dp/base/requirement.py:24-34`, `dp/base/conditional.py:21-27`); ranks of courses, queries,
proficiencies and assertions do not raise. -/
def Node.dict : Node → Except Err Unit
  | .course _ _ => .ok ()
  | .query _ _ => .ok ()
  | .prof _ _ _ => .ok ()
  | .count s d items => match (Node.count s d items).rank with
    | .error e => .error e
    | .ok _ => Node.dictList items
  | .req s d r => match (Node.req s d r).rank with
    | .error e => .error e
    | .ok _ => Node.dictOpt r
  | .cond s d t f => match (Node.cond s d t f).rank with
    | .error e => .error e
    | .ok _ => match t.dict with
      | .error e => .error e
      | .ok _ => Node.dictOpt f
/-- the items of a count -/
def Node.dictList : List Node → Except Err Unit
  | [] => .ok ()
  | n :: ns => match n.dict with
    | .error e => .error e
    | .ok _ => Node.dictList ns
/-- an optional child -/
def Node.dictOpt : Option Node → Except Err Unit
  | none => .ok ()
  | some n => n.dict
end

/-- `AreaResult.to_dict`, `dp/area.py:48-60`, as far as it can raise. -/
def AreaResult.dict (r : AreaResult) : Except Err Unit :=
  match r.rank with
  | .error e => .error e
  | .ok _ => r.result.dict

/-- `"ok"` of the dictionary, `dp/area.py:58` -/
def AreaResult.ok (r : AreaResult) : Bool := r.status.inWaivedAndDone

/-! ### Claimed courses -/

/-- `SubType.value`, `dp/data/course_enums.py:25-34` -/
def SubType.value : SubType → String
  | .discussion => "discussion"
  | .ensemble => "ensemble"
  | .flac => "flac"
  | .lab => "lab"
  | .research => "research"
  | .seminar => "seminar"
  | .topic => "topic"
  | .normal => ""

/-- `sort_claims_by_time`, `dp/area.py:403-405`: `(subject, number, section or '', sub_type, year, term)`, compared as
python compares tuples. -/
def claimLe (a b : Claim) : Bool :=
  let k (c : Claim) := (c.course.subject, c.course.number, c.course.section'.getD "", c.course.subType.value)
  let (s, n, t, u) := k a
  let (s', n', t', u') := k b
  decide (s < s') || (s == s' && (decide (n < n') || (n == n' && (decide (t < t') || (t == t' &&
    (decide (u < u') || (u == u' && (decide (a.course.year < b.course.year) || (a.course.year == b.course.year &&
      decide (a.course.term ≤ b.course.term))))))))))

/-- `by_clbid[c.course.clbid].append(c)`, `dp/area.py:409-411`, with the paths of lines 413-416 -/
def addKeyed (table : List (String × List Path)) (c : Claim) : List (String × List Path) :=
  match table with
  | [] => [(c.course.clbid, [c.claimedBy])]
  | (k, ps) :: rest => if k == c.course.clbid then (k, ps ++ [c.claimedBy]) :: rest else (k, ps) :: addKeyed rest c

/-- `AreaResult.keyed_claims`, `dp/area.py:402-416`. -/
def AreaResult.keyedClaims (r : AreaResult) : List (String × List Path) :=
  ((r.claims.filter (fun c => !c.failed)).insertionSort (fun a b => claimLe a b = true)).foldl addKeyed []

/-- `claimed_path`, `dp/stringify_v3.py:56-57`. -/
def claimedPath (path : Path) : String :=
  String.intercalate " > " ((path.filter isReqSegment).map (fun s => String.ofList (s.toList.drop 1)))

/-- the lines of one class, `dp/stringify_v3.py:48-53`: a class that is not on the transcript raises KeyError -/
def printClaimed (S : Shows) (name : String) (transcript : List Course) : List (String × List Path) → Except Err (List String)
  | [] => .ok []
  | (k, ps) :: rest =>
    let lines : Except Err (List String) := match courseFor transcript k with
      | none => if ps.isEmpty then .ok [] else .error .keyError
      | some c => .ok (ps.map (fun path => "  - " ++ S.label c ++ " at " ++ claimedPath (("%" ++ name) :: path)))
    match lines with
    | .error e => .error e
    | .ok l => match printClaimed S name transcript rest with
      | .error e => .error e
      | .ok ls => .ok (l ++ ls)

/-- `print_area`, `dp/stringify_v3.py:118-142`; the name is not kept by the model of areas. -/
def AreaResult.print (S : Shows) (p : PrintOpts) (name : String) (a : Area) (transcript : List Course) (r : AreaResult) :
    Except Err (List String) :=
  match r.rank with
  | .error e => .error e
  | .ok rank => match printLimits S "" a.limit with
    | .error e => .error e
    | .ok ls => match r.result.print S p transcript 0 with
      | .error e => .error e
      | .ok lines => .ok (printPath S p ["$"] 0 ++
          [S.quoted name ++ " audit status: " ++ r.status.text ++ ". (rank " ++ S.number rank.1 ++ " of " ++
            S.number rank.2 ++ "; gpa: " ++ S.number r.gpa ++ ")"] ++
          (if a.limit.isEmpty then [] else "Subject to these limits:" :: ls) ++ [""] ++ lines)

/-- What the command line prints for a result (`result_str`, `dp/__main__.py:118-163`, then `summarize`,
`dp/stringify_v3.py:11-53`), as lines; the first line, with counts and times, is left out. -/
def AreaResult.report (S : Shows) (p : PrintOpts) (name : String) (a : Area)
    (transcript : List Course) (r : AreaResult) : Except Err (List String) :=
  match r.dict with
  | .error e => .error e
  | .ok _ => match r.print S p name a transcript with
    | .error e => .error e
    | .ok lines =>
      if p.onlyPath ≠ [] then .ok lines
      else match printClaimed S name transcript r.keyedClaims with
        | .error e => .error e
        | .ok claimed => .ok (lines ++ ["", "Claimed courses:"] ++ claimed)

end Dp
