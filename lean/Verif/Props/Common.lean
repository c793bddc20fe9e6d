import Verif.Props.LoadRun

/-
What the requirements common to all majors (`prepare_common_rules`,
`audit_common_major_requirements`) ask for.
-/
namespace Dp

/-! ### Specification -/

/-- the courses an audited area counts, each once -/
def AreaResult.counted (r : AreaResult) : List Course :=
  ((r.claims.filter (fun c => !c.failed)).map (·.course)).dedup

/-- C or better -/
def cOrBetter : List GradeCode := [.C, .Cplus, .Bminus, .B, .Bplus, .Aminus, .A, .Aplus]

/-- Has the course a grade of C or better?  For the terms of the pandemic it may be C- or better, and the
letter grade behind an S is looked at. -/
def WellGraded (c : Course) : Prop :=
  if c.isDuringCovid then
    (if c.gradeCode = .S then c.suGradeCode.getD .S else c.gradeCode) ∈ .Cminus :: cOrBetter
  else c.gradeCode ∈ cOrBetter

instance (c : Course) : Decidable (WellGraded c) := by unfold WellGraded; infer_instance

/-- a course that counts towards the six credits: it carries credits, and is graded C or better or not graded yet -/
def CountsForC (c : Course) : Prop := (WellGraded c ∨ c.isInProgress = true) ∧ 0 < c.credits

instance (c : Course) : Decidable (CountsForC c) := by unfold CountsForC; infer_instance

/-- taken for S or U -/
def TakenSU (c : Course) : Prop := c.gradeOption = .su

instance (c : Course) : Decidable (TakenSU c) := by unfold TakenSU; infer_instance

/-- the subject a course is filed under: those of `CH/BI` are split -/
def filedUnder (c : Course) : String :=
  match c.isChbi with
  | some n => if n = 125 ∨ n = 126 then "CHEM" else "BIO"
  | none => c.subject

/-- the courses outside the listed subjects, apart from registrations and off-campus entries -/
def Outside (subjects : List String) (c : Course) : Prop :=
  filedUnder c ∉ subjects ∧ filedUnder c ≠ "REG" ∧ filedUnder c ≠ "OFFC"

instance (l : List String) (c : Course) : Decidable (Outside l c) := by unfold Outside; infer_instance

/-- the credits of the courses that have a property -/
def creditsOf (p : Course → Prop) [DecidablePred p] (cs : List Course) : Rat :=
  ((cs.filter (fun c => decide (p c))).map (·.credits)).sum

/-- the code written in an area's text -/
def codeOf (spec : Dict) : String := match spec.get? "code" with | some (.str s) => s | _ => "<null>"

/-- where the common requirements are -/
def commonPath : Path := ["$", "%Common Requirements"]

/-! ### Helper lemmas: what the common rules are loaded as -/

theorem no_exception_at {es : List Exc} {p : Path} (h : ∀ e ∈ es, e.path ≠ p) :
    getWaiveException (groupExceptions es) p = none ∧ getValueException (groupExceptions es) p = none ∧
    getInsertExceptions (groupExceptions es) p = [] ∧ getBlockExceptions (groupExceptions es) p = [] := by
  have : (groupExceptions es).has p = false := by
    rw [groupExceptions_has]
    simpa using h
  simp [getWaiveException, getValueException, getInsertExceptions, getBlockExceptions, this]

theorem not_beneath {es : List Exc} {b p : Path} (h : ∀ e ∈ es, ¬ b <+: e.path) (hp : b <+: p) : ∀ e ∈ es, e.path ≠ p :=
  fun e he heq => h e he (heq ▸ hp)

/-- a query over the courses with one filter and one assertion, which claims nothing -/
def silentQuery (p : Path) (w : Pred) (a : Assertion) : QueryData :=
  { path := p, assertions := [.single a], where' := some w, allowClaimed := true, attemptClaims := false, recordClaims := false }

/-- a comparison with a number -/
def plainAssertion (p : Path) (key : String) (op : Operator) (n : Rat) : Assertion :=
  { path := p, key := key, op := op, expected := n }

theorem loadCommon_query {env : Env} {es : List Exc} (hes : env.ctx.exceptions = groupExceptions es)
    (hno : ∀ e ∈ es, ¬ commonPath <+: e.path) {name m : String} {w : Dict} {action op : String} {k : Int} {i : Nat} {n : Node}
    (h : loadCommon env name (commonSpec m (commonQuery (.map w) action op k)) i = .ok n)
    {opr : Operator} (hop : parseOperator op = some opr) (hk : op ∉ ["$changes", "at_most", "treat_in_progress_as_pass", "$ifs"]) :
    ∃ (rd : ReqData) (pr : Pred) (q : QueryData) (a : Assertion), n = .req .rule rd (some (.query .rule q)) ∧
      rd.isAudited = false ∧ commonPath <+: rd.path ∧ commonPath <+: q.path ∧ commonPath <+: a.path ∧
      loadFilter env.ctx env.c .course (.map w) = .ok pr ∧
      q = silentQuery q.path pr a ∧ a = plainAssertion a.path action opr k := by
  obtain ⟨body, rd, r, hb, rfl, hpath, _, _, hau, _, _, hsome⟩ := loadCommon_inv h
  cases hb
  obtain ⟨own, r', rfl, hbuilt⟩ := hsome _ rfl
  obtain ⟨d, rfl, hl⟩ := hbuilt.query_inv rfl
  obtain ⟨src, pr, lim, as, allow, failed, h1, h2, h3, h4, _, h5, _, _, _, h6, h7, hq⟩ := loadQuery_inv hl
  cases h1
  have hsrc : d.source = .courses := (Option.some.inj (h2.symm.trans (by decide : parseSource "courses" = some .courses)))
  rw [hsrc] at h3 h5
  cases h4
  cases h6
  cases h7
  have hw : ∃ p, loadFilter env.ctx env.c .course (.map w) = .ok p ∧ some p = pr := ld_map_ok.1 h3
  obtain ⟨p, hp, rfl⟩ := hw
  unfold loadQueryAssertions at h5
  have hget : Dict.get? [("from", Y.str "courses"), ("allow_claimed", .bool true), ("claim", .bool false), ("where", .map w),
      ("assert", clause action op (.int k))] "assert" = some (clause action op (.int k)) := rfl
  rw [hget] at h5
  simp only [ld_bind_ok] at h5
  obtain ⟨a', ha, h5⟩ := h5
  cases h5
  have ha' : ∃ a, loadSingle env.ctx env.c .course
      (["$", "%Common Requirements", ".count", indexSeg i, "%" ++ name] ++ [".query"] ++ [".assertions", "[0]"])
      (.map [("assert", clause action op (.int k))]) = .ok a ∧ a' = .single a := by
    unfold loadAnyAssertion at ha
    simp only [ld_bind_ok, ld_asDict] at ha
    obtain ⟨data, hd, ha⟩ := ha
    cases hd
    rw [if_neg (by simp [Dict.has, Dict.get?])] at ha
    unfold loadAssertion at ha
    simp only [ld_bind_ok, ld_asDict] at ha
    obtain ⟨data, hd, ha⟩ := ha
    cases hd
    rw [if_neg (by simp [Dict.has, Dict.get?])] at ha
    simp only [ld_bind_ok] at ha
    obtain ⟨a, ha, h⟩ := ha
    cases h
    exact ⟨a, ha, rfl⟩
  clear ha
  obtain ⟨a, ha, rfl⟩ := ha'
  obtain ⟨data, key, dd, op', raw, changes, written, changed, wh, atMost, treat, g1, g2, _, g3, _, _, g4, g5, g6, g7, g8, g9, g10, _,
    g11⟩ := loadSingle_inv ha
  cases g1
  cases g2
  simp only [List.mem_cons, List.not_mem_nil, or_false, not_or] at hk
  have e1 : theOperator [(op, Y.int k)] = .ok (opr, .int k) := by simp [theOperator, hop]
  rw [e1] at g3
  cases g3
  have e2 : changesOf [(op, Y.int k)] = .ok [] := by simp [changesOf, Dict.get?, hk.1]
  rw [e2] at g5
  cases g5
  cases g6
  cases g7
  cases g8
  have e3 : Dict.flag [(op, Y.int k)] "at_most" false = .ok false := by simp [Dict.flag, Dict.get?, hk.2.1]
  have e4 : Dict.flag [(op, Y.int k)] "treat_in_progress_as_pass" false = .ok false := by
    simp [Dict.flag, Dict.get?, hk.2.2.1]
  rw [e3] at g9
  rw [e4] at g10
  cases g9
  cases g10
  have hpre : ∀ l : Path, commonPath <+: "$" :: "%Common Requirements" :: l := fun l => ⟨l, rfl⟩
  have hqp : d.path = ["$", "%Common Requirements", ".count", indexSeg i, "%" ++ name] ++ [".query"] := by rw [hq]
  have hap : a.path = ["$", "%Common Requirements", ".count", indexSeg i, "%" ++ name] ++ [".query"] ++ [".assertions", "[0]"]
      ++ [".assert"] := by rw [g11]
  have n1 := no_exception_at (not_beneath hno (p := d.path) (by rw [hqp]; exact hpre _))
  have n2 := no_exception_at (not_beneath hno (p := a.path) (by rw [hap]; exact hpre _))
  rw [hqp] at n1
  rw [hap] at n2
  refine ⟨rd, p, d, a, rfl, ?_, ?_, ?_, ?_, hp, ?_, ?_⟩
  · have : auditedFlag [("message", Y.str m), ("result", commonQuery (.map w) action op k)] = .ok false := rfl
    rw [this] at hau
    exact (Except.ok.inj hau).symm
  · rw [hpath]; exact hpre _
  · rw [hqp]; exact hpre _
  · rw [hap]; exact hpre _
  · rw [hq]
    simp only [hsrc, hes, n1.1]
    rfl
  · rw [g11]
    simp only [hes, n2.1, overrideValue, n2.2.1]
    rfl

/-! ### Helper lemmas: what auditing such a rule reports -/

theorem filterItems_courses {p : Pred} {f : Course → Bool} (hf : ∀ c, p.applyCourse c = .ok (f c)) (cs : List Course) :
    filterItems p (cs.map .course) = .ok ((cs.filter f).map .course) := by
  induction cs with
  | nil => rfl
  | cons c cs ih =>
    have hc : p.apply (Item.course c).applyLeaf = .ok (f c) := hf c
    simp only [List.map_cons, filterItems, ih, hc]
    cases h : f c <;> simp [h]

theorem metStatus_passes {a : Assertion} {cs : List Course} {v : Applied} {s : Status} (h : metStatus a cs v = .ok s) :
    s.passing = true := by
  unfold metStatus at h
  dsimp only at h
  repeat' split at h
  all_goals first
    | (cases h; rfl)
    | cases h

theorem unmet_not_passing (op : Operator) (v e : Rat) : (unmetStatus op v e).passing = false := by
  unfold unmetStatus
  repeat' split
  all_goals rfl

/-- a query with one assertion has the assertion's status, as far as passing is concerned -/
theorem queryStatus_single {d : QueryData} {a : Assertion} (hd : d.assertions = [.single a]) (ho : d.overridden = false) :
    (queryStatus d).passing = a.state.passing := by
  unfold queryStatus
  rw [hd, ho]
  simp only [List.map_cons, List.map_nil, AnyAssertion.status]
  cases a.state <;> rfl

/-- whether a common requirement is met: exactly when the comparison holds of the courses its filter selects -/
theorem common_passes {x : Ctx} {es : List Exc} (hes : x.exceptions = groupExceptions es)
    (hno : ∀ e ∈ es, ¬ commonPath <+: e.path) {o : Orders} {rd : ReqData} {pr : Pred} {q : QueryData} {a : Assertion} {r : Node}
    {action : String} {op : Operator} {k : Rat}
    (hau : rd.isAudited = false) (h1 : commonPath <+: rd.path) (h2 : commonPath <+: q.path) (h3 : commonPath <+: a.path)
    (hq : q = silentQuery q.path pr a) (ha : a = plainAssertion a.path action op k)
    {f : Course → Bool} (hf : ∀ c, pr.applyCourse c = .ok (f c))
    (h : commonResult x o (.req .rule rd (some (.query .rule q))) = .ok r) :
    (∀ v b, applyCourses action (x.transcript.filter f) (x.transcript.filter f) = .ok v → compareNum op v.value k = .ok b →
      (r.status.passing = true ↔ b = true) ∧ (op = .lte → b = false → r.status = .failedInvariant)) ∧ r.claims = [] := by
  have n1 := no_exception_at (not_beneath hno h1)
  have n2 := no_exception_at (not_beneath hno h2)
  have n3 := no_exception_at (not_beneath hno h3)
  unfold commonResult at h
  split at h
  · cases h
  · cases h
  rename_i r' t hbest
  cases h
  obtain ⟨s, hs, t2, haud⟩ := findBest_mem hbest
  have hfilt : queryFiltered x q = .ok ⟨(x.transcript.filter f).map .course, [], []⟩ := by
    unfold queryFiltered
    rw [hq]
    simp only [silentQuery, queryData, Bool.false_eq_true, if_false, List.contains_nil, Bool.not_false, List.filter_true, filterItems_courses hf,
      hes, n2.2.2.1, queryInsert, true_or, if_true]
  have hsol : querySolutions x o q = .one (querySolution q ((x.transcript.filter f).map .course) [] []) := by
    unfold querySolutions
    have hov : q.overridden = false := by rw [hq]; rfl
    have hsrc : q.source = .courses := by rw [hq]; rfl
    have hlim : q.limit = [] := by rw [hq]; rfl
    have hat : q.attemptClaims = false := by rw [hq]; rfl
    rw [hov, hfilt, hsrc]
    simp only [Bool.false_eq_true, if_false, itemCourses_map, queryCourseSolutions, hlim, limitedTranscripts, if_true, hat,
      Bool.not_false]
    rfl
  simp only [Node.solutions, hes, n1.1, Option.isSome_none, Bool.false_eq_true, if_false, Node.solutionsOpt, hsol] at hs
  simp only [Gen.map, Gen.one, List.map_cons, List.map_nil, List.mem_singleton] at hs
  subst hs
  simp only [reqSolution, Node.audit, Bool.false_eq_true, if_false, Node.auditOpt] at haud
  have hov : (querySolution q ((x.transcript.filter f).map .course) [] []).overridden = false := by rw [hq]; rfl
  unfold queryAudit at haud
  rw [hov] at haud
  have hcol : collect x (querySolution q ((x.transcript.filter f).map .course) [] []) [] =
      .ok ({ items := (x.transcript.filter f).map .course }, []) := by
    rw [hq]
    simp only [silentQuery, collect, querySolution, collectCourses, itemCourses_map, Bool.false_eq_true, if_false]
  rw [hcol] at haud
  have hnl : nonPrimaryLt (querySolution q ((x.transcript.filter f).map .course) [] []).assertions = false := by
    rw [hq]
    simp only [silentQuery, querySolution, nonPrimaryLt, List.any_cons, List.any_nil, List.all_cons, List.all_nil, Bool.or_false, Bool.and_true,
      Bool.and_not_self]
  simp only [hnl, Bool.false_eq_true, and_false, if_false] at haud
  have has : (querySolution q ((x.transcript.filter f).map .course) [] []).assertions = [.single a] := by rw [hq]; rfl
  simp only [has, auditAssertions, AnyAssertion.audit, Assertion.audit] at haud
  have e1 : a.overridden = false := by rw [ha]; rfl
  have e2 : a.where' = none := by rw [ha]; rfl
  have e3 : a.dataType = .course := by rw [ha]; rfl
  have e4 : a.key = action := by rw [ha]; rfl
  have e5 : a.op = op := by rw [ha]; rfl
  have e6 : a.expected = k := by rw [ha]; rfl
  simp only [e1, e2, hes, n3.2.2.1, n3.2.2.2, insertInto, blockFrom, Assertion.evaluate, e3, itemCourses_map,
    Bool.false_eq_true, if_false, evaluateCourses, e4, e5, e6] at haud
  cases hv : applyCourses action (x.transcript.filter f) (x.transcript.filter f) with
  | error e => rw [hv] at haud; cases haud
  | ok v =>
    rw [hv] at haud
    simp only at haud
    cases hb : compareNum op v.value k with
    | error e => rw [hb] at haud; cases haud
    | ok b =>
      rw [hb] at haud
      cases b with
      | false =>
        cases haud
        refine ⟨fun v' b' hv' hb' => ?_, ?_⟩
        · cases hv'
          rw [hb] at hb'
          cases hb'
          simp only [Node.status, Node.statusOpt, reqStatus, hau, Bool.false_eq_true, if_false, iff_false, Bool.false_and]
          refine ⟨?_, ?_⟩
          · rw [queryStatus_single rfl rfl, Bool.not_eq_true]
            exact unmet_not_passing _ _ _
          · rintro rfl _
            rfl
        · simp [Node.claims, Node.claimsOpt, hau, queryClaims]
      | true =>
        cases hm : metStatus a (x.transcript.filter f) v with
        | error e => simp only [hm] at haud; cases haud
        | ok st =>
          simp only [hm] at haud
          cases haud
          refine ⟨fun v' b' hv' hb' => ?_, ?_⟩
          · cases hv'
            rw [hb] at hb'
            cases hb'
            simp only [Node.status, Node.statusOpt, reqStatus, hau, Bool.false_eq_true, if_false, iff_true, Bool.false_and]
            refine ⟨?_, fun _ h => nomatch h⟩
            rw [queryStatus_single rfl rfl]
            exact metStatus_passes hm
          · simp [Node.claims, Node.claimsOpt, hau, queryClaims]

/-! ### Helper lemmas: what the filters of the common rules select -/

/-- the texts of the filters, as in `cOrBetterSpec`, `suSpec` and `outsideSpec` -/
def cOrBetterWhere : Dict := [("$and", .list [
      .map [("$or", .list [
        .map [("grade", .map [("$gte", .str "C"), ("$during_covid", .str "C-")])],
        clause "is_in_progress" "$eq" (.bool true)])],
      clause "credits" "$gt" (.int 0)])]
/-- for B.M. majors -/
def suBmWhere : Dict := [("grade_option", .map [("$eq", .str "s/u")])]
/-- for other majors -/
def suWhere : Dict := [("$and", .list [clause "grade_option" "$eq" (.str "s/u"), clause "credits" "$eq" (.int 1)])]
/-- for two majors in art -/
def artWhere : Dict := [("$and", .list [clause "subject" "$neq" (.str "ART"), clause "subject" "$neq" (.str "REG"),
          clause "subject" "$neq" (.str "OFFC"), clause "credits" "$eq" (.int 1)])]
/-- for music -/
def musicWhere : Dict := [("$and", .list [
          clause "subject" "$nin" (.list [.str "MUSIC", .str "MUSPF", .str "MUSEN"]),
          clause "subject" "$neq" (.str "REG"), clause "subject" "$neq" (.str "OFFC")])]
/-- for other majors -/
def deptWhere (dept : String) : Dict := [("$and", .list [clause "subject" "$neq" (.str dept), clause "subject" "$neq" (.str "REG"),
          clause "subject" "$neq" (.str "OFFC")])]

/-- the subject is not this one -/
def notSubject (s : String) : Pred := .leaf { key := "subject", op := .neq, expected := strVal s }
/-- this many credits -/
def creditsEq (n : Int) : Pred := .leaf { key := "credits", op := .eq, expected := intVal n }
/-- taken S/U -/
def optionSU : Pred := .leaf { key := "grade_option", op := .eq, expected := .sc (.option .su) }

theorem load_cOrBetter (x : Ctx) (c : Constants) : loadFilter x c .course (.map cOrBetterWhere) = .ok (.and [
    .or [.leaf { key := "grade", op := .gte, expected := .sc (.grade .C), duringCovid := some (.sc (.grade .Cminus)) },
       .leaf { key := "is_in_progress", op := .eq, expected := boolVal true }],
    .leaf { key := "credits", op := .gt, expected := intVal 0 }]) := rfl

theorem load_suBm (x : Ctx) (c : Constants) : loadFilter x c .course (.map suBmWhere) = .ok optionSU := rfl

theorem load_su (x : Ctx) (c : Constants) : loadFilter x c .course (.map suWhere) = .ok (.and [optionSU, creditsEq 1]) := rfl

theorem load_art (x : Ctx) (c : Constants) : loadFilter x c .course (.map artWhere) =
    .ok (.and [notSubject "ART", notSubject "REG", notSubject "OFFC", creditsEq 1]) := rfl

theorem load_music (x : Ctx) (c : Constants) : loadFilter x c .course (.map musicWhere) =
    .ok (.and [.leaf { key := "subject", op := .nin, expected := .tup [.str "MUSIC", .str "MUSPF", .str "MUSEN"] },
      notSubject "REG", notSubject "OFFC"]) := rfl

theorem load_dept (x : Ctx) (c : Constants) {dept : String} (hd : dept.toList.head? ≠ some '$') :
    loadFilter x c .course (.map (deptWhere dept)) = .ok (.and [notSubject dept, notSubject "REG", notSubject "OFFC"]) := by
  have h1 : loadLeaf c .course "subject" (.map [("$neq", .str dept)]) = .ok { key := "subject", op := .neq, expected := strVal dept } := by
    have : c.getByName dept = .ok (.str dept) := by unfold Constants.getByName; rw [if_pos hd]
    have hv : loadValue c "subject" (.str dept) = .ok (strVal dept) := by
      change (c.getByName dept >>= fun v => Except.ok v.val) >>= processValue "subject" = _
      rw [this]
      rfl
    change (loadValue c "subject" (.str dept) >>= fun v => Except.ok none >>= fun covid => valueOk .neq v >>= fun _ =>
      Except.ok ({ key := "subject", op := .neq, expected := v, duringCovid := covid } : PredLeaf)) = _
    rw [hv]
    rfl
  have h2 : ∀ n, loadPred x c .course (n + 1) (clause "subject" "$neq" (.str dept)) = .ok (notSubject dept) := by
    intro n
    change (mapE (fun e : String × Y => loadLeaf c .course e.1 e.2) [("subject", .map [("$neq", .str dept)])] >>= fun ls =>
      match ls with
      | [l] => Except.ok (Pred.leaf l)
      | ls => Except.ok (Pred.and (ls.map Pred.leaf))) = _
    simp only [mapE, h1]
    rfl
  have h3 : ∀ n, loadPred x c .course (n + 1) (clause "subject" "$neq" (.str "REG")) = .ok (notSubject "REG") := fun _ => rfl
  have h4 : ∀ n, loadPred x c .course (n + 1) (clause "subject" "$neq" (.str "OFFC")) = .ok (notSubject "OFFC") := fun _ => rfl
  unfold loadFilter
  have hn : ∃ n, (Y.map (deptWhere dept)).size = n + 2 := ⟨_, rfl⟩
  obtain ⟨n, hn⟩ := hn
  rw [hn]
  change (mapE (loadPred x c .course (n + 1)) [clause "subject" "$neq" (.str dept), clause "subject" "$neq" (.str "REG"),
    clause "subject" "$neq" (.str "OFFC")] >>= fun ps => check (!ps.isEmpty) >>= fun _ => Except.ok (Pred.and ps)) = _
  simp only [mapE, h2, h3, h4]
  rfl

theorem and_selects {ps : List Pred} {c : Course} {bs : List Bool}
    (h : List.Forall₂ (fun p b => p.applyCourse c = .ok b) ps bs) : (Pred.and ps).applyCourse c = .ok (bs.all id) := by
  unfold Pred.applyCourse
  simp only [Pred.apply]
  induction h with
  | nil => rfl
  | @cons p b ps bs h _ ih =>
    have hp : p.apply (applyCourseLeaf c) = .ok b := h
    simp only [Pred.applyAll, hp]
    cases b
    · rfl
    · simpa using ih

theorem cOrBetter_selects (c : Course) : (Pred.and [
    .or [.leaf { key := "grade", op := .gte, expected := .sc (.grade .C), duringCovid := some (.sc (.grade .Cminus)) },
       .leaf { key := "is_in_progress", op := .eq, expected := boolVal true }],
    .leaf { key := "credits", op := .gt, expected := intVal 0 }]).applyCourse c = .ok (decide (CountsForC c)) := by
  have h1 : (Pred.leaf { key := "grade", op := .gte, expected := .sc (.grade .C), duringCovid := some (.sc (.grade .Cminus)) }).applyCourse c
      = .ok (decide (WellGraded c)) := by
    have hg : ∀ g h : GradeCode, applyOperator .gte (.sc (.grade g)) (.sc (.grade h)) = .ok (decide (h.rank ≤ g.rank)) := by
      intro g h
      simp [applyOperator, applyScalar, Sc.isStr, Sc.pyLe, orTypeError]
    have hC : ∀ g : GradeCode, GradeCode.C.rank ≤ g.rank ↔ g ∈ cOrBetter := by intro g; cases g <;> decide
    have hCm : ∀ g : GradeCode, GradeCode.Cminus.rank ≤ g.rank ↔ g ∈ .Cminus :: cOrBetter := by intro g; cases g <;> decide
    have hw : WellGraded c ↔ if c.isDuringCovid then
        (if c.gradeCode = .S then c.suGradeCode.getD .S else c.gradeCode) ∈ .Cminus :: cOrBetter
      else c.gradeCode ∈ cOrBetter := Iff.rfl
    have e : applyCourseLeaf c { key := "grade", op := .gte, expected := .sc (.grade .C), duringCovid := some (.sc (.grade .Cminus)) }
        = if c.isDuringCovid then applyOperator .gte
            (.sc (.grade (if c.gradeCode = .S then c.suGradeCode.getD .S else c.gradeCode))) (.sc (.grade .Cminus))
          else applyOperator .gte (.sc (.grade c.gradeCode)) (.sc (.grade .C)) := by
      change (if c.isDuringCovid then _ else _) = _
      congr 1
      cases c.gradeCode <;> cases c.suGradeCode <;> rfl
    unfold Pred.applyCourse Pred.apply
    rw [e]
    by_cases hcv : c.isDuringCovid = true
    · rw [if_pos hcv, hg]
      congr 1
      rw [decide_eq_decide, hw, if_pos hcv, hCm]
    · rw [if_neg hcv, hg]
      congr 1
      rw [decide_eq_decide, hw, if_neg hcv, hC]
  have h2 : (Pred.leaf { key := "is_in_progress", op := .eq, expected := boolVal true }).applyCourse c = .ok c.isInProgress := by
    unfold Pred.applyCourse Pred.apply
    change applyOperator .eq (boolVal c.isInProgress) (boolVal true) = _
    cases c.isInProgress <;> rfl
  have h3 : (Pred.leaf { key := "credits", op := .gt, expected := intVal 0 }).applyCourse c = .ok (decide (0 < c.credits)) := by
    unfold Pred.applyCourse Pred.apply
    change applyOperator .gt (numVal c.credits) (intVal 0) = _
    simp [applyOperator, applyScalar, numVal, intVal, Sc.isStr, Sc.pyLt, orTypeError]
  have h4 : (Pred.or [.leaf { key := "grade", op := .gte, expected := .sc (.grade .C), duringCovid := some (.sc (.grade .Cminus)) },
       .leaf { key := "is_in_progress", op := .eq, expected := boolVal true }]).applyCourse c
      = .ok (decide (WellGraded c) || c.isInProgress) := by
    have h1' : Pred.apply (applyCourseLeaf c) _ = _ := h1
    have h2' : Pred.apply (applyCourseLeaf c) _ = _ := h2
    unfold Pred.applyCourse
    rw [Pred.apply, Pred.applyAny, h1', Pred.applyAny, h2', Pred.applyAny]
    cases decide (WellGraded c) <;> cases c.isInProgress <;> rfl
  rw [and_selects (.cons h4 (.cons h3 .nil))]
  have : CountsForC c ↔ (WellGraded c ∨ c.isInProgress = true) ∧ 0 < c.credits := Iff.rfl
  congr 1
  rw [Bool.eq_iff_iff, decide_eq_true_iff, this]
  simp

theorem notSubject_selects (s : String) (c : Course) :
    (notSubject s).applyCourse c = .ok (decide (filedUnder c ≠ s)) := by
  unfold notSubject Pred.applyCourse Pred.apply applyCourseLeaf filedUnder
  cases c.isChbi with
  | none => simp [PredLeaf.compare, applyOperator, applyScalar, strVal, Sc.isStr, Sc.pyEq, beq_eq_decide]
  | some n =>
    simp only [PredLeaf.compare, applyOperator, applyScalar, strVal, Sc.isStr, Sc.pyEq, beq_eq_decide]
    simp
    split <;> simp

theorem creditsEq_selects (n : Int) (c : Course) :
    (creditsEq n).applyCourse c = .ok (decide (c.credits = n)) := by
  simp [creditsEq, Pred.applyCourse, Pred.apply, applyCourseLeaf, PredLeaf.compare, applyOperator, applyScalar, numVal, intVal,
    Sc.isStr, Sc.pyEq, beq_eq_decide]

theorem optionSU_selects (c : Course) : optionSU.applyCourse c = .ok (decide (TakenSU c)) := by
  simp [optionSU, TakenSU, Pred.applyCourse, Pred.apply, applyCourseLeaf, PredLeaf.compare, applyOperator, applyScalar,
    Sc.isStr, Sc.pyEq, beq_eq_decide]


theorem creditsOf_eq (p : Course → Prop) [DecidablePred p] (cs : List Course) :
    sumCredits ((cs.filter (fun c => decide (p c))).filter (fun c => c.credits ≠ 0)) = creditsOf p cs := by
  unfold sumCredits creditsOf
  generalize cs.filter (fun c => decide (p c)) = l
  induction l with
  | nil => rfl
  | cons c l ih =>
    by_cases h : c.credits = 0
    · rw [List.filter_cons_of_neg (by simpa using h), ih, List.map_cons, List.sum_cons, h, zero_add]
    · rw [List.filter_cons_of_pos (by simpa using h), List.map_cons, List.map_cons, List.sum_cons, List.sum_cons, ih]

theorem _root_.List.Perm.sum_rat {l m : List Rat} (h : l.Perm m) : l.sum = m.sum := by
  induction h with
  | nil => rfl
  | cons a _ ih => rw [List.sum_cons, List.sum_cons, ih]
  | swap a b l => simp only [List.sum_cons]; ring
  | trans _ _ h1 h2 => exact h1.trans h2

theorem creditsOf_perm (p : Course → Prop) [DecidablePred p] {l m : List Course} (h : l.Perm m) :
    creditsOf p l = creditsOf p m := by
  unfold creditsOf
  exact ((h.filter _).map _).sum_rat

/-- a requirement on the sum of the credits -/
theorem common_sum {env : Env} {es : List Exc} (hes : env.ctx.exceptions = groupExceptions es)
    (hno : ∀ e ∈ es, ¬ commonPath <+: e.path) {name m : String} {w : Dict} {k : Int} {i : Nat} {n : Node} {pr : Pred}
    (h : loadCommon env name (commonSpec m (commonQuery (.map w) "sum(credits)" "$gte" k)) i = .ok n)
    (hw : loadFilter env.ctx env.c .course (.map w) = .ok pr) {p : Course → Prop} [DecidablePred p]
    (hf : ∀ c, pr.applyCourse c = .ok (decide (p c)))
    {x : Ctx} (hx : x.exceptions = groupExceptions es) {o : Orders} {r : Node} (hr : commonResult x o n = .ok r) :
    (r.status.passing = true ↔ (k : Rat) ≤ creditsOf p x.transcript) ∧ r.claims = [] := by
  obtain ⟨rd, pr', q, a, rfl, hau, h1, h2, h3, hl, hq, ha⟩ := loadCommon_query hes hno h (opr := .gte) (by decide) (by decide)
  rw [hw] at hl
  cases hl
  obtain ⟨h4, h5⟩ := common_passes hx hno hau h1 h2 h3 hq ha hf hr
  refine ⟨?_, h5⟩
  obtain ⟨b, hb, hb'⟩ := compareNum_iff (op := .gte) ⟨by decide, by decide⟩ (creditsOf p x.transcript) k
  have := h4 { value := creditsOf p x.transcript, courses := (x.transcript.filter (fun c => decide (p c))).filter (fun c => c.credits ≠ 0) }
    b (by rw [← creditsOf_eq]; rfl) hb
  rw [this.1, hb']
  rfl

/-- a requirement on the number of courses -/
theorem common_number {env : Env} {es : List Exc} (hes : env.ctx.exceptions = groupExceptions es)
    (hno : ∀ e ∈ es, ¬ commonPath <+: e.path) {name m : String} {w : Dict} {op : String} {opr : Operator} {k : Int} {i : Nat} {n : Node}
    {pr : Pred}
    (h : loadCommon env name (commonSpec m (commonQuery (.map w) "count(courses)" op k)) i = .ok n)
    (hop : parseOperator op = some opr) (hk : op ∉ ["$changes", "at_most", "treat_in_progress_as_pass", "$ifs"])
    (hcmp : opr.isComparison)
    (hw : loadFilter env.ctx env.c .course (.map w) = .ok pr) {p : Course → Prop} [DecidablePred p]
    (hf : ∀ c, pr.applyCourse c = .ok (decide (p c)))
    {x : Ctx} (hx : x.exceptions = groupExceptions es) {o : Orders} {r : Node} (hr : commonResult x o n = .ok r) :
    (r.status.passing = true ↔ NumHolds opr (((x.transcript.filter (fun c => decide (p c))).dedup.length : Nat) : Rat) k) ∧
    (opr = .lte → r.status.passing = false → r.status = .failedInvariant) ∧ r.claims = [] := by
  obtain ⟨rd, pr', q, a, rfl, hau, h1, h2, h3, hl, hq, ha⟩ := loadCommon_query hes hno h hop hk
  rw [hw] at hl
  cases hl
  obtain ⟨h4, h5⟩ := common_passes hx hno hau h1 h2 h3 hq ha hf hr
  obtain ⟨b, hb, hb'⟩ := compareNum_iff hcmp (((x.transcript.filter (fun c => decide (p c))).dedup.length : Nat) : Rat) k
  have := h4 ⟨(((x.transcript.filter (fun c => decide (p c))).dedup.length : Nat) : Rat),
    (x.transcript.filter (fun c => decide (p c))).dedup⟩ b rfl hb
  refine ⟨by rw [this.1, hb'], fun he hp => this.2 he ?_, h5⟩
  cases b
  · rfl
  · rw [this.1.2 rfl] at hp
    cases hp

/-- a requirement audited by the department never passes by itself -/
theorem common_department {env : Env} {es : List Exc}
    (hno : ∀ e ∈ es, ¬ commonPath <+: e.path) {name m : String} {i : Nat} {n : Node}
    (h : loadCommon env name (.map [("message", .str m), ("department-audited", .bool true)]) i = .ok n)
    {x : Ctx} (hx : x.exceptions = groupExceptions es) {o : Orders} {r : Node} (hr : commonResult x o n = .ok r) :
    r.status = .pendingApproval ∧ r.claims = [] := by
  obtain ⟨body, rd, r', hb, rfl, hpath, _, _, hau, _, hnone, _⟩ := loadCommon_inv h
  cases hb
  cases hnone rfl
  have ha : rd.isAudited = true := (Except.ok.inj hau).symm
  have hw : getWaiveException x.exceptions rd.path = none := by
    rw [hx]
    exact (no_exception_at (not_beneath hno (by rw [hpath]; exact ⟨_, rfl⟩))).1
  unfold commonResult at hr
  split at hr
  · cases hr
  · cases hr
  rename_i r' t hbest
  cases hr
  obtain ⟨s, hs, t2, haud⟩ := findBest_mem hbest
  simp only [Node.solutions, hw, Option.isSome_none, Bool.false_eq_true, if_false, Node.solutionsOpt, Gen.one, List.mem_singleton] at hs
  subst hs
  simp only [reqSolution, Node.audit, Bool.false_eq_true, if_false, Node.auditOpt] at haud
  cases haud
  simp [Node.status, reqStatus, ha, Node.claims]

theorem auditList_length {x : Ctx} {o : Orders} : ∀ {ns rs : List Node} {t t' : ClaimTable},
    Node.auditList x o ns t = .ok (rs, t') → rs.length = ns.length
  | [], rs, t, t', h => by
    simp only [Node.auditList] at h
    cases h
    rfl
  | n :: ns, rs, t, t', h => by
    simp only [Node.auditList] at h
    split at h
    · cases h
    · split at h
      · cases h
      · rename_i h2
        cases h
        simp [auditList_length h2]

/-! ### C50 -/

/-- What a complete major has, beside its own requirements.  Of the courses it counts, six credits carry a grade of
C or better.  In a B.M. major no counted course was taken S/U.  In another major at most one counted full course was
taken S/U, the major's department is known, and enough credits of the transcript lie outside the major's subjects:
21, or for the two art majors together 18 in full courses. -/
structure CommonMet (st : Student) (code : String) (bm : Prop) (counted : List Course) : Prop where
  cOrBetter : 6 ≤ creditsOf CountsForC counted
  noSU : bm → ∀ c ∈ counted, ¬ TakenSU c
  oneSU : ¬ bm → (counted.filter (fun c => decide (TakenSU c ∧ c.credits = 1))).length ≤ 1
  outside : ¬ bm → ∃ p dept, (st.areas.filter (fun p => p.code == code)).getLast? = some p ∧ p.dept = some dept ∧
    ((code = "140" ∧ (∃ q ∈ st.areas, q.code = "135") ∨ code = "135" ∧ (∃ q ∈ st.areas, q.code = "140")) →
      18 ≤ creditsOf (fun c => Outside ["ART"] c ∧ c.credits = 1) st.courses) ∧
    (code = "450" → 21 ≤ creditsOf (Outside ["MUSIC", "MUSPF", "MUSEN"]) st.courses) ∧
    (¬ (code = "140" ∧ (∃ q ∈ st.areas, q.code = "135") ∨ code = "135" ∧ (∃ q ∈ st.areas, q.code = "140")) → code ≠ "450" →
      21 ≤ creditsOf (Outside [dept]) st.courses)

theorem getLast_eq_find {α : Type} (p : α → Bool) (l : List α) : (l.filter p).getLast? = l.reverse.find? p := by
  rw [← List.head?_reverse, ← List.filter_reverse, List.head?_filter]

theorem dedup_filter_length {l m : List Course} (h : l.Perm m) (hm : m.Nodup) (p : Course → Bool) :
    (l.filter p).dedup.length = (m.filter p).length := by
  have hl : (l.filter p).Nodup := (h.nodup_iff.2 hm).filter _
  rw [hl.dedup]
  exact (h.filter p).length_eq

theorem outside_selects (ss : List String) (pr : Pred) (c : Course)
    (h : pr.applyCourse c = .ok (decide (filedUnder c ∉ ss))) :
    (Pred.and [pr, notSubject "REG", notSubject "OFFC"]).applyCourse c = .ok (decide (Outside ss c)) := by
  rw [and_selects (.cons h (.cons (notSubject_selects _ c) (.cons (notSubject_selects _ c) .nil)))]
  congr 1
  rw [Bool.eq_iff_iff, decide_eq_true_iff]
  unfold Outside
  simp

theorem art_selects (c : Course) :
    (Pred.and [notSubject "ART", notSubject "REG", notSubject "OFFC", creditsEq 1]).applyCourse c =
      .ok (decide (Outside ["ART"] c ∧ c.credits = 1)) := by
  rw [and_selects (.cons (notSubject_selects _ c) (.cons (notSubject_selects _ c) (.cons (notSubject_selects _ c)
    (.cons (creditsEq_selects 1 c) .nil))))]
  congr 1
  rw [Bool.eq_iff_iff, decide_eq_true_iff]
  unfold Outside
  simp [and_assoc]

theorem su_selects (c : Course) :
    (Pred.and [optionSU, creditsEq 1]).applyCourse c = .ok (decide (TakenSU c ∧ c.credits = 1)) := by
  rw [and_selects (.cons (optionSU_selects c) (.cons (creditsEq_selects 1 c) .nil))]
  congr 1
  rw [Bool.eq_iff_iff, decide_eq_true_iff]
  simp

theorem musicSubject_selects (c : Course) :
    (Pred.leaf { key := "subject", op := .nin, expected := .tup [.str "MUSIC", .str "MUSPF", .str "MUSEN"] }).applyCourse c =
      .ok (decide (filedUnder c ∉ ["MUSIC", "MUSPF", "MUSEN"])) := by
  have key : ∀ s : String, applyOperator .nin (strVal s) (.tup [.str "MUSIC", .str "MUSPF", .str "MUSEN"]) =
      .ok (decide (s ∉ ["MUSIC", "MUSPF", "MUSEN"])) := by
    intro s
    simp only [applyOperator, strVal, applyRightTuple, allE, applyScalar, Sc.isStr, Sc.pyEq, beq_eq_decide]
    by_cases h1 : s = "MUSIC" <;> by_cases h2 : s = "MUSPF" <;> by_cases h3 : s = "MUSEN" <;> simp [h1, h2, h3]
  have : applyCourseLeaf c { key := "subject", op := .nin, expected := .tup [.str "MUSIC", .str "MUSPF", .str "MUSEN"] } =
      applyOperator .nin (strVal (filedUnder c)) (.tup [.str "MUSIC", .str "MUSPF", .str "MUSEN"]) := by
    unfold applyCourseLeaf filedUnder
    cases c.isChbi with
    | none => rfl
    | some n =>
      by_cases h : n = 125 ∨ n = 126
      · have : (n == 125 || n == 126) = true := by simpa using h
        simp only [this, if_pos h]
        rfl
      · have : (n == 125 || n == 126) = false := by simpa using h
        simp only [this, if_neg h]
        rfl
  unfold Pred.applyCourse Pred.apply
  rw [this, key]

/-- the results of the common rules -/
theorem commonItems_met {env : Env} {es : List Exc} (hes : env.ctx.exceptions = groupExceptions es)
    (hno : ∀ e ∈ es, ¬ commonPath <+: e.path) {degree : Option String} {st : Student} {code : String} {rules : List Node}
    (hd : ∀ p ∈ st.areas, ∀ d, p.dept = some d → d.toList.head? ≠ some '$')
    (h : prepareCommonRules env degree ((st.areas.reverse.find? (fun p => p.code == code)).bind (·.dept)) st.areas code = .ok rules)
    {claimed whole : Ctx} (hc : claimed.exceptions = groupExceptions es) (hw : whole.exceptions = groupExceptions es)
    {counted : List Course} (hcn : counted.Nodup) (hcp : claimed.transcript.Perm counted) (hwt : whole.transcript = st.courses)
    {o : Orders} {items : List Node} (hi : commonItems claimed whole o rules = .ok items) :
    ((∀ i ∈ items, i.status.passing = true) ↔ CommonMet st code (degree = some "B.M.") counted) ∧
    ((∀ i ∈ items, i.status ≠ .failedInvariant) → degree ≠ some "B.M." →
      (counted.filter (fun c => decide (TakenSU c ∧ c.credits = 1))).length ≤ 1) ∧
    ∀ i ∈ items, i.claims = [] := by
  unfold prepareCommonRules at h
  simp only [ld_bind_ok] at h
  obtain ⟨r0, h0, r1, h1, h⟩ := h
  have s0 : ∀ r, commonResult claimed o r0 = .ok r → (r.status.passing = true ↔ 6 ≤ creditsOf CountsForC counted) ∧ r.claims = [] := by
    intro r hr
    have := common_sum hes hno (w := cOrBetterWhere) h0 (load_cOrBetter _ _) cOrBetter_selects hc hr
    rw [creditsOf_perm _ hcp] at this
    exact_mod_cast this
  by_cases hbm : degree = some "B.M."
  · subst hbm
    have hb : ((some "B.M." : Option String) == some "B.M.") = true := rfl
    rw [hb] at h1 h
    cases h
    have s1 : ∀ r, commonResult claimed o r1 = .ok r → (r.status.passing = true ↔ ∀ c ∈ counted, ¬ TakenSU c) ∧ r.claims = [] := by
      intro r hr
      have := common_number hes hno (w := suBmWhere) (opr := .eq) h1 (by decide) (by decide) ⟨by decide, by decide⟩ (load_suBm _ _)
        optionSU_selects hc hr
      rw [dedup_filter_length hcp hcn] at this
      refine ⟨this.1.trans ?_, this.2.2⟩
      simp [NumHolds]
    simp only [commonItems] at hi
    split at hi
    · cases hi
    rename_i c0 hc0
    split at hi
    · cases hi
    rename_i c1 hc1
    cases hi
    refine ⟨⟨fun hp => ⟨?_, ?_, fun hn => absurd rfl hn, fun hn => absurd rfl hn⟩, fun hm => ?_⟩, fun _ hn => absurd rfl hn, ?_⟩
    · exact (s0 _ hc0).1.1 (hp _ (by simp))
    · exact fun _ => (s1 _ hc1).1.1 (hp _ (by simp))
    · intro i hi
      simp only [List.mem_cons, List.not_mem_nil, or_false] at hi
      rcases hi with rfl | rfl
      · exact (s0 _ hc0).1.2 hm.cOrBetter
      · exact (s1 _ hc1).1.2 (hm.noSU rfl)
    · intro i hi
      simp only [List.mem_cons, List.not_mem_nil, or_false] at hi
      rcases hi with rfl | rfl
      · exact (s0 _ hc0).2
      · exact (s1 _ hc1).2
  · have hb : (degree == some "B.M.") = false := by simpa using hbm
    rw [hb] at h1 h
    simp only [Bool.false_eq_true, if_false, ld_bind_ok] at h
    obtain ⟨r2, h2, h⟩ := h
    cases h
    have s1 : ∀ r, commonResult claimed o r1 = .ok r →
        (r.status.passing = true ↔ (counted.filter (fun c => decide (TakenSU c ∧ c.credits = 1))).length ≤ 1) ∧
        (r.status.passing = false → r.status = .failedInvariant) ∧ r.claims = [] := by
      intro r hr
      have := common_number hes hno (w := suWhere) (opr := .lte) h1 (by decide) (by decide) ⟨by decide, by decide⟩ (load_su _ _)
        su_selects hc hr
      rw [dedup_filter_length hcp hcn] at this
      refine ⟨this.1.trans ?_, this.2.1 rfl, this.2.2⟩
      simp [NumHolds]
    simp only [commonItems] at hi
    split at hi
    · cases hi
    rename_i c0 hc0
    split at hi
    · cases hi
    rename_i c1 hc1
    split at hi
    · cases hi
    rename_i c2 hc2
    cases hi
    have hart : isHistoryAndStudio code ((st.areas.filter (fun p => p.code ≠ code)).map (·.code)) = true ↔
        (code = "140" ∧ (∃ q ∈ st.areas, q.code = "135") ∨ code = "135" ∧ (∃ q ∈ st.areas, q.code = "140")) := by
      have key : ∀ t : String, t ≠ code →
          (((st.areas.filter (fun p => p.code ≠ code)).map (·.code)).contains t = true ↔ ∃ q ∈ st.areas, q.code = t) := by
        intro t ht
        simp only [List.contains_eq_mem, List.mem_map, List.mem_filter, decide_eq_true_eq]
        constructor
        · rintro ⟨q, ⟨h1, _⟩, h2⟩
          exact ⟨q, h1, h2⟩
        · rintro ⟨q, h1, h2⟩
          exact ⟨q, ⟨h1, by rw [h2]; exact ht⟩, h2⟩
      unfold isHistoryAndStudio
      simp only [Bool.or_eq_true, Bool.and_eq_true, beq_iff_eq]
      refine or_congr (and_congr_right fun h => key _ ?_) (and_congr_right fun h => key _ ?_)
      · rw [h]; decide
      · rw [h]; decide
    have s2 : (c2.status.passing = true ↔ ∃ p dept, (st.areas.filter (fun p => p.code == code)).getLast? = some p ∧ p.dept = some dept ∧
        ((code = "140" ∧ (∃ q ∈ st.areas, q.code = "135") ∨ code = "135" ∧ (∃ q ∈ st.areas, q.code = "140")) →
          18 ≤ creditsOf (fun c => Outside ["ART"] c ∧ c.credits = 1) st.courses) ∧
        (code = "450" → 21 ≤ creditsOf (Outside ["MUSIC", "MUSPF", "MUSEN"]) st.courses) ∧
        (¬ (code = "140" ∧ (∃ q ∈ st.areas, q.code = "135") ∨ code = "135" ∧ (∃ q ∈ st.areas, q.code = "140")) → code ≠ "450" →
          21 ≤ creditsOf (Outside [dept]) st.courses)) ∧ c2.claims = [] := by
      cases hdep : (st.areas.reverse.find? (fun p => p.code == code)).bind (·.dept) with
      | none =>
        rw [hdep] at h2
        obtain ⟨e1, e2⟩ := common_department hno h2 hw hc2
        refine ⟨⟨fun h => ?_, ?_⟩, e2⟩
        · rw [e1] at h
          cases h
        · rintro ⟨p, dept, h1, h2, _⟩
          rw [getLast_eq_find] at h1
          rw [h1, Option.bind_some, h2] at hdep
          cases hdep
      | some dept =>
        obtain ⟨p, hp, hpd⟩ := Option.bind_eq_some_iff.1 hdep
        have hdd : dept.toList.head? ≠ some '$' := hd p (by simpa using List.mem_of_find?_eq_some hp) dept hpd
        rw [hdep] at h2
        simp only [outsideSpec] at h2
        have hlast := (getLast_eq_find (fun p : AreaPointer => p.code == code) st.areas).trans hp
        by_cases ha : isHistoryAndStudio code ((st.areas.filter (fun p => p.code ≠ code)).map (·.code)) = true
        · rw [if_pos ha] at h2
          have := common_sum hes hno (w := artWhere) h2 (load_art _ _) art_selects hw hc2
          rw [hwt] at this
          refine ⟨⟨fun hpass => ⟨p, dept, hlast, hpd, fun _ => ?_, ?_, fun hn => absurd (hart.1 ha) hn⟩, ?_⟩, this.2⟩
          · exact_mod_cast this.1.1 hpass
          · rintro rfl
            rcases hart.1 ha with ⟨h, _⟩ | ⟨h, _⟩ <;> exact absurd h (by decide)
          · rintro ⟨_, _, _, _, h, _⟩
            refine this.1.2 ?_
            exact_mod_cast h (hart.1 ha)
        · rw [if_neg ha] at h2
          by_cases hm : code = "450"
          · subst hm
            have := common_sum hes hno (w := musicWhere) h2 (load_music _ _)
              (fun c => outside_selects _ _ c (musicSubject_selects c)) hw hc2
            rw [hwt] at this
            refine ⟨⟨fun hpass => ⟨p, dept, hlast, hpd, fun hn => absurd (hart.2 hn) ha, fun _ => ?_, fun _ hn => absurd rfl hn⟩, ?_⟩,
              this.2⟩
            · exact_mod_cast this.1.1 hpass
            · rintro ⟨_, _, _, _, _, h, _⟩
              refine this.1.2 ?_
              exact_mod_cast h rfl
          · rw [if_neg (by simpa using hm)] at h2
            have := common_sum hes hno (w := deptWhere dept) h2 (load_dept _ _ hdd)
              (fun c => outside_selects [dept] _ c ((notSubject_selects dept c).trans (by simp))) hw hc2
            rw [hwt] at this
            refine ⟨⟨fun hpass => ⟨p, dept, hlast, hpd, fun hn => absurd (hart.2 hn) ha, fun h => absurd h hm, fun _ _ => ?_⟩, ?_⟩,
              this.2⟩
            · exact_mod_cast this.1.1 hpass
            · rintro ⟨p', dept', h1, h2, _, _, h⟩
              rw [hlast] at h1
              cases h1
              rw [hpd] at h2
              cases h2
              refine this.1.2 ?_
              exact_mod_cast h (fun hn => ha (hart.2 hn)) hm
    refine ⟨⟨fun hp => ⟨?_, fun h => absurd h hbm, fun _ => ?_, fun _ => ?_⟩, fun hm => ?_⟩, fun hf _ => ?_, ?_⟩
    · exact (s0 _ hc0).1.1 (hp _ (by simp))
    · exact (s1 _ hc1).1.1 (hp _ (by simp))
    · exact s2.1.1 (hp _ (by simp))
    · intro i hi
      simp only [List.mem_cons, List.not_mem_nil, or_false] at hi
      rcases hi with rfl | rfl | rfl
      · exact (s0 _ hc0).1.2 hm.cOrBetter
      · exact (s1 _ hc1).1.2 (hm.oneSU hbm)
      · exact s2.1.2 (hm.outside hbm)
    · refine (s1 _ hc1).1.1 ?_
      by_contra hn
      exact hf c1 (by simp) ((s1 _ hc1).2.1 (by simpa using hn))
    · intro i hi
      simp only [List.mem_cons, List.not_mem_nil, or_false] at hi
      rcases hi with rfl | rfl | rfl
      · exact (s0 _ hc0).2
      · exact (s1 _ hc1).2.2
      · exact s2.2

theorem text_eq {d : Dict} {k : String} {t : Option String} (h : d.text k = .ok t) (s : String) :
    t = some s ↔ d.get? k = some (.str s) := by
  unfold Dict.text Dict.opt at h
  split at h
  · rename_i h1
    cases h
    constructor
    · intro h; cases h
    · intro h
      rw [h] at h1
      cases h1
  · rename_i s' h1
    cases h
    constructor
    · intro h
      cases h
      split at h1 <;> first | exact h1 | cases h1
    · intro h
      rw [h] at h1
      cases h1
      rfl
  · cases h

theorem mem_statusList {n : Node} {ns : List Node} (h : n ∈ ns) : n.status ∈ Node.statusList ns := by
  induction ns with
  | nil => cases h
  | cons m ns ih =>
    simp only [Node.statusList, List.mem_cons]
    rcases List.mem_cons.1 h with rfl | h
    · exact Or.inl rfl
    · exact Or.inr (ih h)

theorem statusList_mem {s : Status} {ns : List Node} (h : s ∈ Node.statusList ns) : ∃ n ∈ ns, n.status = s := by
  induction ns with
  | nil => cases h
  | cons m ns ih =>
    simp only [Node.statusList, List.mem_cons] at h
    rcases h with rfl | h
    · exact ⟨m, by simp, rfl⟩
    · obtain ⟨n, h1, h2⟩ := ih h
      exact ⟨n, by simp [h1], h2⟩

theorem statusList_length (ns : List Node) : (Node.statusList ns).length = ns.length := by
  induction ns with
  | nil => rfl
  | cons m ns ih => simp [Node.statusList, ih]

/-- a count with status passing that asks for as many items as it has: all pass -/
theorem all_pass {d : CountData} {items : List Node} (ho : d.overridden = false) (hc : d.count = items.length)
    (h : (countStatus d (Node.statusList items)).passing = true) : ∀ i ∈ items, i.status.passing = true := by
  obtain ⟨h1, _⟩ := countStatus_cases d _ ho h
  rw [hc, ← statusList_length] at h1
  have := List.filter_eq_self.1 (List.filter_sublist.eq_of_length_le h1)
  exact fun i hi => this _ (mem_statusList hi)

theorem claimsList_append (l m : List Node) : Node.claimsList (l ++ m) = Node.claimsList l ++ Node.claimsList m := by
  induction l with
  | nil => rfl
  | cons n l ih => simp [Node.claimsList, ih]

theorem claimsList_nil {l : List Node} (h : ∀ i ∈ l, i.claims = []) : Node.claimsList l = [] := by
  induction l with
  | nil => rfl
  | cons n l ih =>
    simp only [Node.claimsList, h n (by simp), List.nil_append]
    exact ih fun i hi => h i (by simp [hi])

/-- a count all of whose children and audits pass, passes -/
theorem count_passes {d : CountData} {cs : List Status} (ho : d.overridden = false) (hc : d.count ≤ cs.length) (hne : cs ≠ [])
    (h : ∀ s ∈ cs, s.passing = true) (ha : ∀ a ∈ d.audits, a.status.passing = true) : (countStatus d cs).passing = true := by
  have hf : cs.filter (·.passing) = cs := List.filter_eq_self.2 h
  have k1 : ∀ s : Status, s.passing = true → s ≠ .failedInvariant := by intro s; cases s <;> simp [Status.passing]
  have k2 : ∀ s : Status, s.passing = true → s.inEmptyAndDepartmental = false := by
    intro s; cases s <;> simp [Status.passing, Status.inEmptyAndDepartmental]
  have k3 : ∀ s : Status, s.passing = true → s.inWaivedDoneCurrentPending = true := by
    intro s; cases s <;> simp [Status.passing, Status.inWaivedDoneCurrentPending]
  unfold countStatus
  simp only [ho, Bool.false_eq_true, if_false, hf]
  have c1 : cs.contains .failedInvariant = false := by
    rw [List.contains_eq_mem, decide_eq_false_iff_not]
    exact fun hm => k1 _ (h _ hm) rfl
  have c2 : (d.audits.map (·.status)).contains .failedInvariant = false := by
    rw [List.contains_eq_mem, decide_eq_false_iff_not]
    intro hm
    obtain ⟨a, h1, h2⟩ := List.mem_map.1 hm
    exact k1 _ (ha a h1) h2
  have c3 : cs.all (·.inEmptyAndDepartmental) = false := by
    obtain ⟨s, hs⟩ := List.exists_mem_of_ne_nil _ hne
    rw [List.all_eq_false]
    exact ⟨s, hs, by rw [k2 s (h s hs)]; simp⟩
  have c4 : (cs.all (·.inWaivedDoneCurrentPending) && (d.audits.map (·.status)).all (·.inWaivedDoneCurrentPending)) = true := by
    simp only [Bool.and_eq_true, List.all_eq_true, List.mem_map]
    exact ⟨fun s hs => k3 s (h s hs), by rintro s ⟨a, h1, rfl⟩; exact k3 _ (ha a h1)⟩
  simp only [c1, c2, c3, Bool.or_false, Bool.false_eq_true, if_false, not_lt.2 hc, c4, if_true]
  repeat' split
  all_goals rfl

/-- what the result of a major is made of -/
theorem major_result {c : Constants} {templates : List (String × TemplateCourse)} {st : Student} {es : List Exc}
    {all : Bool} {spec : Dict} {a : Area} (hload : loadArea c templates st es all spec = .ok a) (htidy : TidyText st all spec)
    (hkind : a.kind = "major") (hno : ∀ e ∈ es, ¬ commonPath <+: e.path)
    (hdept : ∀ p ∈ st.areas, ∀ d, p.dept = some d → d.toList.head? ≠ some '$')
    {d : CountData} {items : List Node} (hres : a.result = .count .rule d items)
    (hwaive : ∀ e ∈ es, e.path = a.result.path → e.kind ≠ .override)
    {o : Orders} (ho : o.Lawful) {s : AreaSolution} (hs : s ∈ (a.solutions o st es).items) {r : AreaResult}
    (hr : s.audit o a = .ok r) :
    ∃ d' own rd cd citems,
      r.result = .count .result d' (own ++ [.req .result rd (some (.count .result cd citems))]) ∧
      d'.overridden = false ∧ d'.count = d.count + 1 ∧ own.length = items.length ∧
      rd.overridden = false ∧ rd.isAudited = false ∧ cd.overridden = false ∧ cd.count = citems.length ∧
      0 < citems.length ∧ cd.audits = [] ∧
      ((∀ i ∈ citems, i.status.passing = true) ↔
        CommonMet st (codeOf spec) (spec.get? "degree" = some (.str "B.M.")) r.counted) ∧
      ((∀ i ∈ citems, i.status ≠ .failedInvariant) → spec.get? "degree" ≠ some (.str "B.M.") →
        (r.counted.filter (fun c => decide (TakenSU c ∧ c.credits = 1))).length ≤ 1) := by
  obtain ⟨tr, _, t0, hctx, hsol⟩ := Area.solutions_mem hs
  obtain ⟨_, _, _, _, _, code, dept, _, _, _, _, _, _, ⟨degree, hdeg, hcom⟩, ⟨t, hcode, rfl⟩, rfl, _⟩ := loadArea_inv hload
  have hpaths : (items.map Node.path).Sublist a.result.allPaths := by
    rw [hres]
    simp only [Node.allPaths]
    exact ((Node.paths_sublist items).trans (List.sublist_append_right _ _)).cons _
  rw [hres] at hsol
  obtain ⟨l, hl, hm⟩ := C23_each_child_once_top (areaCtx a st es tr) o ho es rfl .rule d items
    (fun e he hp => hwaive e he (by rw [hres]; exact hp))
    (fun i hi => (loadArea_canonical hload _ (hpaths.subset (List.mem_map_of_mem hi))).2)
    ((loadArea_nodup hload htidy).sublist hpaths) t0 s.solution hsol
  unfold AreaSolution.audit at hr
  split at hr
  · cases hr
  rename_i r1 t1 haud
  rw [if_pos hkind] at hr
  split at hr
  · cases hr
  rename_i common hcommon
  rw [hl, hctx] at haud
  rcases Node.audit_count haud with ⟨h, _⟩ | ⟨_, rs, as, hlist, _, rfl⟩
  · cases h
  simp only at hr
  cases hr
  unfold auditCommon at hcommon
  split at hcommon
  · cases hcommon
  rename_i r0 rest hrules
  split at hcommon
  · cases hcommon
  dsimp only at hcommon
  split at hcommon
  · cases hcommon
  rename_i citems hci
  cases hcommon
  have hex : s.ctx.exceptions = groupExceptions es := by rw [hctx]; rfl
  have hperm := ho.2.1 ["$"] (Node.count Stage.result { path := d.path, count := d.count, audits := as, atMost := d.atMost } rs).matched
  have hcode' : t.getD "<null>" = codeOf spec := by
    unfold Dict.text Dict.opt at hcode
    unfold codeOf
    cases hg : spec.get? "code" with
    | none => rw [hg] at hcode; cases hcode; rfl
    | some y =>
      rw [hg] at hcode
      cases y <;> first | (cases hcode; rfl) | cases hcode
  rw [hcode'] at hcom
  obtain ⟨m1, m2, m3⟩ := commonItems_met (env := ⟨loadCtx st es, c, templates⟩) rfl hno hdept hcom
    (counted := (Node.count Stage.result { path := d.path, count := d.count, audits := as, atMost := d.atMost } rs).matched)
    (by exact hex) (by exact hex) (List.nodup_dedup _) hperm (by rw [hctx]; rfl) hci
  have hcl : ∀ (n1 n2 : CountData) (rd : ReqData) (cd : CountData),
      (Node.count Stage.result n1 (rs ++ [.req .result rd (some (.count .result cd citems))])).claims =
        (Node.count Stage.result n2 rs).claims := by
    intro n1 n2 rd cd
    simp only [Node.claims, claimsList_append, Node.claimsList, Node.claimsOpt, claimsList_nil m3]
    split <;> simp
  have hdeg' := text_eq hdeg "B.M."
  refine ⟨_, rs, _, _, citems, rfl, rfl, rfl, ?_, rfl, rfl, rfl, rfl, ?_, rfl, ?_, ?_⟩
  · rw [auditList_length hlist]
    simpa using hm.once.length_eq
  · refine List.length_pos_of_ne_nil ?_
    rintro rfl
    unfold commonItems at hci
    repeat' split at hci
    all_goals cases hci
  · simp only [hdeg'] at m1
    change _ ↔ CommonMet _ _ _ (matchedOf (Node.claims _))
    rw [hcl _ { path := d.path, count := d.count, audits := as, atMost := d.atMost }]
    exact m1
  · intro h hn
    have := m2 h (fun e => hn (hdeg'.1 e))
    change ((matchedOf (Node.claims _)).filter _).length ≤ 1
    rw [hcl _ { path := d.path, count := d.count, audits := as, atMost := d.atMost }]
    exact this

/-- **C50**, for majors whose top-level rule asks for all of its parts.  Load a major from any such text and audit any of
its solutions.  If no exception touches the common requirements and the top-level rule is not waived, and the result
passes (complete, or complete once current and registered courses are), then everything in `CommonMet` holds of the
courses the result counts.  Missing: top-level rules that ask for fewer parts than they have, see
`C50_common_requirements_refuted`. -/
theorem C50_complete_major_meets_common_partial (c : Constants) (templates : List (String × TemplateCourse)) (st : Student)
    (es : List Exc) (all : Bool) (spec : Dict) (a : Area) (hload : loadArea c templates st es all spec = .ok a)
    (htidy : TidyText st all spec) (hkind : a.kind = "major") (hno : ∀ e ∈ es, ¬ commonPath <+: e.path)
    (hdept : ∀ p ∈ st.areas, ∀ d, p.dept = some d → d.toList.head? ≠ some '$')
    (d : CountData) (items : List Node) (hres : a.result = .count .rule d items) (hall : d.count = items.length)
    (hwaive : ∀ e ∈ es, e.path = a.result.path → e.kind ≠ .override)
    (o : Orders) (ho : o.Lawful) (s : AreaSolution) (hs : s ∈ (a.solutions o st es).items) (r : AreaResult)
    (hr : s.audit o a = .ok r) (hpass : Passes r.status) :
    CommonMet st (codeOf spec) (spec.get? "degree" = some (.str "B.M.")) r.counted := by
  obtain ⟨d', own, rd, cd, citems, h1, h2, h3, h4, h5, h6, h7, h8, _, _, h9, _⟩ :=
    major_result hload htidy hkind hno hdept hres hwaive ho hs hr
  have hst : (r.result.status).passing = true := by
    have := (passing_iff _).2 hpass
    unfold AreaResult.status at this
    rw [h1] at this ⊢
    simpa [Node.isWaived, h2] using this
  rw [h1] at hst
  simp only [Node.status] at hst
  have hp := all_pass h2 (by rw [h3, hall, List.length_append, h4]; rfl) hst
  have hc := hp (.req .result rd (some (.count .result cd citems))) (by simp)
  simp only [Node.status, Node.statusOpt, reqStatus, h5, h6, Bool.false_and, Bool.false_eq_true, if_false] at hc
  exact h9.1 (all_pass h7 h8 hc)

/-- **C50**, the other half: if all parts of the major's own top-level rule pass (the common requirements are the last part
of the result, the others are its own), and its audits, then the result passes
exactly when everything in `CommonMet` holds: nothing else is asked for. -/
theorem C50_nothing_else_is_asked (c : Constants) (templates : List (String × TemplateCourse)) (st : Student)
    (es : List Exc) (all : Bool) (spec : Dict) (a : Area) (hload : loadArea c templates st es all spec = .ok a)
    (htidy : TidyText st all spec) (hkind : a.kind = "major") (hno : ∀ e ∈ es, ¬ commonPath <+: e.path)
    (hdept : ∀ p ∈ st.areas, ∀ d, p.dept = some d → d.toList.head? ≠ some '$')
    (d : CountData) (items : List Node) (hres : a.result = .count .rule d items) (hall : d.count = items.length)
    (hwaive : ∀ e ∈ es, e.path = a.result.path → e.kind ≠ .override)
    (o : Orders) (ho : o.Lawful) (s : AreaSolution) (hs : s ∈ (a.solutions o st es).items) (r : AreaResult)
    (hr : s.audit o a = .ok r)
    (hown : ∀ d' own common, r.result = .count .result d' (own ++ [common]) →
      (∀ i ∈ own, Passes i.status) ∧ ∀ b ∈ d'.audits, Passes b.status) :
    Passes r.status ↔ CommonMet st (codeOf spec) (spec.get? "degree" = some (.str "B.M.")) r.counted := by
  refine ⟨C50_complete_major_meets_common_partial c templates st es all spec a hload htidy hkind hno hdept d items hres hall hwaive
    o ho s hs r hr, fun hm => ?_⟩
  obtain ⟨d', own, rd, cd, citems, h1, h2, h3, h4, h5, h6, h7, h8, h10, h11, h9, _⟩ :=
    major_result hload htidy hkind hno hdept hres hwaive ho hs hr
  obtain ⟨ho1, ho2⟩ := hown _ _ _ h1
  have hcommon : (Node.req .result rd (some (.count .result cd citems))).status.passing = true := by
    simp only [Node.status, Node.statusOpt, reqStatus, h5, h6, Bool.false_and, Bool.false_eq_true, if_false]
    refine count_passes h7 (by rw [h8, statusList_length]) ?_ ?_ (by simp [h11])
    · intro he
      rw [← statusList_length, he] at h10
      exact Nat.lt_irrefl _ h10
    · intro s hs
      obtain ⟨i, hi, rfl⟩ := statusList_mem hs
      exact h9.2 hm i hi
  rw [← passing_iff]
  unfold AreaResult.status
  split
  · rfl
  rw [h1]
  simp only [Node.status]
  refine count_passes h2 (by rw [h3, hall, statusList_length, List.length_append, h4]; rfl) ?_ ?_ ?_
  · intro he
    have := congrArg List.length he
    simp [statusList_length] at this
  · intro s hs
    obtain ⟨i, hi, rfl⟩ := statusList_mem hs
    rcases List.mem_append.1 hi with hi' | hi'
    · exact (passing_iff _).2 (ho1 i hi')
    · rw [List.mem_singleton.1 hi']
      exact hcommon
  · exact fun b hb => (passing_iff _).2 (ho2 b hb)

/-- **C50**, the limit on S/U courses, for all majors however many of its parts the top-level rule asks for: a passing
major other than a B.M. counts at most one full course taken S/U. -/
theorem C50_one_su_course (c : Constants) (templates : List (String × TemplateCourse)) (st : Student)
    (es : List Exc) (all : Bool) (spec : Dict) (a : Area) (hload : loadArea c templates st es all spec = .ok a)
    (htidy : TidyText st all spec) (hkind : a.kind = "major") (hno : ∀ e ∈ es, ¬ commonPath <+: e.path)
    (hdept : ∀ p ∈ st.areas, ∀ d, p.dept = some d → d.toList.head? ≠ some '$')
    (d : CountData) (items : List Node) (hres : a.result = .count .rule d items)
    (hwaive : ∀ e ∈ es, e.path = a.result.path → e.kind ≠ .override)
    (o : Orders) (ho : o.Lawful) (s : AreaSolution) (hs : s ∈ (a.solutions o st es).items) (r : AreaResult)
    (hr : s.audit o a = .ok r) (hpass : Passes r.status) (hbm : spec.get? "degree" ≠ some (.str "B.M.")) :
    (r.counted.filter (fun c => decide (TakenSU c ∧ c.credits = 1))).length ≤ 1 := by
  obtain ⟨d', own, rd, cd, citems, h1, h2, h3, h4, h5, h6, h7, h8, _, _, _, h9⟩ :=
    major_result hload htidy hkind hno hdept hres hwaive ho hs hr
  have hst : (r.result.status).passing = true := by
    have := (passing_iff _).2 hpass
    unfold AreaResult.status at this
    rw [h1] at this ⊢
    simpa [Node.isWaived, h2] using this
  rw [h1] at hst
  simp only [Node.status] at hst
  obtain ⟨_, _, hf, _⟩ := countStatus_cases d' _ h2 hst
  refine h9 (fun i hi hfi => hf ?_) hbm
  have hc : (Node.req .result rd (some (.count .result cd citems))).status = .failedInvariant := by
    simp only [Node.status, Node.statusOpt, reqStatus, h5, h6, Bool.false_and, Bool.false_eq_true, if_false]
    unfold countStatus
    have : (Node.statusList citems).contains .failedInvariant = true := by
      rw [List.contains_iff_mem, ← hfi]
      exact mem_statusList hi
    simp only [h7, this, Bool.true_or, Bool.false_eq_true, if_false, if_true]
  rw [← hc]
  exact mem_statusList (by simp)

/-! ### Non-trivial cases and refutation -/

/-- Is there a solution of the major whose audit has a property? -/
def someAudit (st : Student) (spec : Dict) (q : AreaResult → Bool) : Bool :=
  match loadArea {} [] st [] false spec with
  | .ok a => a.kind == "major" && (a.solutions .insertion st []).items.any (fun s => match s.audit .insertion a with
      | .ok r => q r
      | .error _ => false)
  | .error _ => false

theorem someAudit_spec {st : Student} {spec : Dict} {q : AreaResult → Bool} (h : someAudit st spec q = true) :
    ∃ a, loadArea {} [] st [] false spec = .ok a ∧ a.kind = "major" ∧ ∃ s ∈ (a.solutions .insertion st []).items,
      ∃ r, s.audit .insertion a = .ok r ∧ q r = true := by
  unfold someAudit at h
  split at h
  · rename_i a ha
    simp only [Bool.and_eq_true, beq_iff_eq, List.any_eq_true] at h
    obtain ⟨h1, s, h2, h3⟩ := h
    split at h3
    · rename_i r hr
      exact ⟨a, ha, h1, s, h2, r, hr, h3⟩
    · cases h3
  · cases h

/-- a major of one requirement: six courses in the subject -/
def smallMajor (count : String) (items : List Y) : Dict :=
  [("name", .str "Computer Science"), ("type", .str "major"), ("degree", .str "B.A."), ("code", .str "740"),
   ("result", .map [(count, .list items)])]

/-- six courses in the subject -/
def sixCourses : Y := .map [("from", .str "courses"), ("where", .map [("subject", .map [("$eq", .str "CSCI")])]),
  ("assert", .map [("count(courses)", .map [("$gte", .int 6)])])]

/-- a student with six courses in the major, one of them S/U, and `n` others -/
def sixAnd (n : Nat) : Student :=
  { areas := [{ code := "740", kind := "major", dept := some "CSCI" }]
    courses := [{ clbid := "a", subject := "CSCI" }, { clbid := "b", subject := "CSCI" }, { clbid := "c", subject := "CSCI" },
      { clbid := "d", subject := "CSCI", gradeCode := .C }, { clbid := "e", subject := "CSCI", credits := 2 },
      { clbid := "f", subject := "CSCI", gradeCode := .S, gradeOption := .su }] ++
      (List.range n).map (fun i => { clbid := toString i, subject := "HIST" }) }

/-- Complete, with six credits of C or better, one S/U course and 21 credits elsewhere. -/
example : someAudit (sixAnd 21) (smallMajor "all" [sixCourses]) (fun r => r.status == .done &&
    creditsOf CountsForC r.counted == 6 && (r.counted.filter (fun c => decide (TakenSU c ∧ c.credits = 1))).length == 1 &&
    creditsOf (Outside ["CSCI"]) (sixAnd 21).courses == 21) = true := by decide +kernel

/-- One credit less elsewhere, and it is not complete. -/
example : someAudit (sixAnd 20) (smallMajor "all" [sixCourses]) (fun r => r.status == .needsMoreItems) = true := by decide +kernel

/-- The texts meet the hypothesis of the theorems. -/
theorem smallMajor_tidy (st : Student) (count : String) (items : List Y) (hc : count ≠ "__emphasis")
    (h : Y.CleanList items) : TidyText st false (smallMajor count items) := by
  refine ⟨by simp [smallMajor, Y.CleanDict, Y.Clean, hc, h], ?_⟩
  intro emphases declared h1 h2
  have h1' : Dict.dict (smallMajor count items) "emphases" = .ok [] := rfl
  rw [h1'] at h1
  cases h1
  have h2' : declaredEmphases st [] false = .ok [] := rfl
  rw [h2'] at h2
  cases h2
  decide

/-- C50 is false of majors whose top-level rule asks for fewer parts than it has: with two of them done, a major that
asks for any one is complete, whatever becomes of the common requirements: here two credits are enough. -/
theorem C50_common_requirements_refuted : ∃ (st : Student) (spec : Dict) (a : Area),
    loadArea {} [] st [] false spec = .ok a ∧ TidyText st false spec ∧ a.kind = "major" ∧
    ∃ s ∈ (a.solutions .insertion st []).items, ∃ r, s.audit .insertion a = .ok r ∧ r.status = .done ∧
      creditsOf CountsForC r.counted = 2 ∧ creditsOf (Outside ["CSCI"]) st.courses = 0 := by
  let st : Student :=
    { areas := [{ code := "740", kind := "major", dept := some "CSCI" }]
      courses := [{ clbid := "1", identity := "CSCI 121", subject := "CSCI" }, { clbid := "2", identity := "CSCI 251", subject := "CSCI" }] }
  let spec := smallMajor "any" [.map [("course", .str "CSCI 121")], .map [("course", .str "CSCI 251")]]
  have h : someAudit st spec (fun r => r.status == .done && creditsOf CountsForC r.counted == 2) = true := by decide +kernel
  obtain ⟨a, h1, h2, s, h3, r, h4, h5⟩ := someAudit_spec h
  simp only [Bool.and_eq_true, beq_iff_eq] at h5
  refine ⟨st, spec, a, h1, ?_, h2, s, h3, r, h4, h5.1, h5.2, by decide +kernel⟩
  exact smallMajor_tidy _ _ _ (by decide) (by simp [Y.CleanList, Y.Clean, Y.CleanDict])

end Dp
