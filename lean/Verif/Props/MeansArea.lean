import Verif.Props.MeansCount
import Verif.Props.MeansReserved

/-
C67: if an area is reported as passing, what is written in the area file is met.
-/
namespace Dp

/-! ### Specification -/

/-- what the requirements are held against: `final` leaves out what is still in progress, `x` is the record of the audit, and
`reserved` are the classes that are kept for course rules -/
structure Audited extends Setting where
  final : Bool
  x : Ctx
  reserved : String → Prop

/-- the place of a rule -/
inductive PlaceOf (kids : Dict) (p : Path) : Y → Path → Prop
  | course {d : Dict} : ruleKind d = .course → PlaceOf kids p (.map d) (p ++ [courseSegment d])
  | query {d : Dict} : ruleKind d = .query → PlaceOf kids p (.map d) (p ++ [".query"])
  | count {d : Dict} : ruleKind d = .count → PlaceOf kids p (.map d) (p ++ [".count"])
  | req {d body : Dict} {name : String} : RefersTo kids d name body → PlaceOf kids p (.map d) (p ++ ["%" ++ name])
  | prof {d : Dict} {name : String} : ruleKind d = .proficiency → TextAt d "proficiency" name →
      PlaceOf kids p (.map d) (p ++ [".proficiency=" ++ name])

/-- an exception blocks the class at the place -/
def BlockedAt (es : List Exc) (q : Path) (k : String) : Prop := ∃ e ∈ es, e.path = q ∧ e.kind = .block k

/-- an exception inserts the course at the place -/
def PutInto (x : Ctx) (es : List Exc) (q : Path) (c : Course) : Prop :=
  ∃ k forced, ⟨q, .insertion k forced⟩ ∈ es ∧ x.forcedCourseByClbid k = .ok c

/-- `CourseMet w barred d p r`: the course rule `d` at `p` is met, as the result `r` shows; the classes `barred` cannot be used -/
inductive CourseMet (w : Audited) (barred : String → Prop) (d : Dict) (p : Path) (r : Node) : Prop
  | waived : WaivedAt w.es (p ++ [courseSegment d]) → CourseMet w barred d p r
  | taken (k : Course) : r.claims = [⟨k, p ++ [courseSegment d], false⟩] → k ∈ w.x.transcript → CourseAsWritten d k →
      ¬ barred k.clbid → (w.final = true → k.isInProgress = false) → CourseMet w barred d p r
  | inserted (k : Course) : r.claims = [⟨k, p ++ [courseSegment d], false⟩] → PutInto w.x w.es (p ++ [courseSegment d]) k →
      ¬ barred k.clbid → CourseMet w barred d p r
  /-- a course that need not be taken -/
  | optional : FlagSet d "optional" → CourseMet w barred d p r
  /-- a course rule that stands for an inserted class -/
  | added : FlagSet d "inserted" → CourseMet w barred d p r

/-- what the query at `q` must not use -/
def LeftOut (w : Audited) (q : Path) (k : String) : Prop := w.reserved k ∨ BlockedAt w.es q k

/-- the records that a query looks through, and their kind -/
inductive LooksThrough (w : Audited) (d : Dict) (q : Path) : DataType → List Item → Prop
  | courses (f : Course → Bool) : TextAt d "from" "courses" → ¬ FlagSet d "include_failed" →
      (∀ k, f k = true ↔ ¬ LeftOut w q k.clbid) → LooksThrough w d q .course ((w.x.transcript.filter f).map .course)
  | failedToo (f : Course → Bool) : TextAt d "from" "courses" → FlagSet d "include_failed" →
      (∀ k, f k = true ↔ ¬ LeftOut w q k.clbid) → LooksThrough w d q .course ((w.x.withFailed.filter f).map .course)
  | claimed (cs : List Course) : TextAt d "from" "claimed" → (∀ k ∈ cs, k ∈ w.x.transcript ∧ ¬ LeftOut w q k.clbid) →
      LooksThrough w d q .course (cs.map .course)
  | areas : TextAt d "from" "areas" → LooksThrough w d q .area (w.x.areas.map .area)
  | performances : TextAt d "from" "music performances" →
      LooksThrough w d q .musicPerformance (w.x.performances.map .performance)
  | attendances : TextAt d "from" "music recitals" → LooksThrough w d q .recital (w.x.attendances.map .attendance)

/-- the query claims what it counts: `claim` is missing or `true` -/
def ClaimsCounted (d : Dict) : Prop := d.get? "claim" = none ∨ d.get? "claim" = some (.bool true)

/-- the query reports what it counts: it claims it, or `claim` is `record` (or 1) -/
def ReportsCounted (d : Dict) : Prop := ClaimsCounted d ∨ TextAt d "claim" "record" ∨ d.get? "claim" = some (.int 1)

/-- `CountsWritten w d q r t items`: `items`, of kind `t`, is what the query counts: records that its filter accepts, and courses
that exceptions insert at its place, nothing more often than it is there.  Unless it claims courses or is limited, a query
counts all of these.  Courses that it reports are those of its result. -/
structure CountsWritten (w : Audited) (d : Dict) (q : Path) (r : Node) (t : DataType) (items : List Item) : Prop where
  found : ∃ recs sel ins, LooksThrough w d q t recs ∧ KeepsWritten w.record w.es w.c (d.opt "where") recs sel ∧
    items.Subperm (sel ++ ins.map .course) ∧ (∀ k ∈ ins, PutInto w.x w.es q k ∧ ¬ LeftOut w q k.clbid) ∧
    ins.length ≤ (w.es.filter (fun e => e.isInsertion && e.path == q)).length ∧ (t ≠ .course → ins = []) ∧
    (¬ TextAt d "from" "courses" ∨ (¬ ClaimsCounted d ∧ d.get? "limit" = none) → items.Perm (sel ++ ins.map .course))
  reported : t = .course → ReportsCounted d → items = r.courses.map .course

/-- the assertions of a query and their places -/
inductive AssertedIn (d : Dict) (q : Path) : Path → Y → Prop
  | one {a : Y} : d.get? "assert" = some a → AssertedIn d q (q ++ [".assertions", "[0]"]) (.map [("assert", a)])
  | many {l : List Y} {i : Nat} {y : Y} : d.get? "assert" = none → d.get? "all" = some (.list l) → l[i]? = some y →
      AssertedIn d q (q ++ [".assertions", indexSeg i]) y

/-- the further conditions of a count rule and their places -/
inductive AuditIn (d : Dict) (q : Path) : Path → Y → Prop
  | one {a : Dict} : d.get? "audit" = some (.map a) → a.get? "all" = none → AuditIn d q (q ++ [".audit", "[0]"]) (.map a)
  | many {a : Dict} {l : List Y} {i : Nat} {y : Y} : d.get? "audit" = some (.map a) → a.get? "all" = some (.list l) →
      l[i]? = some y → AuditIn d q (q ++ [".audit", indexSeg i]) y

/-- the dictionary is somewhere in the text -/
inductive Occurs (d : Dict) : Y → Prop
  | here : Occurs d (.map d)
  | entry {e : Dict} {k : String} {y : Y} : (k, y) ∈ e → Occurs d y → Occurs d (.map e)
  | item {l : List Y} {y : Y} : y ∈ l → Occurs d y → Occurs d (.list l)

/-- no `$when` condition in the text holds of no courses at all, as the empty `$and` would -/
def RealText (y : Y) : Prop := ∀ d yw, Occurs d y → d.get? "$when" = some yw → ¬ WhenHolds [] yw

/-- the requirement is left to the department -/
def DepartmentAudited (body : Dict) : Prop :=
  FlagSet body "department_audited" ∨ (body.get? "department_audited" = none ∧ FlagSet body "department-audited")

/-- `TextMeets w kids ems p y r`: what is written as `y` at the place `p`, with the requirements `kids` and the emphases `ems`, is
met, and `r` is the result showing how. -/
inductive TextMeets (w : Audited) : Dict → List Dict → Path → Y → Node → Prop
  /-- an exception waives the rule; conditionals cannot be waived -/
  | waived {kids : Dict} {ems : List Dict} {p q : Path} {y : Y} {r : Node} : PlaceOf kids p y q → WaivedAt w.es q →
      TextMeets w kids ems p y r
  | course {kids : Dict} {ems : List Dict} {p : Path} {d : Dict} {r : Node} : ruleKind d = .course →
      CourseMet w (BlockedAt w.es (p ++ [courseSegment d])) d p r → TextMeets w kids ems p (.map d) r
  /-- what is counted meets the assertions -/
  | query {kids : Dict} {ems : List Dict} {p : Path} {d : Dict} {r : Node} (t : DataType) (items : List Item) :
      ruleKind d = .query → CountsWritten w d (p ++ [".query"]) r t items →
      (∀ q y, AssertedIn d (p ++ [".query"]) q y → MeetsWritten w.final w.record w.x w.es w.c t true items q y) →
      TextMeets w kids ems p (.map d) r
  /-- nothing is counted, and all the query asks for is waived -/
  | queryWaived {kids : Dict} {ems : List Dict} {p : Path} {d : Dict} {r : Node} : ruleKind d = .query → r.courses = [] →
      (∀ q y, AssertedIn d (p ++ [".query"]) q y → ∀ q' data, AsksAsWritten w.record w.es true [] q y q' data → WaivedAt w.es q') →
      TextMeets w kids ems p (.map d) r
  /-- as many different parts as asked for are met, and their courses meet the further conditions -/
  | count {kids kids' : Dict} {ems : List Dict} {p : Path} {d : Dict} {s : Stage} {cd : CountData} {rs : List Node}
      {parts : List Y} {inserted : Prop} {shown n : Nat} (chosen : List (Nat × Y × Node)) (cs : List Course) :
      ruleKind d = .count → PartsWritten w.toSetting kids ems d (p ++ [".count"]) kids' parts inserted →
      ShownParts w.toSetting (p ++ [".count"]) 0 parts shown → AsksFor d inserted shown n →
      (∀ e ∈ chosen, parts[e.1]? = some e.2.1 ∧ e.2.2 ∈ rs) → (chosen.map (·.1)).Nodup → n ≤ chosen.length →
      (∀ e ∈ chosen, TextMeets w kids' [] (p ++ [".count", itemSeg e.1 e.2.1]) e.2.1 e.2.2) →
      cs.Perm (rs.flatMap Node.matched) →
      (∀ q y, AuditIn d (p ++ [".count"]) q y →
        MeetsWritten w.final w.record w.x w.es w.c .course false (cs.map .course) q y) →
      TextMeets w kids ems p (.map d) (.count s cd rs)
  /-- a requirement not left to the department, by what its text says -/
  | req {kids own : Dict} {ems : List Dict} {p : Path} {d body : Dict} {name : String} {y : Y} {s : Stage} {rd : ReqData} {r : Node} :
      RefersTo kids d name body → ¬ DepartmentAudited body → body.get? "result" = some y → OwnRequirements body own →
      TextMeets w own [] (p ++ ["%" ++ name]) y r → TextMeets w kids ems p (.map d) (.req s rd (some r))
  | condTrue {kids : Dict} {ems : List Dict} {p : Path} {d : Dict} {yif y : Y} {s : Stage} {cd : CondData} {r : Node}
      {f : Option Node} : ruleKind d = .conditional → d.get? "$if" = some yif → Decides w.record w.es yif true →
      d.get? "$then" = some y → TextMeets w kids [] (p ++ [".cond", "/t"]) y r → TextMeets w kids ems p (.map d) (.cond s cd r f)
  | condFalse {kids : Dict} {ems : List Dict} {p : Path} {d : Dict} {yif y : Y} {s : Stage} {cd : CondData} {t r : Node} :
      ruleKind d = .conditional → d.get? "$if" = some yif → Decides w.record w.es yif false →
      d.get? "$else" = some y → TextMeets w kids [] (p ++ [".cond", "/f"]) y r →
      TextMeets w kids ems p (.map d) (.cond s cd t (some r))
  /-- the condition does not hold, and there is nothing else to do -/
  | condNothing {kids : Dict} {ems : List Dict} {p : Path} {d : Dict} {yif : Y} {r : Node} :
      ruleKind d = .conditional → d.get? "$if" = some yif → Decides w.record w.es yif false →
      (∀ y, d.get? "$else" = some y → y = .null ∨ HiddenAt w.toSetting (p ++ [".cond", "/f"]) y) → TextMeets w kids ems p (.map d) r
  /-- the student's record shows the proficiency -/
  | profRecord {kids : Dict} {ems : List Dict} {p : Path} {d : Dict} {name : String} {r : Node} : ruleKind d = .proficiency →
      TextAt d "proficiency" name → RecordShows w.x.proficiencies name → TextMeets w kids ems p (.map d) r
  /-- a course shows it -/
  | profCourse {kids : Dict} {ems : List Dict} {p : Path} {d cd : Dict} {name : String} {s st : Stage} {pd : ProfData}
      {r : CourseData} : ruleKind d = .proficiency → TextAt d "proficiency" name → d.get? "course" = some (.map cd) →
      CourseMet w (fun _ => False) cd (p ++ [".proficiency=" ++ name]) (.course st r) →
      TextMeets w kids ems p (.map d) (.prof s pd (some (st, r)))

/-! ### What loading does to a rule after reading it -/

/-- the rule with the classes `K` kept from its queries, and with the blocks -/
def prep (K : List String) (es : List Exc) (n : Node) : Node := applyBlocks es (n.exclude K)

theorem applyBlocks_count (es : List Exc) (s : Stage) (d : CountData) (items : List Node) :
    applyBlocks es (.count s d items) = .count s d (items.map (applyBlocks es)) := by
  have hl (p : Path) (k : String) (l : List Node) : Node.applyBlockList p k l = l.map (Node.applyBlock p k) := by
    induction l with
    | nil => rfl
    | cons n l ih => rw [Node.applyBlockList, ih, List.map_cons]
  induction es generalizing items with
  | nil =>
    have : applyBlocks [] = id := rfl
    rw [this, List.map_id]
    rfl
  | cons e es ih =>
    have : applyBlocks (e :: es) = fun n => applyBlocks es (match e.kind with
      | .block clbid => n.applyBlock e.path clbid
      | _ => n) := rfl
    rw [this]
    dsimp only
    split
    · rw [Node.applyBlock, ih, hl, List.map_map]; rfl
    · rw [ih]

theorem applyBlocks_req (es : List Exc) (s : Stage) (d : ReqData) (r : Option Node) :
    applyBlocks es (.req s d r) = .req s d (r.map (applyBlocks es)) := by
  induction es generalizing r with
  | nil => cases r <;> rfl
  | cons e es ih =>
    have : applyBlocks (e :: es) = fun n => applyBlocks es (match e.kind with
      | .block clbid => n.applyBlock e.path clbid
      | _ => n) := rfl
    rw [this]
    dsimp only
    split
    · rw [Node.applyBlock, ih]; cases r <;> rfl
    · rw [ih]

theorem applyBlocks_cond (es : List Exc) (s : Stage) (d : CondData) (t : Node) (f : Option Node) :
    applyBlocks es (.cond s d t f) = .cond s d (applyBlocks es t) (f.map (applyBlocks es)) := by
  induction es generalizing t f with
  | nil => cases f <;> rfl
  | cons e es ih =>
    have : applyBlocks (e :: es) = fun n => applyBlocks es (match e.kind with
      | .block clbid => n.applyBlock e.path clbid
      | _ => n) := rfl
    rw [this]
    dsimp only
    split
    · rw [Node.applyBlock, ih]; cases f <;> rfl
    · rw [ih]

theorem applyBlocks_prof (es : List Exc) (s : Stage) (d : ProfData) (c : Option (Stage × CourseData)) :
    applyBlocks es (.prof s d c) = .prof s d c := by
  induction es with
  | nil => rfl
  | cons e es ih =>
    rw [applyBlocks_cons]
    split
    · rw [Node.applyBlock, ih]
    · rw [ih]

theorem applyBlocks_course (es : List Exc) (s : Stage) (d : CourseData) :
    ∃ ks, applyBlocks es (.course s d) = .course s { d with excluded := d.excluded ++ ks } ∧
      ∀ k, k ∈ ks ↔ BlockedAt es d.path k := by
  induction es generalizing d with
  | nil => exact ⟨[], by simp [applyBlocks], by simp [BlockedAt]⟩
  | cons e es ih =>
    rw [applyBlocks_cons]
    split
    · rename_i k0 hk0
      simp only [Node.applyBlock]
      by_cases hp : d.path = e.path
      · rw [if_pos hp]
        obtain ⟨ks, h1, h2⟩ := ih { d with excluded := d.excluded ++ [k0] }
        refine ⟨k0 :: ks, by rw [h1]; simp, fun k => ?_⟩
        simp only [List.mem_cons, h2, BlockedAt, exists_eq_or_imp, hk0, hp, true_and, ExcKind.block.injEq]
        exact or_congr_left eq_comm
      · rw [if_neg hp]
        obtain ⟨ks, h1, h2⟩ := ih d
        refine ⟨ks, h1, fun k => ?_⟩
        rw [h2]
        simp only [BlockedAt, List.mem_cons, exists_eq_or_imp]
        exact ⟨.inr, fun h => h.resolve_left (fun h => hp h.1.symm)⟩
    · rename_i hk0
      obtain ⟨ks, h1, h2⟩ := ih d
      refine ⟨ks, h1, fun k => ?_⟩
      rw [h2]
      simp only [BlockedAt, List.mem_cons, exists_eq_or_imp]
      exact ⟨.inr, fun h => h.resolve_left (fun h => hk0 k h.2)⟩

theorem prep_count (K : List String) (es : List Exc) (s : Stage) (d : CountData) (items : List Node) :
    prep K es (.count s d items) = .count s d (items.map (prep K es)) := by
  have hl (l : List Node) : Node.excludeList K l = l.map (Node.exclude K) := by
    induction l with
    | nil => rfl
    | cons n l ih => rw [Node.excludeList, ih, List.map_cons]
  unfold prep
  rw [Node.exclude, applyBlocks_count, hl, List.map_map]
  rfl

theorem prep_req (K : List String) (es : List Exc) (s : Stage) (d : ReqData) (r : Option Node) :
    prep K es (.req s d r) = .req s d (r.map (prep K es)) := by
  unfold prep
  rw [Node.exclude, applyBlocks_req]
  cases r <;> rfl

theorem prep_cond (K : List String) (es : List Exc) (s : Stage) (d : CondData) (t : Node) (f : Option Node) :
    prep K es (.cond s d t f) = .cond s d (prep K es t) (f.map (prep K es)) := by
  unfold prep
  rw [Node.exclude, applyBlocks_cond]
  cases f <;> rfl

theorem prep_prof (K : List String) (es : List Exc) (s : Stage) (d : ProfData) (c : Option (Stage × CourseData)) :
    prep K es (.prof s d c) = .prof s d c := by
  unfold prep
  rw [Node.exclude, applyBlocks_prof]

theorem prep_path (K : List String) (es : List Exc) (n : Node) : (prep K es n).path = n.path := by
  cases n with
  | count s d items => rw [prep_count]; rfl
  | req s d r => rw [prep_req]; rfl
  | cond s d t f => rw [prep_cond]; rfl
  | prof s d c => rw [prep_prof]
  | course s d =>
    obtain ⟨ks, h, _⟩ := applyBlocks_course es s d
    unfold prep
    rw [Node.exclude, h]
    rfl
  | query s d =>
    obtain ⟨ks, h, _⟩ := applyBlocks_query es s { d with excluded := d.excluded ++ K }
    unfold prep
    rw [Node.exclude, h]
    rfl

/-! ### Course rules -/

/-- what a course rule asks, apart from the classes it must not use, is in its text -/
theorem courseMet_of {w : Audited} {d : Dict} {p : Path} {c : CourseData} (h : loadCourseRule d p = .ok c) {s : Stage}
    {ex : List String} {r : Node} (hs : Satisfied w.final w.x w.es (.course s { c with excluded := ex }) r)
    {barred : String → Prop} (hbar : ∀ k, k ∈ ex ↔ barred k) : CourseMet w barred d p r := by
  have hpath : c.path = p ++ [courseSegment d] := loadCourse_segment h
  obtain ⟨_, _, _, _, _, _, _, _, _, _, _, _, _, _, _, _, _, _, _, _, _, _, _, _, _, _, _, hins, hopt, _⟩ := loadCourse_inv h
  cases hs with
  | waived hw _ => exact .waived (by rw [← hpath]; exact hw)
  | course k hk hor =>
    rw [show CourseData.path { c with excluded := ex } = c.path from rfl, hpath] at hk
    rcases hor with ⟨he, hf⟩ | ⟨hne, e, he, hp, k', forced, hkind, hc⟩
    · exact .taken k hk he.onTranscript (entitled_as_written h he) (fun hb => he.notExcluded ((hbar _).2 hb)) hf
    · refine .inserted k hk ⟨k', forced, ?_, hc⟩ (fun hb => hne ((hbar _).2 hb))
      rw [← hpath]
      obtain ⟨ep, ek⟩ := e
      cases hp
      cases hkind
      exact he
  | optional ho => exact .optional ((flag_says hopt).1 ho)
  | added ho => exact .added ((flag_says hins).1 ho)

/-! ### Queries -/

theorem parseSource_says {s : String} {q : QuerySource} (h : parseSource s = some q) :
    (s, q) ∈ [("courses", QuerySource.courses), ("claimed", .claimed), ("areas", .areas),
      ("music performances", .musicPerformances), ("music recitals", .musicAttendances)] := by
  unfold parseSource at h
  simp only [beq_iff_eq] at h
  split at h
  · cases h; subst s; simp
  split at h
  · cases h; subst s; simp
  split at h
  · cases h; subst s; simp
  split at h
  · cases h; subst s; simp
  split at h
  · cases h; subst s; simp
  · cases h

theorem claimMode_attempt {d : Dict} : (claimMode d).1 = true ↔ ClaimsCounted d := by
  unfold claimMode ClaimsCounted
  split <;> simp_all

theorem claimMode_record {d : Dict} : (claimMode d).2 = true ↔ ReportsCounted d := by
  unfold claimMode ReportsCounted ClaimsCounted TextAt
  split <;> simp_all

/-- what is left out of a query as it is prepared -/
theorem looksThrough_of {w : Audited} {d : Dict} {q : Path} {qd : QueryData} {src : String} (hsrc : TextAt d "from" src)
    (hps : parseSource src = some qd.source) (hfail : qd.includeFailed = true ↔ FlagSet d "include_failed")
    (hex : ∀ k, k ∈ qd.excluded ↔ LeftOut w q k) {recs : List Item} (h : Examines w.x qd recs) :
    LooksThrough w d q qd.source.dataType recs := by
  have hs := parseSource_says hps
  have key : ∀ {s : String} {q' : QuerySource}, qd.source = q' → (∀ e ∈ [("courses", QuerySource.courses), ("claimed", .claimed),
      ("areas", .areas), ("music performances", .musicPerformances), ("music recitals", .musicAttendances)],
      e.2 = q' → e.1 = s) → TextAt d "from" s := by
    intro s q' h1 h2
    have := h2 _ hs h1
    dsimp only at this
    rw [← this]
    exact hsrc
  have hf : ∀ k : Course, (!qd.excluded.contains k.clbid) = true ↔ ¬ LeftOut w q k.clbid := by
    intro k
    rw [← hex]
    simp
  cases h with
  | courses h1 h2 =>
    rw [h1]
    exact .courses _ (key h1 (by decide)) (by rw [← hfail, h2]; simp) hf
  | failedToo h1 h2 =>
    rw [h1]
    exact .failedToo _ (key h1 (by decide)) (hfail.1 h2) hf
  | claimed cs h1 h2 =>
    rw [h1]
    exact .claimed cs (key h1 (by decide)) (fun k hk => ⟨(h2 k hk).1, fun hl => (h2 k hk).2 ((hex _).2 hl)⟩)
  | areas h1 => rw [h1]; exact .areas (key h1 (by decide))
  | performances h1 => rw [h1]; exact .performances (key h1 (by decide))
  | attendances h1 => rw [h1]; exact .attendances (key h1 (by decide))

theorem loadQueryAssertions_asked {env : Env} {t : DataType} {q : Path} {d : Dict} {as : List AnyAssertion}
    (h : loadQueryAssertions env t q d = .ok as) {q' : Path} {y : Y} (ha : AssertedIn d q q' y) :
    ∃ b ∈ as, loadAnyAssertion env.ctx env.c t q' y = .ok b := by
  unfold loadQueryAssertions at h
  cases ha with
  | one ha =>
    rw [ha] at h
    simp only [ld_bind_ok] at h
    obtain ⟨r, hr, h⟩ := h
    cases h
    exact ⟨r, by simp, hr⟩
  | @many l i y hn hall hi =>
    rw [hn] at h
    simp only [hall, ld_bind_ok, ld_asList, Y.list.injEq] at h
    obtain ⟨_, rfl, h⟩ := h
    have hlen := (ld_mapIdxE h).1
    have hi' : i < as.length := by
      have := (List.getElem?_eq_some_iff.1 hi).1
      omega
    obtain ⟨y', h1, h2⟩ := (ld_mapIdxE h).2 i as[i] (List.getElem?_eq_getElem hi')
    rw [hi] at h1
    cases h1
    rw [Nat.zero_add] at h2
    exact ⟨_, List.getElem_mem hi', h2⟩

theorem queryMet_of {w : Audited} {kids : Dict} {ems : List Dict} {p : Path} {d : Dict} (hk : ruleKind d = .query) {qd : QueryData}
    (h : loadQuery w.env d p = .ok qd) {s : Stage} {ex : List String} {r : Node}
    (hs : Satisfied w.final w.x w.es (.query s { qd with excluded := ex }) r)
    (hex : ∀ k, k ∈ ex ↔ LeftOut w (p ++ [".query"]) k) : TextMeets w kids ems p (.map d) r := by
  obtain ⟨src, wh, lim, as, allow, failed, h1, h2, h3, h4, _, h6, _, _, _, _, h11, hq⟩ := loadQuery_inv h
  have hpath : qd.path = p ++ [".query"] := by rw [hq]
  have hassert : qd.assertions = as := by rw [hq]
  have hwhere : qd.where' = wh := by rw [hq]
  have hfailed : qd.includeFailed = failed := by rw [hq]
  have hatt : qd.attemptClaims = (claimMode d).1 := by rw [hq]
  have hrec : qd.recordClaims = (claimMode d).2 := by rw [hq]
  have hlim : qd.limit = lim := by rw [hq]
  have hsource := parseSource_says h2
  have hcourses : qd.source = .courses ↔ TextAt d "from" "courses" := by
    constructor
    · intro hc
      rw [hc] at hsource
      simp at hsource
      rw [← hsource]
      exact h1
    · intro hc
      have := h1.symm.trans hc
      cases this
      simpa using hsource
  have htype : qd.source.dataType = .course ↔ qd.source = .courses ∨ qd.source = .claimed := by
    cases qd.source <;> simp [QuerySource.dataType]
  cases hs with
  | waived hw _ => exact .waived (.query hk) (by rw [← hpath]; exact hw)
  | query items hc hmet =>
    refine .query qd.source.dataType items hk ⟨?_, ?_⟩ ?_
    · obtain ⟨recs, sel, ins, g1, g2, g3, g4, g5, g6, g7⟩ := hc.found
      refine ⟨recs, sel, ins, ?_, ?_, g3, ?_, ?_, ?_, ?_⟩
      · exact looksThrough_of (qd := { qd with excluded := ex }) h1 h2 (by
          show qd.includeFailed = true ↔ _
          rw [hfailed]; exact flag_says h11) hex g1
      · refine loadOptFilter_says w.toSetting.exceptions h3 ?_
        rw [← hwhere]
        exact g2
      · intro k hk'
        obtain ⟨i1, e, he, hp, k', forced, hkind, hf⟩ := g4 k hk'
        refine ⟨⟨k', forced, ?_, hf⟩, fun hl => i1 ((hex _).2 hl)⟩
        rw [← hpath]
        obtain ⟨ep, ek⟩ := e
        cases hp
        cases hkind
        exact he
      · rw [← hpath]; exact g5
      · intro ht
        rw [ne_eq, htype, not_or] at ht
        exact g6 ht.1 ht.2
      · intro hor
        refine g7 ?_
        rcases hor with hor | ⟨ha, hl⟩
        · exact .inl (fun hc => hor (hcourses.1 hc))
        · refine .inr ⟨?_, ?_⟩
          · show qd.attemptClaims = false
            rw [hatt, ← Bool.not_eq_true, claimMode_attempt]
            exact ha
          · show qd.limit = []
            rw [hlim]
            have : d.opt "limit" = none := by unfold Dict.opt; rw [hl]
            rw [this] at h4
            unfold loadLimits at h4
            cases h4
            rfl
    · intro ht hr
      refine hc.reported ⟨htype.1 ht, .inl ?_⟩
      show qd.recordClaims = true
      rw [hrec, claimMode_record]
      exact hr
    · intro q y hqy q' data hask
      obtain ⟨b, hb, hl⟩ := loadQueryAssertions_asked h6 hqy
      obtain ⟨a, ha1, ha2⟩ := loadAnyAssertion_asks w.toSetting.exceptions hl hask
      exact ha2.met (hmet b (by show b ∈ qd.assertions; rw [hassert]; exact hb) a ha1)
  | queryWaived hn hw =>
    refine .queryWaived hk hn ?_
    intro q y hqy q' data hask
    obtain ⟨b, hb, hl⟩ := loadQueryAssertions_asked h6 hqy
    obtain ⟨a, ha1, ha2⟩ := loadAnyAssertion_asks w.toSetting.exceptions hl hask
    have := hw b (by show b ∈ qd.assertions; rw [hassert]; exact hb) a ha1
    rwa [ha2.path] at this

/-! ### Count rules -/

theorem loadAudits_asked {env : Env} {q : Path} {d : Dict} {as : List AnyAssertion}
    (h : loadAudits env q d = .ok as) {q' : Path} {y : Y} (ha : AuditIn d q q' y) :
    ∃ b ∈ as, loadAssertion env.ctx env.c .course q' y = .ok b := by
  unfold loadAudits at h
  have hopt : ∀ {a : Dict}, d.get? "audit" = some (.map a) → d.opt "audit" = some (.map a) := by
    intro a h
    unfold Dict.opt
    rw [h]
  cases ha with
  | one ha hn =>
    rw [hopt ha] at h
    simp only [ld_bind_ok, ld_asDict, Y.map.injEq] at h
    obtain ⟨_, rfl, h⟩ := h
    rw [hn] at h
    simp only [ld_bind_ok] at h
    obtain ⟨r, hr, h⟩ := h
    cases h
    exact ⟨r, by simp, hr⟩
  | @many a l i y ha hall hi =>
    rw [hopt ha] at h
    simp only [ld_bind_ok, ld_asDict, Y.map.injEq] at h
    obtain ⟨_, rfl, h⟩ := h
    rw [hall] at h
    simp only [ld_bind_ok, ld_asList, Y.list.injEq] at h
    obtain ⟨_, rfl, h⟩ := h
    have hlen := (ld_mapIdxE h).1
    have hi' : i < as.length := by
      have := (List.getElem?_eq_some_iff.1 hi).1
      omega
    obtain ⟨y', h1, h2⟩ := (ld_mapIdxE h).2 i as[i] (List.getElem?_eq_getElem hi')
    rw [hi] at h1
    cases h1
    rw [Nat.zero_add] at h2
    exact ⟨_, List.getElem_mem hi', h2⟩

/-! ### All rules -/

theorem auditedFlag_says {d : Dict} {b : Bool} (h : auditedFlag d = .ok b) : b = true ↔ DepartmentAudited d := by
  unfold auditedFlag at h
  unfold DepartmentAudited
  split at h
  · rename_i hh
    rw [has_get] at hh
    rw [flag_says h]
    exact ⟨.inl, fun h => h.resolve_right (fun h => hh h.1)⟩
  · rename_i hh
    rw [has_get, not_ne_iff] at hh
    rw [flag_says h]
    refine ⟨fun h => .inr ⟨hh, h⟩, fun h => ?_⟩
    rcases h with h | h
    · unfold FlagSet at h; rw [hh] at h; cases h
    · exact h.2

/-- the place of a rule that was read, which is where it can be waived -/
theorem Built.place {env : Env} {kids : Dict} {ems : List Dict} {p : Path} {y : Y} {o : Option Node}
    (h : Built env kids ems p y o) : ∀ n, o = some n → (∀ s d t f, n ≠ .cond s d t f) → PlaceOf kids p y n.path := by
  intro n hn hnc
  cases h with
  | prof hk h =>
    cases hn
    obtain ⟨name, c, h1, _, rfl, _⟩ := loadProficiency_inv h
    exact .prof hk h1
  | course hk h =>
    cases hn
    have := loadCourse_segment h
    simp only [Node.path]
    rw [this]
    exact .course hk
  | query hk h =>
    cases hn
    obtain ⟨src, wh, lim, as, allow, failed, _, _, _, _, _, _, _, _, _, _, _, hq⟩ := loadQuery_inv h
    simp only [Node.path]
    rw [hq]
    exact .query hk
  | cond =>
    split at hn
    · cases hn
    · cases hn; exact absurd rfl (hnc _ _ _ _)
  | count hk => cases hn; exact .count hk
  | req hr _ _ _ _ _ hpath =>
    cases hn
    simp only [Node.path]
    rw [hpath]
    exact .req hr

theorem Built.meets {w : Audited} {K : List String} (hK : ∀ k, k ∈ K ↔ w.reserved k) {kids : Dict} {ems : List Dict} {p : Path}
    {y : Y} {o : Option Node} (hb : Built w.env kids ems p y o) :
    ∀ n, o = some n → ∀ r, Satisfied w.final w.x w.es (prep K w.es n) r → TextMeets w kids ems p y r := by
  have hplace := @Built.place w.env
  induction hb with
  | @prof kids ems p d n hk h =>
    intro n' hn r hs
    cases hn
    have hwv := hplace (.prof (kids := kids) (ems := ems) hk h) _ rfl
    obtain ⟨name, c, h1, _, rfl, hc⟩ := loadProficiency_inv h
    rw [prep_prof] at hs
    cases hs with
    | waived hw hnc => exact .waived (hwv hnc) hw
    | profRecord hr => exact .profRecord hk h1 hr
    | @profCourse _ s' st st' _ d' cd c' hs =>
      obtain ⟨hst, cdt, h2, h3⟩ := hc _ rfl
      refine .profCourse hk h1 h2 (courseMet_of h3 (ex := []) (s := st) ?_ (by simp))
      have : cd.excluded = [] := by
        obtain ⟨_, _, _, _, _, _, _, _, _, _, _, _, _, _, _, _, _, _, _, _, _, _, _, _, _, _, _, _, _, _, _, _, _, _, _, _, _, _, h6⟩ :=
          loadCourse_inv h3
        exact h6
      have e : { cd with excluded := [] } = cd := by cases cd; cases this; rfl
      rw [e]
      exact hs
  | @course kids ems p d c hk h =>
    intro n' hn r hs
    cases hn
    obtain ⟨ks, he, hks⟩ := applyBlocks_course w.es .rule c
    have hex : c.excluded = [] := by
      obtain ⟨_, _, _, _, _, _, _, _, _, _, _, _, _, _, _, _, _, _, _, _, _, _, _, _, _, _, _, _, _, _, _, _, _, _, _, _, _, _, h6⟩ :=
        loadCourse_inv h
      exact h6
    unfold prep at hs
    rw [Node.exclude, he, hex, List.nil_append] at hs
    rw [loadCourse_segment h] at hks
    exact .course hk (courseMet_of h hs hks)
  | @query kids ems p d qd hk h =>
    intro n' hn r hs
    cases hn
    obtain ⟨ks, he, hks⟩ := applyBlocks_query w.es .rule { qd with excluded := qd.excluded ++ K }
    have hex : qd.excluded = [] ∧ qd.path = p ++ [".query"] := by
      obtain ⟨src, wh, lim, as, allow, failed, _, _, _, _, _, _, _, _, _, _, _, hq⟩ := loadQuery_inv h
      rw [hq]
      exact ⟨rfl, rfl⟩
    unfold prep at hs
    rw [Node.exclude, he] at hs
    refine queryMet_of hk h hs (fun k => ?_)
    simp only [hex.1, List.nil_append, List.mem_append, hK, hks, hex.2]
    rfl
  | @cond kids ems p d yif b yt t f hide hk hkeys hif hb hyt hbt hbf hno hh iht ihf =>
    intro n' hn r hs
    split at hn
    · cases hn
    cases hn
    rw [prep_cond] at hs
    have hdec := cond_decides w.toSetting.exceptions _ _ hb
    generalize hf' : f.map (prep K w.es) = f' at hs
    cases hs with
    | waived hw hnc => exact absurd rfl (hnc _ _ _ _)
    | condTrue hc hs =>
      cases hc
      exact .condTrue hk hif hdec hyt (iht _ rfl _ hs)
    | condFalse hc hs =>
      cases hc
      rw [Option.map_eq_some_iff] at hf'
      obtain ⟨m, rfl, rfl⟩ := hf'
      cases ho : Dict.opt d "$else" with
      | none => have := hno ho; cases this
      | some yf => exact .condFalse hk hif hdec (Dict.opt_get ho) (ihf yf ho _ rfl _ hs)
    | condNothing hc =>
      cases hc
      refine .condNothing hk hif hdec (fun yf hyf => ?_)
      rw [Option.map_eq_none_iff] at hf'
      by_cases hnull : yf = .null
      · exact .inl hnull
      · right
        have ho : Dict.opt d "$else" = some yf := by
          unfold Dict.opt
          rw [hyf]
          cases yf <;> simp_all
        exact (hbf yf ho).hidden.1 hf'
  | @count kids ems p d kids' listed expanded emItems inserts audits atMost cnt parts hk hkeys hlist hexp hem hins haud hat hparts
      hall hcnt h0 hle ih =>
    intro n' hn r hs
    have hwv := hplace (.count hk hkeys hlist hexp hem hins haud hat hparts hall hcnt h0 hle) n' hn
    cases hn
    rw [prep_count] at hs
    cases hs with
    | waived hw hnc => exact .waived (hwv (by simp)) hw
    | @count _ s' _ d' _ rs chosen cs h1 h2 h3 h4 h5 h6 =>
      -- the index of each chosen part
      have hidx : ∀ e ∈ chosen, ∃ (i : Nat) (y : Y) (n : Node), parts[i]? = some (y, some n) ∧ e.1 = prep K w.es n := by
        intro e he
        obtain ⟨n, hn, hne⟩ := List.mem_map.1 (h1 e he).1
        obtain ⟨⟨y, o⟩, ht, ho⟩ := List.mem_filterMap.1 hn
        obtain ⟨i, hi⟩ := List.mem_iff_getElem?.1 ht
        dsimp only at ho
        subst ho
        exact ⟨i, y, n, hi, hne.symm⟩
      have hpick : ∃ picked : List (Nat × Y × Node), picked.length = chosen.length ∧
          (∀ t ∈ picked, ∃ e ∈ chosen, ∃ n, parts[t.1]? = some (t.2.1, some n) ∧ e.1 = prep K w.es n ∧ t.2.2 = e.2) ∧
          (picked.map (·.1)).Nodup := by
        clear h1 h3 h4 h5 h6 hcnt hle
        induction chosen with
        | nil => exact ⟨[], rfl, by simp, by simp⟩
        | cons e chosen ihc =>
          rw [List.map_cons, List.nodup_cons] at h2
          obtain ⟨picked, g1, g2, g3⟩ := ihc h2.2 (fun e he => hidx e (by simp [he]))
          obtain ⟨i, y, n, hi, he⟩ := hidx e (by simp)
          refine ⟨(i, y, e.2) :: picked, by simp [g1], ?_, ?_⟩
          · intro t ht
            rcases List.mem_cons.1 ht with rfl | ht
            · exact ⟨e, by simp, n, hi, he, rfl⟩
            · obtain ⟨e', he', rest⟩ := g2 t ht
              exact ⟨e', by simp [he'], rest⟩
          · rw [List.map_cons, List.nodup_cons]
            refine ⟨fun hm => ?_, g3⟩
            obtain ⟨t, ht, hti⟩ := List.mem_map.1 hm
            obtain ⟨e', he', n', hi', hen, _⟩ := g2 t ht
            dsimp only at hti
            rw [hti, hi] at hi'
            cases hi'
            exact h2.1 (List.mem_map.2 ⟨e', he', by rw [hen, ← he]⟩)
      obtain ⟨picked, g1, g2, g3⟩ := hpick
      refine .count (kids' := kids') (parts := parts.map (·.1)) (inserted := (!inserts.isEmpty) = true) picked cs hk
        ⟨listed, expanded, emItems, inserts, countItems_says hlist, expandTemplates_says hexp, addEmphases_says hem,
          insertedItems_says hins, hparts, by cases inserts <;> simp⟩
        (shownParts_of parts 0 (fun j y o hj => by simpa using (hall j y o hj).hidden)) (neededCount_says hcnt h0)
        ?_ g3 (by rw [g1]; exact h3) ?_ h5 ?_
      · intro t ht
        obtain ⟨e, he, n, hi, _, hr⟩ := g2 t ht
        refine ⟨by simp [hi], ?_⟩
        rw [hr]
        exact (h1 e he).2
      · intro t ht
        obtain ⟨e, he, n, hi, hen, hr⟩ := g2 t ht
        have := h4 e he
        rw [hen, ← hr] at this
        exact ih t.1 t.2.1 (some n) hi n rfl _ this
      · intro q y hqy q' data hask
        obtain ⟨b, hb, hl⟩ := loadAudits_asked haud hqy
        obtain ⟨a, ha1, ha2⟩ := loadAssertion_asks w.toSetting.exceptions hl (fun _ _ _ h => by cases h) hask
        exact ha2.met (h6 b hb a ha1)
  | @req kids ems p d name body rd r' hr hkeys hnone hsome hbr hex hpath hname hov hor hws haud hcon hig hdj ih =>
    intro n' hn r hs
    cases hn
    rw [prep_req] at hs
    generalize ho : r'.map (prep K w.es) = o at hs
    cases hs with
    | waived hw _ =>
      simp only [Node.path] at hw
      rw [hpath] at hw
      exact .waived (.req hr) hw
    | req ha hs =>
      rw [Option.map_eq_some_iff] at ho
      obtain ⟨m, rfl, rfl⟩ := ho
      cases hres : Dict.opt body "result" with
      | none => have := hnone hres; cases this
      | some yr =>
        obtain ⟨own, hown, _⟩ := hex yr hres
        refine .req hr ?_ (Dict.opt_get hres) (ownRequirements_of hown) (ih yr own hres hown m rfl _ hs)
        rw [← auditedFlag_says haud, ha]
        simp

/-! ### Conditions in texts -/

theorem get_mem {d : Dict} {k : String} {y : Y} (h : d.get? k = some y) : (k, y) ∈ d := by
  induction d with
  | nil => simp [Dict.get?] at h
  | cons e rest ih =>
    obtain ⟨k', v⟩ := e
    unfold Dict.get? at h
    split at h
    · rename_i hk
      cases h
      simp only [beq_iff_eq] at hk
      subst hk
      exact List.mem_cons_self
    · exact List.mem_cons_of_mem _ (ih h)

theorem RealText.get {d : Dict} (h : RealText (.map d)) {k : String} {y : Y} (hk : d.get? k = some y) : RealText y :=
  fun e yw he => h e yw (.entry (get_mem hk) he)

theorem RealText.mem {l : List Y} (h : RealText (.list l)) {y : Y} (hy : y ∈ l) : RealText y :=
  fun e yw he => h e yw (.item hy he)

/-- a dictionary without parts, and without `$when` -/
theorem realText_flat {d : Dict} (hw : d.get? "$when" = none) (hf : ∀ k y, (k, y) ∈ d → ∀ e, ¬ Occurs e y) : RealText (.map d) := by
  intro e yw he hg
  cases he with
  | here => rw [hw] at hg; cases hg
  | entry hm ho => exact absurd ho (hf _ _ hm _)

/-- all requirements of a list of them -/
def RealKids (kids : Dict) : Prop := ∀ k y, (k, y) ∈ kids → RealText y

theorem RealText.kids {d : Dict} (h : RealText (.map d)) : RealKids d := fun _ _ hm e yw he => h e yw (.entry hm he)

theorem real_dict {d own : Dict} {k : String} (h : RealText (.map d)) (hd : d.dict k = .ok own) : RealKids own := by
  unfold Dict.dict at hd
  split at hd
  · cases hd; intro _ _ hm; cases hm
  · rename_i heq; cases hd; exact (h.get heq).kids
  · cases hd

theorem real_set {d : Dict} {k : String} {y : Y} (h : RealKids d) (hy : RealText y) : RealKids (d.set k y) := by
  induction d with
  | nil =>
    intro k' y' hm
    simp only [Dict.set, List.mem_singleton, Prod.mk.injEq] at hm
    rw [hm.2]; exact hy
  | cons e rest ih =>
    obtain ⟨k0, v⟩ := e
    intro k' y' hm
    unfold Dict.set at hm
    split at hm
    · rcases List.mem_cons.1 hm with h1 | h1
      · cases h1; exact hy
      · exact h k' y' (List.mem_cons_of_mem _ h1)
    · rcases List.mem_cons.1 hm with h1 | h1
      · cases h1; exact h _ _ List.mem_cons_self
      · exact ih (fun k y hm => h k y (List.mem_cons_of_mem _ hm)) _ _ h1

theorem template_real {t : TemplateCourse} {y : Y} (h : t.asRule = .ok y) : RealText y := by
  have hg : ∀ key s value k y, (k, y) ∈ givenEntry key s value → k = key ∧ ∃ v, y = .str v := by
    intro key s value k y hm
    unfold givenEntry at hm
    split at hm
    · cases hm
    · cases List.mem_singleton.1 hm; exact ⟨rfl, _, rfl⟩
  have hno : ∀ {e : Dict} {v : String}, ¬ Occurs e (.str v) := fun h => by cases h
  have hni : ∀ {e : Dict} {v : Int}, ¬ Occurs e (.int v) := fun h => by cases h
  have key : ∀ {d : Dict}, (∀ k y, (k, y) ∈ d → k ≠ "$when" ∧ ((∃ v, y = .str v) ∨ ∃ v, y = .int v)) → RealText (.map d) := by
    intro d hd
    refine realText_flat ?_ ?_
    · cases hw : d.get? "$when" with
      | none => rfl
      | some y => exact absurd rfl (hd _ _ (get_mem hw)).1
    · intro k y hm e ho
      rcases (hd k y hm).2 with ⟨v, rfl⟩ | ⟨v, rfl⟩
      · exact hno ho
      · exact hni ho
  have hall : ∀ k y, (k, y) ∈ givenEntry "clbid" t.clbid t.clbid ++ givenEntry "course" t.subject (t.subject ++ " " ++ t.num) ++
      givenEntry "section" t.section' t.section' ++ givenEntry "sub_type" t.subType t.subType ++
      givenEntry "institution" t.institution t.institution ++ givenEntry "ap" t.name t.name →
      k ≠ "$when" ∧ ((∃ v, y = Y.str v) ∨ ∃ v, y = Y.int v) := by
    intro k y hm
    simp only [List.mem_append] at hm
    rcases hm with ((((hm | hm) | hm) | hm) | hm) | hm <;>
    · obtain ⟨rfl, h⟩ := hg _ _ _ _ _ hm
      exact ⟨by decide, .inl h⟩
  unfold TemplateCourse.asRule at h
  dsimp only at h
  repeat' split at h
  · cases h; exact key hall
  · cases h
  · cases h
    refine key (fun k y hm => ?_)
    rcases List.mem_append.1 hm with hm | hm
    · exact hall k y hm
    · simp only [List.mem_cons, Prod.mk.injEq, List.not_mem_nil, or_false] at hm
      rcases hm with ⟨rfl, rfl⟩ | ⟨rfl, rfl⟩
      · exact ⟨by decide, by simp⟩
      · exact ⟨by decide, by simp⟩
  · cases h

theorem expand_real {templates : List (String × TemplateCourse)} : ∀ {l r : List Y}, (∀ y ∈ l, RealText y) →
    expandTemplates templates l = .ok r → ∀ y ∈ r, RealText y := by
  intro l
  induction l with
  | nil => intro r _ h; cases h; simp
  | cons y ys ih =>
    intro r hl h
    simp only [expandTemplates, ld_bind_ok, ld_asDict] at h
    obtain ⟨d, rfl, here, hh, rest, hrest, h⟩ := h
    cases h
    intro z hz
    rcases List.mem_append.1 hz with hz | hz
    · split at hh
      · simp only [ld_bind_ok, ld_asText] at hh
        obtain ⟨key, rfl, hh⟩ := hh
        obtain ⟨t, _, ht⟩ := ld_mapE_mem hh z hz
        exact template_real ht
      · cases hh
        cases List.mem_singleton.1 hz
        exact hl _ List.mem_cons_self
    · exact ih (fun y hy => hl y (List.mem_cons_of_mem _ hy)) hrest z hz

theorem inserted_real {x : Ctx} : ∀ {es : List Exc} {r : List Y}, insertedItems x es = .ok r → ∀ y ∈ r, RealText y := by
  intro es
  induction es with
  | nil => intro r h; simp [insertedItems] at h; simp [h]
  | cons e es ih =>
    intro r h
    rw [insertedItems] at h
    split at h
    · simp only [ld_bind_ok] at h
      obtain ⟨c, _, rest, hr, h⟩ := h
      cases h
      intro y hy
      rcases List.mem_cons.1 hy with rfl | hy
      · refine realText_flat (by simp [Dict.get?]) (fun k y hm e ho => ?_)
        simp only [List.mem_cons, Prod.mk.injEq, List.not_mem_nil, or_false] at hm
        rcases hm with ⟨_, rfl⟩ | ⟨_, rfl⟩ | ⟨_, rfl⟩ | ⟨_, rfl⟩ <;> cases ho
      · exact ih hr y hy
    · exact ih h

theorem namedRules_real : ∀ {l : List Y} {r : Dict}, (∀ y ∈ l, RealText y) → namedRules l = .ok r → RealKids r := by
  intro l
  induction l with
  | nil => intro r _ h; simp [namedRules] at h; subst h; intro _ _ hm; cases hm
  | cons y ys ih =>
    intro r hc h
    simp only [namedRules, ld_bind_ok] at h
    obtain ⟨_, _, _, _, _, _, rest, hr, h⟩ := h
    cases h
    intro k z hz
    rcases List.mem_cons.1 hz with h1 | h1
    · cases h1; exact hc _ List.mem_cons_self
    · exact ih (fun y hy => hc y (List.mem_cons_of_mem _ hy)) hr _ _ h1

theorem emphasisParts_real {e : Dict} {parts : List (String × Y)} {name : String} (he : RealText (.map e))
    (h : emphasisParts e = .ok (parts, name)) : RealKids parts := by
  unfold emphasisParts at h
  simp only [ld_bind_ok, ld_need, ld_asDict, ld_asText] at h
  obtain ⟨y0, _, nm, _, y1, hres, result, hr1, flat, hflat, h⟩ := h
  subst hr1
  split at h
  · simp only [ld_bind_ok] at h
    obtain ⟨reqs, hreqs, h⟩ := h
    cases h
    intro k y hp
    obtain ⟨r, hr, heq⟩ := List.mem_map.1 hp
    cases heq
    split at hreqs
    · rename_i v hv
      rw [ld_asDict] at hreqs
      subst hreqs
      exact (he.get hv).kids _ _ hr
    · simp only [ld_bind_ok, ld_need, ld_asList] at hreqs
      obtain ⟨_, hall, l, rfl, hl⟩ := hreqs
      exact namedRules_real (fun y hy => ((he.get hres).get hall).mem hy) hl _ _ hr
  · cases h
    intro k y hp
    cases List.mem_singleton.1 hp
    exact he

theorem emphasisItem_real (key name : String) : RealText (emphasisItem key name) := by
  refine realText_flat (by simp [Dict.get?]) (fun k y hm e ho => ?_)
  simp only [List.mem_cons, Prod.mk.injEq, List.not_mem_nil, or_false] at hm
  rcases hm with ⟨_, rfl⟩ | ⟨_, rfl⟩ <;> cases ho

theorem addEmphases_real : ∀ {ems : List Dict} {kids kids' : Dict} {items : List Y}, RealKids kids →
    (∀ e ∈ ems, RealText (.map e)) → addEmphases kids ems = .ok (kids', items) → RealKids kids' ∧ ∀ y ∈ items, RealText y := by
  intro ems
  induction ems with
  | nil => intro kids kids' items hk _ h; simp [addEmphases] at h; obtain ⟨rfl, rfl⟩ := h; exact ⟨hk, by simp⟩
  | cons e es ih =>
    intro kids kids' items hk he h
    simp only [addEmphases, ld_bind_ok] at h
    obtain ⟨⟨parts, name⟩, hp, ⟨final, rest⟩, hr, h⟩ := h
    cases h
    have h3 : ∀ (ps : List (String × Y)) (c : Dict), RealKids c → RealKids ps →
        RealKids (ps.foldl (fun (c : Dict) p => c.set p.1 p.2) c) := by
      intro ps
      induction ps with
      | nil => intro c hc _; exact hc
      | cons a as ih' =>
        intro c hc h2
        exact ih' _ (real_set hc (h2 _ _ List.mem_cons_self)) (fun k y hp => h2 k y (List.mem_cons_of_mem _ hp))
    have hreal := h3 parts kids hk (emphasisParts_real (he e List.mem_cons_self) hp)
    obtain ⟨h4, h5⟩ := ih hreal (fun e' he' => he e' (List.mem_cons_of_mem _ he')) hr
    refine ⟨h4, fun y hy => ?_⟩
    rcases List.mem_append.1 hy with hy | hy
    · obtain ⟨p, _, rfl⟩ := List.mem_map.1 hy
      exact emphasisItem_real _ _
    · exact h5 y hy

theorem query_real {env : Env} {d : Dict} {p : Path} {qd : QueryData} (h : loadQuery env d p = .ok qd) (hd : RealText (.map d)) :
    ∀ c r t, AnyAssertion.dyn c r t ∈ qd.assertions → ¬ c.Holds [] := by
  intro cd rr tt hm hh
  obtain ⟨src, w, lim, as, allow, failed, _, _, _, _, _, has, _, _, _, _, _, hq⟩ := loadQuery_inv h
  rw [hq] at hm
  dsimp only at hm
  unfold loadQueryAssertions at has
  have key : ∀ {data : Dict} {q : Path}, AssertionParts env.ctx env.c qd.source.dataType q (.map data) (.dyn cd rr tt) →
      RealText (.map data) → False := by
    intro data q hp hr
    generalize hy : Y.map data = y at hp
    generalize ha : AnyAssertion.dyn cd rr tt = a at hp
    cases hp with
    | single => cases ha
    | cond => cases ha
    | dyn _ h1 h2 =>
      cases hy
      cases ha
      exact hr _ _ .here h1 ((loadDyn_says _ _ h2).1 hh)
  split at has
  · rename_i a0 ha0
    simp only [ld_bind_ok] at has
    obtain ⟨r, hr, h⟩ := has
    cases h
    cases List.mem_singleton.1 hm
    have h1 := loadAnyAssertion_inv hr
    refine key h1 ?_
    intro e yw ho hw
    cases ho with
    | here => simp [Dict.get?] at hw
    | entry hm ho =>
      cases List.mem_singleton.1 hm
      exact hd.get ha0 e yw ho hw
  · simp only [ld_bind_ok] at has
    obtain ⟨l, hl, h⟩ := has
    obtain ⟨i, hi⟩ := List.mem_iff_getElem?.1 hm
    obtain ⟨y, hy1, hy2⟩ := (ld_mapIdxE h).2 i _ hi
    split at hl
    · rename_i v hv
      rw [ld_asList] at hl
      subst hl
      have hr : RealText y := (hd.get hv).mem (List.mem_of_getElem? hy1)
      have h1 := loadAnyAssertion_inv hy2
      have : ∃ data, y = .map data := by
        generalize ha : AnyAssertion.dyn cd rr tt = a at h1
        cases h1 with
        | single => cases ha
        | cond => cases ha
        | dyn => exact ⟨_, rfl⟩
      obtain ⟨data, rfl⟩ := this
      exact key h1 hr
    · cases hl

theorem audits_real {env : Env} {d : Dict} {q : Path} {as : List AnyAssertion} (h : loadAudits env q d = .ok as) :
    ∀ c r t, AnyAssertion.dyn c r t ∉ as := by
  have key : ∀ {q : Path} {y : Y} {b : AnyAssertion}, loadAssertion env.ctx env.c .course q y = .ok b → ∀ c r t, b ≠ .dyn c r t := by
    intro q y b h c r t hb
    subst hb
    unfold loadAssertion at h
    simp only [ld_bind_ok, ld_asDict] at h
    obtain ⟨data, rfl, h⟩ := h
    split at h
    · simp only [ld_bind_ok] at h
      obtain ⟨_, _, _, _, _, _, _, _, _, _, h⟩ := h
      cases h
    · simp only [ld_bind_ok] at h
      obtain ⟨_, _, h⟩ := h
      cases h
  intro c r t hm
  unfold loadAudits at h
  split at h
  · cases h; cases hm
  · simp only [ld_bind_ok] at h
    obtain ⟨_, _, h⟩ := h
    split at h
    · simp only [ld_bind_ok] at h
      obtain ⟨l, _, h⟩ := h
      obtain ⟨i, hi⟩ := List.mem_iff_getElem?.1 hm
      obtain ⟨y, _, h2⟩ := (ld_mapIdxE h).2 i _ hi
      exact key h2 _ _ _ rfl
    · simp only [ld_bind_ok] at h
      obtain ⟨b, hb, h⟩ := h
      cases h
      cases List.mem_singleton.1 hm
      exact key hb _ _ _ rfl

/-- a rule that was read from a text without empty conditions has none -/
theorem Built.real {env : Env} {kids : Dict} {ems : List Dict} {p : Path} {y : Y} {o : Option Node} (h : Built env kids ems p y o)
    (K : List String) (es : List Exc) : RealText y → RealKids kids → (∀ e ∈ ems, RealText (.map e)) → ∀ n, o = some n →
    ∀ m ∈ (prep K es n).within, RealConditions m := by
  induction h with
  | prof hk h =>
    intro _ _ _ n hn
    cases hn
    obtain ⟨name, c, _, _, rfl, _⟩ := loadProficiency_inv h
    rw [prep_prof]
    cases c with
    | none =>
      intro m hm c r t hc
      simp only [Node.within, List.mem_cons] at hm
      rcases hm with rfl | hm
      · cases hc
      · simp at hm
    | some c =>
      intro m hm c r t hc
      simp only [Node.within, List.mem_cons] at hm
      rcases hm with rfl | hm
      · cases hc
      · simp at hm
        subst hm
        cases hc
  | @course _ _ _ _ c hk h =>
    intro _ _ _ n hn
    cases hn
    obtain ⟨ks, he, _⟩ := applyBlocks_course es .rule c
    unfold prep
    rw [Node.exclude, he]
    intro m hm c r t hc
    simp only [Node.within, List.mem_singleton] at hm
    subst hm
    cases hc
  | @query _ _ _ d qd hk h =>
    intro hy _ _ n hn
    cases hn
    obtain ⟨ks, he, _⟩ := applyBlocks_query es .rule { qd with excluded := qd.excluded ++ K }
    unfold prep
    rw [Node.exclude, he]
    intro m hm c r t hc
    simp only [Node.within, List.mem_singleton] at hm
    subst hm
    exact query_real h hy c r t hc
  | @cond kids ems p d yif b yt t f hide hk hkeys hif hb hyt hbt hbf hno hh iht ihf =>
    intro hy hkids _ n hn
    split at hn
    · cases hn
    cases hn
    rw [prep_cond]
    intro m hm
    simp only [Node.within, List.mem_cons, List.mem_append] at hm
    rcases hm with rfl | hm | hm
    · intro c r t hc; cases hc
    · exact iht (hy.get hyt) hkids (by simp) t rfl m hm
    · cases f with
      | none => simp [Node.withinOpt] at hm
      | some f' =>
        cases ho : Dict.opt d "$else" with
        | none => have := hno ho; cases this
        | some yf => exact ihf yf ho (hy.get (Dict.opt_get ho)) hkids (by simp) f' rfl m hm
  | @count kids ems p d kids' listed expanded emItems inserts audits atMost cnt parts hk hkeys hlist hexp hem hins haud hat hparts
      hall hcnt h0 hle ih =>
    intro hy hkids hems n hn
    cases hn
    rw [prep_count]
    have hlisted : ∀ y ∈ listed, RealText y := by
      have hk : ∀ k v, d.get? k = some v → v.asList = .ok listed → ∀ y ∈ listed, RealText y := by
        intro k v hv hl
        rw [ld_asList] at hl
        subst hl
        exact fun y h => (hy.get hv).mem h
      unfold countItems at hlist
      repeat' split at hlist
      all_goals first | (rename_i heq; exact hk _ _ heq hlist) | cases hlist
    obtain ⟨hk', hei⟩ := addEmphases_real hkids hems hem
    have hreal : ∀ t ∈ parts, RealText t.1 := by
      intro t ht
      have : t.1 ∈ expanded ++ emItems ++ inserts := by
        rw [← hparts]
        exact List.mem_map_of_mem ht
      simp only [List.mem_append] at this
      rcases this with (h | h) | h
      · exact expand_real hlisted hexp _ h
      · exact hei _ h
      · exact inserted_real hins _ h
    intro m hm
    simp only [Node.within, List.mem_cons] at hm
    rcases hm with rfl | hm
    · intro c r t hc
      exact absurd hc (audits_real haud c r t)
    · obtain ⟨n, hn, hm⟩ := Node.mem_withinList.1 hm
      obtain ⟨n0, hn0, rfl⟩ := List.mem_map.1 hn
      obtain ⟨⟨y, o⟩, ht, ho⟩ := List.mem_filterMap.1 hn0
      dsimp only at ho
      subst ho
      obtain ⟨i, hi⟩ := List.mem_iff_getElem?.1 ht
      exact ih i y _ hi (hreal _ ht) hk' (by simp) n0 rfl m hm
  | @req kids ems p d name body rd r' hr hkeys hnone hsome hbr hex hpath hname hov hor hws haud hcon hig hdj ih =>
    intro hy hkids _ n hn
    cases hn
    rw [prep_req]
    have hbody : RealText (.map body) := by
      rcases hr with ⟨_, _, rfl⟩ | ⟨_, _, h⟩
      · exact hy
      · exact hkids _ _ (get_mem h)
    intro m hm
    simp only [Node.within, List.mem_cons] at hm
    rcases hm with rfl | hm
    · intro c r t hc; cases hc
    · cases r' with
      | none => simp [Node.withinOpt] at hm
      | some n =>
        cases hres : Dict.opt body "result" with
        | none => have := hnone hres; cases this
        | some yr =>
          obtain ⟨own, hown, _⟩ := hex yr hres
          exact ih yr own hres hown (hbody.get (Dict.opt_get hres)) (real_dict hbody hown) (by simp) n rfl m hm

/-! ### Areas -/

theorem loadArea_real {c : Constants} {templates : List (String × TemplateCourse)} {st : Student} {es : List Exc}
    {all : Bool} {spec : Dict} {a : Area} (hload : loadArea c templates st es all spec = .ok a) (hreal : RealText (.map spec)) :
    ∀ m ∈ a.result.within, RealConditions m := by
  obtain ⟨emphases, declared, children, data, rule, code, dept, h1, h2, h3, h4, hb, hres, _⟩ := loadArea_inv hload
  have hprep : a.result = prep ((rule.requiredCourses (loadCtx st es)).map (·.clbid)) es rule := hres
  rw [hprep]
  refine hb.real _ es (hreal.get h4) (real_dict hreal h3) ?_ rule rfl
  intro e he
  unfold declaredEmphases at h2
  obtain ⟨p, hp, hd⟩ := ld_mapE_mem h2 e he
  rw [ld_asDict] at hd
  have := real_dict hreal h1 p.1 p.2 (List.mem_of_mem_filter hp)
  rwa [hd] at this

theorem area_meets {final : Bool} {c : Constants} {templates : List (String × TemplateCourse)} {st : Student} {es : List Exc}
    {all : Bool} {spec : Dict} {a : Area} (hload : loadArea c templates st es all spec = .ok a)
    (hnd : (st.courses.map (·.clbid)).Nodup) {x : Ctx} {own : Node}
    (hs : WaivedAt es a.result.path ∨ Satisfied final x es a.result own) :
    ∃ kids ems y, AreaText st all spec kids ems y ∧
      (TextMeets ⟨⟨st, es, c, templates⟩, final, x, KeptByText ⟨st, es, c, templates⟩ kids ems y⟩ kids ems ["$"] y own ∨
        ((∃ d, y = .map d ∧ ruleKind d = .conditional) ∧ WaivedAt es ["$", ".cond"])) := by
  obtain ⟨emphases, declared, children, data, rule, code, dept, h1, h2, h3, h4, hb, hres, _⟩ := loadArea_inv hload
  obtain ⟨f, hf1, hf2⟩ := declared_written h2
  refine ⟨children, declared, data, ⟨h4, dict_written h3, emphases, f, dict_written h1, hf1, hf2⟩, ?_⟩
  have hK : ∀ k, k ∈ (rule.requiredCourses (loadCtx st es)).map (·.clbid) ↔
      KeptByText ⟨st, es, c, templates⟩ children declared data k := fun k =>
    (Node.required_iff (es := es) hnd k rule (hb.nothing_excluded rule rfl)).trans
      (reserved_written (w := ⟨st, es, c, templates⟩) hnd hb k)
  have hprep : a.result = prep ((rule.requiredCourses (loadCtx st es)).map (·.clbid)) es rule := hres
  rcases hs with hw | hs
  · rw [hprep, prep_path] at hw
    by_cases hc : ∃ s d t f, rule = .cond s d t f
    · obtain ⟨s, d, t, f, rfl⟩ := hc
      right
      generalize ho : some (Node.cond s d t f) = o at hb
      cases hb with
      | cond hk =>
        split at ho
        · cases ho
        · cases ho
          exact ⟨⟨_, rfl, hk⟩, hw⟩
      | prof hk h =>
        cases ho
        obtain ⟨_, _, _, _, h, _⟩ := loadProficiency_inv h
        cases h
      | course => cases ho
      | query => cases ho
      | count => cases ho
      | req => cases ho
    · left
      refine .waived (hb.place rule rfl (fun s d t f h => hc ⟨s, d, t, f, h⟩)) hw
  · left
    rw [hprep] at hs
    exact Built.meets (w := ⟨⟨st, es, c, templates⟩, final, x, KeptByText ⟨st, es, c, templates⟩ children declared data⟩) hK hb rule rfl _ hs

/-- **C67.** If an audited solution of an area passes, then what is written in the area file is met, by courses on the student's
transcript, or an exception waives all of it.  Courses in progress count. -/
theorem C67_passing_area_meets_its_text (c : Constants) (templates : List (String × TemplateCourse)) (st : Student)
    (es : List Exc) (all : Bool) (spec : Dict) (a : Area) (hload : loadArea c templates st es all spec = .ok a)
    (htidy : TidyText st all spec) (hreal : RealText (.map spec)) (hnd : (st.courses.map (·.clbid)).Nodup)
    (o : Orders) (ho : o.Lawful) (s : AreaSolution) (hs : s ∈ (a.solutions o st es).items) (r : AreaResult)
    (ha : s.audit o a = .ok r) (hp : Passes r.status) :
    ∃ tr kids ems y own, (∀ k ∈ tr, k ∈ st.courses) ∧ s.ctx = areaCtx a st es tr ∧ AreaText st all spec kids ems y ∧
      ShownIn a.kind r.result own ∧
      (TextMeets ⟨⟨st, es, c, templates⟩, false, s.ctx, KeptByText ⟨st, es, c, templates⟩ kids ems y⟩ kids ems ["$"] y own ∨
        ((∃ d, y = .map d ∧ ruleKind d = .conditional) ∧ WaivedAt es ["$", ".cond"])) := by
  obtain ⟨tr, own, h1, h2, h3, h4⟩ := C58_passing_area_is_satisfied c templates st es all spec a hload htidy (loadArea_real hload hreal) o ho s hs r ha hp
  rw [← h2] at h3
  obtain ⟨kids, ems, y, g1, g2⟩ := area_meets hload hnd h3
  exact ⟨tr, kids, ems, y, own, h1, h2, g1, h4, g2⟩

/-- **C67**, for areas reported as done or waived: the same, and what is still in progress is not needed. -/
theorem C67_complete_area_meets_its_text_finally (c : Constants) (templates : List (String × TemplateCourse)) (st : Student)
    (es : List Exc) (all : Bool) (spec : Dict) (a : Area) (hload : loadArea c templates st es all spec = .ok a)
    (htidy : TidyText st all spec) (hreal : RealText (.map spec)) (hnd : (st.courses.map (·.clbid)).Nodup)
    (o : Orders) (ho : o.Lawful) (s : AreaSolution) (hs : s ∈ (a.solutions o st es).items) (r : AreaResult)
    (ha : s.audit o a = .ok r) (hp : Complete r.status) :
    ∃ tr kids ems y own, (∀ k ∈ tr, k ∈ st.courses) ∧ s.ctx = areaCtx a st es tr ∧ AreaText st all spec kids ems y ∧
      ShownIn a.kind r.result own ∧
      (TextMeets ⟨⟨st, es, c, templates⟩, true, s.ctx, KeptByText ⟨st, es, c, templates⟩ kids ems y⟩ kids ems ["$"] y own ∨
        ((∃ d, y = .map d ∧ ruleKind d = .conditional) ∧ WaivedAt es ["$", ".cond"])) := by
  obtain ⟨tr, own, h1, h2, h3, h4⟩ :=
    C58_complete_area_is_satisfied_finally c templates st es all spec a hload htidy (loadArea_real hload hreal) o ho s hs r ha hp
  rw [← h2] at h3
  obtain ⟨kids, ems, y, g1, g2⟩ := area_meets hload hnd h3
  exact ⟨tr, kids, ems, y, own, h1, h2, g1, h4, g2⟩

/-! ### Non-trivial cases -/

mutual
/-- does the text use the key? -/
def Y.usesKey (k : String) : Y → Bool
  | .list l => Y.listUsesKey k l
  | .map d => Y.dictUsesKey k d
  | _ => false
/-- does one of the texts use the key? -/
def Y.listUsesKey (k : String) : List Y → Bool
  | [] => false
  | y :: ys => y.usesKey k || Y.listUsesKey k ys
/-- does one of the entries use the key? -/
def Y.dictUsesKey (k : String) : List (String × Y) → Bool
  | [] => false
  | (k', y) :: ys => k' == k || (y.usesKey k || Y.dictUsesKey k ys)
end

/-- A text without `$when` has no such condition. -/
theorem realText_of_unused {y : Y} (h : y.usesKey "$when" = false) : RealText y := by
  intro d yw ho hg
  exfalso
  induction ho with
  | here =>
    rw [Y.usesKey] at h
    have hm := get_mem hg
    clear hg
    induction d with
    | nil => cases hm
    | cons e rest ih =>
      obtain ⟨k, v⟩ := e
      simp only [Y.dictUsesKey, Bool.or_eq_false_iff, beq_eq_false_iff_ne] at h
      rcases List.mem_cons.1 hm with hm | hm
      · cases hm; exact h.1 rfl
      · exact ih h.2.2 hm
  | @entry e k y hm _ ih =>
    refine ih ?_
    rw [Y.usesKey] at h
    clear ih
    induction e with
    | nil => cases hm
    | cons a rest ih =>
      obtain ⟨k, v⟩ := a
      simp only [Y.dictUsesKey, Bool.or_eq_false_iff, beq_eq_false_iff_ne] at h
      rcases List.mem_cons.1 hm with hm | hm
      · cases hm; exact h.2.1
      · exact ih hm h.2.2
  | @item l y hm _ ih =>
    refine ih ?_
    rw [Y.usesKey] at h
    clear ih
    induction l with
    | nil => cases hm
    | cons a rest ih =>
      simp only [Y.listUsesKey, Bool.or_eq_false_iff] at h
      rcases List.mem_cons.1 hm with rfl | hm
      · exact h.1
      · exact ih hm h.2

/-- The concentration of C58, of which two audited solutions are complete, meets the other hypotheses. -/
example : RealText (.map satisfiedText) ∧ (sampleTaken.courses.map (·.clbid)).Nodup :=
  ⟨realText_of_unused (by decide), by decide⟩

/-- a query whose assertion has a condition -/
def whenElectives (condition : Y) : Y :=
  .map [("from", .str "courses"), ("all", .list [.map [("$when", condition),
     ("$then", .map [("count(courses)", .map [("$gte", .int 2)])])]])]

/-- The empty condition holds of no courses, and is not real. -/
example : ¬ RealText (whenElectives (.map [("$and", .list [])])) := by
  intro h
  refine h [("$when", .map [("$and", .list [])]), ("$then", .map [("count(courses)", .map [("$gte", .int 2)])])] _
    (.entry (k := "all") (List.mem_cons_of_mem _ List.mem_cons_self) (.item List.mem_cons_self .here)) rfl ?_
  exact .all (by simp)

/-- A condition on an attribute is. -/
example : RealText (whenElectives (.map [("query-has-course-with-attribute", .str "csci_elective")])) := by
  have hno : ∀ {e : Dict} {v : String}, ¬ Occurs e (.str v) := fun h => by cases h
  have hni : ∀ {e : Dict} {v : Int}, ¬ Occurs e (.int v) := fun h => by cases h
  intro d yw ho hg hh
  have hyw : yw = .map [("query-has-course-with-attribute", .str "csci_elective")] := by
    clear hh
    unfold whenElectives at ho
    cases ho with
    | here => simp [Dict.get?] at hg
    | entry hm ho =>
      simp only [List.mem_cons, Prod.mk.injEq, List.not_mem_nil, or_false] at hm
      rcases hm with ⟨_, rfl⟩ | ⟨_, rfl⟩
      · exact absurd ho hno
      · cases ho with
        | item hm ho =>
          cases List.mem_singleton.1 hm
          cases ho with
          | here => simpa [Dict.get?] using hg.symm
          | entry hm ho =>
            simp only [List.mem_cons, Prod.mk.injEq, List.not_mem_nil, or_false] at hm
            rcases hm with ⟨_, rfl⟩ | ⟨_, rfl⟩
            · cases ho with
              | here => simp [Dict.get?] at hg
              | entry hm ho => cases List.mem_singleton.1 hm; exact absurd ho hno
            · cases ho with
              | here => simp [Dict.get?] at hg
              | entry hm ho =>
                cases List.mem_singleton.1 hm
                cases ho with
                | here => simp [Dict.get?] at hg
                | entry hm ho => cases List.mem_singleton.1 hm; exact absurd ho hni
  cases hh with
  | all => simp at hyw
  | any => simp at hyw
  | has hk => cases hk
  | single h => simp at h

end Dp
