import Verif.Props.Tree
import Verif.Props.Transcript
import Verif.Props.Batch
import Verif.Props.Results
import Verif.Props.LoadFuel
import Verif.Props.QueryLimit

/-
Details of several properties: the status of a count rule's own conditions (C20), which classes bypass limits (C10), courses
of the spring of 2020 (C32), the conditions of conditionals (C35), what storing a result keeps (C40), and the catalogs of
queued audits (C42).
-/
namespace Dp

/-! ### C10: only forced classes bypass limits -/

/-- an exception puts the class in, past all limits -/
def IsForced (es : List Exc) (k : String) : Prop := ∃ e ∈ es, e.kind = .insertion k true

theorem mem_forcedClbids {es : List Exc} {k : String} : k ∈ forcedClbids es ↔ IsForced es k := by
  unfold forcedClbids IsForced
  rw [List.mem_dedup, List.mem_filterMap]
  refine exists_congr fun e => and_congr_right fun _ => ?_
  constructor
  · intro h
    split at h
    · rename_i k' hk; cases h; exact hk
    · cases h
  · intro h; rw [h]

/-- **C10/C09**, for areas loaded from any text: the different courses that a result counts and that no exception forces in
keep every whole-number course limit of the area, and a class that is not forced in is counted against every limit whose
filter it passes.  Partial: as in `C09_area_respects_its_course_limits_partial`, no query may look at failed courses. -/
theorem C10_only_forced_classes_bypass_limits_partial (c : Constants) (templates : List (String × TemplateCourse)) (st : Student)
    (es : List Exc) (all : Bool) (spec : Dict) (a : Area) (hload : loadArea c templates st es all spec = .ok a)
    (hfail : ∀ leaf ∈ a.result.leaves, leaf.wantsFailed = false) (o : Orders) (ho : o.Lawful)
    (s : AreaSolution) (hs : s ∈ (a.solutions o st es).items) (r : AreaResult) (ha : s.audit o a = .ok r)
    (l : Limit) (hlim : l ∈ a.limit) (hw : l.what = .courses) (n : Nat) (hn : l.atMost = n)
    (cs : List Course) (hcs : cs.Nodup) (hcl : ∀ d ∈ cs, d ∈ r.claims.map (·.course))
    (hnf : ∀ d ∈ cs, ¬ IsForced es d.clbid) (hmatch : ∀ d ∈ cs, l.where'.applyCourse d = .ok true) :
    cs.length ≤ n := by
  refine le_trans ?_ (C09_loaded_area_partial c templates st es all spec a hload hfail o ho s hs r ha l hlim hw n hn)
  refine (hcs.subperm fun d hd => List.mem_filter.2 ⟨List.mem_dedup.2 (hcl d hd), ?_⟩).length_le
  refine decide_eq_true ⟨fun h => hnf d hd (mem_forcedClbids.1 h), hmatch d hd⟩

open LimitText in
/-- With a limit of one course in computer science no result counts classes 1 and 2, unless an exception (at whatever
place) forces class 1 in. -/
example : (auditedClaims student [] (area [("limit", oneCs)] (query []))).map (·.map (·.map (·.1))) =
      some [["3"], ["1", "3"], ["2", "3"]] ∧
    (auditedClaims student [⟨["$"], .insertion "1" true⟩] (area [("limit", oneCs)] (query []))).map (·.map (·.map (·.1))) =
      some [["1", "3"], ["1", "2"], ["1", "3"], ["2", "3"], ["1", "2", "3"]] := by decide +kernel

/-! ### C20: the status of a count rule's own conditions -/

/-- **C20**, for the status that a count rule reports for its own conditions (the `audit` of the rule): it is 'failed' exactly
if one of the conditions failed for good; and if it is passing then all conditions are.  A waived rule's is 'waived'. -/
theorem C20_audit_status (d : CountData) :
    (d.overridden = true → countAuditStatus d = .waived) ∧
    (d.overridden = false →
      (countAuditStatus d = .failedInvariant ↔ ∃ a ∈ d.audits, a.status = .failedInvariant) ∧
      (Complete (countAuditStatus d) ↔ ∀ a ∈ d.audits, Complete a.status) ∧
      (Passes (countAuditStatus d) ↔ ∀ a ∈ d.audits, Passes a.status)) := by
  refine ⟨fun h => by simp [countAuditStatus, h], fun h => ?_⟩
  have m1 : (∃ a ∈ d.audits, a.status = .failedInvariant) ↔ .failedInvariant ∈ d.audits.map (·.status) := by simp
  have m2 : (∀ a ∈ d.audits, Complete a.status) ↔ ∀ s ∈ d.audits.map (·.status), Complete s := by simp
  have m3 : (∀ a ∈ d.audits, Passes a.status) ↔ ∀ s ∈ d.audits.map (·.status), Passes s := by simp
  rw [m1, m2, m3]
  unfold countAuditStatus
  rw [if_neg (by simp [h])]
  dsimp only
  generalize d.audits.map (·.status) = ss
  · split
    · rename_i s hs
      have hm : ∀ t, t ∈ ss ↔ t = s := by
        intro t
        rw [← List.mem_dedup, hs, List.mem_singleton]
      simp only [hm, forall_eq]
      exact ⟨eq_comm, trivial, trivial⟩
    · have hlt : ∀ s : Status, s.inWaivedOnly = true ↔ s = .waived := by intro s; cases s <;> simp [Status.inWaivedOnly]
      have hall : ∀ p : Status → Bool, ss.all p = true ↔ ∀ s ∈ ss, p s = true := fun p => by simp
      have hpass : ∀ s : Status, s.inWaivedDoneCurrentPending = true ↔ Passes s := by
        intro s
        cases s <;> simp [Status.inWaivedDoneCurrentPending, Passes]
      have hcomp : ∀ s : Status, s.inWaivedAndDone = true ↔ Complete s := wd_iff
      by_cases h1 : ss.contains .failedInvariant = true
      · rw [if_pos h1]
        have h1 : Status.failedInvariant ∈ ss := by simpa using h1
        refine ⟨by simpa using h1, ⟨fun h => ?_, fun h => ?_⟩, ⟨fun h => ?_, fun h => ?_⟩⟩
        · exact absurd h (by simp [Complete])
        · exact absurd (h _ h1) (by simp [Complete])
        · exact absurd h (by simp [Passes])
        · exact absurd (h _ h1) (by simp [Passes])
      rw [if_neg h1]
      have h1 : Status.failedInvariant ∉ ss := by simpa using h1
      by_cases h2 : ss.all (·.inWaivedOnly) = true
      · rw [if_pos h2]
        rw [hall] at h2
        have h2 : ∀ s ∈ ss, s = .waived := fun s hs => (hlt s).1 (h2 s hs)
        refine ⟨by simpa using h1, ⟨fun _ s hs => ?_, fun _ => ?_⟩, ⟨fun _ s hs => ?_, fun _ => ?_⟩⟩
        · rw [h2 s hs]; simp [Complete]
        · simp [Complete]
        · rw [h2 s hs]; simp [Passes]
        · simp [Passes]
      rw [if_neg h2]
      by_cases h3 : ss.all (·.inWaivedAndDone) = true
      · rw [if_pos h3]
        rw [hall] at h3
        have h3 : ∀ s ∈ ss, Complete s := fun s hs => (hcomp s).1 (h3 s hs)
        refine ⟨by simpa using h1, ⟨fun _ => h3, fun _ => by simp [Complete]⟩, ⟨fun _ s hs => ?_, fun _ => by simp [Passes]⟩⟩
        have := h3 s hs
        revert this
        cases s <;> simp [Complete, Passes]
      rw [if_neg h3]
      have h3 : ¬ ∀ s ∈ ss, Complete s := by
        intro h
        exact h3 ((hall _).2 fun s hs => (hcomp s).2 (h s hs))
      have hsub : ∀ s : Status, s.inWaivedDoneCurrent = true → s.inWaivedDoneCurrentPending = true := by
        intro s; cases s <;> simp [Status.inWaivedDoneCurrent, Status.inWaivedDoneCurrentPending]
      by_cases h4 : ss.all (·.inWaivedDoneCurrent) = true
      · rw [if_pos h4]
        rw [hall] at h4
        refine ⟨by simpa using h1, ⟨fun h => absurd h (by simp [Complete]), fun h => absurd h h3⟩,
          ⟨fun _ s hs => (hpass s).1 (hsub s (h4 s hs)), fun _ => by simp [Passes]⟩⟩
      rw [if_neg h4]
      by_cases h5 : ss.all (·.inWaivedDoneCurrentPending) = true
      · rw [if_pos h5]
        rw [hall] at h5
        refine ⟨by simpa using h1, ⟨fun h => absurd h (by simp [Complete]), fun h => absurd h h3⟩,
          ⟨fun _ s hs => (hpass s).1 (h5 s hs), fun _ => by simp [Passes]⟩⟩
      rw [if_neg h5]
      have h5 : ¬ ∀ s ∈ ss, Passes s := by
        intro h
        exact h5 ((hall _).2 fun s hs => (hpass s).2 (h s hs))
      split
      · refine ⟨by simpa using h1, ⟨fun h => absurd h (by simp [Complete]), fun h => absurd h h3⟩,
          ⟨fun h => absurd h (by simp [Passes]), fun h => absurd h h5⟩⟩
      · refine ⟨by simpa using h1, ⟨fun h => absurd h (by simp [Complete]), fun h => absurd h h3⟩,
          ⟨fun h => absurd h (by simp [Passes]), fun h => absurd h h5⟩⟩

/-- one condition met and one not met yet: neither failed nor passing; met and failed: failed -/
example :
    let cond (s : Status) : AnyAssertion := .single { path := [], key := "count(courses)", op := .gte, expected := 1, state := s }
    countAuditStatus { path := [], count := 1, audits := [cond .done, cond .needsMoreItems] } = .needsMoreItems ∧
    countAuditStatus { path := [], count := 1, audits := [cond .done, cond .failedInvariant] } = .failedInvariant ∧
    countAuditStatus { path := [], count := 1, audits := [cond .done, cond .pendingCurrent] } = .pendingCurrent := by
  decide

/-! ### C32: the spring of 2020 -/

/-- **C32.**  A course (of a four-digit year) is flagged as taken during the special spring exactly if it is of term 3 of the
academic year 2019. -/
theorem C32_special_term (current : Option String) (ov : List Override) (table : CreditTable) (r : Row)
    (h1 : 1000 ≤ r.year) (h2 : r.year ≤ 9999) :
    (loadCourse current ov table r).isDuringCovid = true ↔ r.year = 2019 ∧ r.term = "3" := by
  simp only [loadCourse, beq_iff_eq]
  unfold Row.yearterm
  constructor
  · intro h
    have h := congrArg String.toList h
    rw [String.toList_append, year_digits r.year h1 h2] at h
    have h3 : ("20193" : String).toList = [(2 : Nat).digitChar, (0 : Nat).digitChar, (1 : Nat).digitChar,
      (9 : Nat).digitChar, '3'] := by decide
    rw [h3] at h
    simp only [List.cons_append, List.nil_append, List.cons.injEq] at h
    obtain ⟨g1, g2, g3, g4, g5⟩ := h
    have e1 := ((digitChar_lt _ (by omega) _ (by omega)).2).1 g1
    have e2 := ((digitChar_lt _ (by omega) _ (by omega)).2).1 g2
    have e3 := ((digitChar_lt _ (by omega) _ (by omega)).2).1 g3
    have e4 := ((digitChar_lt _ (by omega) _ (by omega)).2).1 g4
    refine ⟨by omega, ?_⟩
    rw [← String.toList_inj, g5]
    decide
  · rintro ⟨e1, e2⟩
    rw [e1, e2]
    decide

/-- the spring of the academic year 2019, and the fall of it -/
example : (loadCourse none [] [] { clbid := "1", gradeCode := .S, year := 2019, term := "3" }).isDuringCovid = true ∧
    (loadCourse none [] [] { clbid := "1", gradeCode := .S, year := 2019, term := "1" }).isDuringCovid = false := by
  decide +kernel

/-! ### C35: the conditions of conditionals -/

/-- what the conditions ask about a student -/
inductive FactHolds (x : Ctx) (es : List Exc) : String → String → Prop
  | declared {a : AreaPointer} : a ∈ x.areas → FactHolds x es "has-declared-area-code" a.code
  | hasCourse {c : Course} : c ∈ x.transcript → c.isStolaf = true → FactHolds x es "has-course" c.identity
  | inProgress {c : Course} : c ∈ x.transcript → c.isStolaf = true → c.isInProgress = true →
      FactHolds x es "has-ip-course" c.identity
  | completed {c : Course} : c ∈ x.transcript → c.isStolaf = true → c.isInProgress = false →
      FactHolds x es "has-completed-course" c.identity
  | attribute {c : Course} {v : String} : c ∈ x.transcript → c.isStolaf = true → v ∈ c.attributes →
      FactHolds x es "student-has-course-with-attribute" v
  | exam {v : String} : x.proficiencies.lookup v = .ok .exam → FactHolds x es "passed-proficiency-exam" v
  | override {e : Exc} {v : String} : e ∈ es → e.path = [v] → e.kind = .override → FactHolds x es "has-override-exception" v

/-- `Decides x es y b`: the condition `y`, as it is written, has the value `b` for the student -/
inductive Decides (x : Ctx) (es : List Exc) : Y → Bool → Prop
  | fact {k s : String} : FactHolds x es k s → Decides x es (.map [(k, .str s)]) true
  | noFact {k s : String} : ¬ FactHolds x es k s → Decides x es (.map [(k, .str s)]) false
  | all {l : List Y} : (∀ y ∈ l, Decides x es y true) → Decides x es (.map [("$and", .list l)]) true
  | notAll {l : List Y} {y : Y} : y ∈ l → Decides x es y false → Decides x es (.map [("$and", .list l)]) false
  | any {l : List Y} {y : Y} : y ∈ l → Decides x es y true → Decides x es (.map [("$or", .list l)]) true
  | none {l : List Y} : (∀ y ∈ l, Decides x es y false) → Decides x es (.map [("$or", .list l)]) false
  | not {y : Y} {b : Bool} : Decides x es y b → Decides x es (.map [("$not", y)]) (!b)

theorem filter_identity {c : Course} {name : String} {ip : Option Bool} :
    CourseFilter.matches { course := some name, inProgress := ip } c = true ↔
      c.isStolaf = true ∧ c.identity = name ∧ (∀ b, ip = some b → c.isInProgress = b) := by
  unfold CourseFilter.matches
  simp only [if_false_iff]
  cases ip with
  | none => simp
  | some b =>
    simp only [Option.some.injEq, forall_eq']
    cases b <;> simp

theorem filter_attribute {c : Course} {v : String} :
    CourseFilter.matches { attr := some v } c = true ↔ c.isStolaf = true ∧ v ∈ c.attributes := by
  unfold CourseFilter.matches
  simp only [if_false_iff]
  simp

theorem fact_decides {x : Ctx} {es : List Exc} (hx : x.exceptions = groupExceptions es) {k s : String} {b : Bool}
    (h : x.fact k s = .ok b) : b = true ↔ FactHolds x es k s := by
  unfold Ctx.fact at h
  simp only [beq_iff_eq] at h
  by_cases k1 : k = "has-declared-area-code"
  · rw [if_pos k1] at h
    cases h; subst k1
    simp only [List.any_eq_true, beq_iff_eq]
    constructor
    · rintro ⟨a, ha, rfl⟩; exact .declared ha
    · generalize hk : "has-declared-area-code" = k
      intro h; cases h <;> first | exact absurd hk (by decide) | exact ⟨_, by assumption, rfl⟩
  rw [if_neg k1] at h
  by_cases k2 : k = "has-course"
  · rw [if_pos k2] at h
    cases h; subst k2
    simp only [List.any_eq_true, filter_identity]
    constructor
    · rintro ⟨a, ha, h1, rfl, _⟩; exact .hasCourse ha h1
    · generalize hk : "has-course" = k
      intro h; cases h <;> first | exact absurd hk (by decide) | exact ⟨_, by assumption, by assumption, rfl, by simp⟩
  rw [if_neg k2] at h
  by_cases k3 : k = "has-ip-course"
  · rw [if_pos k3] at h
    cases h; subst k3
    simp only [List.any_eq_true, filter_identity]
    constructor
    · rintro ⟨a, ha, h1, rfl, h2⟩; exact .inProgress ha h1 (h2 _ rfl)
    · generalize hk : "has-ip-course" = k
      intro h; cases h <;> first | exact absurd hk (by decide) | exact ⟨_, by assumption, by assumption, rfl, by simpa using by assumption⟩
  rw [if_neg k3] at h
  by_cases k4 : k = "has-completed-course"
  · rw [if_pos k4] at h
    cases h; subst k4
    simp only [List.any_eq_true, filter_identity]
    constructor
    · rintro ⟨a, ha, h1, rfl, h2⟩; exact .completed ha h1 (h2 _ rfl)
    · generalize hk : "has-completed-course" = k
      intro h; cases h <;> first | exact absurd hk (by decide) | exact ⟨_, by assumption, by assumption, rfl, by simpa using by assumption⟩
  rw [if_neg k4] at h
  by_cases k5 : k = "student-has-course-with-attribute"
  · rw [if_pos k5] at h
    cases h; subst k5
    simp only [List.any_eq_true, filter_attribute]
    constructor
    · rintro ⟨a, ha, h1, h2⟩; exact .attribute ha h1 h2
    · generalize hk : "student-has-course-with-attribute" = k
      intro h; cases h <;> first | exact absurd hk (by decide) | exact ⟨_, by assumption, by assumption, by assumption⟩
  rw [if_neg k5] at h
  by_cases k6 : k = "passed-proficiency-exam"
  · rw [if_pos k6] at h
    subst k6
    unfold Proficiencies.passedExam Proficiencies.status at h
    have : b = true ↔ x.proficiencies.lookup s = .ok .exam := by
      cases hl : x.proficiencies.lookup s with
      | error e => rw [hl] at h; cases h
      | ok p =>
        rw [hl] at h
        simp only [if_true] at h
        cases h
        cases p <;> simp
    rw [this]
    constructor
    · intro h; exact .exam h
    · generalize hk : "passed-proficiency-exam" = k
      intro h; cases h <;> first | exact absurd hk (by decide) | assumption
  rw [if_neg k6] at h
  by_cases k7 : k = "has-override-exception"
  · rw [if_pos k7] at h
    cases h; subst k7
    unfold hasWaiveForConditional
    rw [hx, getWaive_isSome]
    constructor
    · rintro ⟨e, he, h1, h2⟩; exact .override he h1 h2
    · generalize hk : "has-override-exception" = k
      intro h; cases h <;> first | exact absurd hk (by decide) | exact ⟨_, by assumption, by assumption, by assumption⟩
  rw [if_neg k7] at h
  cases h

theorem all_decided {x : Ctx} {es : List Exc} {l : List Y} {bs : List Bool} (h : List.Forall₂ (Decides x es) l bs) :
    Decides x es (.map [("$and", .list l)]) (bs.all id) := by
  suffices hs : (bs.all id = true → ∀ y ∈ l, Decides x es y true) ∧
      (bs.all id = false → ∃ y ∈ l, Decides x es y false) by
    cases hb : bs.all id with
    | true => exact .all (hs.1 hb)
    | false => obtain ⟨y, hy, hd⟩ := hs.2 hb; exact .notAll hy hd
  induction h with
  | nil => simp
  | @cons y b l bs hd _ ih =>
    cases b with
    | true =>
      simp only [List.all_cons, id, Bool.true_and, List.mem_cons, forall_eq_or_imp, exists_eq_or_imp]
      exact ⟨fun hb => ⟨hd, ih.1 hb⟩, fun hb => .inr (ih.2 hb)⟩
    | false =>
      simp only [List.all_cons, id, Bool.false_and, List.mem_cons, exists_eq_or_imp]
      exact ⟨fun hb => (nomatch hb), fun _ => .inl hd⟩

theorem any_decided {x : Ctx} {es : List Exc} {l : List Y} {bs : List Bool} (h : List.Forall₂ (Decides x es) l bs) :
    Decides x es (.map [("$or", .list l)]) (bs.any id) := by
  suffices hs : (bs.any id = false → ∀ y ∈ l, Decides x es y false) ∧
      (bs.any id = true → ∃ y ∈ l, Decides x es y true) by
    cases hb : bs.any id with
    | false => exact .none (hs.1 hb)
    | true => obtain ⟨y, hy, hd⟩ := hs.2 hb; exact .any hy hd
  induction h with
  | nil => simp
  | @cons y b l bs hd _ ih =>
    cases b with
    | false =>
      simp only [List.any_cons, id, Bool.false_or, List.mem_cons, forall_eq_or_imp, exists_eq_or_imp]
      exact ⟨fun hb => ⟨hd, ih.1 hb⟩, fun hb => .inr (ih.2 hb)⟩
    | true =>
      simp only [List.any_cons, id, Bool.true_or, List.mem_cons, exists_eq_or_imp]
      exact ⟨fun hb => (nomatch hb), fun _ => .inl hd⟩

mutual
theorem cond_decides {x : Ctx} {es : List Exc} (hx : x.exceptions = groupExceptions es) :
    (y : Y) → (b : Bool) → loadCond x y = .ok b → Decides x es y b
  | .map [(k, .list l)], b, h => by
    rw [loadCond] at h
    simp only [beq_iff_eq] at h
    by_cases k1 : k = "$and"
    · subst k1
      rw [if_pos rfl, ld_bind_ok] at h
      obtain ⟨bs, hbs, h⟩ := h
      have := conds_decide hx l bs hbs
      cases h
      exact all_decided this
    rw [if_neg k1] at h
    by_cases k2 : k = "$or"
    · subst k2
      rw [if_pos rfl, ld_bind_ok] at h
      obtain ⟨bs, hbs, h⟩ := h
      have := conds_decide hx l bs hbs
      cases h
      exact any_decided this
    rw [if_neg k2] at h
    cases h
  | .map [(k, .str s)], b, h => by
    rw [loadCond] at h
    have := fact_decides hx h
    cases b with
    | true => exact .fact (this.1 rfl)
    | false => exact .noFact (fun hf => nomatch this.2 hf)
  | .map [(k, .map v)], b, h => by
    rw [loadCond] at h
    · simp only [beq_iff_eq] at h
      by_cases k1 : k = "$not"
      · subst k1
        rw [if_pos rfl, ld_bind_ok] at h
        obtain ⟨b', hb, h⟩ := h
        cases h
        exact .not (cond_decides hx (.map v) b' hb)
      · rw [if_neg k1] at h; cases h
    all_goals simp
  | .map [(k, .bool v)], b, h => by
    rw [loadCond] at h
    · simp only [beq_iff_eq] at h
      by_cases k1 : k = "$not"
      · subst k1
        rw [if_pos rfl, ld_bind_ok] at h
        obtain ⟨b', hb, h⟩ := h
        cases h
        exact .not (cond_decides hx (.bool v) b' hb)
      · rw [if_neg k1] at h; cases h
    all_goals simp
  | .map [(k, .int v)], b, h => by
    rw [loadCond] at h
    · simp only [beq_iff_eq] at h
      by_cases k1 : k = "$not"
      · subst k1
        rw [if_pos rfl, ld_bind_ok] at h
        obtain ⟨b', hb, h⟩ := h
        cases h
        exact .not (cond_decides hx (.int v) b' hb)
      · rw [if_neg k1] at h; cases h
    all_goals simp
  | .map [(k, .float v)], b, h => by
    rw [loadCond] at h
    · simp only [beq_iff_eq] at h
      by_cases k1 : k = "$not"
      · subst k1
        rw [if_pos rfl, ld_bind_ok] at h
        obtain ⟨b', hb, h⟩ := h
        cases h
        exact .not (cond_decides hx (.float v) b' hb)
      · rw [if_neg k1] at h; cases h
    all_goals simp
  | .map [(k, .null)], b, h => by
    rw [loadCond] at h
    · simp only [beq_iff_eq] at h
      by_cases k1 : k = "$not"
      · subst k1
        rw [if_pos rfl, ld_bind_ok] at h
        obtain ⟨b', hb, h⟩ := h
        cases h
        exact .not (cond_decides hx .null b' hb)
      · rw [if_neg k1] at h; cases h
    all_goals simp
  | .map [], b, h => by rw [loadCond] at h <;> simp_all
  | .map (_ :: _ :: _), b, h => by rw [loadCond] at h <;> simp_all
  | .null, b, h => by rw [loadCond] at h <;> simp_all
  | .bool _, b, h => by rw [loadCond] at h <;> simp_all
  | .int _, b, h => by rw [loadCond] at h <;> simp_all
  | .float _, b, h => by rw [loadCond] at h <;> simp_all
  | .str _, b, h => by rw [loadCond] at h <;> simp_all
  | .list _, b, h => by rw [loadCond] at h <;> simp_all
theorem conds_decide {x : Ctx} {es : List Exc} (hx : x.exceptions = groupExceptions es) :
    (l : List Y) → (bs : List Bool) → loadConds x l = .ok bs → List.Forall₂ (Decides x es) l bs
  | [], bs, h => by rw [loadConds] at h; cases h; exact .nil
  | y :: ys, bs, h => by
    rw [loadConds] at h
    simp only [ld_bind_ok] at h
    obtain ⟨b, hb, bs', hbs, h⟩ := h
    cases h
    exact .cons (cond_decides hx y b hb) (conds_decide hx ys bs' hbs)
end

/-- a condition has at most one value, so `Decides` says all there is to say -/
theorem decides_unique {x : Ctx} {es : List Exc} {y : Y} {b c : Bool} (h : Decides x es y b)
    (h' : Decides x es y c) : b = c := by
  induction h generalizing c with
  | @fact k s hf => cases h' with
    | fact _ => rfl
    | noFact hn => exact absurd hf hn
    | not hd => cases hd
  | @noFact k s hn => cases h' with
    | fact hf => exact absurd hf hn
    | noFact _ => rfl
    | not hd => cases hd
  | @all l _ ih =>
    generalize hk : "$and" = k at h'
    cases h' with
    | all _ => rfl
    | notAll hy hd => exact ih _ hy hd
    | _ => exact absurd hk (by decide)
  | @notAll l y hy _ ih =>
    generalize hk : "$and" = k at h'
    cases h' with
    | all hall => exact ih (hall _ hy)
    | notAll _ _ => rfl
    | _ => exact absurd hk (by decide)
  | @any l y hy _ ih =>
    generalize hk : "$or" = k at h'
    cases h' with
    | any _ _ => rfl
    | none hall => exact ih (hall _ hy)
    | _ => exact absurd hk (by decide)
  | @none l _ ih =>
    generalize hk : "$or" = k at h'
    cases h' with
    | any hy hd => exact ih _ hy hd
    | none _ => rfl
    | _ => exact absurd hk (by decide)
  | @not y b _ ih =>
    generalize hk : "$not" = k at h'
    cases h' with
    | fact hf => cases ‹Decides x es (.str _) _›
    | noFact hf => cases ‹Decides x es (.str _) _›
    | not hd => rw [ih hd]
    | _ => exact absurd hk (by decide)

/-- **C35 (what a condition is)**: whenever the condition of a conditional can be read, the value by which the branch
is chosen is the value the condition has for this student: the conjunctions, disjunctions and negations it is
written with, over what the record of the student shows. -/
theorem C35_conditions {x : Ctx} {es : List Exc} (hx : x.exceptions = groupExceptions es) {y : Y} {b : Bool}
    (h : loadCond x y = .ok b) : Decides x es y b :=
  cond_decides hx y b h

/-- **C35**, for rules read from a text: whatever way the parts of a conditional are read, the rule read from it takes its
`then` part if the condition holds for the student and its `else` part if not; there is no rule only if the condition does
not hold, the text asks to hide the rule then, and no exception waives it. -/
theorem C35_read_from_text {x : Ctx} {es : List Exc} (hx : x.exceptions = groupExceptions es) {load : Loader}
    {children d : Dict} {path : Path} {r : Option Node} (h : loadConditional x load children d path = .ok r) :
    ∃ cond b, d.get? "$if" = some cond ∧ Decides x es cond b ∧
      (∀ n, r = some n → ∃ data t f thenPart, n = .cond .rule data t f ∧ data.condition = some b ∧
          d.get? "$then" = some thenPart ∧ load children (path ++ [".cond", "/t"]) thenPart = .ok (some t) ∧
          (∀ elsePart, d.opt "$else" = some elsePart → load children (path ++ [".cond", "/f"]) elsePart = .ok f) ∧
          (d.opt "$else" = none → f = none)) ∧
      (r = none → b = false ∧ d.opt "$hide-when-false" = some (.bool true) ∧
          ¬ ∃ e ∈ es, e.path = path ++ [".cond"] ∧ e.kind = .override) := by
  unfold loadConditional at h
  simp only [ld_bind_ok, ld_need] at h
  obtain ⟨_, _, cond, hcond, b, hb, thenPart, hthen, t, ht, h⟩ := h
  cases t with
  | none => cases h
  | some t =>
    simp only [ld_bind_ok] at h
    obtain ⟨f, hf, hide, hhide, h⟩ := h
    refine ⟨cond, b, hcond, cond_decides hx cond b hb, ?_⟩
    simp only [Except.ok.injEq] at h
    rw [← h]
    refine ⟨fun n hn => ?_, fun hn => ?_⟩
    · split at hn
      · cases hn
      · cases hn
        refine ⟨_, t, f, thenPart, rfl, rfl, hthen, ?_, ?_, ?_⟩
        · simpa using ht
        · intro e he; rw [he] at hf; simpa using hf
        · intro he; rw [he] at hf; cases hf; rfl
    · split at hn
      · rename_i hc
        simp only [Bool.and_eq_true, Bool.not_eq_true'] at hc
        refine ⟨hc.1.2, ?_, ?_⟩
        · rw [hc.2] at hhide
          unfold Dict.flag at hhide
          unfold Dict.opt
          split at hhide
          · cases hhide
          · rename_i hg; cases hhide; rw [hg]
          · cases hhide
        · rintro ⟨e, he, h1, h2⟩
          have : (getWaiveException x.exceptions (path ++ [".cond"])).isSome = true := by
            rw [hx, getWaive_isSome]; exact ⟨e, he, h1, h2⟩
          rw [this] at hc
          exact absurd hc.1.1 (by simp)
      · cases hn

/-- a condition with a conjunction and a negation, of a student with a finished class and one in progress -/
def conditionCtx : Ctx :=
  { transcript := [mkIdentity "1" "MUSIC 212" false, mkIdentity "2" "MUSIC 214" true], areas := [{ code := "140" }],
    exceptions := groupExceptions [⟨["$exam"], .override⟩] }
where mkIdentity (clbid identity : String) (ip : Bool) : Course :=
  { clbid := clbid, identity := identity, isInProgress := ip, isStolaf := true }

example : loadCond conditionCtx (.map [("$and", .list [.map [("has-course", .str "MUSIC 214")],
      .map [("$not", .map [("has-completed-course", .str "MUSIC 214")])],
      .map [("$or", .list [.map [("has-declared-area-code", .str "150")],
        .map [("has-override-exception", .str "$exam")]])]])]) = .ok true := by
  decide +kernel

/-! ### C40: what storing a result keeps -/

/-- **C40.**  Storing a result that is not link-only removes exactly the earlier results of the same student, catalog and
area with the same text; it changes nothing about the others, except that those of the same student and area are active no
more; and it adds one result, which is active and has the text. -/
theorem C40_what_storing_keeps (q : QueueRow) (text : String) (id : Nat) (now : Int) (hl : q.linkOnly = false)
    (rs : List ResultRow) :
    ∃ kept new, storeResult q text id now rs = kept ++ [new] ∧
      new.student = q.student ∧ new.catalog = q.catalog ∧ new.code = q.code ∧ new.result = text ∧ new.active = true ∧
      (∀ r ∈ rs, ¬ (r.student = q.student ∧ r.catalog = q.catalog ∧ r.code = q.code ∧ r.result = text) →
        (if r.student = q.student ∧ r.code = q.code then { r with active := false } else r) ∈ kept) ∧
      (∀ r' ∈ kept, ∃ r ∈ rs, ¬ (r.student = q.student ∧ r.catalog = q.catalog ∧ r.code = q.code ∧ r.result = text) ∧
        r' = (if r.student = q.student ∧ r.code = q.code then { r with active := false } else r)) := by
  have hdup : ∀ r : ResultRow, isSame q text r = true ↔
      (r.student = q.student ∧ r.catalog = q.catalog ∧ r.code = q.code ∧ r.result = text) := by
    intro r
    simp [isSame, and_assoc]
  have hact : ∀ r : ResultRow, (if isActiveOf q r then { r with active := false } else r) =
      (if r.student = q.student ∧ r.code = q.code then { r with active := false } else r) := by
    intro r
    unfold isActiveOf
    by_cases h1 : r.student = q.student
    · by_cases h2 : r.code = q.code
      · cases h3 : r.active with
        | true => simp [h1, h2]
        | false =>
          rw [if_neg (by simp), if_pos ⟨h1, h2⟩, ← h3]
      · simp [h2]
    · simp [h1]
  unfold storeResult stmtsFor
  rw [hl]
  simp only [Bool.false_eq_true, if_false, List.foldl_cons, List.foldl_nil, runStmt]
  refine ⟨_, _, rfl, rfl, rfl, rfl, rfl, by simp [newRow, hl], ?_, ?_⟩
  · intro r hr hn
    refine List.mem_map.2 ⟨r, List.mem_filter.2 ⟨hr, ?_⟩, hact r⟩
    simpa using fun h => hn ((hdup r).1 h)
  · intro r' hr'
    obtain ⟨r, hr, rfl⟩ := List.mem_map.1 hr'
    obtain ⟨hr, hn⟩ := List.mem_filter.1 hr
    refine ⟨r, hr, fun h => ?_, hact r⟩
    rw [(hdup r).2 h] at hn
    cases hn

/-- an earlier result with the same text goes, one with another text is kept but is active no more, that of another
student stays as it is -/
example : (storeResult ⟨9, 1, 0, "1", "2018-19", "math", none, false⟩ "b" 9 4
      [⟨0, "1", "2018-19", "math", "b", 1, none, false, false, 1, 0⟩, ⟨1, "1", "2018-19", "math", "a", 2, none, false, true, 2, 1⟩,
        ⟨2, "2", "2018-19", "math", "b", 3, none, false, true, 3, 2⟩]).map (fun r => (r.student, r.result, r.active)) =
    [("1", "a", false), ("2", "b", true), ("1", "b", true)] := by
  decide

/-! ### C42: the catalogs of queued audits -/

/-- the year of the catalog in which a student has declared the area, of two areas with one code the later one: the
student's own if the area tells none -/
def DeclaredIn (st : Fetched) (code : String) (y : Int) : Prop :=
  ∃ before a after, st.areas = before ++ a :: after ∧ a.code = code ∧ (∀ b ∈ after, b.code ≠ code) ∧
    (a.catalog = some (.year y) ∨ (a.catalog = none ∧ st.catalog = .year y))

/-- **C42.**  Every item that a student gives asks for the audit of an area that the student has declared, in the catalog of
that declaration: `2019` is written `2019-20`. -/
theorem C42_catalogs {order : List String → List String} (horder : ∀ l, (order l).Perm l) (st : Fetched)
    (item : String × String × String) (h : item ∈ (expandStudent order st).1) :
    item.1 = st.stnum ∧ (∃ a ∈ st.areas, a.kind ≠ "emphasis" ∧ a.code = item.2.2) ∧
    ∃ y, DeclaredIn st item.2.2 y ∧ item.2.1 = toString y ++ "-" ++ String.ofList ((toString (y + 1)).toList.drop 2) := by
  unfold expandStudent at h
  split at h
  · rename_i year hy
    have key : ∀ codes : List String, item ∈ (expandLoop st year codes).1 →
        item.1 = st.stnum ∧ item.2.2 ∈ codes ∧ ∃ y, st.yearOf year item.2.2 = some y ∧ item.2.1 = catalogYears y := by
      intro codes
      induction codes with
      | nil => simp [expandLoop]
      | cons c cs ih =>
        intro hi
        unfold expandLoop at hi
        split at hi
        · simp at hi
        · rename_i y hyo
          rcases List.mem_cons.1 hi with rfl | hi
          · exact ⟨rfl, by simp, y, hyo, rfl⟩
          · obtain ⟨h1, h2, h3⟩ := ih hi
            exact ⟨h1, by simp [h2], h3⟩
    obtain ⟨h1, h2, y, h3, h4⟩ := key _ h
    have hcode := (Fetched.codes_mem _ _).1 ((horder _).mem_iff.1 h2)
    refine ⟨h1, hcode, y, ?_, h4⟩
    obtain ⟨a0, ha0, _, hc0⟩ := hcode
    unfold Fetched.yearOf Fetched.area? at h3
    cases hf : st.areas.reverse.find? (fun a => a.code == item.2.2) with
    | none =>
      exfalso
      rw [List.find?_eq_none] at hf
      exact hf a0 (by simpa using ha0) (by simpa using hc0)
    | some a =>
      rw [hf] at h3
      simp only [Option.bind_some] at h3
      rw [List.find?_eq_some_iff_append] at hf
      obtain ⟨hac, as, bs, hsplit, hno⟩ := hf
      have hsplit' : st.areas = bs.reverse ++ a :: as.reverse := by
        have := congrArg List.reverse hsplit
        simpa using this
      refine ⟨bs.reverse, a, as.reverse, hsplit', by simpa using hac, ?_, ?_⟩
      · intro b hb
        have := hno b (by simpa using hb)
        simpa using this
      · cases hcat : a.catalog with
        | none => rw [hcat] at h3; cases h3; exact Or.inr ⟨rfl, hy⟩
        | some f =>
          rw [hcat] at h3
          cases f with
          | year y' => cases h3; exact Or.inl rfl
          | text => cases h3
          | other => cases h3
  · simp at h
  · simp at h

/-- a student of 2019 with a major declared in 2021 and a concentration without a catalog of its own -/
example : (expandStudent id ⟨"1", .year 2019, [⟨"100", "major", some (.year 2021)⟩, ⟨"200", "concentration", none⟩]⟩).1 =
    [("1", "2021-22", "100"), ("1", "2019-20", "200")] := by
  decide +kernel

end Dp
