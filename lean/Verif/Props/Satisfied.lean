import Verif.Props.Fresh
import Verif.Props.States
import Verif.Props.Outcome
import Verif.Props.QueryLimit

/-
What it means that a degree rule is satisfied, and that a passing area satisfies its rule (C58).
-/
namespace Dp

/-! ### Specification -/

/-- the status asked for: `final` leaves out what is still in progress -/
def Enough (final : Bool) (s : Status) : Prop := if final then Complete s else Passes s

/-- `m` is what the filter selects from `l` -/
def SelectsItems (w : Option Pred) (l m : List Item) : Prop :=
  match w with
  | none => m = l
  | some p => ∃ f : Item → Bool, (∀ i ∈ l, p.apply i.applyLeaf = .ok (f i)) ∧ m = l.filter f

/-- the number that an assertion's key stands for, for records of any kind -/
inductive MeasuresItems : String → List Item → Rat → Prop where
  | courses {key : String} {cs : List Course} {v : Rat} : Measures key cs v → MeasuresItems key (cs.map .course) v
  | areas (as : List AreaPointer) : MeasuresItems "count(areas)" (as.map .area) (different (as.map (·.code)))
  | items (is : List Item) : MeasuresItems "count(items)" is (different is)
  | music {key : String} {is : List Item} {ids : List String} : key = "count(performances)" ∨ key = "count(recitals)" →
      List.Forall₂ (fun i k => ∃ m, (i = .performance m ∨ i = .attendance m) ∧ m.id = k) is ids →
      MeasuresItems key is (different ids)

/-- The comparison an assertion makes holds of the records: its filter selects from them, exceptions at its path add to
and take from these, and what is measured compares with the expected number as written.  If it is to hold finally, the
courses not in progress meet it alone, unless the assertion lets courses in progress pass. -/
def MetOn (final : Bool) (x : Ctx) (es : List Exc) (a : Assertion) (is : List Item) : Prop :=
  ∃ sel m v, SelectsItems a.where' is sel ∧ MeasuredOn x es a.path sel m ∧ MeasuresItems a.key m v ∧
    NumHolds a.op v a.expected ∧
    (final = true → a.treatInProgressAsPass = false → ∀ cs : List Course, m = cs.map .course → a.dataType = .course →
      (∀ c ∈ cs, 0 ≤ c.credits) → a.key ∉ mostCommonKeys →
      ∃ w, Measures a.key (Completed cs) w ∧ NumHolds a.op w a.expected)

/-- the assertion that a (conditional) assertion makes about the records -/
inductive AsksOf (is : List Item) : AnyAssertion → Assertion → Prop where
  | single (a : Assertion) : AsksOf is (.single a) a
  | thenPart (t : Assertion) (f : Option Assertion) : AsksOf is (.cond (some true) t f) t
  | elsePart (t f : Assertion) : AsksOf is (.cond (some false) t (some f)) f
  | whenPart (c : DynCond) (r : Option Bool) (t : Assertion) (cs : List Course) : is = cs.map .course → c.Holds cs →
      AsksOf is (.dyn c r t) t

/-- everything the assertions ask of the records is waived or met -/
def AllMet (final : Bool) (x : Ctx) (es : List Exc) (bs : List AnyAssertion) (is : List Item) : Prop :=
  ∀ b ∈ bs, ∀ a, AsksOf is b a → WaivedAt es a.path ∨ MetOn final x es a is

/-- an exception inserts the course at the path, and it is not excluded there -/
def InsertedInto (x : Ctx) (es : List Exc) (p : Path) (excluded : List String) (c : Course) : Prop :=
  c.clbid ∉ excluded ∧ ∃ e ∈ es, e.path = p ∧ ∃ k forced, e.kind = .insertion k forced ∧ x.forcedCourseByClbid k = .ok c

/-- the records that a query looks through -/
inductive Examines (x : Ctx) (d : QueryData) : List Item → Prop where
  | courses : d.source = .courses → d.includeFailed = false →
      Examines x d ((x.transcript.filter (fun c => !d.excluded.contains c.clbid)).map .course)
  | failedToo : d.source = .courses → d.includeFailed = true →
      Examines x d ((x.withFailed.filter (fun c => !d.excluded.contains c.clbid)).map .course)
  | claimed (cs : List Course) : d.source = .claimed → (∀ c ∈ cs, c ∈ x.transcript ∧ c.clbid ∉ d.excluded) →
      Examines x d (cs.map .course)
  | areas : d.source = .areas → Examines x d (x.areas.map .area)
  | performances : d.source = .musicPerformances → Examines x d (x.performances.map .performance)
  | attendances : d.source = .musicAttendances → Examines x d (x.attendances.map .attendance)

/-- `items` is what a query counted: records its filter selects and courses that exceptions insert at its path, nothing
more often than it is there.  A query that does not choose counts all of these.  Of courses, what is counted is what its
result reports. -/
structure Considers (x : Ctx) (es : List Exc) (d : QueryData) (r : Node) (items : List Item) : Prop where
  found : ∃ recs sel ins, Examines x d recs ∧ SelectsItems d.where' recs sel ∧ items.Subperm (sel ++ ins.map .course) ∧
    (∀ c ∈ ins, InsertedInto x es d.path d.excluded c) ∧
    ins.length ≤ (es.filter (fun e => e.isInsertion && e.path == d.path)).length ∧
    (d.source ≠ .courses → d.source ≠ .claimed → ins = []) ∧
    (d.source ≠ .courses ∨ (d.attemptClaims = false ∧ d.limit = []) → items.Perm (sel ++ ins.map .course))
  reported : d.ReportsCourses → items = r.courses.map .course

/-- `Satisfied final x es n r`: the loaded rule `n` is satisfied, and `r` is the result showing how.  `x` is the student's
record, `es` are the exceptions. -/
inductive Satisfied (final : Bool) (x : Ctx) (es : List Exc) : Node → Node → Prop where
  /-- an exception waives the rule; conditionals cannot be waived -/
  | waived {n r : Node} : WaivedAt es n.path → (∀ s d t f, n ≠ .cond s d t f) → Satisfied final x es n r
  /-- the one course asked for -/
  | course {s : Stage} {d : CourseData} {r : Node} (c : Course) : r.claims = [⟨c, d.path, false⟩] →
      (CourseEntitled x d c ∧ (final = true → c.isInProgress = false)) ∨ InsertedInto x es d.path d.excluded c →
      Satisfied final x es (.course s d) r
  /-- a course that need not be taken -/
  | optional {s : Stage} {d : CourseData} {r : Node} : d.optional = true → Satisfied final x es (.course s d) r
  /-- a course rule added by an exception -/
  | added {s : Stage} {d : CourseData} {r : Node} : d.inserted = true → Satisfied final x es (.course s d) r
  /-- what is counted meets the assertions -/
  | query {s : Stage} {d : QueryData} {r : Node} (items : List Item) : Considers x es d r items →
      AllMet final x es d.assertions items → Satisfied final x es (.query s d) r
  /-- nothing is counted, and all the query asks for is waived -/
  | queryWaived {s : Stage} {d : QueryData} {r : Node} : r.courses = [] →
      (∀ b ∈ d.assertions, ∀ a, AsksOf [] b a → WaivedAt es a.path) → Satisfied final x es (.query s d) r
  /-- enough different items are satisfied, and their courses meet the further conditions -/
  | count {s s' : Stage} {d d' : CountData} {items rs : List Node} (chosen : List (Node × Node)) (cs : List Course) :
      (∀ p ∈ chosen, p.1 ∈ items ∧ p.2 ∈ rs) → (chosen.map (fun p => p.1.path)).Nodup → d.count ≤ chosen.length →
      (∀ p ∈ chosen, Satisfied final x es p.1 p.2) →
      cs.Perm (rs.flatMap Node.matched) → AllMet final x es d.audits (cs.map .course) →
      Satisfied final x es (.count s d items) (.count s' d' rs)
  | req {s s' : Stage} {d d' : ReqData} {n r : Node} : d.isAudited = false → Satisfied final x es n r →
      Satisfied final x es (.req s d (some n)) (.req s' d' (some r))
  | condTrue {s s' : Stage} {d d' : CondData} {n r : Node} {f f' : Option Node} : d.condition = some true →
      Satisfied final x es n r → Satisfied final x es (.cond s d n f) (.cond s' d' r f')
  | condFalse {s s' : Stage} {d d' : CondData} {t t' n r : Node} : d.condition = some false →
      Satisfied final x es n r → Satisfied final x es (.cond s d t (some n)) (.cond s' d' t' (some r))
  | condNothing {s : Stage} {d : CondData} {t r : Node} : d.condition = some false → Satisfied final x es (.cond s d t none) r
  /-- the student's record shows the proficiency -/
  | profRecord {s : Stage} {d : ProfData} {c : Option (Stage × CourseData)} {r : Node} :
      RecordShows x.proficiencies d.proficiency → Satisfied final x es (.prof s d c) r
  /-- a course shows it -/
  | profCourse {s s' st st' : Stage} {d d' : ProfData} {c c' : CourseData} :
      Satisfied final x es (.course st c) (.course st' c') →
      Satisfied final x es (.prof s d (some (st, c))) (.prof s' d' (some (st', c')))

/-! ### Assertions -/

theorem Enough.passes {final : Bool} {s : Status} (h : Enough final s) : Passes s := by
  unfold Enough at h
  split at h
  · rcases h with h | h <;> simp [Passes, h]
  · exact h

theorem enough_unmet {final : Bool} {op : Operator} {v e : Rat} (h : Enough final (unmetStatus op v e)) : False :=
  unmet_fails op v e h.passes

theorem selectsItems_of {w : Option Pred} {l m : List Item}
    (h : (match w with | none => .ok l | some p => filterItems p l : Except Err (List Item)) = .ok m) : SelectsItems w l m := by
  cases w with
  | none => cases h; rfl
  | some p =>
    simp only at h
    simp only [SelectsItems]
    refine ⟨fun j => match p.apply j.applyLeaf with | .ok b => b | .error _ => false, ?_, ?_⟩
    · induction l generalizing m with
      | nil => simp
      | cons i l ih =>
        unfold filterItems at h
        split at h
        · cases h
        rename_i b hb
        split at h
        · cases h
        rename_i m' hm
        intro j hj
        rcases List.mem_cons.1 hj with rfl | hj
        · simp only [hb]
        · exact ih hm j hj
    · induction l generalizing m with
      | nil => cases h; rfl
      | cons i l ih =>
        unfold filterItems at h
        split at h
        · cases h
        rename_i b hb
        split at h
        · cases h
        rename_i m' hm
        rw [List.filter_cons, hb]
        dsimp only
        rw [← ih hm]
        exact (Except.ok.inj h).symm

theorem itemCodes_ok {is : List Item} {codes : List String} (h : itemCodes is = .ok codes) :
    ∃ as : List AreaPointer, is = as.map .area ∧ codes = as.map (·.code) := by
  induction is generalizing codes with
  | nil => cases h; exact ⟨[], rfl, rfl⟩
  | cons i is ih =>
    unfold itemCodes at h
    split at h
    · rename_i heq; cases heq
    · rename_i a rest heq
      cases heq
      split at h
      · cases h
      rename_i cs hcs
      cases h
      obtain ⟨as, rfl, rfl⟩ := ih hcs
      exact ⟨a :: as, rfl, rfl⟩
    · cases h

theorem itemIds_ok {is : List Item} {ids : List String} (h : itemIds is = .ok ids) :
    List.Forall₂ (fun i k => ∃ m, (i = Item.performance m ∨ i = .attendance m) ∧ m.id = k) is ids := by
  induction is generalizing ids with
  | nil => cases h; exact .nil
  | cons i is ih =>
    unfold itemIds at h
    split at h
    · rename_i heq; cases heq
    · rename_i m rest heq
      cases heq
      split at h
      · cases h
      rename_i cs hcs
      cases h
      exact .cons ⟨m, .inl rfl, rfl⟩ (ih hcs)
    · rename_i m rest heq
      cases heq
      split at h
      · cases h
      rename_i cs hcs
      cases h
      exact .cons ⟨m, .inr rfl, rfl⟩ (ih hcs)
    · cases h

theorem evaluatePlain_met {final : Bool} {a : Assertion} {r r' : Applied} {s : Status} (hop : a.op.isComparison)
    (h : evaluatePlain a r = .ok (s, r')) (he : Enough final s) : NumHolds a.op r.value a.expected := by
  unfold evaluatePlain at h
  obtain ⟨b, hb, hb'⟩ := compareNum_iff hop r.value a.expected
  rw [hb] at h
  cases b with
  | true => exact hb'.1 rfl
  | false =>
    cases h
    exact (enough_unmet he).elim

theorem evaluate_met {final : Bool} {a : Assertion} {m : List Item} {s : Status} {r : Applied} (hop : a.op.isComparison)
    (h : a.evaluate m = .ok (s, r)) (he : Enough final s) :
    ∃ v, MeasuresItems a.key m v ∧ NumHolds a.op v a.expected ∧
    (final = true → a.treatInProgressAsPass = false → ∀ cs : List Course, m = cs.map .course → a.dataType = .course →
      (∀ c ∈ cs, 0 ≤ c.credits) → a.key ∉ mostCommonKeys →
      ∃ w, Measures a.key (Completed cs) w ∧ NumHolds a.op w a.expected) := by
  unfold Assertion.evaluate at h
  have music : ∀ r', applyItems a.key m = .ok r' → MeasuresItems a.key m r'.value := by
    intro r' hr
    unfold applyItems at hr
    split at hr
    · rename_i hk
      cases hr
      rw [beq_iff_eq] at hk
      rw [hk]
      exact .items m
    split at hr
    · rename_i hk
      rw [Bool.or_eq_true, beq_iff_eq, beq_iff_eq] at hk
      split at hr
      · cases hr
      rename_i ids hids
      cases hr
      exact .music hk (itemIds_ok hids)
    split at hr <;> cases hr
  split at h
  · rename_i hdt
    split at h
    · cases h
    rename_i cs hcs
    obtain ⟨h1, _, h3⟩ := evaluateCourses_says hop h
    refine ⟨r.value, ?_, h3.passes.1 he.passes, ?_⟩
    · rw [itemCourses_eq hcs]
      exact .courses h1
    · intro hfin htr cs' hcs' _ hcr hk
      rw [itemCourses_eq hcs] at hcs'
      obtain rfl := List.map_injective_iff.2 itemCourse_injective hcs'
      have hd : s = .done := by
        rw [hfin] at he
        rcases he with h | h
        · exact h
        · exact absurd h h3.notWaived
      rcases ((h3.done hcr hk).1 hd).2 with h | h
      · rw [htr] at h; cases h
      · exact h
  · rename_i hdt
    split at h
    · cases h
    rename_i r' hr
    refine ⟨r'.value, ?_, evaluatePlain_met hop h he, fun _ _ _ _ h => by rw [hdt] at h; cases h⟩
    unfold applyAreas at hr
    split at hr
    · rename_i hk
      rw [beq_iff_eq] at hk
      split at hr
      · cases hr
      rename_i codes hcodes
      cases hr
      obtain ⟨as, rfl, rfl⟩ := itemCodes_ok hcodes
      rw [hk]
      exact .areas as
    · cases hr
  · rename_i hdt
    split at h
    · cases h
    rename_i r' hr
    exact ⟨r'.value, music r' hr, evaluatePlain_met hop h he, fun _ _ _ _ h => by rw [hdt] at h; cases h⟩
  · rename_i hdt
    split at h
    · cases h
    rename_i r' hr
    exact ⟨r'.value, music r' hr, evaluatePlain_met hop h he, fun _ _ _ _ h => by rw [hdt] at h; cases h⟩

theorem Assertion.audit_met {final : Bool} {x : Ctx} {es : List Exc} (hes : x.exceptions = groupExceptions es) {t : DataType}
    {a a' : Assertion} (ha : a.Fresh es t) {is : List Item} (h : a.audit x is = .ok a') (he : Enough final a'.state) :
    WaivedAt es a.path ∨ MetOn final x es a is := by
  by_cases hov : a.overridden = true
  · exact .inl (ha.waived.1 hov)
  right
  unfold Assertion.audit at h
  rw [if_neg hov] at h
  dsimp only at h
  split at h
  · cases h
  rename_i f hf
  split at h
  · cases h
  rename_i out ins hins
  split at h
  · cases h
  rename_i out' hblk
  split at h
  · cases h
  rename_i s r hr
  cases h
  obtain ⟨v, h1, h2, h3⟩ := evaluate_met ha.comparison hr he
  exact ⟨f, out', v, selectsItems_of hf, (measuredOn_of hes hins hblk).1, h1, h2, h3⟩

theorem AnyAssertion.audit_met {final : Bool} {x : Ctx} {es : List Exc} (hes : x.exceptions = groupExceptions es) {t : DataType}
    {b b' : AnyAssertion} (hb : b.Fresh es t) {is : List Item} (h : b.audit x is = .ok b') (he : Enough final b'.status) :
    ∀ a, AsksOf is b a → WaivedAt es a.path ∨ MetOn final x es a is := by
  intro a ha
  cases ha with
  | single =>
    simp only [AnyAssertion.audit] at h
    split at h
    · cases h
    rename_i a' ha'
    cases h
    exact Assertion.audit_met hes (hb.branches _ (by simp [AnyAssertion.branches])) ha' he
  | thenPart t f =>
    simp only [AnyAssertion.audit] at h
    split at h
    · cases h
    rename_i a' ha'
    cases h
    exact Assertion.audit_met hes (hb.branches _ (by simp [AnyAssertion.branches])) ha' he
  | elsePart t f =>
    simp only [AnyAssertion.audit] at h
    split at h
    · cases h
    rename_i a' ha'
    cases h
    exact Assertion.audit_met hes (hb.branches _ (by simp [AnyAssertion.branches])) ha' he
  | whenPart c r t cs hcs hh =>
    subst hcs
    simp only [AnyAssertion.audit, itemCourses_map] at h
    rw [if_pos ((C17_when_conditions_are_boolean cs c).2 hh)] at h
    split at h
    · cases h
    rename_i a' ha'
    cases h
    exact Assertion.audit_met hes (hb.branches _ (by simp [AnyAssertion.branches])) ha' he

theorem auditAssertions_met {final : Bool} {x : Ctx} {es : List Exc} (hes : x.exceptions = groupExceptions es) {t : DataType}
    {bs bs' : List AnyAssertion} (hb : ∀ b ∈ bs, b.Fresh es t) {is : List Item} (h : auditAssertions x is bs = .ok bs')
    (he : ∀ b ∈ bs', Enough final b.status) : AllMet final x es bs is := by
  have h2 := auditAssertions_forall₂ h
  intro b hbm a ha
  obtain ⟨b', hb', hbb⟩ := forall₂_mem_left h2 hbm
  exact AnyAssertion.audit_met hes (hb b hbm) hbb (he b' hb') a ha

/-- an assertion that was not evaluated passes only if what it asks of nothing is waived -/
theorem AnyAssertion.fresh_waived {final : Bool} {es : List Exc} {t : DataType} {b : AnyAssertion} (hb : b.Fresh es t)
    (hreal : ∀ c r t, b = .dyn c r t → ¬ c.Holds []) (he : Enough final b.status) : ∀ a, AsksOf [] b a → WaivedAt es a.path := by
  have st : ∀ a ∈ b.branches, Passes a.state → WaivedAt es a.path := by
    intro a ha hp
    refine (hb.branches a ha).waived.1 ?_
    by_contra hov
    rw [(hb.branches a ha).state, if_neg hov] at hp
    simp [Passes] at hp
  intro a ha
  have hp := he.passes
  cases ha with
  | single => exact st _ (by simp [AnyAssertion.branches]) hp
  | thenPart => exact st _ (by simp [AnyAssertion.branches]) hp
  | elsePart => exact st _ (by simp [AnyAssertion.branches]) hp
  | whenPart c r t cs hcs hh =>
    have : cs = [] := by simpa using hcs.symm
    subst this
    exact absurd hh (hreal _ _ _ rfl)

/-! ### Leaves -/

theorem waivedAt_iff {x : Ctx} {es : List Exc} (hes : x.exceptions = groupExceptions es) {p : Path} :
    (getWaiveException x.exceptions p).isSome = true ↔ WaivedAt es p := by
  rw [WaivedAt, ← getWaive_isSome, hes]

/-- the status of a course rule in which nothing is claimed -/
theorem course_unclaimed {final : Bool} {s : Stage} {d : CourseData} (hov : d.overridden = false)
    (hc : courseClaims s d = []) (h : Enough final (courseStatus s d)) :
    d.optional = true ∨ (d.inserted = true ∧ ∀ c, d.claim = some c → c.failed = false) := by
  by_cases hw : courseWaived s d = true
  · right
    unfold courseWaived at hw
    split at hw
    · split at hw
      · cases hw
      rename_i hf
      refine ⟨by simpa [hov] using hw, fun c hc => ?_⟩
      rw [hc] at hf
      simpa using hf
    · rw [hov] at hw; cases hw
  · left
    have hp := h.passes
    rw [courseStatus, if_neg hw, hc] at hp
    by_contra ho
    simp [matchedOf, ho, Passes] at hp

theorem course_satisfied {final : Bool} {x : Ctx} {es : List Exc} (hes : x.exceptions = groupExceptions es) {st : Stage}
    {d s r : CourseData} {t t' : ClaimTable} (hf : FreshAt es (.course st d)) (hs : s ∈ (courseSolutions x d).items)
    (ha : courseAudit x s t = .ok (r, t')) (he : Enough final (courseStatus .result r)) :
    Satisfied final x es (.course st d) (.course .result r) := by
  obtain ⟨haw, hov, hcl⟩ := hf
  obtain ⟨hpath, hins, hopt⟩ := courseAudit_fields ha
  -- without a claim
  have none : courseClaims .result r = [] → r.overridden = false → s.optional = d.optional →
      (s.inserted = true → (∀ c, r.claim = some c → c.failed = false) → d.inserted = true) →
      Satisfied final x es (.course st d) (.course .result r) := by
    intro h1 h2 h3 h4
    rcases course_unclaimed h2 h1 he with h | ⟨h, hcf⟩
    · exact .optional (by rw [← h3, ← hopt]; exact h)
    · exact .added (h4 (by rw [← hins]; exact h) hcf)
  -- with a claim
  have some : ∀ c, s.matched = some c → s.overridden = false → s.fromClaimed = false → s.optional = d.optional →
      s.path = d.path → (d.inserted = false → s.inserted = true → InsertedInto x es d.path d.excluded c) →
      (s.inserted = false → CourseEntitled x d c) →
      Satisfied final x es (.course st d) (.course .result r) := by
    intro c hm h2 hfc h3 hp h4 h5
    rcases courseAudit_claim ha with ⟨_, _, _, h | h | h⟩ | ⟨c', hm', _, hro, hcc, _⟩
    · rw [hm] at h; cases h
    · rw [h2] at h; cases h
    · rw [hfc] at h; cases h
    rw [hm] at hm'
    cases hm'
    obtain ⟨e1, e2⟩ := makeClaim_course x.multicountable t c s.path (s.forced || s.allowClaimed)
    by_cases hfl : (makeClaim x.multicountable t c s.path (s.forced || s.allowClaimed)).1.failed = true
    · refine none ?_ hro h3 ?_
      · simp only [courseClaims, ← hcc, hfl, if_true]
      · intro _ h
        have := h _ hcc.symm
        rw [hfl] at this; cases this
    · have hcls : courseClaims .result r = [⟨c, d.path, false⟩] := by
        simp only [courseClaims, ← hcc]
        rw [if_neg hfl]
        congr 1
        rw [← hp]
        generalize (makeClaim x.multicountable t c s.path (s.forced || s.allowClaimed)).1 = cl at *
        obtain ⟨a, b, f⟩ := cl
        simp_all
      by_cases hdi : d.inserted = true
      · exact .added hdi
      have hdi : d.inserted = false := by simpa using hdi
      by_cases hsi : s.inserted = true
      · exact .course c (by simp only [Node.claims]; exact hcls) (.inr (h4 hdi hsi))
      · have hsi : s.inserted = false := by simpa using hsi
        by_cases hip : final = true ∧ c.isInProgress = true
        · -- complete although in progress: only if optional
          refine .optional ?_
          have hnw : ¬ courseWaived .result r = true := by
            simp [courseWaived, hins, hsi, hro]
          rw [courseStatus, if_neg hnw, hcls, hip.1] at he
          rw [← h3, ← hopt]
          by_contra ho
          revert he
          simp only [matchedOf, Bool.not_false, List.filter_cons_of_pos, List.filter_nil, List.map_cons, List.map_nil,
            List.dedup_cons_of_notMem (List.not_mem_nil), List.dedup_nil, List.any_cons, List.any_nil, Bool.or_false, hip.2,
            Enough, if_true]
          intro he
          repeat' split at he
          all_goals simp_all [Complete]
        · refine .course c (by simp only [Node.claims]; exact hcls) (.inl ⟨h5 hsi, fun h => ?_⟩)
          by_contra hc
          exact hip ⟨h, by simpa using hc⟩
  rcases courseSolutions_cases hs with ⟨rfl, h | h⟩ | ⟨e, he', k, f, c, hk, hfc, hex, rfl⟩ | ⟨c, hc, hacc, rfl⟩ | rfl
  · rw [haw] at h; cases h
  · exact .waived ((waivedAt_iff hes).1 h) (by simp)
  · refine some c rfl rfl rfl rfl rfl (fun _ _ => ⟨hex, e, ?_⟩) ?_
    · rw [hes, (C07_exact_path_first_wins es d.path).1, List.mem_filter, Bool.and_eq_true, beq_iff_eq] at he'
      exact ⟨he'.1, he'.2.2, k, f, hk, hfc⟩
    · intro h
      simp [courseSolution] at h
  · obtain ⟨h1, h2, h3⟩ := findCourses_spec hc
    obtain ⟨h4, h5, h6⟩ := courseAcceptable_spec hacc
    refine some c rfl rfl rfl rfl rfl (fun h h' => ?_) (fun _ => ⟨h1, h2, h3, h4, h5, h6⟩)
    simp [courseSolution, h] at h'
  · rcases courseAudit_claim ha with ⟨hc, _, hro, _⟩ | ⟨c', hm', _⟩
    · refine none (by simp [courseClaims, hc]) (by rw [hro]; rfl) rfl (fun h _ => ?_)
      simpa [courseSolution] using h
    · cases hm'

theorem queryInsert_list {x : Ctx} {d : QueryData} {es : List Exc} {acc f : Filtered} (h : queryInsert x d es acc = .ok f) :
    ∃ ins : List Course, f.data = acc.data ++ ins.map .course ∧ ins.length ≤ es.length ∧
      (∀ c ∈ ins, ∃ e ∈ es, ∃ k forced, e.kind = .insertion k forced ∧ k ∉ d.excluded ∧ x.forcedCourseByClbid k = .ok c) ∧
      ∃ ks, f.inserted = acc.inserted ++ ks ∧ ks.length ≤ es.length ∧
        ∀ k ∈ ks, ∃ e ∈ es, ∃ forced, e.kind = .insertion k forced ∧ k ∉ d.excluded := by
  induction es generalizing acc with
  | nil => cases h; exact ⟨[], by simp, by simp, by simp, [], by simp, by simp, by simp⟩
  | cons e es ih =>
    unfold queryInsert at h
    have keep : ∀ {acc'}, acc' = acc → queryInsert x d es acc' = .ok f → ∃ ins : List Course,
        f.data = acc.data ++ ins.map .course ∧ ins.length ≤ (e :: es).length ∧
        (∀ c ∈ ins, ∃ e' ∈ e :: es, ∃ k forced, e'.kind = .insertion k forced ∧ k ∉ d.excluded ∧
          x.forcedCourseByClbid k = .ok c) ∧
        ∃ ks, f.inserted = acc.inserted ++ ks ∧ ks.length ≤ (e :: es).length ∧
          ∀ k ∈ ks, ∃ e' ∈ e :: es, ∃ forced, e'.kind = .insertion k forced ∧ k ∉ d.excluded := by
      rintro acc' rfl h
      obtain ⟨ins, h1, h2, h3, ks, h4, h5, h6⟩ := ih h
      refine ⟨ins, h1, h2.trans (by simp), fun c hc => ?_, ks, h4, h5.trans (by simp), fun k hk => ?_⟩
      · obtain ⟨e', he', h⟩ := h3 c hc
        exact ⟨e', by simp [he'], h⟩
      · obtain ⟨e', he', h⟩ := h6 k hk
        exact ⟨e', by simp [he'], h⟩
    split at h
    · rename_i k forced hk
      split at h
      · exact keep rfl h
      rename_i hex
      have hex : k ∉ d.excluded := by simpa using hex
      have add : ∀ (new : Option Course) fi, (∀ c, new = some c → x.forcedCourseByClbid k = .ok c) →
          queryInsert x d es ⟨acc.data ++ new.toList.map .course, acc.inserted ++ [k], fi⟩ = .ok f → ∃ ins : List Course,
          f.data = acc.data ++ ins.map .course ∧ ins.length ≤ (e :: es).length ∧
          (∀ c ∈ ins, ∃ e' ∈ e :: es, ∃ k forced, e'.kind = .insertion k forced ∧ k ∉ d.excluded ∧
            x.forcedCourseByClbid k = .ok c) ∧
          ∃ ks, f.inserted = acc.inserted ++ ks ∧ ks.length ≤ (e :: es).length ∧
            ∀ k ∈ ks, ∃ e' ∈ e :: es, ∃ forced, e'.kind = .insertion k forced ∧ k ∉ d.excluded := by
        intro new fi hnew h
        obtain ⟨ins, h1, h2, h3, ks, h4, h5, h6⟩ := ih h
        refine ⟨new.toList ++ ins, by simp [h1], ?_, fun c hc => ?_, k :: ks, by simp [h4], by simpa using h5, fun k' hk' => ?_⟩
        · cases new
          · simpa using h2.trans (Nat.le_succ _)
          · simpa [Nat.add_comm] using h2
        · rcases List.mem_append.1 hc with hc | hc
          · exact ⟨e, by simp, k, forced, hk, hex, hnew c (by simpa using hc)⟩
          · obtain ⟨e', he', h⟩ := h3 c hc
            exact ⟨e', by simp [he'], h⟩
        · rcases List.mem_cons.1 hk' with rfl | hk'
          · exact ⟨e, by simp, forced, hk, hex⟩
          · obtain ⟨e', he', h⟩ := h6 k' hk'
            exact ⟨e', by simp [he'], h⟩
      split at h
      · split at h
        · cases h
        rename_i c hc
        exact add (some c) _ (fun c' hc' => by cases hc'; exact hc) h
      · refine add (x.findCourseByClbid k) _ (fun c hc => ?_) h
        unfold Ctx.forcedCourseByClbid
        rw [hc]
    · exact keep rfl h

theorem forcedCourses_list {x : Ctx} {ks : List String} {cs : List Course} (h : forcedCourses x ks = .ok cs) :
    cs.length = ks.length ∧ ∀ c ∈ cs, ∃ k ∈ ks, x.forcedCourseByClbid k = .ok c := by
  induction ks generalizing cs with
  | nil => cases h; simp
  | cons k ks ih =>
    unfold forcedCourses at h
    split at h
    · cases h
    rename_i c hc
    split at h
    · cases h
    rename_i cs' hcs
    cases h
    obtain ⟨h1, h2⟩ := ih hcs
    refine ⟨by simp [h1], fun c' hc' => ?_⟩
    rcases List.mem_cons.1 hc' with rfl | h
    · exact ⟨k, by simp, hc⟩
    · obtain ⟨k', hk', h⟩ := h2 c' h
      exact ⟨k', by simp [hk'], h⟩

theorem SelectsItems.filter {w : Option Pred} {l m : List Item} (h : SelectsItems w l m) (g : Item → Bool) :
    SelectsItems w (l.filter g) (m.filter g) := by
  cases w with
  | none => simp only [SelectsItems] at h ⊢; rw [h]
  | some p =>
    obtain ⟨f, h1, rfl⟩ := h
    exact ⟨f, fun i hi => h1 i (List.mem_filter.1 hi).1, List.filter_comm _ _ _⟩

theorem claimLoop_all (x : Ctx) (d : QueryData) (cs : List Course) (t : ClaimTable) :
    ((claimLoop x d cs t {}).1.items).Subperm (cs.map .course) := by
  obtain ⟨l, hl, hsub, _⟩ := claimLoop_spec x d cs t {}
  rw [claimLoop_items x d cs t {} rfl, hl]
  have : (([] ++ l).map (fun cl : Claim => Item.course cl.course)) = (l.map (·.course)).map Item.course := by
    simp
  simp only [List.nil_append] at this ⊢
  rw [this]
  exact (hsub.map _).subperm

theorem subperm_map {α β : Type} (f : α → β) {l m : List α} (h : l.Subperm m) : (l.map f).Subperm (m.map f) := by
  obtain ⟨l', hp, hs⟩ := h
  exact ⟨l'.map f, hp.map f, hs.map f⟩

/-- what a query counts -/
theorem query_considers {x : Ctx} (hx : x.ForcedOk) {o : Orders} (ho : o.Lawful) {es : List Exc}
    (hes : x.exceptions = groupExceptions es) {d s : QueryData} (hov : d.overridden = false) (hi0 : d.inserted = [])
    (hs : s ∈ (querySolutions x o d).items)
    {t t' : ClaimTable} {col : Collected} (hcol : collect x s t = .ok (col, t')) {st : Stage} {rd : QueryData}
    (hr : rd.successful = col.successful) (hst : st = .result) : Considers x es d (.query st rd) col.items := by
  subst hst
  have hs0 := hs
  unfold querySolutions at hs
  rw [if_neg (by simp [hov])] at hs
  split at hs
  · simp [Gen.raise] at hs
  rename_i f hf
  have hex : ∀ e ∈ getInsertExceptions x.exceptions d.path, e ∈ es ∧ e.path = d.path := by
    intro e he
    rw [hes, (C07_exact_path_first_wins es d.path).1, List.mem_filter, Bool.and_eq_true, beq_iff_eq] at he
    exact ⟨he.1, he.2.2⟩
  have hlen : (getInsertExceptions x.exceptions d.path).length = (es.filter (fun e => e.isInsertion && e.path == d.path)).length := by
    rw [hes, (C07_exact_path_first_wins es d.path).1]
  -- the reported courses
  have hrep : s.source = d.source → s.recordClaims = d.recordClaims → s.attemptClaims = d.attemptClaims →
      d.ReportsCourses → col.items = (Node.query .result rd).courses.map .course := by
    intro h1 h2 h3 hd
    have := collect_items (d := s) (by rw [h1]; exact hd.source) (by rw [h1, h2, h3]; exact hd.reports) hcol
    rw [this]
    simp [Node.courses, Node.claims, queryClaims, hr]
  unfold queryFiltered at hf
  dsimp only at hf
  split at hf
  · cases hf
  rename_i data hdata
  have hsel : SelectsItems d.where' (queryData x d) data := by
    apply selectsItems_of
    rw [← hdata]
    cases d.where' <;> rfl
  cases hsrc : d.source with
  | claimed =>
    rw [hsrc] at hs hf
    simp only [Gen.one, List.mem_singleton] at hs
    subst hs
    refine ⟨?_, hrep rfl rfl rfl⟩
    rw [if_pos (by simp)] at hf
    obtain ⟨_, _, _, _, ks, hks, hkl, hk⟩ := queryInsert_list hf
    simp only [collect, querySolution, hsrc, collectClaimed] at hcol
    split at hcol
    · cases hcol
    rename_i all hall
    split at hcol
    · cases hcol
    rename_i is his
    split at hcol
    · cases hcol
    rename_i cs hcs
    split at hcol
    · cases hcol
    rename_i ins hins
    cases hcol
    rw [hks, hi0, List.nil_append, List.nil_append] at hins
    obtain ⟨hil, hic⟩ := forcedCourses_list hins
    have hse : SelectsItems d.where' (all.map .course) is := by
      apply selectsItems_of
      rw [← his]
      cases d.where' <;> rfl
    have hse' := hse.filter (fun i => match i with | .course c => !d.excluded.contains c.clbid | _ => false)
    rw [itemCourses_eq hcs, List.filter_map, List.filter_map] at hse'
    refine ⟨_, _, ins, .claimed _ hsrc ?_, hse', ?_, ?_, ?_, fun _ h => absurd hsrc h, fun _ => ?_⟩
    · intro c hc
      obtain ⟨h1, h2⟩ := List.mem_filter.1 hc
      exact ⟨(mem_allClaimed hall).1 c h1, by simpa using h2⟩
    · rw [List.map_append]
      exact List.Subperm.refl _
    · intro c hc
      obtain ⟨k, hk', hkc⟩ := hic c hc
      obtain ⟨e, he, forced, hkind, hexc⟩ := hk k hk'
      have hid := (forcedCourseByClbid_ok hx hkc).1
      exact ⟨by rw [hid]; exact hexc, e, (hex e he).1, (hex e he).2, k, forced, hkind, hkc⟩
    · rw [hil, ← hlen]; exact hkl
    · rw [List.map_append]
      exact List.Perm.refl _
  | courses =>
    rw [hsrc] at hs hf
    rw [if_pos (by simp)] at hf
    dsimp only at hs
    split at hs
    · simp [Gen.raise] at hs
    rename_i courses hcourses
    obtain ⟨ins, hfd, hinl, hin, _⟩ := queryInsert_list hf
    rw [itemCourses_eq hcourses] at hfd
    have hsd : ∃ out : List Course, s = querySolution d (out.map .course) f.inserted f.forceInserted ∧ out.Subperm courses ∧
        (d.attemptClaims = false ∧ d.limit = [] → out = courses) := by
      unfold Gen.orElse at hs
      split at hs
      · rename_i hnone _
        refine ⟨[], by simpa [Gen.one] using hs, List.nil_subperm, fun h => ?_⟩
        exfalso
        unfold queryCourseSolutions at hnone
        rw [h.2, C12_no_limits, h.1] at hnone
        simp [Gen.bind, Gen.one, Gen.append, Gen.forList, Gen.nil] at hnone
      · obtain ⟨tr, htr, hs⟩ := Gen.mem_bind hs
        have hsp : tr.Subperm courses := by
          obtain ⟨h1, h2⟩ := C10_only_input_courses _ (ho.1 d.path) _ _ _ _ htr
          by_cases hl : d.limit = []
          · rw [hl, C12_no_limits] at htr
            simp only [List.mem_singleton] at htr
            rw [htr]
          · exact List.subperm_of_subset (h2 (.inl hl)) h1
        split at hs
        · refine ⟨tr, by simpa [Gen.one] using hs, hsp, fun h => ?_⟩
          rw [h.2, C12_no_limits] at htr
          simpa using htr
        · rename_i hat
          obtain ⟨combo, hcombo, rfl⟩ := Gen.mem_map.1 hs
          refine ⟨_, rfl, (addInserted_subperm (iterateCourseSet_sublist hcombo)).trans hsp, fun h => ?_⟩
          simp [h.1] at hat
    obtain ⟨out, rfl, hsub, hall⟩ := hsd
    have hcoll : col.items.Subperm (out.map .course) ∧ (d.attemptClaims = false → col.items = out.map .course) := by
      simp only [collect, querySolution, hsrc, collectCourses, itemCourses_map] at hcol
      split at hcol
      · rename_i hat
        refine ⟨?_, fun h => by rw [h] at hat; cases hat⟩
        have := claimLoop_all x (querySolution d (out.map .course) f.inserted f.forceInserted) out t
        simp only [querySolution, hsrc] at this
        rw [Except.ok.inj hcol] at this
        exact this
      · split at hcol
        · cases hcol; exact ⟨List.Subperm.refl _, fun _ => rfl⟩
        · cases hcol; exact ⟨List.Subperm.refl _, fun _ => rfl⟩
    refine ⟨⟨queryData x d, data, ins, ?_, hsel, ?_, ?_, ?_, fun h => absurd hsrc h, ?_⟩, hrep rfl rfl rfl⟩
    · simp only [queryData, hsrc]
      split
      · rename_i h; exact .failedToo hsrc h
      · rename_i h; exact .courses hsrc (by simpa using h)
    · refine List.Subperm.trans ?_ (List.Perm.subperm (by rw [← hfd]))
      exact hcoll.1.trans (subperm_map _ hsub)
    · intro c hc
      obtain ⟨e, he, k, forced, hkind, hexc, hkc⟩ := hin c hc
      have hid := (forcedCourseByClbid_ok hx hkc).1
      exact ⟨by rw [hid]; exact hexc, e, (hex e he).1, (hex e he).2, k, forced, hkind, hkc⟩
    · rw [← hlen]; exact hinl
    · rintro (h | h)
      · exact absurd hsrc h
      · rw [hcoll.2 h.1, hall h, hfd]
  | areas =>
    rw [hsrc] at hs hf
    rw [if_neg (by simp)] at hf
    cases hf
    simp only [Gen.one, List.mem_singleton] at hs
    subst hs
    simp only [collect, querySolution, hsrc] at hcol
    cases hcol
    refine ⟨⟨queryData x d, data, [], ?_, hsel, ?_, by simp, by simp, by simp, fun _ => ?_⟩, hrep rfl rfl rfl⟩
    · simp only [queryData, hsrc]
      exact .areas hsrc
    · simp [List.Subperm.refl]
    · simp
  | musicPerformances =>
    rw [hsrc] at hs hf
    rw [if_neg (by simp)] at hf
    cases hf
    simp only [Gen.one, List.mem_singleton] at hs
    subst hs
    simp only [collect, querySolution, hsrc] at hcol
    cases hcol
    refine ⟨⟨queryData x d, data, [], ?_, hsel, ?_, by simp, by simp, by simp, fun _ => ?_⟩, hrep rfl rfl rfl⟩
    · simp only [queryData, hsrc]
      exact .performances hsrc
    · simp [List.Subperm.refl]
    · simp
  | musicAttendances =>
    rw [hsrc] at hs hf
    rw [if_neg (by simp)] at hf
    cases hf
    simp only [Gen.one, List.mem_singleton] at hs
    subst hs
    simp only [collect, querySolution, hsrc] at hcol
    cases hcol
    refine ⟨⟨queryData x d, data, [], ?_, hsel, ?_, by simp, by simp, by simp, fun _ => ?_⟩, hrep rfl rfl rfl⟩
    · simp only [queryData, hsrc]
      exact .attendances hsrc
    · simp [List.Subperm.refl]
    · simp

theorem enough_query {final : Bool} {d : QueryData} (hov : d.overridden = false) (h : Enough final (queryStatus d)) :
    ∀ b ∈ d.assertions, Enough final b.status := by
  unfold Enough at h ⊢
  cases final with
  | true => exact (queryStatus_passes d hov).2.1 h
  | false => exact (queryStatus_passes d hov).1.1 h

/-- no `$when` condition of the rule's own assertions holds of no courses at all, as the empty `$and` would -/
def RealConditions (n : Node) : Prop := ∀ c r t, AnyAssertion.dyn c r t ∈ ownAssertions n → ¬ c.Holds []

theorem query_satisfied {final : Bool} {x : Ctx} (hx : x.ForcedOk) {o : Orders} (ho : o.Lawful) {es : List Exc}
    (hes : x.exceptions = groupExceptions es) {st : Stage} {d s r : QueryData} {t t' : ClaimTable}
    (hf : FreshAt es (.query st d)) (hreal : RealConditions (.query st d))
    (hs : s ∈ (querySolutions x o d).items) (ha : queryAudit x s t = .ok (r, t')) (he : Enough final (queryStatus r)) :
    Satisfied final x es (.query st d) (.query .result r) := by
  obtain ⟨hw, hi, hfi, hsu, hfr⟩ := hf
  by_cases hov : d.overridden = true
  · exact .waived (hw.1 hov) (by simp)
  have hov : d.overridden = false := by simpa using hov
  rcases querySolutions_cases ho hs with ⟨h, _⟩ | ⟨_, f, _, out, hse, _⟩
  · rw [hov] at h; cases h
  have hso : s.overridden = false := by rw [hse]; exact hov
  have hsa : s.assertions = d.assertions := by rw [hse]; rfl
  unfold queryAudit at ha
  rw [if_neg (by simp [hso])] at ha
  split at ha
  · cases ha
  rename_i col t2 hcol
  dsimp only at ha
  split at ha
  · cases ha
  rename_i as has
  obtain ⟨rfl, rfl⟩ := Prod.mk.inj (Except.ok.inj ha)
  have hen := enough_query (d := { s with assertions := as, successful := col.successful, failed := col.failed }) hso he
  have hc := query_considers (rd := { s with assertions := as, successful := col.successful, failed := col.failed })
    hx ho hes hov hi hs hcol rfl rfl
  rw [hsa] at has
  split at has
  · rename_i hskip
    cases has
    refine .queryWaived ?_ (fun b hb => AnyAssertion.fresh_waived (hfr b hb) (fun c r t h => hreal c r t (by
      subst h; exact hb)) (hen b hb))
    have hsrc : d.source = .courses := by rw [← hskip.1, hse]; rfl
    have hit := hskip.2.1
    -- no courses are counted, hence none reported
    have : (Node.query .result { s with assertions := d.assertions, successful := col.successful, failed := col.failed }).claims
        = [] := by
      by_cases hrc : d.recordClaims = true ∨ (d.source = .courses ∧ d.attemptClaims = true)
      · have := hc.reported ⟨.inl hsrc, hrc⟩
        rw [hit] at this
        simpa [Node.courses] using this.symm
      · simp only [Node.claims, queryClaims, if_true]
        simp only [not_or, not_and, Bool.not_eq_true] at hrc
        have e1 : s.source = .courses := hskip.1
        have e2 : s.attemptClaims = false := by rw [hse]; exact hrc.2 hsrc
        have e3 : s.recordClaims = false := by rw [hse]; exact hrc.1
        simp only [collect, e1, collectCourses, e2, e3] at hcol
        split at hcol
        · cases hcol
        · cases hcol; rfl
    simp [Node.courses, this]
  · exact .query col.items hc (auditAssertions_met hes hfr has hen)

/-! ### Counts -/

theorem countStatus_enough {final : Bool} {d : CountData} {ss : List Status} (hov : d.overridden = false)
    (h : Enough final (countStatus d ss)) : d.count ≤ (ss.filter (·.passing)).length ∧
      (∀ s ∈ ss, Passes s → Enough final s) ∧ ∀ b ∈ d.audits, Enough final b.status := by
  have hp := h.passes
  obtain ⟨h1, h2, _, _, h5⟩ := countStatus_cases d ss hov ((passing_iff _).2 hp)
  cases final with
  | false => exact ⟨h1, fun s _ hs => hs, fun b hb => h2 _ (List.mem_map_of_mem hb)⟩
  | true =>
    obtain ⟨h6, h7⟩ := h5 ((wd_iff _).2 h)
    exact ⟨h1, fun s hs hps => (wd_iff _).1 (List.all_eq_true.1 h6 s (List.mem_filter.2 ⟨hs, (passing_iff _).2 hps⟩)),
      fun b hb => h7 _ (List.mem_map_of_mem hb)⟩

/-- the items of a count have different, well-formed paths -/
def ItemsApart : Node → Prop
  | .count _ _ items => (∀ i ∈ items, CanonicalPath i.path) ∧ (items.map Node.path).Nodup
  | _ => True

/-- a rule as loaded that the theorem speaks about -/
def Node.Ready (es : List Exc) (n : Node) : Prop := ∀ m ∈ n.within, FreshAt es m ∧ RealConditions m ∧ ItemsApart m

mutual
theorem Node.fresh_claims {es : List Exc} : ∀ n : Node, n.Fresh es → n.claims = []
  | .course s d, h => by
    have := (h _ (Node.self_within _)).2.2
    simp only [Node.claims, courseClaims, this]
  | .query s d, h => by
    have := (h _ (Node.self_within _)).2.2.2.1
    simp only [Node.claims, queryClaims, this]
    split <;> rfl
  | .count s d items, h => by
    simp only [Node.claims]
    exact Node.fresh_claimsList items (fun m hm => h m (by simp [Node.within, hm]))
  | .req s d r, h => by
    simp only [Node.claims]
    split
    · rfl
    · exact Node.fresh_claimsOpt r (fun m hm => h m (by simp [Node.within, hm]))
  | .cond s d t f, h => by
    simp only [Node.claims]
    split
    · exact Node.fresh_claims t (fun m hm => h m (by simp [Node.within, hm]))
    · exact Node.fresh_claimsOpt f (fun m hm => h m (by simp [Node.within, hm]))
    · rfl
  | .prof s d c, h => by
    simp only [Node.claims, profClaims]
    split
    · rename_i s' d'
      have := (h (.course s' d') (by simp [Node.within])).2.2
      simp only [courseClaims, this]
    · rfl
theorem Node.fresh_claimsList {es : List Exc} : ∀ ns : List Node, (∀ m ∈ Node.withinList ns, FreshAt es m) →
    Node.claimsList ns = []
  | [], _ => rfl
  | n :: ns, h => by
    simp only [Node.claimsList]
    rw [Node.fresh_claims n (fun m hm => h m (by simp [Node.withinList, hm])),
      Node.fresh_claimsList ns (fun m hm => h m (by simp [Node.withinList, hm]))]
    rfl
theorem Node.fresh_claimsOpt {es : List Exc} : ∀ n : Option Node, (∀ m ∈ Node.withinOpt n, FreshAt es m) →
    Node.claimsOpt n = []
  | none, _ => rfl
  | some n, h => Node.fresh_claims n h
end

/-- A count is satisfied if enough of its results pass. -/
theorem count_satisfied {final : Bool} {x : Ctx} {o : Orders} (ho : o.Lawful) {es : List Exc}
    (hes : x.exceptions = groupExceptions es) {st : Stage} {d : CountData} {items : List Node}
    (hr : (Node.count st d items).Ready es)
    (ih : ∀ i ∈ items, ∀ r, Becomes x o i r → Enough final r.status → Satisfied final x es i r)
    {st' : Stage} {d' : CountData} {rs : List Node} (hb : Becomes x o (.count st d items) (.count st' d' rs))
    (he : d'.overridden = true ∨ (d.count ≤ ((Node.statusList rs).filter (·.passing)).length ∧
      (∀ s ∈ Node.statusList rs, Passes s → Enough final s) ∧ ∀ b ∈ d'.audits, Enough final b.status)) :
    Satisfied final x es (.count st d items) (.count st' d' rs) := by
  obtain ⟨⟨hov, hfr⟩, hreal, hcan, hnd⟩ := hr _ (Node.self_within _)
  have pick : ∀ (f : Node → Node) (cs : List Course), (∀ r ∈ rs, f r ∈ items) → (∀ r ∈ rs, Becomes x o (f r) r) →
      (rs.map Node.path).Nodup → d.count ≤ ((Node.statusList rs).filter (·.passing)).length →
      (∀ s ∈ Node.statusList rs, Passes s → Enough final s) → cs.Perm (rs.flatMap Node.matched) →
      AllMet final x es d.audits (cs.map .course) → Satisfied final x es (.count st d items) (.count st' d' rs) := by
    intro f cs h1 h2 h3 h4 h5 h6 h7
    rw [statusList_eq] at h4 h5
    refine .count ((rs.filter (fun r => r.status.passing)).map (fun r => (f r, r))) cs ?_ ?_ ?_ ?_ h6 h7
    · intro p hp
      obtain ⟨r, hr, rfl⟩ := List.mem_map.1 hp
      have := (List.mem_filter.1 hr).1
      exact ⟨h1 r this, this⟩
    · have e : ((rs.filter (fun r => r.status.passing)).map (fun r => (f r, r))).map (fun p => p.1.path) =
          (rs.filter (fun r => r.status.passing)).map Node.path := by
        rw [List.map_map]
        refine List.map_congr_left (fun r hr => ?_)
        exact ((h2 r (List.mem_filter.1 hr).1).path_eq ho).symm
      rw [e]
      exact h3.sublist ((List.filter_sublist).map _)
    · rw [List.filter_map, List.length_map] at h4
      rw [List.length_map]
      exact h4
    · intro p hp
      obtain ⟨r, hr, rfl⟩ := List.mem_map.1 hp
      obtain ⟨hr1, hr2⟩ := List.mem_filter.1 hr
      exact ih _ (h1 r hr1) r (h2 r hr1) (h5 _ (List.mem_map_of_mem hr1) ((passing_iff _).1 hr2))
  cases hb with
  | rule =>
    rcases he with he | ⟨h1, h2, h3⟩
    · rw [hov] at he; cases he
    refine pick id [] (fun r hr => hr) (fun r _ => .rule) hnd h1 h2 ?_ ?_
    · have : items.flatMap Node.matched = [] := by
        rw [List.flatMap_eq_nil_iff]
        intro i hi
        rw [Node.matched, Node.fresh_claims i (fun m hm => (hr m (by
          simp only [Node.within, List.mem_cons]
          exact .inr (Node.mem_withinList.2 ⟨i, hi, hm⟩))).1)]
        rfl
      rw [this]
    · intro b hb a ha
      exact .inl (AnyAssertion.fresh_waived (hfr b hb) (fun c r t h => hreal c r t (by subst h; exact hb)) (h3 b hb) a ha)
  | countWaived h => exact .waived ((waivedAt_iff hes).1 h) (by simp)
  | @count _ _ _ _ as f h1 h2 hperm has =>
    rcases he with he | ⟨h3, h4, h5⟩
    · cases he
    have hnd' : (rs.map Node.path).Nodup := (hperm hcan hnd).nodup_iff.2 hnd
    have hm : matchedItems o rs = (rs.flatMap (fun r => o.matched r.path r.matched)).map .course := by
      unfold matchedItems
      rw [List.map_flatMap]
    rw [hm] at has
    refine pick f _ h1 h2 hnd' h3 h4 ?_ (auditAssertions_met hes hfr has h5)
    clear * - ho
    induction rs with
    | nil => simp
    | cons r rs ih =>
      simp only [List.flatMap_cons]
      exact (ho.2.1 r.path r.matched).append ih

/-! ### Trees -/

theorem prof_course {final : Bool} {d : ProfData} {c : Option (Stage × CourseData)} (hov : d.overridden = false)
    (hs : d.status = .empty) (h : Enough final (profStatus d c)) :
    ∃ s cd, c = some (s, cd) ∧ Enough final (courseStatus s cd) := by
  unfold profStatus at h
  rw [if_neg (by simp [hov]), hs, if_neg (by decide)] at h
  split at h
  · exact ⟨_, _, rfl, h⟩
  · have := h.passes
    simp [Passes] at this

/-- a course rule that was not selected -/
theorem course_unselected {final : Bool} {x : Ctx} {es : List Exc} {s : Stage} {d : CourseData} (hf : FreshAt es (.course s d))
    (he : Enough final (courseStatus s d)) (r : Node) : Satisfied final x es (.course s d) r := by
  obtain ⟨_, hov, hcl⟩ := hf
  rcases course_unclaimed hov (by simp only [courseClaims, hcl]) he with h | h
  · exact .optional h
  · exact .added h.1

mutual
theorem Node.satisfied {final : Bool} {x : Ctx} (hx : x.ForcedOk) {o : Orders} (ho : o.Lawful) {es : List Exc}
    (hes : x.exceptions = groupExceptions es) : ∀ n : Node, n.Ready es → ∀ r, Becomes x o n r → Enough final r.status →
      Satisfied final x es n r
  | .course st d, hr, r, hb, he => by
    have hf := (hr _ (Node.self_within _)).1
    cases hb with
    | rule => exact course_unselected hf he _
    | course hs ha => exact course_satisfied hes hf hs ha he
  | .query st d, hr, r, hb, he => by
    obtain ⟨hf, hreal, _⟩ := hr _ (Node.self_within _)
    cases hb with
    | rule =>
      obtain ⟨hw, hi, hfi, hsu, hfr⟩ := hf
      by_cases hov : d.overridden = true
      · exact .waived (hw.1 hov) (by simp)
      have hen := enough_query (by simpa using hov) he
      refine .queryWaived ?_ (fun b hb => AnyAssertion.fresh_waived (hfr b hb) (fun c r t h => hreal c r t (by
        subst h; exact hb)) (hen b hb))
      simp only [Node.courses, Node.claims, queryClaims, hsu]
      split <;> rfl
    | query hs ha => exact query_satisfied hx ho hes hf hreal hs ha he
  | .count st d items, hr, r, hb, he => by
    have ih := Node.satisfiedList (final := final) hx ho hes items (fun m hm => hr m (by simp [Node.within, hm]))
    obtain ⟨st', d', rs, rfl⟩ : ∃ st' d' rs, r = .count st' d' rs := by cases hb <;> exact ⟨_, _, _, rfl⟩
    refine count_satisfied ho hes hr ih hb ?_
    simp only [Node.status] at he
    by_cases hov : d'.overridden = true
    · exact .inl hov
    have hcnt : d'.count = d.count := by cases hb <;> rfl
    obtain ⟨h1, h2, h3⟩ := countStatus_enough (by simpa using hov) he
    exact .inr ⟨hcnt ▸ h1, h2, h3⟩
  | .req st d c, hr, r, hb, he => by
    have ih := Node.satisfiedOpt (final := final) hx ho hes c (fun m hm => hr m (by simp [Node.within, hm]))
    have hov : d.overridden = false := (hr _ (Node.self_within _)).1
    have child : ∀ {d' : ReqData} {c' : Option Node}, d'.overridden = false → d'.isAudited = d.isAudited →
        Enough final (Node.req .result d' c').status → ∃ r', c' = some r' ∧ d.isAudited = false ∧ Enough final r'.status := by
      intro d' c' h1 h2 h3
      simp only [Node.status, reqStatus, h1, Bool.false_and, Bool.false_eq_true, if_false] at h3
      split at h3
      · have := h3.passes
        simp [Passes] at this
      rename_i hna
      cases c' with
      | none =>
        have := h3.passes
        simp [Node.statusOpt, Passes] at this
      | some r' => exact ⟨r', rfl, by rw [← h2]; simpa using hna, h3⟩
    cases hb with
    | rule =>
      obtain ⟨r', rfl, h1, h2⟩ := child (d' := d) (c' := c) hov rfl he
      exact .req h1 (ih r' rfl r' .rule h2)
    | reqWaived h => exact .waived ((waivedAt_iff hes).1 h) (by simp)
    | reqNone =>
      obtain ⟨r', h, _⟩ := child (d' := { d with overridden := false }) (c' := none) rfl rfl he
      cases h
    | req h =>
      obtain ⟨r', hr', h1, h2⟩ := child (d' := { d with overridden := false }) rfl rfl he
      cases hr'
      exact .req h1 (ih _ rfl _ h h2)
  | .cond st d t f, hr, r, hb, he => by
    have iht := Node.satisfied (final := final) hx ho hes t (fun m hm => hr m (by simp [Node.within, hm]))
    have ihf := Node.satisfiedOpt (final := final) hx ho hes f (fun m hm => hr m (by simp [Node.within, hm]))
    have hc : d.condition ≠ none := (hr _ (Node.self_within _)).1.1
    cases hb with
    | rule =>
      cases hd : d.condition with
      | none => exact absurd hd hc
      | some b =>
        simp only [Node.status, hd] at he
        cases b with
        | true => exact .condTrue hd (iht _ .rule he)
        | false =>
          cases f with
          | none => exact .condNothing hd
          | some n => exact .condFalse hd (ihf n rfl _ .rule he)
    | condTrue h hb =>
      simp only [Node.status, h] at he
      exact .condTrue h (iht _ hb he)
    | condFalse h hb =>
      simp only [Node.status, h, Node.statusOpt] at he
      exact .condFalse h (ihf _ rfl _ hb he)
  | .prof st d c, hr, r, hb, he => by
    obtain ⟨hov, hst⟩ := (hr _ (Node.self_within _)).1
    have hcf : ∀ s cd, c = some (s, cd) → FreshAt es (.course s cd) := by
      rintro s cd rfl
      exact (hr (.course s cd) (by simp [Node.within])).1
    cases hb with
    | rule =>
      obtain ⟨s, cd, rfl, h⟩ := prof_course hov hst he
      exact .profCourse (course_unselected (hcf _ _ rfl) h _)
    | profWaived h => exact .waived ((waivedAt_iff hes).1 h) (by simp)
    | profNone h =>
      rcases proficiency_status h with ⟨h1, _⟩ | ⟨_, rfl⟩
      · exact .profRecord h1
      · obtain ⟨s, cd, h, _⟩ := prof_course (d := { d with status := .empty, overridden := false }) rfl rfl he
        cases h
    | prof h hs ha =>
      rcases proficiency_status h with ⟨h1, _⟩ | ⟨_, rfl⟩
      · exact .profRecord h1
      · obtain ⟨s, cd, h, h2⟩ := prof_course (d := { d with status := .empty, overridden := false }) rfl rfl he
        cases h
        exact .profCourse (course_satisfied hes (hcf _ _ rfl) (by rw [hs]; simp) ha h2)
theorem Node.satisfiedList {final : Bool} {x : Ctx} (hx : x.ForcedOk) {o : Orders} (ho : o.Lawful) {es : List Exc}
    (hes : x.exceptions = groupExceptions es) : ∀ ns : List Node,
      (∀ m ∈ Node.withinList ns, FreshAt es m ∧ RealConditions m ∧ ItemsApart m) →
      ∀ n ∈ ns, ∀ r, Becomes x o n r → Enough final r.status → Satisfied final x es n r
  | [], _ => by simp
  | n :: ns, hr => by
    have h1 := Node.satisfied (final := final) hx ho hes n (fun m hm => hr m (by simp [Node.withinList, hm]))
    have h2 := Node.satisfiedList (final := final) hx ho hes ns (fun m hm => hr m (by simp [Node.withinList, hm]))
    intro i hi
    rcases List.mem_cons.1 hi with rfl | hi
    · exact h1
    · exact h2 i hi
theorem Node.satisfiedOpt {final : Bool} {x : Ctx} (hx : x.ForcedOk) {o : Orders} (ho : o.Lawful) {es : List Exc}
    (hes : x.exceptions = groupExceptions es) : ∀ c : Option Node,
      (∀ m ∈ Node.withinOpt c, FreshAt es m ∧ RealConditions m ∧ ItemsApart m) →
      ∀ n, c = some n → ∀ r, Becomes x o n r → Enough final r.status → Satisfied final x es n r
  | none, _ => by simp
  | some n, hr => by
    have h1 := Node.satisfied (final := final) hx ho hes n hr
    rintro _ h
    cases h
    exact h1
end

/-! ### Areas -/

theorem countStatus_waived {d : CountData} {ss : List Status} (h : d.overridden = true) : countStatus d ss = .waived := by
  unfold countStatus
  rw [if_pos h]

/-- what an area reports is no better than its result -/
theorem area_status_enough {final : Bool} {x : Ctx} {o : Orders} {es : List Exc} {n r : Node} (hf : FreshAt es n)
    (hb : Becomes x o n r) (h : Enough final (if r.isWaived then .waived else r.status)) :
    Enough final r.status ∨ WaivedAt es n.path := by
  split at h
  · rename_i hw
    by_cases hwa : WaivedAt es n.path
    · exact .inr hwa
    left
    have key : r.status = .waived ∨ r.status = .done := by
      cases r with
      | course s d =>
        simp only [Node.isWaived] at hw
        simp only [Node.status, courseStatus, hw, if_true, true_or]
      | query s d =>
        simp only [Node.isWaived] at hw
        simp only [Node.status, queryStatus, hw, if_true, true_or]
      | count s d rs => exact .inl (countStatus_waived hw)
      | req s d c =>
        simp only [Node.isWaived] at hw
        simp only [Node.status, reqStatus, hw, Bool.true_and, if_true]
        split <;> simp
      | cond s d t f =>
        exfalso
        simp only [Node.isWaived] at hw
        cases hb with
        | rule => exact hwa (hf.2.1 hw)
        | condTrue => exact hwa (hf.2.1 hw)
        | condFalse => exact hwa (hf.2.1 hw)
      | prof s d c =>
        simp only [Node.isWaived] at hw
        simp only [Node.status, profStatus, hw, if_true, true_or]
    unfold Enough
    split
    · rcases key with key | key <;> simp [key, Complete]
    · rcases key with key | key <;> simp [key, Passes]
  · exact .inl h

theorem area_satisfied {final : Bool} {c : Constants} {templates : List (String × TemplateCourse)} {st : Student} {es : List Exc}
    {all : Bool} {spec : Dict} {a : Area} (hload : loadArea c templates st es all spec = .ok a) (htidy : TidyText st all spec)
    (hreal : ∀ m ∈ a.result.within, RealConditions m) {o : Orders} (ho : o.Lawful)
    {s : AreaSolution} (hs : s ∈ (a.solutions o st es).items) {r : AreaResult} (ha : s.audit o a = .ok r)
    (he : Enough final r.status) :
    ∃ tr r0, (∀ k ∈ tr, k ∈ st.courses) ∧ s.ctx = areaCtx a st es tr ∧
      (WaivedAt es a.result.path ∨ Satisfied final (areaCtx a st es tr) es a.result r0) ∧
      ((a.kind ≠ "major" ∧ r.result = r0) ∨
       (a.kind = "major" ∧ ∃ d items common, r0 = .count .result d items ∧
         r.result = .count .result { d with count := d.count + 1 } (items ++ [common]))) := by
  obtain ⟨tr, htr, hctx, _, _, r0, hb, hr⟩ := area_outcome ho (loadArea_loaded hload).1 (loadArea_common hload).1 hs ha
  refine ⟨tr, r0, (C10_only_input_courses _ (ho.1 []) _ _ _ _ htr).1, hctx, ?_, ?_⟩
  · have hready : a.result.Ready es := by
      intro m hm
      refine ⟨(loadArea_fresh hload).1 m hm, hreal m hm, ?_⟩
      cases m with
      | count stage d items =>
        have hitems : (items.map Node.path).Sublist (Node.count stage d items).allPaths := by
          simp only [Node.allPaths]
          exact ((Node.paths_sublist items).trans (List.sublist_append_right _ _)).cons _
        have hsub := hitems.trans (Node.within_paths _ _ hm)
        refine ⟨?_, (loadArea_nodup hload htidy).sublist hsub⟩
        intro i hi
        exact (loadArea_canonical hload _ (hsub.subset (List.mem_map_of_mem hi))).2
      | _ => trivial
    have hx := areaCtx_forcedOk a st es tr
    have hself := (hready _ (Node.self_within _)).1
    rcases hr with ⟨_, rfl⟩ | ⟨_, d, items, name, citems, rfl, hres, _⟩
    · rcases area_status_enough hself hb he with h | h
      · exact .inr (Node.satisfied hx ho rfl a.result hready _ hb h)
      · exact .inl h
    · revert hb hready hself
      cases hn : a.result with
      | count st0 d0 items0 =>
        intro hready hself hb
        have ih := Node.satisfiedList (final := final) hx ho (es := es) rfl items0
          (fun m hm => hready m (by simp [Node.within, hm]))
        refine .inr (count_satisfied ho rfl hready ih hb ?_)
        have hcnt : d.count = d0.count := by cases hb <;> rfl
        by_cases hov : d.overridden = true
        · exact .inl hov
        right
        simp only [AreaResult.status, hres, Node.isWaived, hov, Bool.false_eq_true, if_false, Node.status] at he
        obtain ⟨h1, h2, h3⟩ := countStatus_enough (by simpa using hov) he
        rw [statusList_eq] at h1 h2 ⊢
        simp only [List.map_append, List.map_cons, List.map_nil] at h1 h2
        refine ⟨?_, fun s hs => h2 s (by simp [hs]), h3⟩
        rw [List.filter_append, List.length_append] at h1
        have : ∀ s : Status, ([s].filter (·.passing)).length ≤ 1 := fun s => List.length_filter_le _ _
        have := this (Node.req .result { path := ["$", "%Common Requirements"], name := name, inGpa := false }
              (some (.count .result { path := ["$", "%Common Requirements", ".count"], count := citems.length } citems))).status
        omega
      | _ => intro _ _ hb; cases hb
  · rcases hr with h | ⟨h, d, items, _, _, h1, h2, _⟩
    · exact .inl h
    · exact .inr ⟨h, d, items, _, h1, h2⟩

/-- how the result of an area shows the result of its own rule: a major puts its common requirements at the end and asks
for one item more -/
def ShownIn (kind : String) (result own : Node) : Prop :=
  (kind ≠ "major" ∧ result = own) ∨
  (kind = "major" ∧ ∃ d items common, own = .count .result d items ∧
    result = .count .result { d with count := d.count + 1 } (items ++ [common]))

/-- **C58.** If an audited solution of an area, as loaded from any text, passes, then the student satisfies the area's rule:
an exception waives all of it, or its requirements hold one by one of courses on the student's transcript.  Courses in
progress count.  The text uses different names for the requirements of its emphases, and no `$when` condition of it holds of
no courses at all. -/
theorem C58_passing_area_is_satisfied (c : Constants) (templates : List (String × TemplateCourse)) (st : Student)
    (es : List Exc) (all : Bool) (spec : Dict) (a : Area) (hload : loadArea c templates st es all spec = .ok a)
    (htidy : TidyText st all spec) (hreal : ∀ m ∈ a.result.within, RealConditions m) (o : Orders) (ho : o.Lawful)
    (s : AreaSolution) (hs : s ∈ (a.solutions o st es).items) (r : AreaResult) (ha : s.audit o a = .ok r)
    (hp : Passes r.status) :
    ∃ tr own, (∀ k ∈ tr, k ∈ st.courses) ∧ s.ctx = areaCtx a st es tr ∧
      (WaivedAt es a.result.path ∨ Satisfied false (areaCtx a st es tr) es a.result own) ∧ ShownIn a.kind r.result own :=
  area_satisfied (final := false) hload htidy hreal ho hs ha hp

/-- **C58**, for areas that are reported as done or waived: the same, and the courses in progress are not needed. -/
theorem C58_complete_area_is_satisfied_finally (c : Constants) (templates : List (String × TemplateCourse)) (st : Student)
    (es : List Exc) (all : Bool) (spec : Dict) (a : Area) (hload : loadArea c templates st es all spec = .ok a)
    (htidy : TidyText st all spec) (hreal : ∀ m ∈ a.result.within, RealConditions m) (o : Orders) (ho : o.Lawful)
    (s : AreaSolution) (hs : s ∈ (a.solutions o st es).items) (r : AreaResult) (ha : s.audit o a = .ok r)
    (hp : Complete r.status) :
    ∃ tr own, (∀ k ∈ tr, k ∈ st.courses) ∧ s.ctx = areaCtx a st es tr ∧
      (WaivedAt es a.result.path ∨ Satisfied true (areaCtx a st es tr) es a.result own) ∧ ShownIn a.kind r.result own :=
  area_satisfied (final := true) hload htidy hreal ho hs ha hp

/-! ### Non-trivial cases -/

/-- a concentration with a core and electives -/
def satisfiedText : Dict :=
  [("name", .str "Statistics"), ("type", .str "concentration"), ("code", .str "900"),
   ("result", .map [("all", .list [.map [("requirement", .str "Core")], .map [("requirement", .str "Electives")]])]),
   ("requirements", .map [
     ("Core", .map [("result", .map [("all", .list [.map [("course", .str "CSCI 121")],
        .map [("either", .list [.map [("course", .str "CSCI 221")], .map [("course", .str "CSCI 251")]])]])])]),
     ("Electives", .map [("result", .map [("from", .str "courses"),
        ("where", .map [("subject", .map [("$eq", .str "CSCI")])]),
        ("assert", .map [("count(courses)", .map [("$gte", .int 2)])])])])])]

/-- the statuses of the audited solutions of an area, and whether it has no `$when` conditions -/
def auditedStatuses (st : Student) (es : List Exc) (spec : Dict) : Option (Bool × List Status) :=
  match loadArea {} [] st es false spec with
  | .ok a => some (a.result.within.all (fun m => (ownAssertions m).all (fun b => match b with | .dyn .. => false | _ => true)),
      (a.solutions .insertion st es).items.filterMap (fun s => match s.audit .insertion a with
        | .ok r => some r.status
        | .error _ => none))
  | .error _ => none

/-- Two of the four ways to fill the concentration from the classes 1 to 4 are complete. -/
example : auditedStatuses sampleTaken [] satisfiedText =
    some (true, [.needsMoreItems, .needsMoreItems, .done, .done]) := by
  decide +kernel

/-- Without class 4 there are not enough electives, unless the electives are waived. -/
example : auditedStatuses { sampleTaken with courses := sampleTaken.courses.take 3 }
      [⟨["$", ".count", "[1]", "%Electives"], .override⟩] satisfiedText = some (true, [.done]) ∧
    auditedStatuses { sampleTaken with courses := sampleTaken.courses.take 3 } [] satisfiedText =
      some (true, [.needsMoreItems]) := by
  decide +kernel

example : TidyText sampleTaken false satisfiedText := by
  refine ⟨by simp [satisfiedText, Y.CleanDict, Y.Clean, Y.CleanList], ?_⟩
  intro emphases declared h1 h2
  have h1' : Dict.dict satisfiedText "emphases" = .ok [] := rfl
  rw [h1'] at h1
  cases h1
  cases h2
  decide

end Dp
