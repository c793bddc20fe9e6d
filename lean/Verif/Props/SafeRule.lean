import Verif.Props.SafeLeaf
import Verif.Props.CountRule
import Verif.Props.Limit
import Verif.Props.PathOrder

/-
When limits, course rules and queries do not raise.
-/
namespace Dp

/-! ### Limits -/

theorem Limit.iterate_ne_nil {l : Limit} (h : 0 ≤ l.atMost) (ms : List Course) : l.iterate ms ≠ [] := by
  cases hw : l.what with
  | courses =>
    refine List.ne_nil_of_mem ((Limit.mem_iterate_courses hw).2 ⟨List.nil_sublist _, ?_⟩)
    simp only [List.length_nil, Nat.cast_zero]
    exact Int.tdiv_nonneg (Rat.num_nonneg.2 h) (by positivity)
  | credits =>
    by_cases hs : sumCredits ms ≤ l.atMost
    · exact List.ne_nil_of_mem ((Limit.mem_iterate_credits hw).2 (.inl ⟨hs, rfl⟩))
    · exact List.ne_nil_of_mem ((Limit.mem_iterate_credits hw).2
        (.inr ⟨hs, List.nil_sublist _, by simpa [sumCredits] using h⟩))

/-- limits whose filters answer and that allow at least nothing do not raise -/
theorem limitedTranscripts_clean {o : SetOrder} (ho : o.Lawful) {limits : List Limit} {courses : List Course}
    (hpos : ∀ l ∈ limits, 0 ≤ l.atMost) (hans : ∀ l ∈ limits, ∀ c ∈ courses, ∃ b, l.where'.applyCourse c = .ok b)
    (forced : List String) : (limitedTranscripts o limits courses forced).err = none := by
  by_cases hne : limits = []
  · subst hne; simp [limitedTranscripts, Gen.one]
  obtain ⟨d, hd⟩ := probeAll_ok (fun c => forced.contains c.clbid) courses limits
    (fun l hl c hc _ => hans l hl c hc) []
  obtain ⟨hinv, _⟩ := probeAll_nil hd
  have hd0 : ∀ l ∈ d.map (fun lm => lm.1.iterate lm.2), l ≠ [] := by
    intro l hl
    obtain ⟨⟨lim, ms⟩, hm, rfl⟩ := List.mem_map.1 hl
    obtain ⟨_, h2, h3⟩ := hinv.vals lim ms hm
    obtain ⟨c, hc⟩ := List.exists_mem_of_ne_nil _ h2
    exact Limit.iterate_ne_nil (hpos lim ((h3 c).1 hc).1) ms
  have hprod : lazyProduct (d.map (fun lm => Gen.ofList (lm.1.iterate lm.2))) =
      Gen.ofList (cartesian (d.map (fun lm => lm.1.iterate lm.2))) := by
    have := lazyProduct_ofList _ hd0
    rwa [List.map_map] at this
  simp only [limitedTranscripts, if_neg hne, hd, hprod]
  have hem := (emitLoop_complete limits (courses.dedup.filter (fun c => !(d.flatMap (·.2)).contains c)) o
    (cartesian (d.map (fun lm => lm.1.iterate lm.2))) (by
      intro results hr j
      refine checkFrom_ok (fun l hl c hc => hans l hl c ?_) _
      have hc := (ho j results.flatten.dedup).1.mem_iff.1 hc
      rw [List.mem_dedup, List.mem_flatten] at hc
      obtain ⟨s, hs, hcs⟩ := hc
      obtain ⟨lim, ms, hm, hsi⟩ := (cartesian_pos hr).1 s hs
      have hcm : c ∈ ms := mem_sortCourses.1 ((Limit.iterate_sublist hsi).subset hcs)
      exact (((hinv.vals lim ms hm).2.2 c).1 hcm).2.1) 0 []).1
  unfold Gen.append
  split
  · rename_i e he
    exact absurd (hem.symm.trans he) (by simp)
  · rfl

/-! ### Course rules -/

/-- a course rule, solution or result that can be searched and audited -/
structure CourseSafe (x : Ctx) (look : Bool) (s : Stage) (d : CourseData) : Prop where
  canonical : CanonicalPath d.path
  inserts : x.InsertsFound d.path
  matched : ∀ c, d.matched = some c → x.Knows c ∧ (look = true → x.Listed c.clbid)
  claim : ∀ cl, d.claim = some cl → x.Knows cl.course
  fresh : s = .solution → d.fromClaimed = false

theorem courseInsertSolutions_clean {x : Ctx} {d : CourseData} : ∀ es : List Exc,
    (∀ e ∈ es, ∀ k f, e.kind = .insertion k f → ∃ c, x.forcedCourseByClbid k = .ok c) →
    (courseInsertSolutions x d es).err = none
  | [], _ => rfl
  | e :: es, he => by
    have ih := courseInsertSolutions_clean (d := d) es (fun e' h' => he e' (List.mem_cons_of_mem _ h'))
    unfold courseInsertSolutions
    cases hk : e.kind with
    | insertion k f =>
      obtain ⟨c, hc⟩ := he e List.mem_cons_self k f hk
      simp only [hc]
      split
      · exact ih
      · simp only [Gen.append, Gen.one, ih]
    | _ => exact ih

theorem courseSolutions_clean {x : Ctx} {d : CourseData} (h : x.InsertsFound d.path) :
    (courseSolutions x d).err = none ∧ (courseSolutions x d).items ≠ [] := by
  have he : (courseSolutions x d).err = none := by
    unfold courseSolutions
    split
    · rfl
    · have h1 := courseInsertSolutions_clean (d := d) _ h
      have h2 : ∀ l : List CourseData, ((courseInsertSolutions x d (getInsertExceptions x.exceptions d.path)).append
          (.ofList l)).err = none := fun l => by simp only [Gen.append, h1, Gen.ofList]
      unfold Gen.orElse
      split
      · rfl
      · exact h2 _
  refine ⟨he, ?_⟩
  rcases courseSolutions_yields x d with h | h
  · exact h
  · exact absurd he h

theorem findCourses_transcript {x : Ctx} {d : CourseData} {c : Course} (h : c ∈ x.findCourses d) : c ∈ x.transcript := by
  unfold Ctx.findCourses at h
  split at h
  · rw [Option.mem_toList] at h
    exact (findCourseByClbid_some h).1
  · exact (List.mem_filter.1 h).1

theorem courseSolutions_safe {x : Ctx} {look : Bool} (hx : x.Sound look) {s : Stage} {d : CourseData}
    (h : CourseSafe x look s d) : ∀ r ∈ (courseSolutions x d).items, CourseSafe x look .solution r := by
  have mk : ∀ (c : Option Course) (a b e : Bool),
      (∀ c', c = some c' → x.Knows c' ∧ (look = true → x.Listed c'.clbid)) →
      CourseSafe x look .solution (courseSolution d c a b e) := fun c a b e hc =>
    ⟨h.canonical, h.inserts, hc, by simp [courseSolution], fun _ => rfl⟩
  intro r hr
  rcases courseSolutions_cases hr with ⟨rfl, _⟩ | ⟨e, he, k, f, c, hk, hc, _, rfl⟩ | ⟨c, hc, _, rfl⟩ | rfl
  · exact mk _ _ _ _ (by simp)
  · refine mk _ _ _ _ (fun c' h' => ?_)
    cases h'
    exact forcedCourse_knows hx hc
  · refine mk _ _ _ _ (fun c' h' => ?_)
    cases h'
    exact ⟨.inl (findCourses_transcript hc), fun _ => listed_of_transcript (findCourses_transcript hc)⟩
  · exact mk _ _ _ _ (by simp)

/-- the table after a claim on a listed class -/
theorem makeClaim_tableOk {x : Ctx} {look : Bool} {t : ClaimTable} (ht : TableOk x look t) {c : Course}
    (hc : look = true → x.Listed c.clbid) (m : Multicountable) (p : Path) (b : Bool) :
    TableOk x look (makeClaim m t c p b).2 := by
  intro hl k hk
  rcases makeClaim_adds m t c p k b hk with h | h
  · exact ht hl k h
  · have : k = c.clbid := by
      by_contra hne
      apply h
      simp [timesClaimed, (makeClaim_course m t c p b).1, Ne.symm hne]
    exact this ▸ hc hl

/-- the result made of a course solution -/
def resultOf (d : CourseData) (cl : Option Claim) (b : Bool) : CourseData :=
  { d with claim := cl, overridden := b, forced := false, matched := none, fromClaimed := false, autoWaived := false,
           excluded := [] }

theorem courseAudit_safe {x : Ctx} {look : Bool} {d : CourseData} (h : CourseSafe x look .solution d)
    {t : ClaimTable} (ht : TableOk x look t) :
    ∃ d' t', courseAudit x d t = .ok (d', t') ∧ CourseSafe x look .result d' ∧ TableOk x look t' ∧ d'.path = d.path := by
  have mk : ∀ (cl : Option Claim) (b : Bool), (∀ cl', cl = some cl' → x.Knows cl'.course) →
      CourseSafe x look .result (resultOf d cl b) := fun cl b hcl =>
    ⟨h.canonical, h.inserts, fun c h => (by cases h), hcl, fun _ => rfl⟩
  unfold courseAudit
  dsimp only
  split
  · exact ⟨_, _, rfl, mk _ _ (by simp), ht, rfl⟩
  · split
    · exact ⟨_, _, rfl, mk _ _ (by simp), ht, rfl⟩
    · rename_i c hc
      obtain ⟨h1, h2⟩ := h.matched c hc
      simp only [h.fresh rfl, Bool.false_and, Bool.false_eq_true, if_false]
      refine ⟨_, _, rfl, mk _ _ ?_, makeClaim_tableOk ht h2 _ _ _, rfl⟩
      intro cl hcl
      cases hcl
      rw [(makeClaim_course _ _ _ _ _).1]
      exact h1

theorem courseClaims_knows {x : Ctx} {look : Bool} {s s' : Stage} {d : CourseData} (h : CourseSafe x look s d) :
    ∀ cl ∈ courseClaims s' d, x.Knows cl.course := by
  intro cl hcl
  unfold courseClaims at hcl
  split at hcl
  · rename_i c hc
    split at hcl
    · simp at hcl
    · rw [List.mem_singleton] at hcl
      subst hcl
      exact h.claim _ hc
  · simp at hcl

/-! ### Queries -/

/-- a query that can be searched -/
structure QueryReady (x : Ctx) (look : Bool) (d : QueryData) : Prop where
  asserts : ∀ b ∈ d.assertions, b.Safe x d.source.dataType
  inserts : x.InsertsFound d.path
  answers : ∀ p, d.where' = some p → p.AnswersOn x d.source.dataType
  limits : ∀ l ∈ d.limit, 0 ≤ l.atMost ∧ ∀ c, x.Knows c → ∃ b, l.where'.applyCourse c = .ok b
  counts : d.source = .courses → ∀ a ∈ flattenAssertions d.assertions, a.isSimpleCount = true → ∃ n : Nat, a.expected = n
  found : ∀ k ∈ d.inserted, ∃ c, x.forcedCourseByClbid k = .ok c
  looks : d.source = .claimed → look = true
  failed : look = true → d.source = .courses → d.attemptClaims = true → d.includeFailed = false

/-- a query rule, solution or result that can be searched and audited -/
structure QuerySafe (x : Ctx) (look : Bool) (s : Stage) (d : QueryData) : Prop where
  canonical : CanonicalPath d.path
  claims : ∀ cl ∈ d.successful, x.Knows cl.course
  ready : s ≠ .result → QueryReady x look d
  output : s = .solution → ∀ i ∈ d.output, x.Holds d.source.dataType i ∧
    (look = true → d.attemptClaims = true → ∀ c, i = .course c → x.Listed c.clbid)

/-- an item that a query may use -/
def UsableFor (x : Ctx) (look : Bool) (d : QueryData) (i : Item) : Prop :=
  x.Holds d.source.dataType i ∧ (look = true → d.attemptClaims = true → ∀ c, i = .course c → x.Listed c.clbid)

theorem queryInsert_safe {x : Ctx} {look : Bool} (hx : x.Sound look) {d : QueryData} (hd : d.source.dataType = .course) :
    ∀ es : List Exc, (∀ e ∈ es, ∀ k f, e.kind = .insertion k f → ∃ c, x.forcedCourseByClbid k = .ok c) →
    ∀ acc : Filtered, (∀ i ∈ acc.data, UsableFor x look d i) → (∀ k ∈ acc.inserted, ∃ c, x.forcedCourseByClbid k = .ok c) →
    ∃ f, queryInsert x d es acc = .ok f ∧ (∀ i ∈ f.data, UsableFor x look d i) ∧
      ∀ k ∈ f.inserted, ∃ c, x.forcedCourseByClbid k = .ok c
  | [], _, acc, h1, h2 => ⟨acc, rfl, h1, h2⟩
  | e :: es, he, acc, h1, h2 => by
    have ih := queryInsert_safe hx hd es (fun e' h' => he e' (List.mem_cons_of_mem _ h'))
    unfold queryInsert
    cases hk : e.kind with
    | insertion k f =>
      obtain ⟨c, hc⟩ := he e List.mem_cons_self k f hk
      have hins : ∀ k' ∈ acc.inserted ++ [k], ∃ c, x.forcedCourseByClbid k' = .ok c := by
        intro k' hk'
        rcases List.mem_append.1 hk' with h | h
        · exact h2 _ h
        · rw [List.mem_singleton] at h; subst h; exact ⟨c, hc⟩
      have use : ∀ c', x.Knows c' → (look = true → x.Listed c'.clbid) → UsableFor x look d (.course c') := by
        intro c' h1 h2
        refine ⟨by rw [hd]; exact h1, fun hl _ c'' h => ?_⟩
        cases h
        exact h2 hl
      have add : ∀ l : List Item, (∀ i ∈ l, UsableFor x look d i) → ∀ i ∈ acc.data ++ l, UsableFor x look d i := by
        intro l hl i hi
        rcases List.mem_append.1 hi with hi | hi
        · exact h1 i hi
        · exact hl i hi
      dsimp only
      split
      · exact ih acc h1 h2
      · split
        · simp only [hc]
          refine ih _ (add _ ?_) hins
          intro i hi
          rw [List.mem_singleton] at hi
          subst hi
          obtain ⟨q1, q2⟩ := forcedCourse_knows hx hc
          exact use c q1 q2
        · refine ih _ (add _ ?_) hins
          intro i hi
          obtain ⟨c', hc', rfl⟩ := List.mem_map.1 hi
          rw [Option.mem_toList] at hc'
          have := (findCourseByClbid_some hc').1
          exact use c' (.inl this) (fun _ => listed_of_transcript this)
    | _ => exact ih acc h1 h2

theorem queryData_usable {x : Ctx} {look : Bool} {d : QueryData}
    (hf : look = true → d.source = .courses → d.attemptClaims = true → d.includeFailed = false) :
    ∀ i ∈ queryData x d, UsableFor x look d i := by
  intro i hi
  unfold queryData at hi
  unfold UsableFor
  split at hi
  · rename_i hs
    obtain ⟨c, hc, rfl⟩ := List.mem_map.1 hi
    have hc := (List.mem_filter.1 hc).1
    rw [hs]
    split at hc
    · rename_i hif
      refine ⟨.inr (.inl hc), fun hl ha => ?_⟩
      rw [hf hl hs ha] at hif
      cases hif
    · refine ⟨.inl hc, fun _ _ c' h' => ?_⟩
      cases h'
      exact listed_of_transcript hc
  · simp at hi
  · rename_i hs
    obtain ⟨a, ha, rfl⟩ := List.mem_map.1 hi
    rw [hs]
    exact ⟨ha, fun _ _ c h => by cases h⟩
  · rename_i hs
    obtain ⟨a, ha, rfl⟩ := List.mem_map.1 hi
    rw [hs]
    exact ⟨ha, fun _ _ c h => by cases h⟩
  · rename_i hs
    obtain ⟨a, ha, rfl⟩ := List.mem_map.1 hi
    rw [hs]
    exact ⟨ha, fun _ _ c h => by cases h⟩

theorem queryFiltered_safe {x : Ctx} {look : Bool} (hx : x.Sound look) {d : QueryData} (h : QueryReady x look d) :
    ∃ f, queryFiltered x d = .ok f ∧ (∀ i ∈ f.data, UsableFor x look d i) ∧
      ∀ k ∈ f.inserted, ∃ c, x.forcedCourseByClbid k = .ok c := by
  have hdata := queryData_usable (x := x) h.failed
  unfold queryFiltered
  dsimp only
  split
  · rename_i e he
    split at he
    · rename_i p hw
      obtain ⟨out, ho⟩ := filterItems_answers (h.answers p hw) _ (fun i hi => (hdata i hi).1)
      rw [ho] at he
      cases he
    · cases he
  · rename_i data hd
    have hd' : ∀ i ∈ data, UsableFor x look d i := by
      split at hd
      · exact fun i hi => hdata i ((filterItems_sublist hd).subset hi)
      · cases hd; exact hdata
    split
    · rename_i hs
      exact queryInsert_safe hx (by rcases hs with hs | hs <;> rw [hs] <;> rfl) _ h.inserts _ hd' (by simp)
    · exact ⟨_, rfl, hd', by simp⟩

theorem iterateCourseSet_clean {as : List AnyAssertion} {t : DataType} {x : Ctx} (h : ∀ b ∈ as, b.Safe x t)
    (hn : ∀ a ∈ flattenAssertions as, a.isSimpleCount = true → ∃ n : Nat, a.expected = n) (cs : List Course) :
    (iterateCourseSet as cs).err = none := by
  unfold iterateCourseSet
  dsimp only
  split
  · rename_i a ha
    have hne : (flattenAssertions as).filter (·.isSimpleCount) ≠ [] := by
      intro h0
      rw [h0] at ha
      cases ha
    obtain ⟨a', ha', h1, _⟩ := largestExpected_spec _ hne
    rw [h1] at ha
    obtain rfl : a' = a := by simpa using ha
    obtain ⟨h2, h3⟩ := List.mem_filter.1 ha'
    obtain ⟨n, hn⟩ := hn a' h2 h3
    have hop : a'.op.isComparison := by
      unfold flattenAssertions at h2
      rw [List.mem_flatMap] at h2
      obtain ⟨b, hb, h2⟩ := h2
      refine ((h b hb).branches a' ?_).comparison
      cases b with
      | single a => simpa [AnyAssertion.branches] using h2
      | cond c t f => simpa [AnyAssertion.branches] using h2
      | dyn c r t => simpa [AnyAssertion.branches] using h2
    exact (countShortcut_spec a' n hop hn cs).1
  · split
    · unfold sumShortcut
      split <;> rfl
    · rfl

theorem Gen.bind_clean {α β : Type} {g : Gen α} {f : α → Gen β} (hg : g.err = none) (h : ∀ a ∈ g.items, (f a).err = none) :
    (g.bind f).err = none := by
  unfold Gen.bind
  rw [Gen.forList_ok _ _ h, hg]
  rfl

theorem querySolutions_clean {x : Ctx} {look : Bool} (hx : x.Sound look) {o : Orders} (ho : o.Lawful) {s : Stage} {d : QueryData}
    (h : QuerySafe x look s d) (hs : s ≠ .result) :
    (querySolutions x o d).err = none ∧ (querySolutions x o d).items ≠ [] ∧
    ∀ r ∈ (querySolutions x o d).items, QuerySafe x look .solution r ∧ r.path = d.path := by
  have hr := h.ready hs
  obtain ⟨f, hf, hfd, hfi⟩ := queryFiltered_safe hx hr
  have he : (querySolutions x o d).err = none := by
    unfold querySolutions
    split
    · rfl
    · simp only [hf]
      split
      · rfl
      · rename_i hsrc
        have hh : ∀ i ∈ f.data, x.Holds .course i := fun i hi => by have := (hfd i hi).1; rwa [hsrc] at this
        obtain ⟨cs, _, h2, h3⟩ := holds_course hh
        simp only [h2]
        have hq : (queryCourseSolutions (o.limit d.path) d f cs).err = none := by
          unfold queryCourseSolutions
          refine Gen.bind_clean (limitedTranscripts_clean (ho.1 _) (fun l hl => (hr.limits l hl).1)
            (fun l hl c hc => (hr.limits l hl).2 c (h3 c hc)) _) (fun tr _ => ?_)
          split
          · rfl
          · exact iterateCourseSet_clean hr.asserts (hr.counts hsrc) tr
        unfold Gen.orElse
        split
        · rfl
        · exact hq
      · rfl
  refine ⟨he, ?_, ?_⟩
  · rcases querySolutions_yields x o d with h | h
    · exact h
    · exact absurd he h
  · intro r hrm
    have mk : ∀ (out : List Item) (ins fi : List String), (∀ i ∈ out, UsableFor x look d i) →
        (∀ k ∈ ins, ∃ c, x.forcedCourseByClbid k = .ok c) →
        QuerySafe x look .solution (querySolution d out ins fi) := by
      intro out ins fi h1 h2
      refine ⟨h.canonical, by simp [querySolution], fun _ => ?_, fun _ => h1⟩
      refine ⟨hr.asserts, hr.inserts, hr.answers, hr.limits, hr.counts, ?_, hr.looks, hr.failed⟩
      intro k hk
      rcases List.mem_append.1 hk with hk | hk
      · exact hr.found k hk
      · exact h2 k hk
    rcases querySolutions_cases ho hrm with ⟨_, rfl⟩ | ⟨_, f', hf', out, rfl, hout, _⟩
    · exact ⟨mk _ _ _ (by simp) (by simp), rfl⟩
    · rw [hf] at hf'
      cases hf'
      exact ⟨mk _ _ _ (fun i hi => hfd i (hout i hi)) hfi, rfl⟩

theorem claimLoop_safe {x : Ctx} {look : Bool} {d : QueryData} : ∀ cs : List Course,
    (∀ c ∈ cs, x.Knows c ∧ (look = true → x.Listed c.clbid)) → ∀ (t : ClaimTable) (acc : Collected), TableOk x look t →
    (∀ i ∈ acc.items, x.Holds .course i) → (∀ cl ∈ acc.successful, x.Knows cl.course) →
    TableOk x look (claimLoop x d cs t acc).2 ∧ (∀ i ∈ (claimLoop x d cs t acc).1.items, x.Holds .course i) ∧
      ∀ cl ∈ (claimLoop x d cs t acc).1.successful, x.Knows cl.course
  | [], _, t, acc, h1, h2, h3 => ⟨h1, h2, h3⟩
  | c :: cs, hc, t, acc, h1, h2, h3 => by
    obtain ⟨k1, k2⟩ := hc c List.mem_cons_self
    have ih := claimLoop_safe (d := d) cs (fun c' h' => hc c' (List.mem_cons_of_mem _ h'))
    have ht := makeClaim_tableOk h1 k2 x.multicountable d.path (d.allowClaimed || d.forceInserted.contains c.clbid)
    simp only [claimLoop]
    split
    · exact ih _ _ ht h2 h3
    · refine ih _ _ ht ?_ ?_
      · intro i hi
        rcases List.mem_append.1 hi with hi | hi
        · exact h2 i hi
        · rw [List.mem_singleton] at hi; subst hi; exact k1
      · intro cl hcl
        rcases List.mem_append.1 hcl with hcl | hcl
        · exact h3 cl hcl
        · rw [List.mem_singleton] at hcl; subst hcl
          rw [(makeClaim_course _ _ _ _ _).1]
          exact k1

theorem allClaimed_ok {x : Ctx} : ∀ t : ClaimTable, (∀ k ∈ t.map (·.1), x.Listed k) → ∃ cs, x.allClaimed t = .ok cs
  | [], _ => ⟨[], rfl⟩
  | (k, v) :: t, h => by
    obtain ⟨cs, hcs⟩ := allClaimed_ok t (fun k' h' => h k' (by simp only [List.map_cons, List.mem_cons]; exact .inr h'))
    have hk : x.Listed k := h k (by simp)
    obtain ⟨c, hc⟩ := Option.isSome_iff_exists.1 hk
    exact ⟨c :: cs, by simp only [Ctx.allClaimed, hc, hcs]⟩

theorem forcedCourses_ok {x : Ctx} {look : Bool} (hx : x.Sound look) : ∀ ks : List String,
    (∀ k ∈ ks, ∃ c, x.forcedCourseByClbid k = .ok c) → ∃ cs, forcedCourses x ks = .ok cs ∧ ∀ c ∈ cs, x.Knows c
  | [], _ => ⟨[], rfl, by simp⟩
  | k :: ks, h => by
    obtain ⟨c, hc⟩ := h k List.mem_cons_self
    obtain ⟨cs, hcs, hk⟩ := forcedCourses_ok hx ks (fun k' h' => h k' (List.mem_cons_of_mem _ h'))
    refine ⟨c :: cs, by simp only [forcedCourses, hc, hcs], fun c' h' => ?_⟩
    rcases List.mem_cons.1 h' with rfl | h'
    · exact (forcedCourse_knows hx hc).1
    · exact hk c' h'

theorem recordLoop_knows {x : Ctx} {p : Path} {t : ClaimTable} {cs : List Course} (h : ∀ c ∈ cs, x.Knows c) :
    ∀ cl ∈ recordLoop x p t cs, x.Knows cl.course := by
  intro cl hcl
  obtain ⟨c, hc, rfl⟩ := List.mem_map.1 hcl
  rw [(makeClaim_course _ _ _ _ _).1]
  exact h c hc

theorem map_course_holds {x : Ctx} {cs : List Course} (h : ∀ c ∈ cs, x.Knows c) :
    ∀ i ∈ cs.map Item.course, x.Holds .course i := by
  intro i hi
  obtain ⟨c, hc, rfl⟩ := List.mem_map.1 hi
  exact h c hc

theorem collect_safe {x : Ctx} {look : Bool} (hx : x.Sound look) {d : QueryData} (h : QuerySafe x look .solution d)
    {t : ClaimTable} (ht : TableOk x look t) :
    ∃ col t', collect x d t = .ok (col, t') ∧ TableOk x look t' ∧ (∀ i ∈ col.items, x.Holds d.source.dataType i) ∧
      ∀ cl ∈ col.successful, x.Knows cl.course := by
  have hr := h.ready (by simp)
  have hout := h.output rfl
  unfold collect
  split
  · rename_i hs
    rw [hs] at hout
    obtain ⟨cs, h1, h2, h3⟩ := holds_course (fun i hi => (hout i hi).1)
    have hk : ∀ c ∈ cs, Item.course c ∈ d.output := fun c hc => by rw [h1]; exact List.mem_map_of_mem hc
    unfold collectCourses
    simp only [h2]
    split
    · rename_i ha
      obtain ⟨q1, q2, q3⟩ := claimLoop_safe (x := x) (look := look) (d := d) cs
        (fun c hc => ⟨h3 c hc, fun hl => (hout _ (hk c hc)).2 hl ha c rfl⟩) t {} ht (by simp) (by simp)
      exact ⟨_, _, rfl, q1, by rw [hs]; exact q2, q3⟩
    · split
      · exact ⟨_, _, rfl, ht, by rw [hs]; exact map_course_holds h3, recordLoop_knows h3⟩
      · exact ⟨_, _, rfl, ht, by rw [hs]; exact map_course_holds h3, by simp⟩
  · rename_i hs
    obtain ⟨all, hall⟩ := allClaimed_ok t (ht (hr.looks hs))
    have hak : ∀ c ∈ all, x.Knows c := fun c hc => .inl ((mem_allClaimed hall).1 c hc)
    unfold collectClaimed
    simp only [hall]
    split
    · rename_i e he
      split at he
      · rename_i p hw
        have := hr.answers p hw
        rw [hs] at this
        obtain ⟨out, ho⟩ := filterItems_answers this _ (map_course_holds hak)
        rw [ho] at he
        cases he
      · cases he
    · rename_i is his
      have hih : ∀ i ∈ is, x.Holds .course i := by
        split at his
        · exact fun i hi => map_course_holds hak i ((filterItems_sublist his).subset hi)
        · cases his; exact map_course_holds hak
      obtain ⟨cs, _, h2, h3⟩ := holds_course hih
      obtain ⟨ins, hins, hik⟩ := forcedCourses_ok hx _ hr.found
      simp only [h2, hins]
      have hok : ∀ c ∈ cs.filter (fun c => !d.excluded.contains c.clbid) ++ ins, x.Knows c := by
        intro c hc
        rcases List.mem_append.1 hc with hc | hc
        · exact h3 c (List.mem_filter.1 hc).1
        · exact hik c hc
      refine ⟨_, _, rfl, ht, by rw [hs]; exact map_course_holds hok, ?_⟩
      dsimp only
      split
      · exact recordLoop_knows hok
      · simp
  · exact ⟨_, _, rfl, ht, fun i hi => (hout i hi).1, by simp⟩

theorem queryAudit_safe {x : Ctx} {look : Bool} (hx : x.Sound look) {d : QueryData} (h : QuerySafe x look .solution d)
    {t : ClaimTable} (ht : TableOk x look t) :
    ∃ d' t', queryAudit x d t = .ok (d', t') ∧ QuerySafe x look .result d' ∧ TableOk x look t' ∧ d'.path = d.path := by
  have hr := h.ready (by simp)
  unfold queryAudit
  split
  · exact ⟨_, _, rfl, ⟨h.canonical, by simp, fun h => absurd rfl h, fun h => by cases h⟩, ht, rfl⟩
  · obtain ⟨col, t', hc, ht', hi, hcl⟩ := collect_safe hx h ht
    simp only [hc]
    split
    · rename_i e he
      split at he
      · cases he
      · obtain ⟨r, hr'⟩ := auditAssertions_safe hx hi _ hr.asserts
        rw [hr'] at he
        cases he
    · exact ⟨_, _, rfl, ⟨h.canonical, hcl, fun h => absurd rfl h, fun h => by cases h⟩, ht', rfl⟩

theorem queryHasPotential_ok {x : Ctx} {look : Bool} {d : QueryData} (h : QueryReady x look d) :
    ∃ b, queryHasPotential x d = .ok b := by
  unfold queryHasPotential
  repeat' split
  all_goals first
    | exact ⟨_, rfl⟩
    | skip
  rename_i p hw
  exact anyItem_answers (h.answers p hw) _ (fun i hi => (queryData_usable h.failed i hi).1)

theorem estimateCourseSet_ok {as : List AnyAssertion} {t : DataType} {x : Ctx} (h : ∀ b ∈ as, b.Safe x t)
    (hn : ∀ a ∈ flattenAssertions as, a.isSimpleCount = true → ∃ n : Nat, a.expected = n) (cs : List Course) :
    ∃ n, estimateCourseSet as cs = .ok n := by
  have hi := iterateCourseSet_clean h hn cs
  unfold estimateCourseSet
  unfold iterateCourseSet at hi
  dsimp only at hi ⊢
  split
  · rename_i a ha
    simp only [ha] at hi
    unfold countShortcut at hi
    have : (inputSizeRange a cs.length).err = none := by
      have := (Gen.append_clean hi).2.1
      exact this
    simp only [this]
    exact ⟨_, rfl⟩
  · split <;> exact ⟨_, rfl⟩

theorem estimateSets_ok {d : QueryData} (h : d.source = .courses → ∀ s, ∃ n, estimateCourseSet d.assertions s = .ok n) :
    ∀ ss : List (List Course), ∃ n, estimateSets d ss = .ok n
  | [] => ⟨0, rfl⟩
  | s :: ss => by
    obtain ⟨m, hm⟩ := estimateSets_ok h ss
    unfold estimateSets
    by_cases hs : d.source = .courses
    · obtain ⟨n, hn⟩ := h hs s
      simp only [if_pos hs, hn, hm]
      exact ⟨_, rfl⟩
    · simp only [if_neg hs, hm]
      exact ⟨_, rfl⟩

theorem queryEstimate_ok {x : Ctx} {look : Bool} (hx : x.Sound look) {o : Orders} (ho : o.Lawful) {d : QueryData}
    (h : QueryReady x look d) : ∃ n, queryEstimate x o d = .ok n := by
  unfold queryEstimate
  split
  · exact ⟨_, rfl⟩
  · obtain ⟨f, hf, hfd, _⟩ := queryFiltered_safe hx h
    simp only [hf]
    split
    · rename_i e he
      split at he
      · rename_i hs
        have hh : ∀ i ∈ f.data, x.Holds .course i := fun i hi => by
          have := (hfd i hi).1
          rcases hs with hs | hs <;> rw [hs] at this <;> exact this
        obtain ⟨cs, _, h2, h3⟩ := holds_course hh
        obtain ⟨n, hn⟩ := estimateSets_ok (d := d) (fun hs s => estimateCourseSet_ok h.asserts (h.counts hs) s)
          (limitedTranscripts (o.limit d.path) d.limit cs f.forceInserted).items
        have hl := limitedTranscripts_clean (ho.1 d.path) (fun l hl => (h.limits l hl).1)
            (fun l hl c hc => (h.limits l hl).2 c (h3 c hc)) f.forceInserted
        simp only [h2, hn, hl] at he
        cases he
      · cases he
    · exact ⟨_, rfl⟩

end Dp
