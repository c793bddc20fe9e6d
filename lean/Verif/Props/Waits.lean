import Verif.Props.Satisfied

/-
What a rule that is reported as "in progress" or "registered" is waiting for (C61).
-/
namespace Dp

/-! ### Specification -/

/-- the course is of the kind that a pending status announces: taken this term or incomplete, or registered for a later term -/
def Awaited : Status → Course → Prop
  | .pendingCurrent, c => c.isInProgressThisTerm = true ∨ c.isIncomplete = true
  | .pendingRegistered, c => c.isInProgressInFuture = true
  | _, _ => False

/-- the assertion that a (conditional) assertion of a result stands for -/
inductive Reports : AnyAssertion → Assertion → Prop where
  | single (a : Assertion) : Reports (.single a) a
  | thenPart (t : Assertion) (f : Option Assertion) : Reports (.cond (some true) t f) t
  | elsePart (t f : Assertion) : Reports (.cond (some false) t (some f)) f
  | whenPart (c : DynCond) (t : Assertion) : Reports (.dyn c (some true) t) t

/-- The result has status `w`, one of the two pending ones, and it shows a course it waits for: a claimed course, or one that
an assertion, itself of that status, is resolved with. -/
inductive WaitsFor (w : Status) : Node → Course → Prop where
  | course {s : Stage} {d : CourseData} {c : Course} {p : Path} : courseClaims s d = [⟨c, p, false⟩] → Awaited w c →
      WaitsFor w (.course s d) c
  | asserted {n : Node} {b : AnyAssertion} {a : Assertion} {c : Course} : b ∈ ownAssertions n → Reports b a → a.state = w →
      c.clbid ∈ a.resolvedClbids → Awaited w c → WaitsFor w n c
  | item {s : Stage} {d : CountData} {rs : List Node} {r : Node} {c : Course} : r ∈ rs → r.status = w → WaitsFor w r c →
      WaitsFor w (.count s d rs) c
  | req {s : Stage} {d : ReqData} {r : Node} {c : Course} : d.isAudited = false → WaitsFor w r c → WaitsFor w (.req s d (some r)) c
  | condTrue {s : Stage} {d : CondData} {r : Node} {f : Option Node} {c : Course} : d.condition = some true → WaitsFor w r c →
      WaitsFor w (.cond s d r f) c
  | condFalse {s : Stage} {d : CondData} {t r : Node} {c : Course} : d.condition = some false → WaitsFor w r c →
      WaitsFor w (.cond s d t (some r)) c
  | prof {s st : Stage} {d : ProfData} {cd : CourseData} {c : Course} : WaitsFor w (.course st cd) c →
      WaitsFor w (.prof s d (some (st, cd))) c

/-- the two pending states -/
def IsPending (w : Status) : Prop := w = .pendingCurrent ∨ w = .pendingRegistered

/-- all courses that the context knows have the property -/
structure Ctx.Only (x : Ctx) (P : Course → Prop) : Prop where
  transcript : ∀ c ∈ x.transcript, P c
  failed : ∀ c ∈ x.withFailed, P c
  forced : ∀ e ∈ x.forced, P e.2

/-! ### Assertions -/

theorem Ctx.Only.lookup {x : Ctx} {P : Course → Prop} (h : x.Only P) (hx : x.ForcedOk) {k : String} {c : Course}
    (hc : x.forcedCourseByClbid k = .ok c) : P c := by
  rcases (forcedCourseByClbid_ok hx hc).2 with h1 | h1
  · exact h.transcript c h1
  · exact h.forced _ h1

theorem SelectsItems.subset {w : Option Pred} {l m : List Item} (h : SelectsItems w l m) : ∀ i ∈ m, i ∈ l := by
  cases w with
  | none => simp only [SelectsItems] at h; rw [h]; exact fun i hi => hi
  | some p =>
    obtain ⟨f, _, rfl⟩ := h
    exact fun i hi => (List.mem_filter.1 hi).1

theorem evaluatePlain_never {a : Assertion} {r r' : Applied} {s : Status} (h : evaluatePlain a r = .ok (s, r')) :
    ¬ IsPending s := by
  unfold evaluatePlain at h
  split at h
  · cases h
  · cases h; simp [IsPending]
  · cases h
    unfold unmetStatus IsPending
    repeat' split
    all_goals simp

theorem Assertion.audit_waits {x : Ctx} {es : List Exc} (hes : x.exceptions = groupExceptions es) {t : DataType}
    {a a' : Assertion} (ha : a.Fresh es t) {is : List Item} (h : a.audit x is = .ok a') (hw : IsPending a'.state) :
    ∃ c, (.course c ∈ is ∨ InsertsAt x es a.path (.course c)) ∧ c.clbid ∈ a'.resolvedClbids ∧ Awaited a'.state c := by
  unfold Assertion.audit at h
  split at h
  · rename_i hov
    cases h
    rw [ha.state, if_pos hov] at hw
    simp [IsPending] at hw
  dsimp only at h
  split at h
  · cases h
  rename_i f hf
  split at h
  · cases h
  rename_i out ins hins
  split at h
  · cases h
  rename_i out' hblk
  split at h
  · cases h
  rename_i s r hr
  cases h
  dsimp only at hw ⊢
  have hsub := (selectsItems_of hf).subset
  have honly := (measuredOn_of hes hins hblk).1.only
  unfold Assertion.evaluate at hr
  split at hr
  · split at hr
    · cases hr
    rename_i cs hcs
    obtain ⟨_, h2, h3⟩ := evaluateCourses_says ha.comparison hr
    have fin : ∀ c ∈ r.courses, Awaited s c → ∃ c, (Item.course c ∈ is ∨ InsertsAt x es a.path (.course c)) ∧
        c.clbid ∈ r.courses.map (·.clbid) ∧ Awaited s c := by
      intro c hc haw
      refine ⟨c, ?_, List.mem_map_of_mem hc, haw⟩
      have : Item.course c ∈ out' := by rw [itemCourses_eq hcs]; exact List.mem_map_of_mem (h2 c hc)
      exact (honly _ this).imp (hsub _) id
    rcases hw with rfl | rfl
    · obtain ⟨⟨c, hc, h⟩, _⟩ := h3.current rfl
      exact fin c hc h
    · obtain ⟨c, hc, h⟩ := h3.registered rfl
      exact fin c hc h
  all_goals
    split at hr
    · cases hr
    · exact absurd hw (evaluatePlain_never hr)

theorem AnyAssertion.fresh_never {es : List Exc} {t : DataType} {b : AnyAssertion} (hb : b.Fresh es t) : ¬ IsPending b.status := by
  have st : ∀ a ∈ b.branches, ¬ IsPending a.state := by
    intro a ha
    rw [(hb.branches a ha).state]
    split <;> simp [IsPending]
  unfold AnyAssertion.status
  split
  all_goals first
    | exact st _ (by simp [AnyAssertion.branches])
    | simp [IsPending]

theorem AnyAssertion.audit_waits {x : Ctx} {es : List Exc} (hes : x.exceptions = groupExceptions es) {t : DataType}
    {b b' : AnyAssertion} (hb : b.Fresh es t) {is : List Item} (h : b.audit x is = .ok b') (hw : IsPending b'.status) :
    ∃ a' c, Reports b' a' ∧ a'.state = b'.status ∧ (.course c ∈ is ∨ ∃ p, InsertsAt x es p (.course c)) ∧
      c.clbid ∈ a'.resolvedClbids ∧ Awaited b'.status c := by
  have key : ∀ a a', a ∈ b.branches → a.audit x is = .ok a' → IsPending a'.state → Reports b' a' → a'.state = b'.status →
      ∃ a' c, Reports b' a' ∧ a'.state = b'.status ∧ (.course c ∈ is ∨ ∃ p, InsertsAt x es p (.course c)) ∧
      c.clbid ∈ a'.resolvedClbids ∧ Awaited b'.status c := by
    intro a a' h1 h2 h3 h4 h5
    obtain ⟨c, h6, h7, h8⟩ := Assertion.audit_waits hes (hb.branches a h1) h2 h3
    exact ⟨a', c, h4, h5, h6.imp id (fun h => ⟨_, h⟩), h7, h5 ▸ h8⟩
  unfold AnyAssertion.audit at h
  split at h
  · split at h
    · cases h
    rename_i a' ha'
    cases h
    exact key _ a' (by simp [AnyAssertion.branches]) ha' hw (.single _) rfl
  · split at h
    · cases h
    rename_i a' ha'
    cases h
    exact key _ a' (by simp [AnyAssertion.branches]) ha' hw (.thenPart _ _) rfl
  · split at h
    · cases h
    rename_i a' ha'
    cases h
    exact key _ a' (by simp [AnyAssertion.branches]) ha' hw (.elsePart _ _) rfl
  · cases h; exact absurd hw (AnyAssertion.fresh_never hb)
  · cases h
  · split at h
    · cases h
    split at h
    · split at h
      · cases h
      rename_i a' ha'
      cases h
      exact key _ a' (by simp [AnyAssertion.branches]) ha' hw (.whenPart _ _) rfl
    · cases h; exact absurd hw (AnyAssertion.fresh_never hb)

/-- the assertions of a rule, audited on courses of the student -/
theorem assertions_wait {x : Ctx} {es : List Exc} (hes : x.exceptions = groupExceptions es) {P : Course → Prop}
    (hx : x.ForcedOk) (hP : x.Only P) {t : DataType} {bs bs' : List AnyAssertion} (hbs : ∀ b ∈ bs, b.Fresh es t) {is : List Item}
    (his : ∀ c, .course c ∈ is → P c) (h : auditAssertions x is bs = .ok bs') {b' : AnyAssertion} (hb' : b' ∈ bs')
    (hw : IsPending b'.status) :
    ∃ a' c, Reports b' a' ∧ a'.state = b'.status ∧ P c ∧ c.clbid ∈ a'.resolvedClbids ∧ Awaited b'.status c := by
  obtain ⟨b, hb, hbb⟩ := forall₂_mem_left (auditAssertions_forall₂ h).flip hb'
  obtain ⟨a', c, h1, h2, h3, h4, h5⟩ := AnyAssertion.audit_waits hes (hbs b hb) hbb hw
  refine ⟨a', c, h1, h2, ?_, h4, h5⟩
  rcases h3 with h3 | ⟨p, e, _, _, k, f, c', _, hk, _, hc⟩
  · exact his c h3
  · cases hc
    exact hP.lookup hx hk

/-! ### Claims are of the student's courses -/

theorem course_only {x : Ctx} (hx : x.ForcedOk) {P : Course → Prop} (hP : x.Only P) {d s r : CourseData} {t t' : ClaimTable}
    (hs : s ∈ (courseSolutions x d).items) (ha : courseAudit x s t = .ok (r, t')) : ∀ k, r.claim = some k → P k.course := by
  intro k hk
  rcases courseAudit_claim ha with ⟨h, _⟩ | ⟨c, hm, _, _, hcc, _⟩
  · rw [h] at hk; cases hk
  rw [← hcc] at hk
  cases hk
  rw [(makeClaim_course x.multicountable t c s.path (s.forced || s.allowClaimed)).1]
  rcases courseSolutions_cases hs with ⟨rfl, _⟩ | ⟨e, _, k, f, c', _, hfc, _, rfl⟩ | ⟨c', hc, _, rfl⟩ | rfl
  · cases hm
  · cases hm; exact hP.lookup hx hfc
  · cases hm; exact hP.transcript _ (findCourses_spec hc).1
  · cases hm

theorem collect_successful {x : Ctx} {d : QueryData} {t t' : ClaimTable} {col : Collected} (h : collect x d t = .ok (col, t'))
    {k : Claim} (hk : k ∈ col.successful) : .course k.course ∈ col.items := by
  have rec' : ∀ cs : List Course, k ∈ recordLoop x d.path t cs → Item.course k.course ∈ cs.map Item.course := by
    intro cs hk
    obtain ⟨c, hc, rfl⟩ := List.mem_map.1 hk
    rw [(makeClaim_course x.multicountable t c d.path true).1]
    exact List.mem_map_of_mem hc
  unfold collect at h
  split at h
  · unfold collectCourses at h
    split at h
    · cases h
    rename_i cs hcs
    split at h
    · have e := claimLoop_items x d cs t {} rfl
      rw [Except.ok.inj h] at e
      rw [e]
      exact List.mem_map_of_mem hk
    · split at h
      · cases h; exact rec' _ hk
      · cases h; simp at hk
  · unfold collectClaimed at h
    split at h
    · cases h
    dsimp only at h
    split at h
    · cases h
    split at h
    · cases h
    split at h
    · cases h
    cases h
    dsimp only at hk ⊢
    split at hk
    · exact rec' _ hk
    · simp at hk
  · cases h; simp at hk

/-- the courses that a query counts are the student's -/
theorem Considers.only {x : Ctx} (hx : x.ForcedOk) {P : Course → Prop} (hP : x.Only P) {es : List Exc} {d : QueryData} {r : Node}
    {items : List Item} (h : Considers x es d r items) : ∀ c, .course c ∈ items → P c := by
  obtain ⟨recs, sel, ins, h1, h2, h3, h4, _⟩ := h.found
  intro c hc
  rcases List.mem_append.1 (h3.subset hc) with hc | hc
  · have := h2.subset _ hc
    cases h1 with
    | courses => simp only [List.mem_map, List.mem_filter, Item.course.injEq, exists_eq_right] at this; exact hP.transcript c this.1
    | failedToo => simp only [List.mem_map, List.mem_filter, Item.course.injEq, exists_eq_right] at this; exact hP.failed c this.1
    | claimed cs _ hcs =>
      simp only [List.mem_map, Item.course.injEq, exists_eq_right] at this
      exact hP.transcript c (hcs c this).1
    | areas => simp at this
    | performances => simp at this
    | attendances => simp at this
  · simp only [List.mem_map, Item.course.injEq, exists_eq_right] at hc
    obtain ⟨_, e, _, _, k, f, _, hk⟩ := h4 c hc
    exact hP.lookup hx hk

/-- what auditing a query solution does: all that is counted are the student's courses -/
theorem query_waits {x : Ctx} (hx : x.ForcedOk) {P : Course → Prop} (hP : x.Only P) {o : Orders} (ho : o.Lawful) {es : List Exc}
    (hes : x.exceptions = groupExceptions es) {st : Stage} {d s r : QueryData} {t t' : ClaimTable}
    (hf : FreshAt es (.query st d)) (hs : s ∈ (querySolutions x o d).items) (ha : queryAudit x s t = .ok (r, t')) :
    (∀ k ∈ r.successful, P k.course) ∧ ∀ b ∈ r.assertions, IsPending b.status →
      ∃ a c, Reports b a ∧ a.state = b.status ∧ P c ∧ c.clbid ∈ a.resolvedClbids ∧ Awaited b.status c := by
  obtain ⟨hw, hi, hfi, hsu, hfr⟩ := hf
  rcases querySolutions_cases ho hs with ⟨hov, rfl⟩ | ⟨hov, f, _, out, hse, _⟩
  · unfold queryAudit at ha
    rw [if_pos (by exact hov)] at ha
    obtain ⟨rfl, rfl⟩ := Prod.mk.inj (Except.ok.inj ha)
    exact ⟨by simp, fun b hb h => absurd h (AnyAssertion.fresh_never (hfr b hb))⟩
  have hso : s.overridden = false := by rw [hse]; exact hov
  have hsa : s.assertions = d.assertions := by rw [hse]; rfl
  unfold queryAudit at ha
  rw [if_neg (by simp [hso])] at ha
  split at ha
  · cases ha
  rename_i col t2 hcol
  dsimp only at ha
  split at ha
  · cases ha
  rename_i as has
  obtain ⟨rfl, rfl⟩ := Prod.mk.inj (Except.ok.inj ha)
  have hc := (query_considers (rd := { s with assertions := as, successful := col.successful, failed := col.failed })
    hx ho hes hov hi hs hcol rfl rfl).only hx hP
  refine ⟨fun k hk => hc _ (collect_successful hcol hk), fun b hb h => ?_⟩
  rw [hsa] at has
  split at has
  · cases has
    exact absurd h (AnyAssertion.fresh_never (hfr b hb))
  · exact assertions_wait hes hx hP hfr hc has hb h

mutual
theorem Node.only {x : Ctx} (hx : x.ForcedOk) {P : Course → Prop} (hP : x.Only P) {o : Orders} (ho : o.Lawful) {es : List Exc}
    (hes : x.exceptions = groupExceptions es) : ∀ n : Node, n.Fresh es → ∀ r, Becomes x o n r → ∀ k ∈ r.claims, P k.course
  | .course st d, hf, r, hb => by
    cases hb with
    | rule => rw [Node.fresh_claims _ hf]; simp
    | course hs ha =>
      intro k hk
      simp only [Node.claims, courseClaims] at hk
      split at hk
      · rename_i k' h
        split at hk
        · simp at hk
        · rw [List.mem_singleton.1 hk]; exact course_only hx hP hs ha _ h
      · simp at hk
  | .query st d, hf, r, hb => by
    cases hb with
    | rule => rw [Node.fresh_claims _ hf]; simp
    | query hs ha => exact (query_waits hx hP ho hes (hf _ (Node.self_within _)) hs ha).1
  | .count st d items, hf, r, hb => by
    have ih := Node.onlyList hx hP ho hes items (fun m hm => hf m (by simp [Node.within, hm]))
    cases hb with
    | rule => rw [Node.fresh_claims _ hf]; simp
    | countWaived h =>
      have := Node.fresh_claimsList items (fun m hm => hf m (by simp [Node.within, hm]))
      simp [Node.claims, this]
    | count f h1 h2 _ _ =>
      intro k hk
      simp only [Node.claims, Node.mem_claimsList] at hk
      obtain ⟨r, hr, hk⟩ := hk
      exact ih _ (h1 r hr) r (h2 r hr) k hk
  | .req st d c, hf, r, hb => by
    have ih := Node.onlyOpt hx hP ho hes c (fun m hm => hf m (by simp [Node.within, hm]))
    cases hb with
    | rule => rw [Node.fresh_claims _ hf]; simp
    | reqWaived h =>
      have := Node.fresh_claimsOpt c (fun m hm => hf m (by simp [Node.within, hm]))
      simp [Node.claims, this]
    | reqNone => simp [Node.claims, Node.claimsOpt]
    | req h =>
      intro k hk
      simp only [Node.claims, Node.claimsOpt] at hk
      split at hk
      · simp at hk
      · exact ih _ rfl _ h k hk
  | .cond st d t f, hf, r, hb => by
    have iht := Node.only hx hP ho hes t (fun m hm => hf m (by simp [Node.within, hm]))
    have ihf := Node.onlyOpt hx hP ho hes f (fun m hm => hf m (by simp [Node.within, hm]))
    cases hb with
    | rule => rw [Node.fresh_claims _ hf]; simp
    | condTrue h hb => simp only [Node.claims, h]; exact iht _ hb
    | condFalse h hb => simp only [Node.claims, h, Node.claimsOpt]; exact ihf _ rfl _ hb
  | .prof st d c, hf, r, hb => by
    cases hb with
    | rule => rw [Node.fresh_claims _ hf]; simp
    | profWaived h =>
      have := Node.fresh_claims _ hf
      cases c with
      | none => simp [Node.claims, profClaims]
      | some p =>
        have h1 := (hf (.course p.1 p.2) (by simp [Node.within])).2.2
        simp [Node.claims, profClaims, courseClaims, h1]
    | profNone h => simp [Node.claims, profClaims]
    | prof h hs ha =>
      intro k hk
      simp only [Node.claims, profClaims, courseClaims] at hk
      split at hk
      · rename_i k' h
        split at hk
        · simp at hk
        · rw [List.mem_singleton.1 hk]; exact course_only hx hP (by rw [hs]; simp) ha _ h
      · simp at hk
theorem Node.onlyList {x : Ctx} (hx : x.ForcedOk) {P : Course → Prop} (hP : x.Only P) {o : Orders} (ho : o.Lawful) {es : List Exc}
    (hes : x.exceptions = groupExceptions es) : ∀ ns : List Node, (∀ m ∈ Node.withinList ns, FreshAt es m) →
      ∀ n ∈ ns, ∀ r, Becomes x o n r → ∀ k ∈ r.claims, P k.course
  | [], _ => by simp
  | n :: ns, hr => by
    have h1 := Node.only hx hP ho hes n (fun m hm => hr m (by simp [Node.withinList, hm]))
    have h2 := Node.onlyList hx hP ho hes ns (fun m hm => hr m (by simp [Node.withinList, hm]))
    intro i hi
    rcases List.mem_cons.1 hi with rfl | hi
    · exact h1
    · exact h2 i hi
theorem Node.onlyOpt {x : Ctx} (hx : x.ForcedOk) {P : Course → Prop} (hP : x.Only P) {o : Orders} (ho : o.Lawful) {es : List Exc}
    (hes : x.exceptions = groupExceptions es) : ∀ c : Option Node, (∀ m ∈ Node.withinOpt c, FreshAt es m) →
      ∀ n, c = some n → ∀ r, Becomes x o n r → ∀ k ∈ r.claims, P k.course
  | none, _ => by simp
  | some n, hr => by
    have h1 := Node.only hx hP ho hes n hr
    rintro _ h
    cases h
    exact h1
end

/-! ### Statuses -/

theorem course_pending {s : Stage} {d : CourseData} (h : IsPending (courseStatus s d)) :
    ∃ c p, courseClaims s d = [⟨c, p, false⟩] ∧ Awaited (courseStatus s d) c := by
  have hcl : courseClaims s d = [] ∨ ∃ c p, courseClaims s d = [⟨c, p, false⟩] := by
    unfold courseClaims
    split
    · rename_i k _
      split
      · exact .inl rfl
      · rename_i hf
        obtain ⟨c, p, f⟩ := k
        exact .inr ⟨c, p, by simpa using hf⟩
    · exact .inl rfl
  rcases hcl with hcl | ⟨c, p, hcl⟩
  · exfalso
    unfold courseStatus at h
    rw [hcl] at h
    simp only [matchedOf, IsPending] at h
    by_cases h1 : courseWaived s d = true
    · simp [h1] at h
    · by_cases h2 : d.optional = true <;> simp [h1, h2] at h
  · refine ⟨c, p, hcl, ?_⟩
    unfold courseStatus at h ⊢
    rw [hcl] at h ⊢
    simp only [matchedOf, Bool.not_false, List.filter_cons_of_pos, List.filter_nil, List.map_cons, List.map_nil,
            List.dedup_cons_of_notMem (List.not_mem_nil), List.dedup_nil, List.any_cons, List.any_nil, Bool.or_false] at h ⊢
    repeat' split
    all_goals simp_all [IsPending, Awaited]

theorem all_not_all {l : List Status} {f g : Status → Bool} (hf : l.all f = true) (hg : ¬ l.all g = true) :
    ∃ s ∈ l, f s = true ∧ g s = false := by
  by_contra h
  apply hg
  rw [List.all_eq_true] at hf ⊢
  intro s hs
  by_contra hgs
  exact h ⟨s, hs, hf s hs, by simpa using hgs⟩

theorem query_pending {d : QueryData} (h : IsPending (queryStatus d)) : ∃ b ∈ d.assertions, b.status = queryStatus d := by
  have cur : ∀ s : Status, s.inWaivedDoneCurrent = true → s.inWaivedAndDone = false → s = .pendingCurrent := by
    intro s; cases s <;> simp [Status.inWaivedDoneCurrent, Status.inWaivedAndDone]
  have reg : ∀ s : Status, s.inWaivedDoneCurrentPending = true → s.inWaivedDoneCurrent = false → s = .pendingRegistered := by
    intro s; cases s <;> simp [Status.inWaivedDoneCurrent, Status.inWaivedDoneCurrentPending]
  have key : ∀ w, w ∈ d.assertions.map (·.status) → ∃ b ∈ d.assertions, b.status = w := by
    intro w hw
    obtain ⟨b, hb, h⟩ := List.mem_map.1 hw
    exact ⟨b, hb, h⟩
  revert h
  unfold queryStatus
  dsimp only
  generalize d.assertions.map (·.status) = ss at key
  intro h
  by_cases h1 : d.overridden = true
  · rw [if_pos h1] at h; simp [IsPending] at h
  rw [if_neg h1] at h ⊢
  by_cases h2 : ss.contains .failedInvariant = true
  · rw [if_pos h2] at h; simp [IsPending] at h
  rw [if_neg h2] at h ⊢
  by_cases h3 : ss.all (·.inWaivedOnly) = true
  · rw [if_pos h3] at h; simp [IsPending] at h
  rw [if_neg h3] at h ⊢
  by_cases h4 : ss.all (·.inWaivedAndDone) = true
  · rw [if_pos h4] at h; simp [IsPending] at h
  rw [if_neg h4] at h ⊢
  by_cases h5 : ss.all (·.inWaivedDoneCurrent) = true
  · rw [if_pos h5]
    obtain ⟨s, hs, k1, k2⟩ := all_not_all h5 h4
    exact key _ (cur s k1 k2 ▸ hs)
  rw [if_neg h5] at h ⊢
  by_cases h6 : ss.all (·.inWaivedDoneCurrentPending) = true
  · rw [if_pos h6]
    obtain ⟨s, hs, k1, k2⟩ := all_not_all h6 h5
    exact key _ (reg s k1 k2 ▸ hs)
  rw [if_neg h6] at h
  exfalso
  revert h
  repeat' split
  all_goals simp [IsPending]

theorem count_pending {d : CountData} {ss : List Status} (h : IsPending (countStatus d ss)) :
    countStatus d ss ∈ ss ∨ ∃ b ∈ d.audits, b.status = countStatus d ss := by
  have cur : ∀ s : Status, s.inWaivedDoneCurrent = true → s.inWaivedAndDone = false → s = .pendingCurrent := by
    intro s; cases s <;> simp [Status.inWaivedDoneCurrent, Status.inWaivedAndDone]
  have reg : ∀ s : Status, s.inWaivedDoneCurrentPending = true → s.inWaivedDoneCurrent = false → s = .pendingRegistered := by
    intro s; cases s <;> simp [Status.inWaivedDoneCurrent, Status.inWaivedDoneCurrentPending]
  have key : ∀ w, w ∈ d.audits.map (·.status) → ∃ b ∈ d.audits, b.status = w := by
    intro w hw
    obtain ⟨b, hb, h⟩ := List.mem_map.1 hw
    exact ⟨b, hb, h⟩
  have key' : ∀ w, w ∈ ss.filter (·.passing) → w ∈ ss := fun w hw => (List.mem_filter.1 hw).1
  revert h
  unfold countStatus
  dsimp only
  generalize d.audits.map (·.status) = as at key
  generalize ss.filter (·.passing) = ps at key'
  intro h
  have two : ∀ {f g : Status → Bool} {w : Status}, (∀ s, f s = true → g s = false → s = w) → (ps.all f && as.all f) = true →
      ¬ (ps.all g && as.all g) = true → w ∈ ss ∨ ∃ b ∈ d.audits, b.status = w := by
    intro f g w hw h1 h2
    rw [Bool.and_eq_true] at h1 h2
    by_cases h3 : ps.all g = true
    · obtain ⟨s, hs, k1, k2⟩ := all_not_all h1.2 (fun h => h2 ⟨h3, h⟩)
      exact .inr (key _ (hw s k1 k2 ▸ hs))
    · obtain ⟨s, hs, k1, k2⟩ := all_not_all h1.1 h3
      exact .inl (key' _ (hw s k1 k2 ▸ hs))
  by_cases h1 : d.overridden = true
  · rw [if_pos h1] at h; simp [IsPending] at h
  rw [if_neg h1] at h ⊢
  by_cases h2 : (ss.contains .failedInvariant || as.contains .failedInvariant) = true
  · rw [if_pos h2] at h; simp [IsPending] at h
  rw [if_neg h2] at h ⊢
  by_cases h3 : ss.all (·.inEmptyAndDepartmental) = true
  · rw [if_pos h3] at h; simp [IsPending] at h
  rw [if_neg h3] at h ⊢
  by_cases h4 : ps.length < d.count
  · rw [if_pos h4] at h; simp [IsPending] at h
  rw [if_neg h4] at h ⊢
  by_cases h5 : ps ≠ [] ∧ ps.all (·.inWaivedOnly) = true ∧ as.all (·.inWaivedOnly) = true
  · rw [if_pos h5] at h; simp [IsPending] at h
  rw [if_neg h5] at h ⊢
  by_cases h6 : (ps.all (·.inWaivedAndDone) && as.all (·.inWaivedAndDone)) = true
  · rw [if_pos h6] at h; simp [IsPending] at h
  rw [if_neg h6] at h ⊢
  by_cases h7 : (ps.all (·.inWaivedDoneCurrent) && as.all (·.inWaivedDoneCurrent)) = true
  · rw [if_pos h7]; exact two cur h7 h6
  rw [if_neg h7] at h ⊢
  by_cases h8 : (ps.all (·.inWaivedDoneCurrentPending) && as.all (·.inWaivedDoneCurrentPending)) = true
  · rw [if_pos h8]; exact two reg h8 h7
  rw [if_neg h8] at h
  simp [IsPending] at h

/-! ### Trees -/

theorem course_waits {x : Ctx} (hx : x.ForcedOk) {P : Course → Prop} (hP : x.Only P) {d s r : CourseData} {t t' : ClaimTable}
    (hs : s ∈ (courseSolutions x d).items) (ha : courseAudit x s t = .ok (r, t')) (hw : IsPending (courseStatus .result r)) :
    ∃ c, P c ∧ WaitsFor (courseStatus .result r) (.course .result r) c := by
  obtain ⟨c, p, h1, h2⟩ := course_pending hw
  refine ⟨c, ?_, .course h1 h2⟩
  have : ∃ k, r.claim = some k ∧ k.course = c := by
    simp only [courseClaims] at h1
    split at h1
    · rename_i k hk
      split at h1
      · cases h1
      · cases h1; exact ⟨_, hk, rfl⟩
    · cases h1
  obtain ⟨k, hk, rfl⟩ := this
  exact course_only hx hP hs ha k hk

theorem course_fresh_never {es : List Exc} {s : Stage} {d : CourseData} (hf : FreshAt es (.course s d)) :
    ¬ IsPending (courseStatus s d) := by
  intro h
  obtain ⟨c, p, h1, _⟩ := course_pending h
  simp [courseClaims, hf.2.2] at h1

/-- a count waits if one of its items or one of its conditions does -/
theorem count_waits {x : Ctx} (hx : x.ForcedOk) {P : Course → Prop} (hP : x.Only P) {o : Orders} (ho : o.Lawful) {es : List Exc}
    (hes : x.exceptions = groupExceptions es) {st : Stage} {d : CountData} {items : List Node} (hf : (Node.count st d items).Fresh es)
    (ih : ∀ i ∈ items, ∀ r, Becomes x o i r → IsPending r.status → ∃ c, P c ∧ WaitsFor r.status r c)
    {st' : Stage} {d' : CountData} {rs : List Node} (hb : Becomes x o (.count st d items) (.count st' d' rs)) {w : Status}
    (hw : IsPending w) (h : w ∈ Node.statusList rs ∨ ∃ b ∈ d'.audits, b.status = w) :
    ∃ c, P c ∧ WaitsFor w (.count st' d' rs) c := by
  have hself := hf _ (Node.self_within _)
  have child : ∀ i ∈ items, ∀ r ∈ rs, Becomes x o i r → r.status = w → ∃ c, P c ∧ WaitsFor w (.count st' d' rs) c := by
    rintro i hi r hr hb rfl
    obtain ⟨c, hc, h⟩ := ih i hi r hb hw
    exact ⟨c, hc, .item hr rfl h⟩
  rw [statusList_eq, List.mem_map] at h
  cases hb with
  | rule =>
    rcases h with ⟨r, hr, h⟩ | ⟨b, hb, h⟩
    · exact child r hr r hr .rule h
    · exact absurd (h ▸ hw) (AnyAssertion.fresh_never (hself.2 b hb))
  | countWaived _ =>
    rcases h with ⟨r, hr, h⟩ | ⟨b, hb, h⟩
    · exact child r hr r hr .rule h
    · exact absurd (h ▸ hw) (AnyAssertion.fresh_never (hself.2 b hb))
  | @count _ _ _ _ as f h1 h2 hperm has =>
    rcases h with ⟨r, hr, h⟩ | ⟨b, hb, h⟩
    · exact child _ (h1 r hr) r hr (h2 r hr) h
    · subst h
      have hm : ∀ c, Item.course c ∈ matchedItems o rs → P c := by
        intro c hc
        simp only [matchedItems, List.mem_flatMap, List.mem_map, Item.course.injEq, exists_eq_right] at hc
        obtain ⟨r, hr, hc⟩ := hc
        have hc := (ho.2.1 r.path r.matched).mem_iff.1 hc
        simp only [Node.matched, matchedOf, List.mem_dedup, List.mem_map, List.mem_filter] at hc
        obtain ⟨k, ⟨hk, _⟩, rfl⟩ := hc
        exact Node.onlyList hx hP ho hes items (fun m hm => hf m (by simp [Node.within, hm])) _ (h1 r hr) r (h2 r hr) k hk
      obtain ⟨a, c, k1, k2, k3, k4, k5⟩ := assertions_wait hes hx hP hself.2 hm has hb hw
      exact ⟨c, k3, .asserted (n := .count .result _ rs) hb k1 k2 k4 k5⟩

mutual
theorem Node.waits {x : Ctx} (hx : x.ForcedOk) {P : Course → Prop} (hP : x.Only P) {o : Orders} (ho : o.Lawful) {es : List Exc}
    (hes : x.exceptions = groupExceptions es) : ∀ n : Node, n.Fresh es → ∀ r, Becomes x o n r → IsPending r.status →
      ∃ c, P c ∧ WaitsFor r.status r c
  | .course st d, hf, r, hb, hw => by
    cases hb with
    | rule => exact absurd hw (course_fresh_never (hf _ (Node.self_within _)))
    | course hs ha => exact course_waits hx hP hs ha hw
  | .query st d, hf, r, hb, hw => by
    have hself := hf _ (Node.self_within _)
    obtain ⟨st', d', rfl⟩ : ∃ st' d', r = .query st' d' := by cases hb <;> exact ⟨_, _, rfl⟩
    obtain ⟨b, hb', hbs⟩ := query_pending hw
    have hw' : IsPending b.status := by rw [hbs]; exact hw
    cases hb with
    | rule => exact absurd hw' (AnyAssertion.fresh_never (hself.2.2.2.2 b hb'))
    | query hs ha =>
      obtain ⟨a, c, h1, h2, h3, h4, h5⟩ := (query_waits hx hP ho hes hself hs ha).2 b hb' hw'
      rw [hbs] at h2 h5
      exact ⟨c, h3, .asserted (n := .query _ _) hb' h1 h2 h4 h5⟩
  | .count st d items, hf, r, hb, hw => by
    have ih := Node.waitsList hx hP ho hes items (fun m hm => hf m (by simp [Node.within, hm]))
    obtain ⟨st', d', rs, rfl⟩ : ∃ st' d' rs, r = .count st' d' rs := by cases hb <;> exact ⟨_, _, _, rfl⟩
    exact count_waits hx hP ho hes hf ih hb hw (count_pending hw)
  | .req st d c, hf, r, hb, hw => by
    have ih := Node.waitsOpt hx hP ho hes c (fun m hm => hf m (by simp [Node.within, hm]))
    have child : ∀ {st' : Stage} {d' : ReqData} {c' : Option Node}, IsPending (Node.req st' d' c').status →
        ∃ r', c' = some r' ∧ d'.isAudited = false ∧ (Node.req st' d' c').status = r'.status := by
      intro st' d' c' h3
      simp only [Node.status] at h3 ⊢
      unfold reqStatus at h3 ⊢
      cases c' with
      | none =>
        simp only [Node.statusOpt] at h3
        repeat' split at h3
        all_goals simp_all [IsPending]
      | some r' =>
        refine ⟨r', rfl, ?_⟩
        simp only [Node.statusOpt] at h3 ⊢
        repeat' split at h3
        all_goals simp_all [IsPending]
    have fin : ∀ {st' : Stage} {d' : ReqData} {c' : Option Node}, IsPending (Node.req st' d' c').status →
        (∀ r', c' = some r' → ∃ n, c = some n ∧ Becomes x o n r') →
        ∃ k, P k ∧ WaitsFor (Node.req st' d' c').status (.req st' d' c') k := by
      intro st' d' c' hw hc
      obtain ⟨r', rfl, h1, h2⟩ := child hw
      obtain ⟨n, rfl, hb'⟩ := hc r' rfl
      rw [h2] at hw ⊢
      obtain ⟨k, hk, h⟩ := ih n rfl r' hb' hw
      exact ⟨k, hk, .req h1 h⟩
    cases hb with
    | rule => exact fin hw (fun r' h => ⟨r', h, .rule⟩)
    | reqWaived h => exact fin hw (fun r' h => ⟨r', h, .rule⟩)
    | reqNone => exact fin hw (fun r' h => by cases h)
    | req h => exact fin hw (fun r' h' => by cases h'; exact ⟨_, rfl, h⟩)
  | .cond st d t f, hf, r, hb, hw => by
    have iht := Node.waits hx hP ho hes t (fun m hm => hf m (by simp [Node.within, hm]))
    have ihf := Node.waitsOpt hx hP ho hes f (fun m hm => hf m (by simp [Node.within, hm]))
    have fin : ∀ {st' : Stage} {t' : Node} {f' : Option Node}, IsPending (Node.cond st' d t' f').status →
        (d.condition = some true → Becomes x o t t') → (∀ r', d.condition = some false → f' = some r' → ∃ n, f = some n ∧ Becomes x o n r') →
        ∃ k, P k ∧ WaitsFor (Node.cond st' d t' f').status (.cond st' d t' f') k := by
      intro st' t' f' hw h1 h2
      simp only [Node.status] at hw ⊢
      cases hd : d.condition with
      | none => rw [hd] at hw; simp [IsPending] at hw
      | some b =>
        cases b with
        | true =>
          rw [hd] at hw
          obtain ⟨k, hk, h⟩ := iht t' (h1 hd) hw
          exact ⟨k, hk, .condTrue hd h⟩
        | false =>
          cases f' with
          | none => rw [hd] at hw; simp [IsPending, Node.statusOpt] at hw
          | some r' =>
            rw [hd] at hw
            obtain ⟨n, hn, hb⟩ := h2 r' hd rfl
            obtain ⟨k, hk, h⟩ := ihf n hn r' hb hw
            exact ⟨k, hk, .condFalse hd h⟩
    cases hb with
    | rule => exact fin hw (fun _ => .rule) (fun r' _ h => ⟨r', h, .rule⟩)
    | condTrue h hb => exact fin hw (fun _ => hb) (fun r' h' _ => by rw [h] at h'; cases h')
    | condFalse h hb => exact fin hw (fun h' => by rw [h] at h'; cases h') (fun r' _ h' => by cases h'; exact ⟨_, rfl, hb⟩)
  | .prof st d c, hf, r, hb, hw => by
    have child : ∀ {st' : Stage} {d' : ProfData} {c' : Option (Stage × CourseData)}, IsPending (Node.prof st' d' c').status →
        ∃ s cd, c' = some (s, cd) ∧ (Node.prof st' d' c').status = courseStatus s cd := by
      intro st' d' c' h
      simp only [Node.status] at h ⊢
      unfold profStatus at h ⊢
      by_cases h1 : d'.overridden = true
      · rw [if_pos h1] at h; simp [IsPending] at h
      rw [if_neg h1] at h ⊢
      by_cases h2 : d'.status.inWaivedAndDone = true
      · rw [if_pos h2] at h
        revert h h2
        cases d'.status <;> simp [IsPending, Status.inWaivedAndDone]
      rw [if_neg h2] at h ⊢
      cases c' with
      | none => simp [IsPending] at h
      | some q => exact ⟨q.1, q.2, rfl, rfl⟩
    obtain ⟨st', d', c', rfl⟩ : ∃ st' d' c', r = .prof st' d' c' := by cases hb <;> exact ⟨_, _, _, rfl⟩
    obtain ⟨s, cd, rfl, hst⟩ := child hw
    rw [hst] at hw ⊢
    have never : c = some (s, cd) → False := by
      rintro rfl
      exact course_fresh_never (hf (.course s cd) (by simp [Node.within])) hw
    cases hb with
    | rule => exact (never rfl).elim
    | profWaived h => exact (never rfl).elim
    | prof h hs ha =>
      obtain ⟨k, hk, h⟩ := course_waits hx hP (by rw [hs]; simp) ha hw
      exact ⟨k, hk, .prof h⟩
theorem Node.waitsList {x : Ctx} (hx : x.ForcedOk) {P : Course → Prop} (hP : x.Only P) {o : Orders} (ho : o.Lawful) {es : List Exc}
    (hes : x.exceptions = groupExceptions es) : ∀ ns : List Node, (∀ m ∈ Node.withinList ns, FreshAt es m) →
      ∀ n ∈ ns, ∀ r, Becomes x o n r → IsPending r.status → ∃ c, P c ∧ WaitsFor r.status r c
  | [], _ => by simp
  | n :: ns, hr => by
    have h1 := Node.waits hx hP ho hes n (fun m hm => hr m (by simp [Node.withinList, hm]))
    have h2 := Node.waitsList hx hP ho hes ns (fun m hm => hr m (by simp [Node.withinList, hm]))
    intro i hi
    rcases List.mem_cons.1 hi with rfl | hi
    · exact h1
    · exact h2 i hi
theorem Node.waitsOpt {x : Ctx} (hx : x.ForcedOk) {P : Course → Prop} (hP : x.Only P) {o : Orders} (ho : o.Lawful) {es : List Exc}
    (hes : x.exceptions = groupExceptions es) : ∀ c : Option Node, (∀ m ∈ Node.withinOpt c, FreshAt es m) →
      ∀ n, c = some n → ∀ r, Becomes x o n r → IsPending r.status → ∃ c, P c ∧ WaitsFor r.status r c
  | none, _ => by simp
  | some n, hr => by
    have h1 := Node.waits hx hP ho hes n hr
    rintro _ h
    cases h
    exact h1
end

/-! ### Areas -/

/-- the context of an area knows the student's courses only -/
theorem areaCtx_only {a : Area} {st : Student} {es : List Exc} {tr : List Course} (h : ∀ k ∈ tr, k ∈ st.courses) :
    (areaCtx a st es tr).Only (fun c => c ∈ st.courses ∨ c ∈ st.coursesWithFailed) := by
  refine ⟨fun c hc => .inl (h c hc), fun c hc => .inr hc, fun e he => .inl ?_⟩
  simp only [areaCtx, List.mem_map, List.mem_reverse, List.mem_filter] at he
  obtain ⟨c, ⟨hc, _⟩, rfl⟩ := he
  exact hc

/-- `area_outcome`, and the contexts of the common requirements know the student's courses only -/
theorem area_outcome_only {o : Orders} (ho : o.Lawful) {a : Area} {st : Student} {es : List Exc}
    (hl : a.result.Loaded { exceptions := groupExceptions es })
    (hcl : Node.LoadedList { exceptions := groupExceptions es } a.commonRules) (hf : a.result.Fresh es)
    {s : AreaSolution} (hs : s ∈ (a.solutions o st es).items) {r : AreaResult} (ha : s.audit o a = .ok r) :
    ∃ tr, (∀ k ∈ tr, k ∈ st.courses) ∧ ∃ r0, Becomes (areaCtx a st es tr) o a.result r0 ∧
      ((a.kind ≠ "major" ∧ r.result = r0) ∨
       (a.kind = "major" ∧ ∃ d items name citems, r0 = .count .result d items ∧
          r.result = .count .result { d with count := d.count + 1 } (items ++
            [.req .result { path := ["$", "%Common Requirements"], name := name, inGpa := false }
              (some (.count .result { path := ["$", "%Common Requirements", ".count"], count := citems.length } citems))]) ∧
          ∀ c ∈ citems, ∃ rule ∈ a.commonRules, ∃ x, CommonCtx es x ∧
            x.Only (fun c => c ∈ st.courses ∨ c ∈ st.coursesWithFailed) ∧ Becomes x o rule c)) := by
  obtain ⟨tr, htr, t0, hctx, hsol⟩ := Area.solutions_mem hs
  have htr' := (C10_only_input_courses _ (ho.1 []) _ _ _ _ htr).1
  refine ⟨tr, htr', ?_⟩
  unfold AreaSolution.audit at ha
  split at ha
  · cases ha
  rename_i r0 t1 hr0
  rw [hctx] at hr0
  have hmain : Becomes (areaCtx a st es tr) o a.result r0 :=
    Node.topOutcomes (areaCtx a st es tr) o ho es rfl a.result
      (Node.loaded_congr (x := { exceptions := groupExceptions es }) (y := areaCtx a st es tr) rfl _ hl) t0 _ hsol _ _ _ hr0
  have honly := areaCtx_only (a := a) (es := es) htr'
  have hx := areaCtx_forcedOk a st es tr
  have hcl0 := Node.only hx honly ho rfl a.result hf r0 hmain
  split at ha
  · rename_i hk
    split at ha
    · cases ha
    rename_i common hcommon
    split at ha
    · rename_i d items
      cases ha
      refine ⟨_, hmain, .inr ⟨hk, d, items, ?_⟩⟩
      rw [hctx] at hcommon
      unfold auditCommon at hcommon
      split at hcommon
      · cases hcommon
      split at hcommon
      · cases hcommon
      rename_i ins hins
      dsimp only at hcommon
      split at hcommon
      · cases hcommon
      rename_i citems hcitems
      cases hcommon
      refine ⟨_, citems, rfl, rfl, ?_⟩
      intro c hc
      obtain ⟨rule, hrule, x, hx', t, hb⟩ := commonItems_mem hcitems hc
      have hcc : CommonCtx es x ∧ x.Only (fun c => c ∈ st.courses ∨ c ∈ st.coursesWithFailed) := by
        rcases hx' with rfl | rfl
        · refine ⟨⟨rfl, ?_⟩, ?_, by simp, ?_⟩
          · intro e he
            simp only [List.mem_map, List.mem_reverse] at he
            obtain ⟨c, _, rfl⟩ := he
            rfl
          · intro c hc
            have hc := (ho.2.1 _ _).mem_iff.1 hc
            simp only [Node.matched, matchedOf, List.mem_dedup, List.mem_map, List.mem_filter] at hc
            obtain ⟨k, ⟨hk, _⟩, rfl⟩ := hc
            exact hcl0 k hk
          · intro e he
            simp only [List.mem_map, List.mem_reverse] at he
            obtain ⟨c, hc, rfl⟩ := he
            obtain ⟨k, _, hk⟩ := (forcedCourses_list hins).2 c hc
            exact honly.lookup hx hk
        · exact ⟨⟨rfl, by intro e he; simp at he⟩, fun c hc => .inl hc, by simp, by simp⟩
      obtain ⟨s', hs', t2, hs''⟩ := findBest_mem hb
      have hlr := Node.loadedList_iff.1 hcl rule hrule
      exact ⟨rule, hrule, x, hcc.1, hcc.2,
        Node.outcomes x o ho rule (Node.loaded_congr hcc.1.exceptions.symm _ hlr) c ⟨s', hs', _, _, hs''⟩⟩
    · cases ha
  · rename_i hk
    cases ha
    exact ⟨r0, hmain, .inl ⟨hk, rfl⟩⟩

theorem area_waits {c : Constants} {templates : List (String × TemplateCourse)} {st : Student} {es : List Exc}
    {all : Bool} {spec : Dict} {a : Area} (hload : loadArea c templates st es all spec = .ok a) {o : Orders} (ho : o.Lawful)
    {s : AreaSolution} (hs : s ∈ (a.solutions o st es).items) {r : AreaResult} (ha : s.audit o a = .ok r)
    (hw : IsPending r.status) :
    ∃ k, (k ∈ st.courses ∨ k ∈ st.coursesWithFailed) ∧ WaitsFor r.status r.result k := by
  have hst : r.status = r.result.status := by
    unfold AreaResult.status at hw ⊢
    split at hw
    · simp [IsPending] at hw
    · rename_i h; rw [if_neg h]
  rw [hst] at hw ⊢
  obtain ⟨hf, hfc⟩ := loadArea_fresh hload
  obtain ⟨tr, htr, r0, hb, hr⟩ := area_outcome_only ho (loadArea_loaded hload).1 (loadArea_common hload).1 hf hs ha
  have hx := areaCtx_forcedOk a st es tr
  have honly := areaCtx_only (a := a) (es := es) htr
  rcases hr with ⟨_, hr⟩ | ⟨_, d, items, name, citems, rfl, hr, hci⟩
  · rw [hr] at hw ⊢
    exact Node.waits hx honly ho rfl a.result hf r0 hb hw
  · rw [hr] at hw ⊢
    simp only [Node.status] at hw ⊢
    have lift : ∀ {w : Status} {k : Course} {common : Node}, WaitsFor w (.count .result d items) k →
        WaitsFor w (.count .result { d with count := d.count + 1 } (items ++ [common])) k := by
      intro w k common h
      cases h with
      | item h1 h2 h3 => exact .item (by simp [h1]) h2 h3
      | asserted h1 h2 h3 h4 h5 => exact .asserted (n := .count _ _ _) h1 h2 h3 h4 h5
    have hcp := count_pending hw
    revert hw hcp
    generalize countStatus _ _ = w
    intro hw hcp
    rw [statusList_eq, List.map_append, List.mem_append] at hcp
    have own : w ∈ Node.statusList items ∨ (∃ b ∈ d.audits, b.status = w) →
        ∃ k, (k ∈ st.courses ∨ k ∈ st.coursesWithFailed) ∧
          WaitsFor w (.count .result { d with count := d.count + 1 } (items ++
            [.req .result { path := ["$", "%Common Requirements"], name := name, inGpa := false }
              (some (.count .result { path := ["$", "%Common Requirements", ".count"], count := citems.length } citems))])) k := by
      intro h
      revert hb hf
      cases hn : a.result with
      | count st0 d0 items0 =>
        intro hf hb
        have ih := Node.waitsList hx honly ho (es := es) rfl items0 (fun m hm => hf m (by simp [Node.within, hm]))
        obtain ⟨k, hk, h⟩ := count_waits hx honly ho rfl hf ih hb hw h
        exact ⟨k, hk, lift h⟩
      | _ => intro _ hb; cases hb
    rcases hcp with (h | h) | h
    · exact own (.inl (by rw [statusList_eq]; exact h))
    · simp only [List.map_cons, List.map_nil, List.mem_singleton] at h
      have hreq : w = (Node.count .result { path := ["$", "%Common Requirements", ".count"], count := citems.length } citems).status := by
        rw [h]; simp [Node.status, reqStatus, Node.statusOpt]
      have hw2 := hw
      rw [hreq] at hw2
      simp only [Node.status] at hw2 hreq
      rcases count_pending hw2 with h1 | ⟨b, hb, _⟩
      · rw [statusList_eq] at h1
        obtain ⟨q, hq, hqs⟩ := List.mem_map.1 h1
        obtain ⟨rule, hrule, x, hcc, hxo, hqb⟩ := hci q hq
        rw [statusList_eq, ← hqs] at hreq
        have hqw : IsPending q.status := by rw [← hreq]; exact hw
        obtain ⟨k, hk, hkw⟩ := Node.waits hcc.forcedOk hxo ho hcc.exceptions rule (hfc rule hrule) q hqb hqw
        rw [← hreq] at hkw
        exact ⟨k, hk, .item (r := .req _ _ _) (by simp) h.symm (.req rfl (.item hq hreq.symm hkw))⟩
      · simp at hb
    · exact own (.inr h)

/-! ### The properties -/

/-- **C61.** If an audited solution of an area, as loaded from any text, is reported as waiting for courses in progress or as
registered for, then its result shows, down to the rule that waits, a course of the student that is in progress this term or
incomplete, or registered for a later term. -/
theorem C61_pending_area_waits_for_a_course (c : Constants) (templates : List (String × TemplateCourse)) (st : Student)
    (es : List Exc) (all : Bool) (spec : Dict) (a : Area) (hload : loadArea c templates st es all spec = .ok a)
    (o : Orders) (ho : o.Lawful) (s : AreaSolution) (hs : s ∈ (a.solutions o st es).items) (r : AreaResult)
    (ha : s.audit o a = .ok r) (hw : r.status = .pendingCurrent ∨ r.status = .pendingRegistered) :
    ∃ k, (k ∈ st.courses ∨ k ∈ st.coursesWithFailed) ∧ WaitsFor r.status r.result k :=
  area_waits hload ho hs ha hw

/-- **C61.** The status of a course rule that has claimed a course, not inserted by an exception: done if the course is not in
progress, "registered" if it is for a later term, and otherwise "in progress" if it is taken this term or incomplete. -/
theorem C61_claimed_course_status (x : Ctx) (s r : CourseData) (t t' : ClaimTable) (ha : courseAudit x s t = .ok (r, t'))
    (k : Claim) (hk : r.claim = some k) (hok : k.failed = false) (hins : s.inserted = false) :
    ((Node.course .result r).status = .done ↔ k.course.isInProgress = false) ∧
    ((Node.course .result r).status = .pendingRegistered ↔ k.course.isInProgress = true ∧ k.course.isInProgressInFuture = true) ∧
    ((Node.course .result r).status = .pendingCurrent ↔ k.course.isInProgress = true ∧ k.course.isInProgressInFuture = false ∧
      (k.course.isInProgressThisTerm = true ∨ k.course.isIncomplete = true)) := by
  have hro : r.overridden = false := by
    rcases courseAudit_claim ha with ⟨h, _⟩ | ⟨_, _, _, h, _⟩
    · rw [h] at hk; cases hk
    · exact h
  have hri : r.inserted = false := by rw [(courseAudit_fields ha).2.1]; exact hins
  have hcl : courseClaims .result r = [k] := by simp [courseClaims, hk, hok]
  have hm : matchedOf [k] = [k.course] := by simp [matchedOf, hok]
  have hnw : courseWaived .result r = false := by simp [courseWaived, hk, hok, hro, hri]
  simp only [Node.status, courseStatus, hnw, hcl, hm, Bool.false_eq_true, if_false, List.any_cons, List.any_nil, Bool.or_false]
  cases k.course.isInProgress <;> cases k.course.isInProgressInFuture <;> cases k.course.isInProgressThisTerm <;>
    cases k.course.isIncomplete <;> cases r.optional <;> simp

/-- **C61.** A course rule whose course was refused, because another rule holds it, is not fulfilled, even if an exception
inserted the course there; only an optional rule is. -/
theorem C61_refused_course_status (x : Ctx) (s r : CourseData) (t t' : ClaimTable) (ha : courseAudit x s t = .ok (r, t'))
    (k : Claim) (hk : r.claim = some k) (hbad : k.failed = true) :
    (Node.course .result r).status = if s.optional then .waived else .empty := by
  have hcl : courseClaims .result r = [] := by simp [courseClaims, hk, hbad]
  have hnw : courseWaived .result r = false := by simp [courseWaived, hk, hbad]
  simp only [Node.status, courseStatus, hnw, hcl, ← (courseAudit_fields ha).2.2, matchedOf]
  simp

/-- **C61.** The closer a course rule is to being done, the greater its rank: done before in progress, before registered,
before anything else. -/
theorem C61_rank_follows_status (s s' : Stage) (d d' : CourseData) (h : d.optional = false) (h' : d'.optional = false)
    (r r' m m' : Rat) (hr : (Node.course s d).rank = .ok (r, m)) (hr' : (Node.course s' d').rank = .ok (r', m')) :
    m = m' ∧
    (Complete (Node.course s d).status → ¬ Complete (Node.course s' d').status → r' < r) ∧
    ((Node.course s d).status = .pendingCurrent → (Node.course s' d').status = .pendingRegistered → r' < r) ∧
    (IsPending (Node.course s d).status → ¬ Passes (Node.course s' d').status → r' < r) := by
  simp only [Node.rank, courseRank, h, h', Bool.false_eq_true, if_false, Except.ok.injEq] at hr hr'
  simp only [Node.status]
  revert hr hr'
  generalize courseStatus s d = w
  generalize courseStatus s' d' = w'
  cases w <;> cases w' <;> simp [statusRank, Complete, Passes, IsPending] <;>
    (rintro rfl rfl rfl rfl; norm_num)

/-! ### Non-trivial cases -/

/-- the student of the sample with one class this term and one registered for -/
def waitingTaken (future : Bool) : Student :=
  { sampleStudent with courses := [{ clbid := "1", identity := "CSCI 121", subject := "CSCI" },
      { clbid := "2", identity := "CSCI 251", subject := "CSCI", isInProgress := true, isInProgressThisTerm := true },
      { clbid := "3", identity := "CSCI 300", subject := "CSCI" },
      { clbid := "4", identity := "CSCI 301", subject := "CSCI", isInProgress := future, isInProgressInFuture := future }] }

/-- The area waits for the class of this term; with an elective of a later term, it is registered for. -/
example : auditedStatuses (waitingTaken false) [] satisfiedText =
      some (true, [.needsMoreItems, .needsMoreItems, .pendingCurrent, .pendingCurrent]) ∧
    auditedStatuses (waitingTaken true) [] satisfiedText =
      some (true, [.needsMoreItems, .needsMoreItems, .pendingRegistered, .pendingRegistered]) := by
  decide +kernel

/-- A course inserted by an exception into a second rule is refused there, and that rule stays empty. -/
example : (match courseAudit {} { path := ["b"], course := some "CSCI 121", matched := some { clbid := "1" }, inserted := true }
      [("1", [⟨{ clbid := "1" }, ["a"], false⟩])] with
    | .ok (r, _) => some (r.claim.map (·.failed), courseStatus .result r)
    | .error _ => none) = some (some true, .empty) := by
  decide +kernel

end Dp
