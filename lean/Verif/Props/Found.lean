import Verif.Props.FoundQuery

/-
If a student can satisfy a degree rule, the search finds a way (C59).
-/
namespace Dp

/-! ### Specification -/

/-- the amount asked for: that many courses, or at least that many credits -/
inductive AmountOf (a : Assertion) (cs : List Course) : Prop where
  | courses (n : Nat) : a.key = "count(courses)" → a.expected = n → NumHolds a.op cs.length n →
      (a.atMost = true → a.op = .gte → cs.length = n) → (a.op = .eq ∨ a.op = .neq → cs ≠ []) → AmountOf a cs
  | credits : a.key = "sum(credits)" → a.op = .gte → a.expected ≤ sumCredits cs → cs ≠ [] → AmountOf a cs

/-- `Fulfils final x es n cs`: with the courses `cs` the student can fulfil the loaded rule `n`.  `x` is the student's record
and `es` are the exceptions.  Not every way to fulfil a rule is described here. -/
inductive Fulfils (final : Bool) (x : Ctx) (es : List Exc) : Node → List Course → Prop where
  /-- a waived rule needs nothing -/
  | waived {n : Node} : WaivedAt es n.path → (∀ s d t f, n ≠ .cond s d t f) → Fulfils final x es n []
  /-- one course that the rule asks for -/
  | course {s : Stage} {d : CourseData} (c : Course) : CourseEntitled x d c → d.fromClaimed = false →
      (final = true → c.isInProgress = false) → Fulfils final x es (.course s d) [c]
  /-- a course that an exception puts in place of it -/
  | inserted {s : Stage} {d : CourseData} (c : Course) : InsertedInto x es d.path d.excluded c → Fulfils final x es (.course s d) [c]
  /-- some of the courses that a query selects (in the order of the transcript), enough for the one thing it asks -/
  | query {s : Stage} {d : QueryData} (a : Assertion) (recs sel : List Item) (cs : List Course) :
      d.source = .courses → d.attemptClaims = true → d.limit = [] → d.assertions = [.single a] → a.where' = none →
      (∀ e ∈ es, e.path = d.path → e.isInsertion = false) →
      (∀ e ∈ es, e.path = a.path → e.isInsertion = false ∧ e.isBlock = false) →
      Examines x d recs → SelectsItems d.where' recs sel → (cs.map Item.course).Sublist sel →
      (∀ i ∈ sel, ∀ c, i = .course c → 0 ≤ c.credits) → AmountOf a cs → (final = true → ∀ c ∈ cs, c.isInProgress = false) →
      Fulfils final x es (.query s d) cs
  /-- some of the courses that a query selects and that its limits leave, enough for each of the things it asks -/
  | queries {s : Stage} {d : QueryData} (as : List Assertion) (recs : List Item) (all kept cs : List Course) :
      d.source = .courses → d.attemptClaims = true → d.assertions = as.map .single →
      (∀ e ∈ es, e.path = d.path → e.isInsertion = false) →
      (∀ a ∈ as, ∀ e ∈ es, e.path = a.path → e.isInsertion = false ∧ e.isBlock = false) →
      Examines x d recs → SelectsItems d.where' recs (all.map .course) → KeptWithin d.limit [] all kept →
      (∀ c ∈ all, 0 ≤ c.credits) → cs ≠ [] → (∀ c ∈ cs, c ∈ all ∧ (Limited d.limit [] c → c ∈ kept)) →
      LargeEnough (as.map Assertion.demand) cs → (∀ a ∈ as, a.key ∉ mostCommonKeys ∧ MetBy a cs) →
      (final = true → ∀ c ∈ cs, c.isInProgress = false) → Fulfils final x es (.query s d) cs
  /-- as many items as the rule asks for -/
  | count {s : Stage} {d : CountData} {items : List Node} (chosen : List (Node × List Course)) : d.audits = [] →
      chosen ≠ [] → (chosen.map Prod.fst).Sublist items → d.count ≤ chosen.length →
      (d.atMost = true → chosen.length = d.count) → (∀ p ∈ chosen, Fulfils final x es p.1 p.2) →
      Fulfils final x es (.count s d items) (chosen.flatMap Prod.snd)
  | req {s : Stage} {d : ReqData} {n : Node} {cs : List Course} : d.isAudited = false → Fulfils final x es n cs →
      Fulfils final x es (.req s d (some n)) cs
  | condTrue {s : Stage} {d : CondData} {n : Node} {f : Option Node} {cs : List Course} : d.condition = some true →
      Fulfils final x es n cs → Fulfils final x es (.cond s d n f) cs
  | condFalse {s : Stage} {d : CondData} {t n : Node} {cs : List Course} : d.condition = some false →
      Fulfils final x es n cs → Fulfils final x es (.cond s d t (some n)) cs
  /-- the student's record shows a proficiency for which no course is named -/
  | prof {s : Stage} {d : ProfData} : RecordShows x.proficiencies d.proficiency → Fulfils final x es (.prof s d none) []

/-- The search for solutions of `n` finds one that fulfils it with the courses `cs` if nobody else has claimed these, and
that touches no other course. -/
def Finds (final : Bool) (x : Ctx) (o : Orders) (n : Node) (cs : List Course) : Prop :=
  ∃ s ∈ (n.solutions x o).items, ∀ t : ClaimTable, (∀ c ∈ cs, t.has c.clbid = false) →
    ∃ r t', s.audit x o t = .ok (r, t') ∧ Enough final r.status ∧
      ∀ k, k ∉ cs.map (·.clbid) → ClaimTable.has t' k = t.has k

/-! ### Claims -/

theorem makeClaim_free {m : Multicountable} {t : ClaimTable} {c : Course} {p : Path} (allow : Bool) (h : t.has c.clbid = false) :
    ∃ t', makeClaim m t c p allow = (⟨c, p, false⟩, t') ∧ ∀ k, k ≠ c.clbid → ClaimTable.has t' k = t.has k := by
  unfold makeClaim
  cases allow with
  | true => exact ⟨t, by simp, fun _ _ => rfl⟩
  | false =>
    refine ⟨t.append c.clbid ⟨c, p, false⟩, by simp [h], fun k hk => ?_⟩
    rw [ClaimTable.has_append]
    have : (c.clbid == k) = false := by simpa using fun h => hk h.symm
    simp [this]

theorem claimLoop_free {x : Ctx} {d : QueryData} {cs : List Course} {t : ClaimTable} {acc : Collected}
    (hnd : (cs.map (·.clbid)).Nodup) (h : ∀ c ∈ cs, t.has c.clbid = false) :
    ∃ acc' t', claimLoop x d cs t acc = (acc', t') ∧ acc'.items = acc.items ++ cs.map .course ∧
      ∀ k, k ∉ cs.map (·.clbid) → ClaimTable.has t' k = t.has k := by
  induction cs generalizing t acc with
  | nil => exact ⟨acc, t, rfl, by simp, fun _ _ => rfl⟩
  | cons c cs ih =>
    rw [List.map_cons, List.nodup_cons] at hnd
    obtain ⟨t1, h1, h2⟩ := makeClaim_free (m := x.multicountable) (p := d.path)
      (d.allowClaimed || d.forceInserted.contains c.clbid) (h c List.mem_cons_self)
    unfold claimLoop
    rw [h1]
    simp only [Bool.false_eq_true, if_false]
    obtain ⟨acc', t', h3, h4, h5⟩ := ih (t := t1)
      (acc := { acc with successful := acc.successful ++ [⟨c, d.path, false⟩], items := acc.items ++ [.course c] }) hnd.2
      (fun c' hc' => by
        rw [h2 _ (fun e => hnd.1 (by rw [← e]; exact List.mem_map_of_mem hc'))]
        exact h c' (List.mem_cons_of_mem _ hc'))
    refine ⟨acc', t', h3, by rw [h4]; simp, fun k hk => ?_⟩
    rw [List.map_cons, List.mem_cons, not_or] at hk
    rw [h5 k hk.2, h2 k hk.1]

/-! ### Statuses -/

/-- a course that was claimed, in progress or not -/
theorem courseStatus_claimed {final : Bool} {d : CourseData} {c : Course} {p : Path} (hc : d.claim = some ⟨c, p, false⟩)
    (hdate : c.Dated) (hfin : final = true → c.isInProgress = false) : Enough final (courseStatus .result d) := by
  unfold courseStatus
  split
  · cases final <;> simp [Enough, Passes, Complete]
  have hm : matchedOf (courseClaims .result d) = [c] := by
    simp [courseClaims, hc, matchedOf]
  simp only [hm, List.any_cons, List.any_nil, Bool.or_false]
  cases hip : c.isInProgress with
  | false => cases final <;> simp [Enough, Passes, Complete]
  | true =>
    cases final with
    | true => rw [hfin rfl] at hip; cases hip
    | false =>
      simp only [Enough, Bool.false_eq_true, if_false]
      have := hdate hip
      by_cases h1 : c.isInProgressThisTerm = true <;> by_cases h2 : c.isInProgressInFuture = true <;>
        by_cases h3 : c.isIncomplete = true <;> simp_all [Passes]

theorem queryStatus_enough {final : Bool} {d : QueryData} {a : Assertion} (ha : d.assertions = [.single a])
    (h : Enough final a.state) : Enough final (queryStatus d) := by
  unfold queryStatus
  split
  · exact enough_waived
  simp only [ha, List.map_cons, List.map_nil, AnyAssertion.status]
  cases final <;> cases hs : a.state <;> simp_all [Enough, Passes, Complete, Status.inWaivedOnly, Status.inWaivedAndDone,
    Status.inWaivedDoneCurrent, Status.inWaivedDoneCurrentPending]

theorem queryStatus_enough_all {final : Bool} {d : QueryData} {as : List Assertion} (ha : d.assertions = as.map .single)
    (h : ∀ a ∈ as, Enough final a.state) : Enough final (queryStatus d) := by
  unfold queryStatus
  split
  · exact enough_waived
  have hss : d.assertions.map (·.status) = as.map (·.state) := by
    rw [ha, List.map_map]
    rfl
  simp only [hss]
  have hfi : (as.map (·.state)).contains Status.failedInvariant = false := by
    rw [List.contains_eq_mem, decide_eq_false_iff_not]
    intro hm
    obtain ⟨a, ha, he⟩ := List.mem_map.1 hm
    have := h a ha
    rw [he] at this
    cases final <;> simp [Enough, Passes, Complete] at this
  rw [hfi]
  simp only [Bool.false_eq_true, if_false]
  split
  · exact enough_waived
  split
  · exact enough_done
  rename_i hnd
  cases final with
  | true =>
    exfalso
    refine hnd (List.all_eq_true.2 (fun s hs => ?_))
    obtain ⟨a, ha, rfl⟩ := List.mem_map.1 hs
    exact (wd_iff _).2 (h a ha)
  | false =>
    split
    · simp [Enough, Passes]
    split
    · simp [Enough, Passes]
    rename_i hcp
    exfalso
    refine hcp (List.all_eq_true.2 (fun s hs => ?_))
    obtain ⟨a, ha, rfl⟩ := List.mem_map.1 hs
    rcases h a ha with h | h | h | h <;> rw [h] <;> decide

theorem countStatus_enough_of {final : Bool} {d : CountData} {ss : List Status} (haud : d.audits = [])
    (hni : Status.failedInvariant ∉ ss) (hpass : ∀ s ∈ ss, Passes s → Enough final s)
    (hcount : d.count ≤ (ss.filter (·.passing)).length) (hne : ∃ s ∈ ss, Passes s) : Enough final (countStatus d ss) := by
  unfold countStatus
  split
  · exact enough_waived
  simp only [haud, List.map_nil, List.contains_eq_mem, List.not_mem_nil, decide_false, Bool.or_false, List.all_nil,
    Bool.and_true, and_true, hni]
  obtain ⟨s0, hs0, hp0⟩ := hne
  have hem : ss.all (·.inEmptyAndDepartmental) = false := by
    rw [List.all_eq_false]
    refine ⟨s0, hs0, ?_⟩
    rcases hp0 with h | h | h | h <;> subst h <;> decide
  rw [hem, if_neg (by simp), if_neg (by simp), if_neg (by omega)]
  have hmem : ∀ s ∈ ss.filter (·.passing), Enough final s := by
    intro s hs
    obtain ⟨h1, h2⟩ := List.mem_filter.1 hs
    exact hpass s h1 ((passing_iff s).1 h2)
  split
  · exact enough_waived
  split
  · exact enough_done
  rename_i hnd
  cases final with
  | true =>
    exfalso
    refine hnd (List.all_eq_true.2 (fun s hs => ?_))
    exact (wd_iff s).2 (hmem s hs)
  | false =>
    split
    · simp [Enough, Passes]
    split
    · simp [Enough, Passes]
    rename_i hcp
    exfalso
    refine hcp (List.all_eq_true.2 (fun s hs => ?_))
    have := hmem s hs
    rcases this with h | h | h | h <;> subst h <;> decide

/-- a met comparison of courses -/
theorem evaluateCourses_enough {final : Bool} {a : Assertion} {cs : List Course} (hop : a.op.isComparison)
    (hnd : cs.Nodup) (ham : AmountOf a cs) (hdate : ∀ c ∈ cs, c.Dated) (hfin : final = true → ∀ c ∈ cs, c.isInProgress = false) :
    ∃ s r, evaluateCourses a cs = .ok (s, r) ∧ Enough final s := by
  have key : ∃ r, applyCourses a.key cs cs = .ok r ∧ NumHolds a.op r.value a.expected ∧ (∀ c ∈ r.courses, c ∈ cs) ∧
      ∃ r', applyCourses a.key (cs.filter (fun c => !c.isInProgress)) [] = .ok r' := by
    cases ham with
    | courses n hk hn hh h1 h2 =>
      refine ⟨_, by rw [hk]; rfl, ?_, fun c hc => List.mem_dedup.1 hc, _, by rw [hk]; rfl⟩
      rw [hn, hnd.dedup]
      exact hh
    | credits hk hg hh hne =>
      refine ⟨_, by rw [hk]; rfl, ?_, fun c hc => List.mem_of_mem_filter hc, _, by rw [hk]; rfl⟩
      rw [hg]
      show a.expected ≤ sumCredits _
      refine hh.trans (le_of_eq ?_)
      clear * -
      induction cs with
      | nil => rfl
      | cons c cs ih =>
        simp only [sumCredits, List.map_cons, List.sum_cons, List.filter_cons] at ih ⊢
        by_cases h : c.credits = 0
        · simp [h, ih]
        · simp [h, ih]
  obtain ⟨r, h1, h2, h3, r', h4⟩ := key
  unfold evaluateCourses
  rw [h1]
  obtain ⟨b, hb, hb'⟩ := compareNum_iff hop r.value a.expected
  have : b = true := hb'.2 h2
  subst this
  simp only [hb]
  obtain ⟨b2, hb2, _⟩ := compareNum_iff hop r'.value a.expected
  have hms : ∃ s, metStatus a cs r = .ok s ∧ Enough final s := by
    unfold metStatus
    simp only [h4, hb2]
    cases hip : r.courses.any (·.isInProgress) with
    | false => exact ⟨.done, by simp, enough_done⟩
    | true =>
      simp only [if_true]
      rw [List.any_eq_true] at hip
      obtain ⟨c, hc, hci⟩ := hip
      cases final with
      | true =>
        rw [hfin rfl c (h3 c hc)] at hci
        cases hci
      | false =>
        split
        · exact ⟨_, rfl, enough_done⟩
        have hd := hdate c (h3 c hc) hci
        have h5 : r.courses.any (·.isInProgressThisTerm) = true ∨ r.courses.any (·.isInProgressInFuture) = true ∨
            r.courses.any (·.isIncomplete) = true := by
          rcases hd with h | h | h
          · exact .inl (List.any_eq_true.2 ⟨c, hc, h⟩)
          · exact .inr (.inl (List.any_eq_true.2 ⟨c, hc, h⟩))
          · exact .inr (.inr (List.any_eq_true.2 ⟨c, hc, h⟩))
        generalize r.courses.any (·.isInProgressThisTerm) = b1 at h5 ⊢
        generalize r.courses.any (·.isInProgressInFuture) = b2 at h5 ⊢
        generalize r.courses.any (·.isIncomplete) = b3 at h5 ⊢
        cases b1 <;> cases b2 <;> cases b3 <;> simp_all [Enough, Passes]
  obtain ⟨s, hs, he⟩ := hms
  rw [hs]
  exact ⟨s, r, rfl, he⟩

/-! ### Rules that were not selected -/

/-- neither failed nor waiting for the end of a term -/
def Settled (s : Status) : Prop := s ≠ .failedInvariant ∧ s ≠ .pendingCurrent ∧ s ≠ .pendingRegistered

theorem Settled.enough {final : Bool} {s : Status} (h : Settled s) (hp : Passes s) : Enough final s := by
  obtain ⟨_, h2, h3⟩ := h
  rcases hp with h | h | h | h
  · rw [h]; exact enough_done
  · rw [h]; exact enough_waived
  · exact absurd h h2
  · exact absurd h h3

theorem AnyAssertion.fresh_settled {es : List Exc} {t : DataType} {b : AnyAssertion} (h : b.Fresh es t) : Settled b.status := by
  have key : ∀ a ∈ b.branches, Settled a.state := by
    intro a ha
    rw [(h.branches a ha).state]
    split <;> simp [Settled]
  cases b with
  | single a => exact key a (by simp [AnyAssertion.branches])
  | cond c t f =>
    cases c with
    | none => simp [AnyAssertion.status, Settled]
    | some c =>
      cases c with
      | true => exact key t (by simp [AnyAssertion.branches])
      | false =>
        cases f with
        | none => simp [AnyAssertion.status, Settled]
        | some f => exact key f (by simp [AnyAssertion.branches])
  | dyn c r t =>
    rw [h.result c r t rfl]
    simp [AnyAssertion.status, Settled]

theorem settled_wdc {s : Status} (h : Settled s) (hw : s.inWaivedDoneCurrentPending = true) : s.inWaivedAndDone = true := by
  obtain ⟨_, h2, h3⟩ := h
  cases s <;> simp_all [Status.inWaivedDoneCurrentPending, Status.inWaivedAndDone]

theorem wdc_wdcp {s : Status} (hw : s.inWaivedDoneCurrent = true) : s.inWaivedDoneCurrentPending = true := by
  cases s <;> simp_all [Status.inWaivedDoneCurrentPending, Status.inWaivedDoneCurrent]

theorem countStatus_settled {d : CountData} {ss : List Status} (h : ∀ s ∈ ss, Settled s)
    (ha : ∀ b ∈ d.audits, Settled b.status) : Settled (countStatus d ss) := by
  have key : ∀ f : Status → Bool, (∀ s, f s = true → s.inWaivedDoneCurrentPending = true) →
      ((ss.filter (·.passing)).all f && (d.audits.map (·.status)).all f) = true →
      ((ss.filter (·.passing)).all (·.inWaivedAndDone) && (d.audits.map (·.status)).all (·.inWaivedAndDone)) = true := by
    intro f hf hall
    rw [Bool.and_eq_true, List.all_eq_true, List.all_eq_true] at hall ⊢
    refine ⟨fun s hs => settled_wdc (h s (List.mem_of_mem_filter hs)) (hf s (hall.1 s hs)), fun s hs => ?_⟩
    obtain ⟨b, hb, rfl⟩ := List.mem_map.1 hs
    exact settled_wdc (ha b hb) (hf _ (hall.2 _ hs))
  unfold countStatus
  split
  · simp [Settled]
  dsimp only
  split
  · rename_i hfi
    rw [Bool.or_eq_true, List.contains_eq_mem, List.contains_eq_mem, decide_eq_true_eq, decide_eq_true_eq] at hfi
    rcases hfi with hfi | hfi
    · exact absurd rfl (h _ hfi).1
    · obtain ⟨b, hb, hb'⟩ := List.mem_map.1 hfi
      exact absurd hb' (ha b hb).1
  split
  · simp [Settled]
  split
  · simp [Settled]
  split
  · simp [Settled]
  split
  · simp [Settled]
  rename_i hnd
  split
  · rename_i hc
    exact absurd (key _ (fun s hs => wdc_wdcp hs) hc) hnd
  split
  · rename_i hc
    exact absurd (key _ (fun s hs => hs) hc) hnd
  · simp [Settled]

theorem queryStatus_settled {d : QueryData} (ha : ∀ b ∈ d.assertions, Settled b.status) : Settled (queryStatus d) := by
  have key : ∀ f : Status → Bool, (∀ s, f s = true → s.inWaivedDoneCurrentPending = true) →
      (d.assertions.map (·.status)).all f = true → (d.assertions.map (·.status)).all (·.inWaivedAndDone) = true := by
    intro f hf hall
    rw [List.all_eq_true] at hall ⊢
    intro s hs
    obtain ⟨b, hb, rfl⟩ := List.mem_map.1 hs
    exact settled_wdc (ha b hb) (hf _ (hall _ hs))
  unfold queryStatus
  split
  · simp [Settled]
  dsimp only
  split
  · rename_i hfi
    rw [List.contains_eq_mem, decide_eq_true_eq] at hfi
    obtain ⟨b, hb, hb'⟩ := List.mem_map.1 hfi
    exact absurd hb' (ha b hb).1
  split
  · simp [Settled]
  split
  · simp [Settled]
  rename_i hnd
  split
  · rename_i hc
    exact absurd (key _ (fun s hs => wdc_wdcp hs) hc) hnd
  split
  · rename_i hc
    exact absurd (key _ (fun s hs => hs) hc) hnd
  split
  · simp [Settled]
  split <;> simp [Settled]

theorem courseRule_settled (d : CourseData) : Settled (courseStatus .rule d) := by
  unfold courseStatus
  split
  · simp [Settled]
  · simp only [courseClaims, matchedOf, List.filter_nil, List.map_nil, List.dedup_nil, List.any_nil]
    by_cases h : d.optional = true <;> simp [h, Settled]

mutual
/-- what a rule reports before anything is done about it -/
theorem Node.fresh_settled {x : Ctx} {es : List Exc} : ∀ n : Node, n.Fresh es → n.Loaded x → Settled n.status
  | .course s d, _, hl => by
    rw [hl.1]
    exact courseRule_settled d
  | .query s d, h, _ => by
    obtain ⟨_, _, _, _, h⟩ := h _ (Node.self_within _)
    exact queryStatus_settled (fun b hb => AnyAssertion.fresh_settled (h b hb))
  | .count s d items, h, hl => by
    have h0 := (h _ (Node.self_within _)).2
    refine countStatus_settled ?_ (fun b hb => AnyAssertion.fresh_settled (h0 b hb))
    rw [statusList_eq]
    intro s hs
    obtain ⟨n, hn, rfl⟩ := List.mem_map.1 hs
    exact Node.fresh_settledList items (fun m hm => h m (by simp [Node.within, hm])) hl.2.2 n hn
  | .req s d r, h, hl => by
    have h0 : d.overridden = false := h _ (Node.self_within _)
    have h1 := Node.fresh_settledOpt r (fun m hm => h m (by simp [Node.within, hm])) hl.2.2
    simp only [Node.status, reqStatus, h0, Bool.false_and, Bool.false_eq_true, if_false]
    split
    · simp [Settled]
    cases r with
    | none => simp [Node.statusOpt, Settled]
    | some n => exact h1 n rfl
  | .cond s d t f, h, hl => by
    have ht := Node.fresh_settled t (fun m hm => h m (by simp [Node.within, hm])) hl.2.2.1
    have hf := Node.fresh_settledOpt f (fun m hm => h m (by simp [Node.within, hm])) hl.2.2.2
    simp only [Node.status]
    split
    · exact ht
    · cases f with
      | none => simp [Node.statusOpt, Settled]
      | some n => exact hf n rfl
    · simp [Settled]
  | .prof s d c, h, hl => by
    obtain ⟨h0, h1⟩ := h _ (Node.self_within _)
    simp only [Node.status, profStatus, h0, h1, Bool.false_eq_true, if_false]
    rw [if_neg (by decide)]
    cases c with
    | none => simp [Settled]
    | some p =>
      obtain ⟨s', cd⟩ := p
      have := (hl.2.2 _ rfl).1
      simp only at this
      subst this
      exact courseRule_settled cd
theorem Node.fresh_settledList {x : Ctx} {es : List Exc} : ∀ ns : List Node, (∀ m ∈ Node.withinList ns, FreshAt es m) →
    Node.LoadedList x ns → ∀ n ∈ ns, Settled n.status
  | [], _, _ => by simp
  | n :: ns, h, hl => by
    have h1 := Node.fresh_settled n (fun m hm => h m (by simp [Node.withinList, hm])) hl.1
    have h2 := Node.fresh_settledList ns (fun m hm => h m (by simp [Node.withinList, hm])) hl.2
    intro i hi
    rcases List.mem_cons.1 hi with rfl | hi
    · exact h1
    · exact h2 i hi
theorem Node.fresh_settledOpt {x : Ctx} {es : List Exc} : ∀ r : Option Node, (∀ m ∈ Node.withinOpt r, FreshAt es m) →
    Node.LoadedOpt x r → ∀ n, r = some n → Settled n.status
  | none, _, _ => by simp
  | some n, h, hl => by
    have h1 := Node.fresh_settled n h hl
    rintro _ h
    cases h
    exact h1
end

/-! ### Potential -/

theorem anyPotential_false {x : Ctx} {ns : List Node} (h : Node.anyPotential x ns = .ok false) :
    ∀ n ∈ ns, n.hasPotential x = .ok false := by
  induction ns with
  | nil => simp
  | cons n ns ih =>
    unfold Node.anyPotential at h
    split at h
    · cases h
    · cases h
    · rename_i h1
      intro i hi
      rcases List.mem_cons.1 hi with rfl | hi
      · exact h1
      · exact ih h i hi

theorem anyItem_false {p : Pred} {l : List Item} (h : anyItem p l = .ok false) : ∀ i ∈ l, p.apply i.applyLeaf = .ok false := by
  induction l with
  | nil => simp
  | cons i l ih =>
    unfold anyItem at h
    split at h
    · cases h
    · cases h
    · rename_i h1
      intro j hj
      rcases List.mem_cons.1 hj with rfl | hj
      · exact h1
      · exact ih h j hj

theorem courseEntitled_found {x : Ctx} (hx : (x.transcript.map (·.clbid)).Nodup) {d : CourseData} {c : Course}
    (hc : CourseEntitled x d c) : c ∈ x.findCourses d := by
  unfold Ctx.findCourses
  cases hk : d.clbid with
  | none => exact List.mem_filter.2 ⟨hc.onTranscript, filter_matches_of (hc.byFilters hk)⟩
  | some k =>
    rw [← hc.byClbid k hk]
    simp [findCourseByClbid_of_nodup hx hc.onTranscript]

theorem examines_data {x : Ctx} {d : QueryData} {recs : List Item} (hs : d.source = .courses) (h : Examines x d recs) :
    recs = queryData x d := by
  unfold queryData
  rw [hs]
  cases h with
  | courses _ h => simp [h]
  | failedToo _ h => simp [h]
  | claimed _ h => rw [hs] at h; cases h
  | areas h => rw [hs] at h; cases h
  | performances h => rw [hs] at h; cases h
  | attendances h => rw [hs] at h; cases h

/-- A rule that can be fulfilled is not discarded for lack of potential. -/
theorem Fulfils.potential {final : Bool} {x : Ctx} {es : List Exc} (hes : x.exceptions = groupExceptions es)
    (hx : (x.transcript.map (·.clbid)).Nodup) {n : Node} {cs : List Course} (h : Fulfils final x es n cs) :
    n.hasPotential x ≠ .ok false := by
  have beneath : ∀ e ∈ es, existsBeneath x.exceptions e.path = true := by
    intro e he
    rw [hes]
    exact (existsBeneath_group es _).2 ⟨e, he, List.prefix_refl _⟩
  induction h with
  | @waived n hw hc =>
    obtain ⟨e, he, hp, _⟩ := hw
    have hb := beneath e he
    rw [hp] at hb
    cases n with
    | course s d => simp only [Node.path] at hb; simp [Node.hasPotential, courseHasPotential, hb]
    | query s d => simp only [Node.path] at hb; simp [Node.hasPotential, queryHasPotential, hb]
    | count s d items => simp only [Node.path] at hb; simp [Node.hasPotential, hb]
    | req s d r => simp only [Node.path] at hb; simp [Node.hasPotential, hb]
    | cond s d t f => exact absurd rfl (hc s d t f)
    | prof s d c => simp [Node.hasPotential]
  | @course s d c hc _ _ =>
    have := courseEntitled_found hx hc
    have hne : (x.findCourses d).isEmpty = false := by
      cases hf : x.findCourses d with
      | nil => rw [hf] at this; cases this
      | cons => rfl
    simp [Node.hasPotential, courseHasPotential, hne]
  | @inserted s d c hc =>
    obtain ⟨_, e, he, hp, _⟩ := hc
    have hb := beneath e he
    rw [hp] at hb
    simp [Node.hasPotential, courseHasPotential, hb]
  | @query s d a recs sel cs hs hcl hl has hw hi hi2 hex hsel hsub hcr ham hfin =>
    simp only [Node.hasPotential]
    intro h
    unfold queryHasPotential at h
    split at h
    · cases h
    split at h
    · cases h
    rename_i hlt
    split at h
    · cases h
    rename_i h0
    split at h
    · cases h
    rw [has] at hlt h0
    simp only [List.any_cons, List.any_nil, AnyAssertion.anyBranch, Bool.or_false] at hlt h0
    have hne : cs ≠ [] := by
      cases ham with
      | courses n hk hn hh h1 h2 =>
        rintro rfl
        simp only [Assertion.isLt, Bool.or_eq_true, beq_iff_eq, not_or] at hlt
        cases hop : a.op with
        | lt => exact hlt.1 hop
        | lte => exact hlt.2 hop
        | eq => exact h2 (.inl hop) rfl
        | neq => exact h2 (.inr hop) rfl
        | gt =>
          rw [hop] at hh
          simp only [NumHolds, List.length_nil, Nat.cast_zero] at hh
          have : (0 : Rat) ≤ n := by exact_mod_cast Nat.zero_le n
          linarith
        | gte =>
          rw [hop] at hh
          simp only [NumHolds, List.length_nil, Nat.cast_zero] at hh
          have h3 : (0 : Rat) ≤ n := by exact_mod_cast Nat.zero_le n
          have h4 : (n : Rat) = 0 := le_antisymm hh h3
          exact h0 (by simp [Assertion.isAtLeast0, hop, hn, h4])
        | _ => rw [hop] at hh; simp [NumHolds] at hh
      | credits _ _ _ hne => exact hne
    obtain ⟨c, hc⟩ := List.exists_mem_of_ne_nil _ hne
    have hmem := hsub.subset (List.mem_map_of_mem hc)
    rw [examines_data hs hex] at hsel
    split at h
    · rename_i hw
      rw [hw] at hsel
      simp only [SelectsItems] at hsel
      subst hsel
      cases hd : queryData x d with
      | nil => rw [hd] at hmem; cases hmem
      | cons => rw [hd] at h; cases h
    · rename_i p hw
      rw [hw] at hsel
      obtain ⟨f, h1, rfl⟩ := hsel
      obtain ⟨h2, h3⟩ := List.mem_filter.1 hmem
      have := anyItem_false h _ h2
      rw [h1 _ h2, h3] at this
      cases this
  | @queries s d as recs all kept cs hs hcl has hi hi2 hex hsel hk hcr hne hsub _ _ hfin =>
    simp only [Node.hasPotential]
    intro h
    unfold queryHasPotential at h
    split at h
    · cases h
    split at h
    · cases h
    split at h
    · cases h
    split at h
    · cases h
    obtain ⟨c, hc⟩ := List.exists_mem_of_ne_nil _ hne
    have hmem : Item.course c ∈ all.map Item.course := List.mem_map_of_mem (hsub c hc).1
    rw [examines_data hs hex] at hsel
    split at h
    · rename_i hw
      rw [hw] at hsel
      simp only [SelectsItems] at hsel
      rw [hsel] at hmem
      cases hd : queryData x d with
      | nil => rw [hd] at hmem; cases hmem
      | cons => rw [hd] at h; cases h
    · rename_i p hw
      rw [hw] at hsel
      obtain ⟨f, h1, h4⟩ := hsel
      rw [h4] at hmem
      obtain ⟨h2, h3⟩ := List.mem_filter.1 hmem
      have := anyItem_false h _ h2
      rw [h1 _ h2, h3] at this
      cases this
  | @count s d items chosen _ hne hsub _ _ _ ih =>
    simp only [Node.hasPotential]
    split
    · simp
    intro h
    obtain ⟨p, hp⟩ := List.exists_mem_of_ne_nil _ hne
    exact ih p hp (anyPotential_false h _ (hsub.subset (List.mem_map_of_mem hp)))
  | @req s d n cs haud _ ih =>
    simp only [Node.hasPotential, haud, Bool.false_eq_true, if_false, Node.optPotential]
    split
    · simp
    · exact ih
  | condTrue hc _ ih => simpa only [Node.hasPotential, hc] using ih
  | condFalse hc _ ih => simpa only [Node.hasPotential, hc, Node.optPotential] using ih
  | prof _ => simp [Node.hasPotential]

/-! ### Single rules -/

theorem waived_finds {final : Bool} {x : Ctx} {o : Orders} {es : List Exc} (hes : x.exceptions = groupExceptions es) {n : Node}
    (hn : n.Loaded x) (hc : n.isCond = false) (hw : WaivedAt es n.path) (cs : List Course) : Finds final x o n cs := by
  obtain ⟨s, hs, h⟩ := C38_waived_partial x o es hes n hn hc hw
  refine ⟨s, by rw [hs]; simp [Gen.one], fun t _ => ?_⟩
  obtain ⟨r, h1, _, h2, _⟩ := h t
  refine ⟨r, t, h1, ?_, fun _ _ => rfl⟩
  rw [h2]
  unfold Node.waivedStatus
  split
  · split
    · exact enough_done
    · exact enough_waived
  · exact enough_waived

theorem courseInsertSolutions_all {x : Ctx} {d : CourseData} {l : List Exc} (he : (courseInsertSolutions x d l).err = none)
    {e : Exc} (hmem : e ∈ l) {k : String} {forced : Bool} {c : Course} (hk : e.kind = .insertion k forced)
    (hc : x.forcedCourseByClbid k = .ok c) (hex : c.clbid ∉ d.excluded) :
    courseSolution d (some c) true forced ∈ (courseInsertSolutions x d l).items := by
  induction l with
  | nil => cases hmem
  | cons e' l ih =>
    unfold courseInsertSolutions at he ⊢
    rcases List.mem_cons.1 hmem with rfl | hmem
    · rw [hk] at he ⊢
      simp only [hc] at he ⊢
      rw [if_neg (by simpa using hex)] at he ⊢
      rw [(Gen.append_clean he).2.2]
      exact List.mem_append_left _ (by simp [Gen.one])
    · split at he
      · split at he
        · simp [Gen.raise] at he
        · split at he
          · rename_i hc'
            rw [if_pos hc']
            exact ih he hmem
          · rename_i hc'
            rw [if_neg hc']
            obtain ⟨_, h2, h3⟩ := Gen.append_clean he
            rw [h3]
            exact List.mem_append_right _ (ih h2 hmem)
      · exact ih he hmem

/-- a course rule of which a solution with the course is among those tried -/
theorem courseSolution_finds {final : Bool} {x : Ctx} {o : Orders} {st : Stage} {d : CourseData} {c : Course} (ins forced : Bool)
    (hs : courseSolution d (some c) ins forced ∈ (courseSolutions x d).items)
    (h : ins = true ∨ (c.Dated ∧ (final = true → c.isInProgress = false))) : Finds final x o (.course st d) [c] := by
  refine ⟨.course .solution (courseSolution d (some c) ins forced), ?_, fun t ht => ?_⟩
  · simp only [Node.solutions]
    exact Gen.mem_map.2 ⟨_, hs, rfl⟩
  · obtain ⟨t', h1, h2⟩ := makeClaim_free (m := x.multicountable) (p := d.path) (forced || d.allowClaimed) (ht c (by simp))
    obtain ⟨rd, haud, hcl, hrins⟩ : ∃ rd, courseAudit x (courseSolution d (some c) ins forced) t = .ok (rd, t') ∧
        rd.claim = some ⟨c, d.path, false⟩ ∧ rd.inserted = (d.inserted || ins) := by
      refine ⟨{ (courseSolution d (some c) ins forced) with
            claim := some ⟨c, d.path, false⟩, forced := false, matched := none }, ?_, rfl, rfl⟩
      simp only [courseAudit, courseSolution, Bool.false_eq_true, if_false, Bool.false_and, h1]
    refine ⟨.course .result rd, t', by simp only [Node.audit, haud], ?_, fun k hk => h2 k (by simpa using hk)⟩
    simp only [Node.status]
    rcases h with h | ⟨h3, h4⟩
    · have : courseWaived .result rd = true := by
        simp [courseWaived, hcl, hrins, h]
      simp only [courseStatus, this, if_true]
      exact enough_waived
    · exact courseStatus_claimed hcl h3 h4

theorem filterItems_of {p : Pred} {l : List Item} {f : Item → Bool} (h : ∀ i ∈ l, p.apply i.applyLeaf = .ok (f i)) :
    filterItems p l = .ok (l.filter f) := by
  induction l with
  | nil => rfl
  | cons i l ih =>
    unfold filterItems
    rw [h i List.mem_cons_self, ih (fun j hj => h j (List.mem_cons_of_mem _ hj))]
    simp only [List.filter_cons]

theorem noInserts {es : List Exc} {x : Ctx} (hes : x.exceptions = groupExceptions es) {p : Path}
    (h : ∀ e ∈ es, e.path = p → e.isInsertion = false) : getInsertExceptions x.exceptions p = [] := by
  rw [hes, (C07_exact_path_first_wins es p).1, List.filter_eq_nil_iff]
  intro e he hp
  rw [Bool.and_eq_true, beq_iff_eq] at hp
  rw [h e he hp.2] at hp
  cases hp.1

theorem noBlocks {es : List Exc} {x : Ctx} (hes : x.exceptions = groupExceptions es) {p : Path}
    (h : ∀ e ∈ es, e.path = p → e.isBlock = false) : getBlockExceptions x.exceptions p = [] := by
  rw [hes, (C07_exact_path_first_wins es p).2.1, List.filter_eq_nil_iff]
  intro e he hp
  rw [Bool.and_eq_true, beq_iff_eq] at hp
  rw [h e he hp.2] at hp
  cases hp.1

/-- a query that claims courses of the transcript and asks for one amount of them -/
theorem query_finds {final : Bool} {x : Ctx} {o : Orders} {es : List Exc} (hes : x.exceptions = groupExceptions es) {st : Stage}
    {d : QueryData} (hf : FreshAt es (.query st d)) (hov : d.overridden = false) {a : Assertion} {recs sel : List Item}
    {cs : List Course} (hsrc : d.source = .courses) (hcl : d.attemptClaims = true) (hlim : d.limit = [])
    (has : d.assertions = [.single a]) (hw : a.where' = none)
    (hi : ∀ e ∈ es, e.path = d.path → e.isInsertion = false)
    (hi2 : ∀ e ∈ es, e.path = a.path → e.isInsertion = false ∧ e.isBlock = false)
    (hex : Examines x d recs) (hsel : SelectsItems d.where' recs sel) (hsub : (cs.map Item.course).Sublist sel)
    (hcr : ∀ i ∈ sel, ∀ c, i = .course c → 0 ≤ c.credits) (ham : AmountOf a cs)
    (hfin : final = true → ∀ c ∈ cs, c.isInProgress = false) (hnd : (cs.map (·.clbid)).Nodup) (hdate : ∀ c ∈ cs, c.Dated) :
    Finds final x o (.query st d) cs := by
  obtain ⟨_, hins, hfi, _, hfr⟩ := hf
  have haf := (hfr (.single a) (by rw [has]; simp)).branches a (by simp [AnyAssertion.branches])
  rw [examines_data hsrc hex] at hsel
  -- what is available
  obtain ⟨all, hall, hav⟩ : ∃ all : List Course, sel = all.map .course ∧ queryFiltered x d = .ok ⟨sel, [], []⟩ := by
    have hq : ∃ l : List Course, queryData x d = l.map .course := by
      unfold queryData
      rw [hsrc]
      exact ⟨_, rfl⟩
    obtain ⟨l, hl⟩ := hq
    have hnone : ∀ acc, queryInsert x d (getInsertExceptions x.exceptions d.path) acc = .ok acc := by
      intro acc
      rw [noInserts hes hi]
      rfl
    unfold queryFiltered
    cases hwh : d.where' with
    | none =>
      rw [hwh] at hsel
      simp only [SelectsItems] at hsel
      refine ⟨l, by rw [hsel, hl], ?_⟩
      simp only [hsrc, true_or, if_true, hnone, hsel]
    | some p =>
      rw [hwh] at hsel
      obtain ⟨f, h1, h2⟩ := hsel
      refine ⟨l.filter (fun c => f (.course c)), ?_, ?_⟩
      · rw [h2, hl, List.filter_map]
        rfl
      · simp only [filterItems_of h1, hsrc, true_or, if_true, hnone, h2]
  have hplain : PlainQuery x d all := ⟨hsrc, hcl, hov, hlim, by rw [hav, hall]⟩
  have hS : cs.Sublist all := by
    rw [hall, List.sublist_map_iff] at hsub
    obtain ⟨l, h1, h2⟩ := hsub
    rw [List.map_injective_iff.2 itemCourse_injective h2]
    exact h1
  have hmem : querySolution d (cs.map .course) [] [] ∈ (querySolutions x o d).items := by
    rw [plainQuery_solutions hplain o]
    refine mem_orElse_left ?_
    simp only [Gen.map, List.mem_map]
    refine ⟨cs, ?_, rfl⟩
    cases ham with
    | courses n hk hn hh h1 h2 =>
      have hflat : iterateCourseSet d.assertions all = countShortcut a all := by
        simp [iterateCourseSet, has, flattenAssertions, Assertion.isSimpleCount, hk, largestExpected]
      rw [hflat]
      exact (countShortcut_spec a n haf.comparison hn all).2.2 cs hS hh (fun h3 h4 => h1 h4 h3)
    | credits hk hg hle hne =>
      have hflat : iterateCourseSet d.assertions all = sumShortcut a all := by
        simp [iterateCourseSet, has, flattenAssertions, Assertion.isSimpleCount, Assertion.isSimpleSum, hk, largestExpected]
      rw [hflat]
      have hge : ¬ sumCredits all < a.expected := by
        have := sublist_sum_le hS (fun c hc => hcr (.course c) (by rw [hall]; exact List.mem_map_of_mem hc) c rfl)
        exact not_lt.2 (hle.trans this)
      unfold sumShortcut
      rw [if_neg hge]
      simp only [Gen.ofList, List.mem_filter, decide_eq_true_eq]
      refine ⟨?_, hle⟩
      unfold allCombos
      have hl : 0 < cs.length := List.length_pos_iff.mpr hne
      have hl' := hS.length_le
      exact List.mem_flatMap.mpr ⟨cs.length - 1, List.mem_range.mpr (by omega), mem_combos.mpr ⟨hS, by omega⟩⟩
  refine ⟨.query .solution (querySolution d (cs.map .course) [] []), ?_, fun t ht => ?_⟩
  · simp only [Node.solutions]
    exact Gen.mem_map.2 ⟨_, hmem, rfl⟩
  obtain ⟨q, hq⟩ : ∃ q, q = querySolution d (cs.map .course) [] [] := ⟨_, rfl⟩
  have q1 : q.source = .courses := by rw [hq]; exact hsrc
  have q2 : q.output = cs.map .course := by rw [hq]; rfl
  have q3 : q.attemptClaims = true := by rw [hq]; exact hcl
  have q4 : q.assertions = [.single a] := by rw [hq]; exact has
  have q5 : q.overridden = false := by rw [hq]; exact hov
  rw [← hq]
  obtain ⟨acc, t', h1, h2, h3⟩ := claimLoop_free (x := x) (d := q) (acc := {}) hnd ht
  have hcol : collect x q t = .ok (acc, t') := by
    simp only [collect, q1, collectCourses, q2, itemCourses_map, q3, if_true, h1]
  have hcond : nonPrimaryLt q.assertions = false := by
    rw [q4]
    simp only [nonPrimaryLt, List.any_cons, List.any_nil, List.all_cons, List.all_nil, Bool.or_false, Bool.and_true]
    cases AnyAssertion.anyBranch _ (.single a) <;> rfl
  obtain ⟨a', ha', hen⟩ : ∃ a', a.audit x acc.items = .ok a' ∧ Enough final a'.state := by
    unfold Assertion.audit
    by_cases hao : a.overridden = true
    · rw [if_pos hao]
      refine ⟨a, rfl, ?_⟩
      rw [haf.state, if_pos hao]
      exact enough_waived
    · rw [if_neg hao]
      simp only [hw, noInserts hes (fun e he hp => (hi2 e he hp).1), insertInto,
        noBlocks hes (fun e he hp => (hi2 e he hp).2), blockFrom]
      have hit : acc.items = cs.map .course := by simpa using h2
      have hty : a.dataType = .course := by
        rw [haf.type, hsrc]
        rfl
      obtain ⟨s, r, h4, h5⟩ := evaluateCourses_enough haf.comparison hnd.of_map ham hdate hfin
      unfold Assertion.evaluate
      simp only [hty, hit, itemCourses_map, h4]
      exact ⟨_, rfl, h5⟩
  refine ⟨.query .result { q with assertions := [.single a'], successful := acc.successful, failed := acc.failed },
    t', ?_, ?_, h3⟩
  · have hq' : queryAudit x q t
        = .ok ({ q with assertions := [.single a'], successful := acc.successful, failed := acc.failed }, t') := by
      unfold queryAudit
      rw [if_neg (by simp [q5]), hcol]
      simp only [hcond, Bool.false_eq_true, and_false, if_false]
      simp only [q4, auditAssertions, AnyAssertion.audit, ha']
    simp only [Node.audit, hq']
  · simp only [Node.status]
    exact queryStatus_enough rfl hen

theorem auditAssertions_singles {final : Bool} {x : Ctx} {items : List Item} {as : List Assertion}
    (h : ∀ a ∈ as, ∃ a', a.audit x items = .ok a' ∧ Enough final a'.state) :
    ∃ as' : List Assertion, auditAssertions x items (as.map .single) = .ok (as'.map .single) ∧ ∀ a ∈ as', Enough final a.state := by
  induction as with
  | nil => exact ⟨[], rfl, by simp⟩
  | cons a as ih =>
    obtain ⟨a', h1, h2⟩ := h a List.mem_cons_self
    obtain ⟨as', h3, h4⟩ := ih (fun b hb => h b (List.mem_cons_of_mem _ hb))
    refine ⟨a' :: as', by simp only [List.map_cons, auditAssertions, AnyAssertion.audit, h1, h3], ?_⟩
    intro b hb
    rcases List.mem_cons.1 hb with rfl | hb
    · exact h2
    · exact h4 b hb

theorem selectsItems_courses {w : Option Pred} {l m : List Course} (h : Selects w l m) :
    SelectsItems w (l.map .course) (m.map .course) := by
  cases w with
  | none => rw [show m = l from h]; rfl
  | some p =>
    obtain ⟨f, h1, rfl⟩ := h
    refine ⟨fun i => match i with | .course c => f c | _ => false, ?_, ?_⟩
    · intro i hi
      obtain ⟨c, hc, rfl⟩ := List.mem_map.1 hi
      exact h1 c hc
    · rw [List.filter_map]
      rfl

/-- a query that claims courses of the transcript within its limits and asks several things of them -/
theorem queries_find {final : Bool} {x : Ctx} {o : Orders} (ho : o.Lawful) {es : List Exc} (hes : x.exceptions = groupExceptions es)
    {st : Stage} {d : QueryData} (hf : FreshAt es (.query st d)) (hov : d.overridden = false) {as : List Assertion}
    {recs : List Item} {all kept cs : List Course} (hsrc : d.source = .courses) (hcl : d.attemptClaims = true)
    (has : d.assertions = as.map .single) (hi : ∀ e ∈ es, e.path = d.path → e.isInsertion = false)
    (hi2 : ∀ a ∈ as, ∀ e ∈ es, e.path = a.path → e.isInsertion = false ∧ e.isBlock = false)
    (hex : Examines x d recs) (hsel : SelectsItems d.where' recs (all.map .course)) (hkept : KeptWithin d.limit [] all kept)
    (hcr : ∀ c ∈ all, 0 ≤ c.credits) (hne : cs ≠ []) (hsub : ∀ c ∈ cs, c ∈ all ∧ (Limited d.limit [] c → c ∈ kept))
    (hlarge : LargeEnough (as.map Assertion.demand) cs) (hmet : ∀ a ∈ as, a.key ∉ mostCommonKeys ∧ MetBy a cs)
    (hfin : final = true → ∀ c ∈ cs, c.isInProgress = false) (hnd : (cs.map (·.clbid)).Nodup) (hdate : ∀ c ∈ cs, c.Dated)
    (hclean : ((Node.query st d).solutions x o).err = none) : Finds final x o (.query st d) cs := by
  obtain ⟨_, hins, hfi, _, hfr⟩ := hf
  have haf : ∀ a ∈ as, _ := fun a ha =>
    (hfr (.single a) (by rw [has]; exact List.mem_map_of_mem ha)).branches a (by simp [AnyAssertion.branches])
  rw [examines_data hsrc hex] at hsel
  have hav : queryFiltered x d = .ok ⟨all.map .course, [], []⟩ := by
    have hnone : ∀ acc, queryInsert x d (getInsertExceptions x.exceptions d.path) acc = .ok acc := by
      intro acc
      rw [noInserts hes hi]
      rfl
    unfold queryFiltered
    cases hwh : d.where' with
    | none =>
      rw [hwh] at hsel
      simp only [SelectsItems] at hsel
      simp only [hsrc, true_or, if_true, hnone, hsel]
    | some p =>
      rw [hwh] at hsel
      obtain ⟨f, h1, h2⟩ := hsel
      simp only [filterItems_of h1, hsrc, true_or, if_true, hnone, h2]
  have hclean : (querySolutions x o d).err = none := by simpa [Node.solutions, Gen.map] using hclean
  have hsols : querySolutions x o d =
      (queryCourseSolutions (o.limit d.path) d ⟨all.map .course, [], []⟩ all).orElse (.one (querySolution d [] [] [])) := by
    unfold querySolutions
    rw [hov, hav, hsrc]
    simp only [Bool.false_eq_true, if_false, itemCourses_map]
  rw [hsols] at hclean
  have hclean2 := Gen.orElse_left_clean hclean
  unfold queryCourseSolutions at hclean2
  obtain ⟨hclean3, hall⟩ := Gen.bind_all hclean2
  obtain ⟨tr, htr, hmem⟩ := hkept.offered (ho.1 d.path) (limited_evaluable hclean3)
  -- the courses in the order of this list
  obtain ⟨cs', hcs', hS, hperm⟩ : ∃ cs' : List Course, cs'.Nodup ∧ cs'.Sublist tr ∧ cs.Perm cs' := by
    refine ⟨(tr.filter (fun c => decide (c ∈ cs))).dedup, List.nodup_dedup _, (List.dedup_sublist _).trans List.filter_sublist, ?_⟩
    refine (List.perm_ext_iff_of_nodup hnd.of_map (List.nodup_dedup _)).2 fun c => ?_
    rw [List.mem_dedup, List.mem_filter, decide_eq_true_eq, hmem]
    exact ⟨fun h => ⟨hsub c h, h⟩, fun h => h.2⟩
  have hne' : cs' ≠ [] := by
    rintro rfl
    exact hne hperm.eq_nil
  have hlarge' : LargeEnough (as.map Assertion.demand) cs' := by
    cases hlarge with
    | counted h1 h2 => exact .counted h1 (by rw [← hperm.length_eq]; exact h2)
    | summed h1 h2 => exact .summed h1 (by rw [← credit_perm hperm]; exact h2)
  have hadd : ∀ combo, addInserted ⟨all.map Item.course, [], []⟩ tr combo = combo := by
    intro combo
    simp [addInserted]
  have hmemq : querySolution d (cs'.map .course) [] [] ∈ (querySolutions x o d).items := by
    rw [hsols]
    refine mem_orElse_left ?_
    unfold queryCourseSolutions
    refine (hall tr htr).2 _ ?_
    rw [hcl]
    simp only [Bool.not_true, Bool.false_eq_true, if_false, hadd]
    exact Gen.mem_map.2 ⟨cs', by
      rw [has]
      exact hlarge'.tried hS hne' (fun c hc => hcr c ((hmem c).1 hc).1), rfl⟩
  refine ⟨.query .solution (querySolution d (cs'.map .course) [] []), ?_, fun t ht => ?_⟩
  · simp only [Node.solutions]
    exact Gen.mem_map.2 ⟨_, hmemq, rfl⟩
  obtain ⟨q, hq⟩ : ∃ q, q = querySolution d (cs'.map .course) [] [] := ⟨_, rfl⟩
  have q1 : q.source = .courses := by rw [hq]; exact hsrc
  have q2 : q.output = cs'.map .course := by rw [hq]; rfl
  have q3 : q.attemptClaims = true := by rw [hq]; exact hcl
  have q4 : q.assertions = as.map .single := by rw [hq]; exact has
  have q5 : q.overridden = false := by rw [hq]; exact hov
  rw [← hq]
  have hnd' : (cs'.map (·.clbid)).Nodup := ((hperm.map _).nodup_iff).1 hnd
  obtain ⟨acc, t', h1, h2, h3⟩ := claimLoop_free (x := x) (d := q) (acc := {}) hnd'
    (fun c hc => ht c (hperm.mem_iff.2 hc))
  have hcol : collect x q t = .ok (acc, t') := by
    simp only [collect, q1, collectCourses, q2, itemCourses_map, q3, if_true, h1]
  have hit : acc.items = cs'.map .course := by simpa using h2
  obtain ⟨as', ha', hen⟩ := auditAssertions_singles (final := final) (x := x) (items := acc.items) (as := as) (fun a ha => by
    unfold Assertion.audit
    by_cases hao : a.overridden = true
    · rw [if_pos hao]
      refine ⟨a, rfl, ?_⟩
      rw [(haf a ha).state, if_pos hao]
      exact enough_waived
    · rw [if_neg hao]
      obtain ⟨hk, m, v, g1, g2, g3⟩ := hmet a ha
      obtain ⟨m', g4, g5⟩ := g1.perm hperm
      have hin : ∀ c ∈ m', c ∈ cs := by
        intro c hc
        refine hperm.mem_iff.2 ?_
        cases hw : a.where' with
        | none => rw [hw] at g4; rw [← show m' = cs' from g4]; exact hc
        | some p =>
          rw [hw] at g4
          obtain ⟨f, _, h⟩ := g4
          rw [h] at hc
          exact List.mem_of_mem_filter hc
      obtain ⟨s, r, h4, h5⟩ := evaluateCourses_met (haf a ha).comparison hk (g2.perm g5 hk) g3 (fun c hc => hdate c (hin c hc))
        (fun hf c hc => hfin hf c (hin c hc))
      have hty : a.dataType = .course := by
        rw [(haf a ha).type, hsrc]
        rfl
      have hselect := selectsItems_courses g4
      have hev : a.evaluate (m'.map .course) = .ok (s, r) := by
        unfold Assertion.evaluate
        simp only [hty, itemCourses_map, h4]
      rw [hit]
      cases hw : a.where' with
      | none =>
        rw [hw] at hselect
        rw [show m'.map Item.course = _ from hselect] at hev
        simp only [noInserts hes (fun e he hp => (hi2 a ha e he hp).1), insertInto,
          noBlocks hes (fun e he hp => (hi2 a ha e he hp).2), blockFrom, hev]
        exact ⟨_, rfl, h5⟩
      | some p =>
        rw [hw] at hselect
        obtain ⟨f, h6, h7⟩ := hselect
        have h8 := filterItems_of h6
        rw [← h7] at h8
        simp only [h8, noInserts hes (fun e he hp => (hi2 a ha e he hp).1), insertInto,
          noBlocks hes (fun e he hp => (hi2 a ha e he hp).2), blockFrom, hev]
        exact ⟨_, rfl, h5⟩)
  refine ⟨.query .result { q with assertions := as'.map .single, successful := acc.successful, failed := acc.failed },
    t', ?_, ?_, fun k hk => h3 k (fun hk' => hk ((hperm.map _).mem_iff.2 hk'))⟩
  · have hq' : queryAudit x q t
        = .ok ({ q with assertions := as'.map .single, successful := acc.successful, failed := acc.failed }, t') := by
      have hitne : acc.items ≠ [] := by
        rw [hit]
        simpa using hne'
      unfold queryAudit
      rw [if_neg (by simp [q5]), hcol]
      simp only [hitne, false_and, and_false, if_false]
      simp only [q4, ha']
    simp only [Node.audit, hq']
  · simp only [Node.status]
    exact queryStatus_enough_all rfl hen

/-! ### Trees -/

theorem perm_map_lift {α β : Type} {f : α → β} {l : List β} {w : List α} (h : l.Perm (w.map f)) :
    ∃ w' : List α, w'.Perm w ∧ w'.map f = l := by
  induction l generalizing w with
  | nil =>
    have := h.symm.eq_nil
    rw [List.map_eq_nil_iff] at this
    subst this
    exact ⟨[], .refl _, rfl⟩
  | cons b l ih =>
    obtain ⟨a, ha, hb⟩ := List.mem_map.1 (h.subset List.mem_cons_self)
    obtain ⟨w1, w2, rfl⟩ := List.append_of_mem ha
    have h' : l.Perm ((w1 ++ w2).map f) := by
      apply List.Perm.cons_inv (a := b)
      refine h.trans ?_
      rw [List.map_append, List.map_append, List.map_cons, hb]
      exact List.perm_middle
    obtain ⟨w', h1, h2⟩ := ih h'
    exact ⟨a :: w', (h1.cons a).trans List.perm_middle.symm, by simp [h2, hb]⟩

/-- what the audit of a part of a count is to give, if nobody has claimed `cs`: `chosen` parts are fulfilled -/
def Fares (final : Bool) (x : Ctx) (o : Orders) (s : Node) (cs : List Course) (chosen : Bool) : Prop :=
  ∀ t : ClaimTable, (∀ c ∈ cs, t.has c.clbid = false) →
    ∃ r t', s.audit x o t = .ok (r, t') ∧ (chosen = true → Enough final r.status) ∧ r.status ≠ .failedInvariant ∧
      (Passes r.status → Enough final r.status) ∧ ∀ k, k ∉ cs.map (·.clbid) → ClaimTable.has t' k = t.has k

theorem auditList_fares {final : Bool} {x : Ctx} {o : Orders} {w : List (Node × List Course × Bool)}
    (h : ∀ p ∈ w, Fares final x o p.1 p.2.1 p.2.2) (hnd : ((w.flatMap (·.2.1)).map (·.clbid)).Nodup) (t : ClaimTable)
    (ht : ∀ c ∈ w.flatMap (·.2.1), t.has c.clbid = false) :
    ∃ rs t', Node.auditList x o (w.map Prod.fst) t = .ok (rs, t') ∧
      (∀ r ∈ rs, r.status ≠ .failedInvariant ∧ (Passes r.status → Enough final r.status)) ∧
      (w.filter (·.2.2)).length ≤ ((rs.map Node.status).filter (·.passing)).length ∧
      ∀ k, k ∉ (w.flatMap (·.2.1)).map (·.clbid) → ClaimTable.has t' k = t.has k := by
  induction w generalizing t with
  | nil => exact ⟨[], t, rfl, by simp, by simp, fun _ _ => rfl⟩
  | cons p w ih =>
    rw [List.flatMap_cons, List.map_append, List.nodup_append] at hnd
    obtain ⟨hnd1, hnd2, hdis⟩ := hnd
    obtain ⟨r, t1, h1, h2, h3, h4, h5⟩ := h p List.mem_cons_self t
      (fun c hc => ht c (by rw [List.flatMap_cons]; exact List.mem_append_left _ hc))
    obtain ⟨rs, t', h6, h7, h8, h9⟩ := ih (fun q hq => h q (List.mem_cons_of_mem _ hq)) hnd2 t1 (fun c hc => by
      rw [h5 _ (fun hk => hdis _ hk _ (List.mem_map_of_mem hc) rfl)]
      exact ht c (by rw [List.flatMap_cons]; exact List.mem_append_right _ hc))
    refine ⟨r :: rs, t', by simp only [List.map_cons, Node.auditList, h1, h6], ?_, ?_, fun k hk => ?_⟩
    · intro r' hr'
      rcases List.mem_cons.1 hr' with rfl | hr'
      · exact ⟨h3, h4⟩
      · exact h7 r' hr'
    · rw [List.map_cons, List.filter_cons, List.filter_cons]
      by_cases hc : p.2.2 = true
      · rw [if_pos hc, if_pos ((passing_iff _).2 (h2 hc).passes)]
        simpa using h8
      · rw [if_neg hc]
        split
        · simp only [List.length_cons]; omega
        · exact h8
    · rw [List.flatMap_cons, List.map_append, List.mem_append, not_or] at hk
      rw [h9 k hk.2, h5 k hk.1]

theorem enough_not_failed {final : Bool} {s : Status} (h : Enough final s) : s ≠ .failedInvariant := by
  rcases h.passes with h | h | h | h <;> rw [h] <;> simp

/-- If the student can fulfil a loaded rule with the courses `cs`, no two the same, and the search for its solutions ends
without an exception, it has found a solution that fulfils it. -/
theorem Fulfils.finds {final : Bool} {x : Ctx} {o : Orders} (ho : o.Lawful) {es : List Exc} (hes : x.exceptions = groupExceptions es)
    (hx : (x.transcript.map (·.clbid)).Nodup) {n : Node} {cs : List Course} (h : Fulfils final x es n cs) (hr : n.Ready es)
    (hl : n.Loaded x) (hclean : (n.solutions x o).err = none) (hnd : (cs.map (·.clbid)).Nodup) (hdate : ∀ c ∈ cs, c.Dated) :
    Finds final x o n cs := by
  have notWaived : ∀ p, ¬ WaivedAt es p → (getWaiveException x.exceptions p).isSome = false := by
    intro p hp
    by_contra hc
    exact hp ((waivedAt_iff hes).1 (Bool.not_eq_false _ |>.mp hc))
  induction h with
  | @waived n hw hc =>
    refine waived_finds hes hl ?_ hw []
    cases n with
    | cond s d t f => exact absurd rfl (hc s d t f)
    | _ => rfl
  | @course st d c hc _ hfin =>
    by_cases hw : WaivedAt es d.path
    · exact waived_finds hes hl rfl hw _
    have hf := (hr _ (Node.self_within _)).1
    refine courseSolution_finds false false ?_ (.inr ⟨hdate c (by simp), hfin⟩)
    have hclean : (courseSolutions x d).err = none := by simpa [Node.solutions, Gen.map] using hclean
    unfold courseSolutions at hclean ⊢
    rw [if_neg (by simp [hf.1, notWaived _ hw])] at hclean ⊢
    refine Gen.mem_orElse_left ?_
    have hc' := Gen.append_clean (Gen.orElse_left_clean hclean)
    rw [hc'.2.2]
    refine List.mem_append_right _ ?_
    simp only [Gen.ofList]
    exact List.mem_map.2 ⟨c, List.mem_filter.2 ⟨courseEntitled_found hx hc,
      courseAcceptable_of hc.notExcluded hc.grade hc.gradeOption⟩, rfl⟩
  | @inserted st d c hc =>
    by_cases hw : WaivedAt es d.path
    · exact waived_finds hes hl rfl hw _
    have hf := (hr _ (Node.self_within _)).1
    obtain ⟨hex, e, he, hp, k, forced, hk, hfc⟩ := hc
    refine courseSolution_finds true forced ?_ (.inl rfl)
    have hclean : (courseSolutions x d).err = none := by simpa [Node.solutions, Gen.map] using hclean
    unfold courseSolutions at hclean ⊢
    rw [if_neg (by simp [hf.1, notWaived _ hw])] at hclean ⊢
    refine Gen.mem_orElse_left ?_
    have hc' := Gen.append_clean (Gen.orElse_left_clean hclean)
    rw [hc'.2.2]
    refine List.mem_append_left _ (courseInsertSolutions_all hc'.1 ?_ hk hfc hex)
    rw [hes, (C07_exact_path_first_wins es d.path).1]
    exact List.mem_filter.2 ⟨he, by simp [Exc.isInsertion, hk, hp]⟩
  | @query st d a recs sel cs hsrc hcl hlim has hwh hi hi2 hex hsel hsub hcr ham hfin =>
    by_cases hw : WaivedAt es d.path
    · exact waived_finds hes hl rfl hw _
    have hf := (hr _ (Node.self_within _)).1
    have hov : d.overridden = false := by
      by_contra hov
      exact hw (hf.1.1 (by simpa using hov))
    exact query_finds hes hf hov hsrc hcl hlim has hwh hi hi2 hex hsel hsub hcr ham hfin hnd hdate
  | @queries st d as recs all kept cs hsrc hcl has hi hi2 hex hsel hkept hcr hne hsub hlarge hmet hfin =>
    by_cases hw : WaivedAt es d.path
    · exact waived_finds hes hl rfl hw _
    have hf := (hr _ (Node.self_within _)).1
    have hov : d.overridden = false := by
      by_contra hov
      exact hw (hf.1.1 (by simpa using hov))
    exact queries_find ho hes hf hov hsrc hcl has hi hi2 hex hsel hkept hcr hne hsub hlarge hmet hfin hnd hdate hclean
  | @count st d items chosen haud hne hsub hn ham hall ih =>
    by_cases hw : WaivedAt es d.path
    · exact waived_finds hes hl rfl hw _
    have hw' := notWaived _ hw
    have hd : (items.map Node.path).Nodup := (hr _ (Node.self_within _)).2.2.2
    have hpot : ∀ p ∈ chosen, p.1.hasPotential x = .ok true := by
      intro p hp
      obtain ⟨b, hb⟩ := count_potential_ok hw' hclean p.1 (hsub.subset (List.mem_map_of_mem hp))
      have := Fulfils.potential hes hx (hall p hp)
      cases b with
      | true => exact hb
      | false => exact absurd hb this
    have hlen : (chosen.map Prod.fst).length = chosen.length := by simp
    have hcc := count_children_clean hw' hd hclean hsub (by
      intro i hi
      obtain ⟨p, hp, rfl⟩ := List.mem_map.1 hi
      exact hpot p hp) (by rw [hlen]; exact hn) (by rw [hlen]; exact ham)
    have hchild : ∀ i ∈ items, i.Ready es ∧ i.Loaded x := by
      intro i hi
      refine ⟨fun m hm => hr m ?_, Node.loadedList_iff.1 hl.2.2 i hi⟩
      simp only [Node.within, List.mem_cons]
      exact .inr (Node.mem_withinList.2 ⟨i, hi, hm⟩)
    have hfind : ∀ p ∈ chosen, Finds final x o p.1 p.2 := by
      intro p hp
      have hpi := hsub.subset (List.mem_map_of_mem (f := Prod.fst) hp)
      refine ih p hp (hchild _ hpi).1 (hchild _ hpi).2 (hcc _ (List.mem_map_of_mem hp)) ?_
        (fun c hc => hdate c (List.mem_flatMap.2 ⟨p, hp, hc⟩))
      rw [List.map_flatMap] at hnd
      exact (List.nodup_flatMap.1 hnd).1 p hp
    -- one solution for each of the chosen
    obtain ⟨sel, hsel1, hsel2⟩ : ∃ sel : List (Node × List Course × Node), sel.map (fun q => (q.1, q.2.1)) = chosen ∧
        ∀ q ∈ sel, q.2.2 ∈ (q.1.solutions x o).items ∧ Fares final x o q.2.2 q.2.1 true := by
      clear * - hfind
      induction chosen with
      | nil => exact ⟨[], rfl, by simp⟩
      | cons p chosen ih =>
        obtain ⟨sel, h1, h2⟩ := ih (fun q hq => hfind q (List.mem_cons_of_mem _ hq))
        obtain ⟨s, hs, hfa⟩ := hfind p List.mem_cons_self
        refine ⟨(p.1, p.2, s) :: sel, by simp [h1], fun q hq => ?_⟩
        rcases List.mem_cons.1 hq with rfl | hq
        · refine ⟨hs, fun t ht => ?_⟩
          obtain ⟨r, t', h3, h4, h5⟩ := hfa t ht
          exact ⟨r, t', h3, fun _ => h4, enough_not_failed h4, fun _ => h4, h5⟩
        · exact h2 q hq
    have hfst : (sel.map (fun q => (q.1, q.2.2))).map Prod.fst = chosen.map Prod.fst := by
      rw [← hsel1]; simp
    have hwe : ∀ e ∈ es, e.path = d.path → e.kind ≠ .override := fun e he hp hk => hw ⟨e, he, hp, hk⟩
    obtain ⟨l, hl1, hl2⟩ := C54_every_choice_is_tried x o es hes st d items hwe hd hclean
      (sel.map (fun q => (q.1, q.2.2)))
      { children := by rw [hfst]; exact hsub
        potential := by
          intro p hp
          obtain ⟨q, hq, rfl⟩ := List.mem_map.1 hp
          have : (q.1, q.2.1) ∈ chosen := by rw [← hsel1]; exact List.mem_map_of_mem (f := fun q => (q.1, q.2.1)) hq
          exact hpot _ this
        solutions := by
          intro p hp
          obtain ⟨q, hq, rfl⟩ := List.mem_map.1 hp
          exact (hsel2 q hq).1 }
      (.inl (by
        have : (sel.map (fun q => (q.1, q.2.2))).length = chosen.length := by rw [← hsel1]; simp
        rw [this]
        exact ⟨hn, ham⟩))
    -- all parts with what is to become of them
    obtain ⟨rest, hrest⟩ : ∃ rest, rest = items.filter
        (fun i => !((sel.map (fun q => (q.1, q.2.2))).map (fun p => p.1.path)).contains i.path) := ⟨_, rfl⟩
    rw [← hrest] at hl2
    have hw0 : l.Perm ((sel.map (fun q => (q.2.2, q.2.1, true)) ++ rest.map (fun i => (i, ([] : List Course), false))).map
        Prod.fst) := by
      simpa [List.map_append, List.map_map, Function.comp_def] using hl2
    obtain ⟨w, hwp, hwm⟩ := perm_map_lift hw0
    have hflat : (w.flatMap (·.2.1)).Perm (chosen.flatMap Prod.snd) := by
      refine (hwp.flatMap_right _).trans ?_
      rw [List.flatMap_append, ← hsel1]
      have : List.flatMap (fun _ => ([] : List Course)) rest = [] := by simp
      simp [List.flatMap_map, this]
    have hfares : ∀ p ∈ w, Fares final x o p.1 p.2.1 p.2.2 := by
      intro p hp
      rcases List.mem_append.1 (hwp.subset hp) with hp | hp
      · obtain ⟨q, hq, rfl⟩ := List.mem_map.1 hp
        exact (hsel2 q hq).2
      · obtain ⟨i, hi, rfl⟩ := List.mem_map.1 hp
        rw [hrest] at hi
        have hi' := hchild i (List.mem_of_mem_filter hi)
        have hset := Node.fresh_settled i (fun m hm => (hi'.1 m hm).1) hi'.2
        intro t _
        refine ⟨i, t, Node.audit_of_not_solution (by rw [Node.loaded_stage hi'.2]; simp) t, by simp, hset.1, hset.enough, fun _ _ => rfl⟩
    refine ⟨_, hl1, fun t ht => ?_⟩
    obtain ⟨rs, t', h1, h2, h3, h4⟩ := auditList_fares hfares ((hflat.map _).nodup_iff.2 hnd) t
      (fun c hc => ht c (hflat.subset hc))
    rw [hwm] at h1
    refine ⟨.count .result { d with overridden := false, audits := [] } rs, t', ?_, ?_, fun k hk => h4 k (fun hk' => hk ?_)⟩
    · simp only [Node.audit, Bool.false_eq_true, if_false, h1, haud, auditAssertions]
    · simp only [Node.status, statusList_eq]
      have hcount : chosen.length ≤ ((rs.map Node.status).filter (·.passing)).length := by
        refine le_trans (le_of_eq ?_) h3
        have := (hwp.filter (fun p => p.2.2)).length_eq
        rw [this, List.filter_append, List.length_append]
        rw [List.filter_eq_self.2 (by simp), List.filter_eq_nil_iff.2 (by simp), ← hsel1]
        simp
      refine countStatus_enough_of rfl ?_ ?_ (le_trans hn hcount) ?_
      · intro hm
        obtain ⟨r, hr, he⟩ := List.mem_map.1 hm
        exact (h2 r hr).1 he
      · intro s hs
        obtain ⟨r, hr, rfl⟩ := List.mem_map.1 hs
        exact (h2 r hr).2
      · have : 0 < ((rs.map Node.status).filter (·.passing)).length :=
          lt_of_lt_of_le (List.length_pos_of_ne_nil hne) hcount
        obtain ⟨s, hs⟩ := List.exists_mem_of_length_pos this
        rw [List.mem_filter] at hs
        exact ⟨s, hs.1, (passing_iff s).1 hs.2⟩
    · exact (hflat.map _).subset hk'
  | @req st d n cs hau h ih =>
    by_cases hw : WaivedAt es d.path
    · exact waived_finds hes hl rfl hw _
    have hw' := notWaived _ hw
    simp only [Node.solutions, hw', Bool.false_eq_true, if_false, Node.solutionsOpt, Gen.map] at hclean
    obtain ⟨s, hs, hfa⟩ := ih (fun m hm => hr m (by simp [Node.within, Node.withinOpt, hm])) hl.2.2 hclean hnd hdate
    refine ⟨reqSolution d false (some s), ?_, fun t ht => ?_⟩
    · simp only [Node.solutions, hw', Bool.false_eq_true, if_false, Node.solutionsOpt]
      exact Gen.mem_map.2 ⟨s, hs, rfl⟩
    · obtain ⟨r, t', h1, h2, h3⟩ := hfa t ht
      refine ⟨.req .result { d with overridden := false } (some r), t', ?_, ?_, h3⟩
      · simp only [reqSolution, Node.audit, Bool.false_eq_true, if_false, Node.auditOpt, h1]
      · simpa [Node.status, Node.statusOpt, reqStatus, hau] using h2
  | @condTrue st d n f cs hc h ih =>
    simp only [Node.solutions, hc, Gen.map] at hclean
    obtain ⟨s, hs, hfa⟩ := ih (fun m hm => hr m (by simp [Node.within, hm])) hl.2.2.1 hclean hnd hdate
    refine ⟨.cond .solution d s f, ?_, fun t ht => ?_⟩
    · simp only [Node.solutions, hc]
      exact Gen.mem_map.2 ⟨s, hs, rfl⟩
    · obtain ⟨r, t', h1, h2, h3⟩ := hfa t ht
      refine ⟨.cond .result d r f, t', ?_, ?_, h3⟩
      · simp only [Node.audit, hc, h1]
      · simpa [Node.status, hc] using h2
  | @condFalse st d tn n cs hc h ih =>
    simp only [Node.solutions, hc, Gen.map, Node.solutionsOpt] at hclean
    obtain ⟨s, hs, hfa⟩ := ih (fun m hm => hr m (by simp [Node.within, Node.withinOpt, hm])) hl.2.2.2 hclean hnd hdate
    refine ⟨.cond .solution d tn (some s), ?_, fun t ht => ?_⟩
    · simp only [Node.solutions, hc, Node.solutionsOpt]
      exact Gen.mem_map.2 ⟨s, hs, rfl⟩
    · obtain ⟨r, t', h1, h2, h3⟩ := hfa t ht
      refine ⟨.cond .result d tn (some r), t', ?_, ?_, h3⟩
      · simp only [Node.audit, hc, Node.auditOpt, h1]
      · simpa [Node.status, Node.statusOpt, hc] using h2
  | @prof st d hrec =>
    by_cases hw : WaivedAt es d.path
    · exact waived_finds hes hl rfl hw _
    have hw' := notWaived _ hw
    refine ⟨.prof .solution { d with overridden := false, status := .empty } none, ?_, fun t ht => ?_⟩
    · simp [Node.solutions, profSolutions, hw', Gen.one]
    · have hst : ∃ q, x.proficiencies.status d.proficiency false = .ok q := by
        unfold Proficiencies.status Proficiencies.lookup
        rcases hrec with h | h | h | h | h <;> simp [h.1]
      obtain ⟨q, hq⟩ := hst
      have hdone : q = .done := by
        rcases proficiency_status hq with h | h
        · exact h.2
        · exact absurd hrec h.1
      refine ⟨.prof .result { d with status := q, overridden := false } none, t, ?_, ?_, fun _ _ => rfl⟩
      · simp only [Node.audit, profAudit, Bool.false_eq_true, if_false, hq]
      · simp only [Node.status]
        simp only [profStatus, hdone]
        exact enough_done

/-- The search for the best solution stops at a complete one if there is any. -/
theorem bestLoop_complete {x : Ctx} {o : Orders} {tail : Option Err} {ss : List Node} {best : Option (Node × Rat)}
    {inner : Option ClaimTable} {res : Option (Node × Rat) × Option ClaimTable}
    (hs : ∃ s ∈ ss, ∃ r t, s.audit x o [] = .ok (r, t) ∧ Complete r.status)
    (h : bestLoop x o tail ss best inner = .ok res) :
    ∃ s ∈ ss, ∃ r t rank, s.audit x o [] = .ok (r, t) ∧ Complete r.status ∧ res = (some (r, rank), some t) := by
  induction ss generalizing best inner with
  | nil => obtain ⟨s, hs, _⟩ := hs; cases hs
  | cons s ss ih =>
    unfold bestLoop at h
    split at h
    · cases h
    rename_i r t hr
    split at h
    · cases h
    rename_i rank m hrank
    dsimp only at h
    by_cases hc : r.status.inWaivedAndDone = true
    · rw [if_pos hc] at h
      cases h
      exact ⟨s, List.mem_cons_self, r, t, rank, hr, (wd_iff _).1 hc, rfl⟩
    · rw [if_neg hc] at h
      obtain ⟨s', hs', h1⟩ := ih (by
        obtain ⟨s', hs', r', t', h1, h2⟩ := hs
        rcases List.mem_cons.1 hs' with rfl | hs'
        · rw [hr] at h1
          cases h1
          exact absurd ((wd_iff _).2 h2) hc
        · exact ⟨s', hs', r', t', h1, h2⟩) h
      exact ⟨s', List.mem_cons_of_mem _ hs', h1⟩

theorem findBest_complete {x : Ctx} {o : Orders} {n : Node} {t t' : ClaimTable} {m : Bool} {best : Option Node}
    (hs : ∃ s ∈ (n.solutions x o).items, ∃ r t, s.audit x o [] = .ok (r, t) ∧ Complete r.status)
    (h : findBest x o n t m = .ok (best, t')) :
    ∃ s ∈ (n.solutions x o).items, ∃ r t1, s.audit x o [] = .ok (r, t1) ∧ Complete r.status ∧ best = some r ∧
      (m = true → t' = mergeTables t t1) := by
  unfold findBest at h
  dsimp only at h
  split at h
  · cases h
  rename_i b i hb
  obtain ⟨s, hs', r, t1, rank, h1, h2, h3⟩ := bestLoop_complete hs hb
  cases h3
  cases m with
  | false =>
    cases h
    exact ⟨s, hs', r, t1, h1, h2, rfl, by simp⟩
  | true =>
    cases h
    exact ⟨s, hs', r, t1, h1, h2, rfl, by simp⟩

/-- **C59, partial.** If the student can fulfil a loaded rule with some of the courses of the record, no course twice, then
the search has found a solution of the rule whose audit reports it as passing (`final = false`) or as complete
(`final = true`), unless the search raises an exception.  Missing: rules with an assertion about all of their parts
together, queries with a condition on one of the things they ask or with an exact number beside others
(`C46_exact_count_refuted`), insertions into queries, proficiencies that a course shows; see `C59_independents_refuted` for areas. -/
theorem C59_rule_found_partial (final : Bool) (x : Ctx) (o : Orders) (ho : o.Lawful) (es : List Exc) (hes : x.exceptions = groupExceptions es)
    (hx : (x.transcript.map (·.clbid)).Nodup) (n : Node) (hr : n.Ready es) (hl : n.Loaded x) (cs : List Course)
    (h : Fulfils final x es n cs) (hnd : (cs.map (·.clbid)).Nodup) (hdate : ∀ c ∈ cs, c.Dated)
    (hclean : (n.solutions x o).err = none) :
    ∃ s ∈ (n.solutions x o).items, ∃ r t, s.audit x o [] = .ok (r, t) ∧ Enough final r.status := by
  obtain ⟨s, hs, hfa⟩ := h.finds ho hes hx hr hl hclean hnd hdate
  obtain ⟨r, t, h1, h2, _⟩ := hfa [] (fun c _ => rfl)
  exact ⟨s, hs, r, t, h1, h2⟩

/-- **C59, partial.** If the student can complete a loaded rule with some of the courses of the record, no course twice, the
best solution of it is complete, unless the search raises an exception.  Missing: as in `C59_rule_found_partial`. -/
theorem C59_best_is_complete_partial (x : Ctx) (o : Orders) (ho : o.Lawful) (es : List Exc) (hes : x.exceptions = groupExceptions es)
    (hx : (x.transcript.map (·.clbid)).Nodup) (n : Node) (hr : n.Ready es) (hl : n.Loaded x) (cs : List Course)
    (h : Fulfils true x es n cs) (hnd : (cs.map (·.clbid)).Nodup) (hdate : ∀ c ∈ cs, c.Dated)
    (hclean : (n.solutions x o).err = none) (t t' : ClaimTable) (merge : Bool) (best : Option Node)
    (hbest : findBest x o n t merge = .ok (best, t')) : ∃ r, best = some r ∧ Complete r.status := by
  obtain ⟨s, hs, r, t1, h1, h2⟩ := C59_rule_found_partial true x o ho es hes hx n hr hl cs h hnd hdate hclean
  obtain ⟨_, _, r', _, _, h3, h4, _⟩ := findBest_complete ⟨s, hs, r, t1, h1, h2⟩ hbest
  exact ⟨r', h4, h3⟩

/-- **C55, partial.** Rules that are set aside because they have no potential could not have been fulfilled.  Missing: as in
`C59_rule_found_partial`; and it is false of queries that ask for nothing, see `C55_zero_refuted`. -/
theorem C55_no_potential_partial (final : Bool) (x : Ctx) (es : List Exc) (hes : x.exceptions = groupExceptions es)
    (hx : (x.transcript.map (·.clbid)).Nodup) (n : Node) (h : n.hasPotential x = .ok false) (cs : List Course) :
    ¬ Fulfils final x es n cs := fun hf => hf.potential hes hx h

/-! ### Where satisfiable areas are not found -/

/-- a concentration: three of a group of three courses, and three single courses -/
def apartText : Dict :=
  [("name", .str "Statistics"), ("type", .str "concentration"), ("code", .str "900"),
   ("result", .map [("count", .int 3), ("of", .list [
     .map [("all", .list [.map [("course", .str "CSCI 121")], .map [("course", .str "CSCI 251")],
       .map [("course", .str "CSCI 390")]])],
     .map [("course", .str "CSCI 121")], .map [("course", .str "CSCI 251")], .map [("course", .str "CSCI 300")]])])]

/-- a rule for one named course -/
def apartItem (p : Path) (c : String) : Node := .course .rule { path := p ++ ["*" ++ c], course := some c }

/-- the loaded rule of `apartText` -/
def apartRule : Node := .count .rule { path := ["$", ".count"], count := 3 } [
  .count .rule { path := ["$", ".count", "[0]", ".count"], count := 3 } [
    apartItem ["$", ".count", "[0]", ".count", "[0]"] "CSCI 121",
    apartItem ["$", ".count", "[0]", ".count", "[1]"] "CSCI 251",
    apartItem ["$", ".count", "[0]", ".count", "[2]"] "CSCI 390"],
  apartItem ["$", ".count", "[1]"] "CSCI 121", apartItem ["$", ".count", "[2]"] "CSCI 251",
  apartItem ["$", ".count", "[3]"] "CSCI 300"]

set_option maxRecDepth 100000 in
theorem apart_loaded : (loadArea {} [] sampleTaken [] false apartText).map (·.result) = .ok apartRule := by
  rfl

theorem entitled_byName {x : Ctx} {p : Path} {i : String} {c : Course} (h1 : c ∈ x.transcript) (h2 : c.identity = i)
    (h3 : c.isStolaf = true) : CourseEntitled x { path := p, course := some i } c where
  onTranscript := h1
  byClbid := by simp
  byFilters := by simp [RuleMatches, h2, h3]
  notExcluded := by simp
  grade := by simp
  gradeOption := by simp

/-- **C59, refuted for areas in general.** A concentration asks for three of four items.  The student has taken the three
single courses that three of the items ask for, so fulfils it; the audit tries no selection but one that needs the fourth
item, and reports that items are missing.  The reason: "CSCI 300" shares no course with the other items, so it is solved
by itself, and after that the program still looks for three among the remaining items. -/
theorem C59_independents_refuted : ∃ (a : Area) (cs : List Course),
    loadArea {} [] sampleTaken [] false apartText = .ok a ∧ cs.Sublist sampleTaken.courses ∧ (cs.map (·.clbid)).Nodup ∧
    (∀ c ∈ cs, c.isInProgress = false) ∧ Fulfils true (areaCtx a sampleTaken [] sampleTaken.courses) [] a.result cs ∧
    auditedStatuses sampleTaken [] apartText = some (true, [.needsMoreItems]) := by
  have h := apart_loaded
  cases hl : loadArea {} [] sampleTaken [] false apartText with
  | error e => rw [hl] at h; cases h
  | ok a =>
    rw [hl] at h
    have ha : a.result = apartRule := Except.ok.inj h
    refine ⟨a, sampleTaken.courses.take 3, rfl, List.take_sublist _ _, by decide, by decide, ?_, by decide +kernel⟩
    rw [ha]
    have one : ∀ c ∈ sampleTaken.courses, ∀ p, Fulfils true (areaCtx a sampleTaken [] sampleTaken.courses) []
        (apartItem p c.identity) [c] := by
      intro c hc p
      have h3 : c.isStolaf = true ∧ c.isInProgress = false := by revert c; decide
      exact .course c (entitled_byName hc rfl h3.1) rfl (fun _ => h3.2)
    exact .count [(apartItem ["$", ".count", "[1]"] "CSCI 121", sampleTaken.courses.take 1),
      (apartItem ["$", ".count", "[2]"] "CSCI 251", (sampleTaken.courses.drop 1).take 1),
      (apartItem ["$", ".count", "[3]"] "CSCI 300", (sampleTaken.courses.drop 2).take 1)] rfl (by simp)
      (by exact (List.Sublist.refl _).cons _) (by decide) (by simp) (by
        intro p hp
        simp only [List.mem_cons, List.not_mem_nil, or_false] at hp
        rcases hp with rfl | rfl | rfl
        · exact one { clbid := "1", identity := "CSCI 121", subject := "CSCI" } (by simp [sampleTaken]) _
        · exact one { clbid := "2", identity := "CSCI 251", subject := "CSCI" } (by simp [sampleTaken]) _
        · exact one { clbid := "3", identity := "CSCI 300", subject := "CSCI" } (by simp [sampleTaken]) _)

/-- a concentration: CSCI 121, and no course of a certain subject -/
def zeroText : Dict :=
  [("name", .str "Statistics"), ("type", .str "concentration"), ("code", .str "900"),
   ("result", .map [("all", .list [.map [("course", .str "CSCI 121")],
     .map [("from", .str "courses"), ("where", .map [("subject", .map [("$eq", .str "ART")])]),
       ("assert", .map [("count(courses)", .map [("$eq", .int 0)])])]])])]

/-- what becomes of the second item of an area's rule: whether it has potential, and the statuses of its audited solutions -/
def secondItem (st : Student) (spec : Dict) : Option (Except Err Bool × List Status) :=
  match loadArea {} [] st [] false spec with
  | .ok a =>
    let x := areaCtx a st [] st.courses
    match a.result with
    | .count _ _ (_ :: q :: _) => some (q.hasPotential x, (q.solutions x .insertion).items.filterMap (fun s =>
        match s.audit x .insertion [] with
        | .ok (r, _) => some r.status
        | .error _ => none))
    | _ => none
  | .error _ => none

set_option maxRecDepth 100000 in
/-- **C55, refuted for queries that ask for nothing.** A concentration asks for CSCI 121 and for exactly no courses in ART.
The student took CSCI 121 and nothing in ART.  The query is complete by itself, but it has no potential, so it is set aside
and the concentration is reported to miss items. -/
theorem C55_zero_refuted : (∀ c ∈ sampleTaken.courses, c.subject ≠ "ART") ∧
    secondItem sampleTaken zeroText = some (.ok false, [.done]) ∧
    auditedStatuses sampleTaken [] zeroText = some (true, [.needsMoreItems]) := by
  refine ⟨by decide, ?_, by decide +kernel⟩
  rfl

end Dp
