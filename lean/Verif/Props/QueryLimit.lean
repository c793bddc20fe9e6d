import Verif.Props.LoadRun
import Verif.Props.Limit
import Mathlib.Algebra.Order.BigOperators.Group.List

/-
C09 for the limits of query rules and of areas.
-/
namespace Dp

theorem addInserted_subperm {f : Filtered} {tr combo : List Course} (hs : combo.Sublist tr) :
    (addInserted f tr combo).Subperm tr := by
  -- `combo` and the added courses are taken from different places of `tr`
  have h : tr.Perm (tr.filter (fun c => (combo.map (·.clbid)).contains c.clbid) ++
      tr.filter (fun c => !(combo.map (·.clbid)).contains c.clbid)) := (List.filter_append_perm _ _).symm
  have h1 : combo.Sublist (tr.filter (fun c => (combo.map (·.clbid)).contains c.clbid)) := by
    have := hs.filter (fun c => (combo.map (·.clbid)).contains c.clbid)
    rwa [List.filter_eq_self.2] at this
    intro c hc
    simpa using ⟨c, hc, rfl⟩
  refine (List.Sublist.subperm ?_).trans h.symm.subperm
  refine h1.append ?_
  rw [← List.filter_filter]
  exact List.filter_sublist

/-- The courses a query over the transcript proposes are taken from a transcript its limits admit. -/
theorem queryCourses_within {x : Ctx} {o : Orders} {d s : QueryData} (hsrc : d.source = .courses)
    (hs : s ∈ (querySolutions x o d).items) {cs : List Course} (hcs : itemCourses s.output = .ok cs) (hne : cs ≠ []) :
    ∃ f courses, queryFiltered x d = .ok f ∧ itemCourses f.data = .ok courses ∧
      ∃ tr ∈ (limitedTranscripts (o.limit d.path) d.limit courses f.forceInserted).items, cs.Subperm tr := by
  unfold querySolutions at hs
  have hempty : ∀ ins fins, s = querySolution d [] ins fins → False := by
    intro ins fins h
    subst h
    simp only [querySolution, itemCourses] at hcs
    cases hcs
    exact hne rfl
  split at hs
  · exact (hempty _ _ (by simpa [Gen.one] using hs)).elim
  split at hs
  · simp [Gen.raise] at hs
  rename_i f hf
  rw [hsrc] at hs
  dsimp only at hs
  split at hs
  · simp [Gen.raise] at hs
  rename_i courses hc
  refine ⟨f, courses, hf, hc, ?_⟩
  rcases Gen.mem_orElse hs with hs | hs
  · obtain ⟨tr, htr, hs⟩ := Gen.mem_bind hs
    refine ⟨tr, htr, ?_⟩
    split at hs
    · have : s = querySolution d (tr.map .course) f.inserted f.forceInserted := by simpa [Gen.one] using hs
      subst this
      have := itemCourses_eq hcs
      have := List.map_injective_iff.2 itemCourse_injective this
      rw [← this]
    · obtain ⟨combo, hcombo, rfl⟩ := Gen.mem_map.1 hs
      have := itemCourses_eq hcs
      have := List.map_injective_iff.2 itemCourse_injective this
      rw [← this]
      exact addInserted_subperm (iterateCourseSet_sublist hcombo)
  · exact (hempty _ _ (by simpa [Gen.one] using hs)).elim

/-- The courses of the claims of a query's result are among those its solution proposed. -/
theorem query_claims_output {x : Ctx} {o : Orders} (ho : o.Lawful) {d : QueryData} (hsrc : d.source = .courses) {s r : Node}
    {t t' : ClaimTable} (hs : s ∈ ((Node.query .rule d).solutions x o).items) (ha : s.audit x o t = .ok (r, t')) :
    ∃ sd ∈ (querySolutions x o d).items, r.claims = [] ∨
      ∃ cs, itemCourses sd.output = .ok cs ∧ (r.claims.map (·.course)).Sublist cs := by
  simp only [Node.solutions] at hs
  obtain ⟨sd, hsd, rfl⟩ := Gen.mem_map.1 hs
  refine ⟨sd, hsd, ?_⟩
  have hsrc' : sd.source = .courses := by
    rcases querySolutions_cases ho hsd with ⟨_, rfl⟩ | ⟨_, f, _, out, rfl, _⟩ <;> exact hsrc
  simp only [Node.audit] at ha
  split at ha
  · cases ha
  rename_i rd t2 hqa
  obtain ⟨rfl, rfl⟩ := Prod.mk.inj (Except.ok.inj ha)
  simp only [Node.claims, queryClaims, if_true]
  unfold queryAudit at hqa
  split at hqa
  · obtain ⟨rfl, rfl⟩ := Prod.mk.inj (Except.ok.inj hqa)
    exact .inl rfl
  split at hqa
  · cases hqa
  rename_i col t3 hcol
  dsimp only at hqa
  split at hqa
  · cases hqa
  obtain ⟨rfl, rfl⟩ := Prod.mk.inj (Except.ok.inj hqa)
  change col.successful = [] ∨ ∃ cs, itemCourses sd.output = .ok cs ∧ (col.successful.map (·.course)).Sublist cs
  unfold collect at hcol
  rw [hsrc'] at hcol
  dsimp only at hcol
  unfold collectCourses at hcol
  split at hcol
  · cases hcol
  rename_i cs hcs
  split at hcol
  · obtain ⟨l, hl, hsub, hp⟩ := claimLoop_spec x sd cs t {}
    right
    refine ⟨cs, hcs, ?_⟩
    rw [show col = (claimLoop x sd cs t {}).1 by rw [Except.ok.inj hcol], hl, List.nil_append]
    exact hsub
  · split at hcol
    · cases hcol
      right
      refine ⟨cs, hcs, ?_⟩
      simp [recordLoop, makeClaim_allowed, Function.comp_def]
    · cases hcol
      left
      rfl

/-- the classes that exceptions force into the rule at a path -/
def forcedAt (es : List Exc) (p : Path) : List String :=
  es.filterMap (fun e => match e.kind with
    | .insertion k true => if e.path = p then some k else none
    | _ => none)

theorem mem_forcedAt {es : List Exc} {p : Path} {k : String} :
    k ∈ forcedAt es p ↔ ∃ e ∈ es, e.path = p ∧ e.kind = .insertion k true := by
  simp only [forcedAt, List.mem_filterMap]
  refine exists_congr fun e => and_congr_right fun _ => ?_
  split
  · rename_i k' he
    rw [he]
    split
    · rename_i hp; simp [hp]
    · rename_i hp; simp [hp]
  · rename_i h
    constructor
    · intro h; cases h
    · rintro ⟨_, he⟩
      exact absurd he (h k)

/-- Counting fewer forced classes never counts less. -/
theorem Limit.counts_mono {l : Limit} {forced forced' : List String} (h : ∀ k ∈ forced, k ∈ forced') {c : Course}
    (hc : l.Counts forced' c) : l.Counts forced c := ⟨fun hk => hc.1 (h _ hk), hc.2⟩

theorem filter_length_le {p q : Course → Bool} (h : ∀ c, p c = true → q c = true) (l : List Course) :
    (l.filter p).length ≤ (l.filter q).length := (List.monotone_filter_right l h).length_le

/-- a course the program knows from the transcript, from the list of failed courses if the rule asks for those, or
because an exception forces it in -/
def Known (x : Ctx) (failed : Bool) (c : Course) : Prop :=
  c ∈ x.transcript ∨ (∃ k, (k, c) ∈ x.forced) ∨ (failed = true ∧ c ∈ x.withFailed)

theorem queryInsert_from {x : Ctx} (hx : x.ForcedOk) {d : QueryData} {b : Bool} {es : List Exc} {acc f : Filtered}
    (h : queryInsert x d es acc = .ok f) (h1 : ∀ c, .course c ∈ acc.data → Known x b c) :
    ∀ c, .course c ∈ f.data → Known x b c := by
  induction es generalizing acc with
  | nil => cases h; exact h1
  | cons e es ih =>
    unfold queryInsert at h
    split at h
    · split at h
      · exact ih h h1
      · split at h
        · split at h
          · cases h
          · rename_i c hc
            refine ih h ?_
            intro c' hc'
            rcases List.mem_append.1 hc' with h' | h'
            · exact h1 c' h'
            · simp only [List.mem_singleton, Item.course.injEq] at h'
              subst h'
              rcases (forcedCourseByClbid_ok hx hc).2 with h | h
              · exact .inl h
              · exact .inr (.inl ⟨_, h⟩)
        · refine ih h ?_
          intro c' hc'
          rcases List.mem_append.1 hc' with h' | h'
          · exact h1 c' h'
          · simp only [List.mem_map, Option.mem_toList, Item.course.injEq, exists_eq_right] at h'
            exact .inl (findCourseByClbid_some h').1
    · exact ih h h1

theorem queryFiltered_from {x : Ctx} (hx : x.ForcedOk) {d : QueryData} {f : Filtered} (h : queryFiltered x d = .ok f) :
    ∀ c, .course c ∈ f.data → Known x d.includeFailed c := by
  unfold queryFiltered at h
  dsimp only at h
  split at h
  · cases h
  rename_i data hdata
  have hsub : data.Sublist (queryData x d) := by
    split at hdata
    · exact filterItems_sublist hdata
    · cases hdata; exact List.Sublist.refl _
  have hk : ∀ c, .course c ∈ data → Known x d.includeFailed c := by
    intro c hc
    have := hsub.subset hc
    unfold queryData at this
    split at this
    · simp only [List.mem_map, List.mem_filter, Item.course.injEq, exists_eq_right] at this
      have := this.1
      split at this
      · rename_i hf; exact .inr (.inr ⟨hf, this⟩)
      · exact .inl this
    all_goals simp at this
  split at h
  · exact queryInsert_from hx h hk
  · cases h
    exact hk

/-- The courses reported by a query over the transcript are taken from a transcript its limits admit; classes not
forced into the rule by an exception count against the limits. -/
theorem query_result_within {x : Ctx} (hx : x.ForcedOk) {o : Orders} (ho : o.Lawful) {es : List Exc}
    (hes : x.exceptions = groupExceptions es) {d : QueryData} (hsrc : d.source = .courses) {s r : Node} {t t' : ClaimTable}
    (hs : s ∈ ((Node.query .rule d).solutions x o).items) (ha : s.audit x o t = .ok (r, t')) (hne : r.claims ≠ []) :
    ∃ forced courses, (∀ k ∈ forced, k ∈ forcedAt es d.path) ∧
      ∃ tr ∈ (limitedTranscripts (o.limit d.path) d.limit courses forced).items, (r.claims.map (·.course)).Subperm tr ∧
        ∀ c ∈ courses, Known x d.includeFailed c := by
  obtain ⟨sd, hsd, h⟩ := query_claims_output ho hsrc hs ha
  rcases h with h | ⟨cs, hcs, hsub⟩
  · exact absurd h hne
  have hcsne : cs ≠ [] := by
    rintro rfl
    exact hne (by simpa using hsub)
  obtain ⟨f, courses, hf, hfd, tr, htr, hcstr⟩ := queryCourses_within hsrc hsd hcs hcsne
  refine ⟨f.forceInserted, courses, ?_, tr, htr, hsub.subperm.trans hcstr, fun c hc => queryFiltered_from hx hf c
    (by rw [itemCourses_eq hfd]; exact List.mem_map_of_mem hc)⟩
  intro k hk
  obtain ⟨e, he, hkind, _⟩ := (queryFiltered_spec hx hf).2.2 k hk
  rw [hes, (C07_exact_path_first_wins es d.path).1, List.mem_filter, Bool.and_eq_true, beq_iff_eq] at he
  exact mem_forcedAt.2 ⟨e, he.1, he.2.2, hkind⟩

/-- C09 for query rules: of the courses a query over the transcript reports, no more count against one of its limits
than the limit's whole-number maximum.  Classes that an exception forces into the rule are not counted. -/
theorem C09_query_respects_its_course_limits (x : Ctx) (hx : x.ForcedOk) (o : Orders) (ho : o.Lawful) (es : List Exc)
    (hes : x.exceptions = groupExceptions es) (d : QueryData) (hsrc : d.source = .courses) (s r : Node) (t t' : ClaimTable)
    (hs : s ∈ ((Node.query .rule d).solutions x o).items) (ha : s.audit x o t = .ok (r, t'))
    (l : Limit) (hl : l ∈ d.limit) (hw : l.what = .courses) (n : Nat) (hn : l.atMost = n) :
    ((r.claims.map (·.course)).filter (fun c => l.Counts (forcedAt es d.path) c)).length ≤ n := by
  by_cases hne : r.claims = []
  · simp [hne]
  obtain ⟨forced, courses, hforced, tr, htr, hsub, _⟩ := query_result_within hx ho hes hsrc hs ha hne
  have h1 := C09_course_limits_respected (o.limit d.path) (ho.1 d.path) d.limit courses tr forced htr l hl hw n hn
  refine le_trans ?_ h1
  refine (filter_length_le (q := fun c => decide (l.Counts forced c)) ?_ _).trans (hsub.filter _).length_le
  intro c hc
  simp only [decide_eq_true_eq] at hc ⊢
  exact Limit.counts_mono hforced hc

theorem forcedCourses_from {x : Ctx} (hx : x.ForcedOk) {b : Bool} {ks : List String} {cs : List Course}
    (h : forcedCourses x ks = .ok cs) : ∀ c ∈ cs, Known x b c := by
  induction ks generalizing cs with
  | nil => cases h; simp
  | cons k ks ih =>
    unfold forcedCourses at h
    split at h
    · cases h
    rename_i c hc
    split at h
    · cases h
    rename_i cs' hcs
    cases h
    intro c' hc'
    rcases List.mem_cons.1 hc' with rfl | h'
    · rcases (forcedCourseByClbid_ok hx hc).2 with h | h
      · exact .inl h
      · exact .inr (.inl ⟨_, h⟩)
    · exact ih hcs c' h'

/-- the rule looks at failed courses -/
def Node.wantsFailed : Node → Bool
  | .query _ d => d.includeFailed
  | _ => false

/-- Every course a course or query rule claims is known to the program. -/
theorem leafClaim_known {x : Ctx} (hx : x.ForcedOk) {o : Orders} (ho : o.Lawful) {leaf : Node} {c : Claim}
    (h : LeafClaim x o leaf c) (hk : ∃ n : Node, leaf ∈ n.leaves) : Known x leaf.wantsFailed c.course := by
  obtain ⟨n, hn⟩ := hk
  obtain ⟨s, hs, t, t', r, ha, hc⟩ := h
  rcases Node.leaves_kind n leaf hn with ⟨sg, d, rfl⟩ | ⟨sg, d, rfl⟩
  · simp only [Node.solutions] at hs
    obtain ⟨sd, hsd, rfl⟩ := Gen.mem_map.1 hs
    simp only [Node.audit] at ha
    split at ha
    · cases ha
    rename_i rd t2 hca
    obtain ⟨rfl, rfl⟩ := Prod.mk.inj (Except.ok.inj ha)
    have hm : ∃ c', sd.matched = some c' ∧ c.course = c' := by
      simp only [Node.claims, courseClaims] at hc
      rcases courseAudit_claim hca with ⟨h, _⟩ | ⟨c', h1, _, _, h2, _⟩
      · rw [h] at hc; simp at hc
      · refine ⟨c', h1, ?_⟩
        rw [← h2] at hc
        split at hc
        · rename_i cl _ hcl
          split at hc
          · simp at hc
          · simp only [List.mem_singleton] at hc
            subst hc
            cases hcl
            exact (makeClaim_course _ _ _ _ _).1
        · rename_i h
          exact (h _ rfl rfl).elim
    obtain ⟨c', hm, hcc⟩ := hm
    rw [hcc]
    rcases courseSolutions_cases hsd with ⟨rfl, _⟩ | ⟨e, _, k, f, c2, _, hf, _, rfl⟩ | ⟨c2, hf, _, rfl⟩ | rfl
    · cases hm
    · cases hm
      rcases (forcedCourseByClbid_ok hx hf).2 with h | h
      · exact .inl h
      · exact .inr (.inl ⟨_, h⟩)
    · cases hm
      exact .inl (findCourses_spec hf).1
    · cases hm
  · simp only [Node.solutions] at hs
    obtain ⟨sd, hsd, rfl⟩ := Gen.mem_map.1 hs
    simp only [Node.audit] at ha
    split at ha
    · cases ha
    rename_i rd t2 hqa
    obtain ⟨rfl, rfl⟩ := Prod.mk.inj (Except.ok.inj ha)
    simp only [Node.claims, queryClaims, if_true] at hc
    simp only [Node.wantsFailed]
    rcases querySolutions_cases ho hsd with ⟨hov, rfl⟩ | ⟨hov, f, hf, out, rfl, hout, _⟩
    · simp only [queryAudit, querySolution, hov, if_true] at hqa
      obtain ⟨rfl, rfl⟩ := Prod.mk.inj (Except.ok.inj hqa)
      simp at hc
    unfold queryAudit at hqa
    rw [if_neg (by simp [querySolution, hov])] at hqa
    split at hqa
    · cases hqa
    rename_i col t3 hcol
    dsimp only at hqa
    split at hqa
    · cases hqa
    obtain ⟨rfl, rfl⟩ := Prod.mk.inj (Except.ok.inj hqa)
    change c ∈ col.successful at hc
    unfold collect at hcol
    split at hcol
    · unfold collectCourses at hcol
      split at hcol
      · cases hcol
      rename_i cs hcs
      have hcs' : out = cs.map Item.course := itemCourses_eq hcs
      have fin : c.course ∈ cs → Known x d.includeFailed c.course := fun h =>
        queryFiltered_from hx hf _ (hout _ (by rw [hcs']; exact List.mem_map_of_mem h))
      split at hcol
      · obtain ⟨l, hl, hsub, hp⟩ := claimLoop_spec x (querySolution d out f.inserted f.forceInserted) cs t {}
        rw [show col = (claimLoop x (querySolution d out f.inserted f.forceInserted) cs t {}).1 by
          rw [Except.ok.inj hcol], hl, List.nil_append] at hc
        exact fin (hsub.subset (List.mem_map_of_mem hc))
      · split at hcol
        · cases hcol
          simp only [recordLoop, List.mem_map] at hc
          obtain ⟨c', hc', rfl⟩ := hc
          exact fin hc'
        · cases hcol
          simp at hc
    · unfold collectClaimed at hcol
      split at hcol
      · cases hcol
      rename_i all hall
      obtain ⟨hall1, hall2⟩ := mem_allClaimed hall
      dsimp only at hcol
      split at hcol
      · cases hcol
      rename_i is his
      have hsub : is.Sublist (all.map Item.course) := by
        split at his
        · exact filterItems_sublist his
        · cases his; exact List.Sublist.refl _
      split at hcol
      · cases hcol
      rename_i cs hcs
      have hcs' := itemCourses_eq hcs
      split at hcol
      · cases hcol
      rename_i ins hins'
      cases hcol
      dsimp only at hc
      split at hc
      · simp only [recordLoop, List.mem_map] at hc
        obtain ⟨c', hc', rfl⟩ := hc
        rcases List.mem_append.1 hc' with h | h
        · have h2 := hsub.subset (by rw [hcs']; exact List.mem_map_of_mem (List.mem_filter.1 h).1)
          obtain ⟨c2, h3, he⟩ := List.mem_map.1 h2
          cases he
          exact .inl (hall1 c' h3)
        · exact forcedCourses_from hx hins' c' h
      · simp at hc
    · cases hcol
      simp at hc

/-- the credits of the courses that satisfy `p` -/
theorem sum_credits_le {p q : Course → Bool} (h : ∀ c, p c = true → q c = true) {l1 l2 : List Course} (hs : l1.Subperm l2)
    (hn : ∀ c ∈ l2, 0 ≤ c.credits) : ((l1.filter p).map (·.credits)).sum ≤ ((l2.filter q).map (·.credits)).sum := by
  have h1 : (l1.filter p).Subperm (l2.filter q) :=
    (List.monotone_filter_right l1 h).subperm.trans (hs.filter _)
  obtain ⟨m, hm, hsub⟩ := h1
  have h2 := perm_sum_rat (hm.map (·.credits))
  rw [← h2]
  refine List.Sublist.sum_le_sum (hsub.map _) ?_
  intro v hv
  obtain ⟨c, hc, rfl⟩ := List.mem_map.1 hv
  exact hn c (List.mem_filter.1 hc).1

/-- C09 for query rules and limits on credits.  Partial: for a limit that shares no counted course with another limit of
the rule (in general it is false, `C09_credit_limits_refuted`), the courses a query reports and counts against the limit
carry no more credits than it allows. -/
theorem C09_query_respects_its_credit_limits_partial (x : Ctx) (hx : x.ForcedOk) (o : Orders) (ho : o.Lawful) (es : List Exc)
    (hes : x.exceptions = groupExceptions es) (d : QueryData) (hsrc : d.source = .courses) (s r : Node) (t t' : ClaimTable)
    (hs : s ∈ ((Node.query .rule d).solutions x o).items) (ha : s.audit x o t = .ok (r, t'))
    (l : Limit) (hl : l ∈ d.limit) (hw : l.what = .credits) (hmax : 0 ≤ l.atMost)
    (hsep : ∀ c, l.Counts [] c → ∀ k ∈ d.limit, k.Counts [] c → k = l)
    (hcr : ∀ c, Known x d.includeFailed c → 0 ≤ c.credits) :
    (((r.claims.map (·.course)).filter (fun c => l.Counts (forcedAt es d.path) c)).map (·.credits)).sum ≤ l.atMost := by
  by_cases hne : r.claims = []
  · simpa [hne] using hmax
  obtain ⟨forced, courses, hforced, tr, htr, hsub, hknown⟩ := query_result_within hx ho hes hsrc hs ha hne
  have h1 := C09_separate_credit_limits_partial (o.limit d.path) (ho.1 d.path) d.limit courses tr forced htr l hl hw hmax
    (fun c _ h k hk hkc => hsep c (Limit.counts_mono (by simp) h) k hk (Limit.counts_mono (by simp) hkc))
  simp only [Limit.used, hw] at h1
  refine le_trans (sum_credits_le ?_ hsub ?_) h1
  · intro c hc
    simp only [decide_eq_true_eq] at hc ⊢
    exact Limit.counts_mono hforced hc
  · exact fun c hc => hcr c (hknown c ((C10_only_input_courses _ (ho.1 d.path) _ _ _ _ htr).1 c hc))

/-! ### The limits of an area -/

theorem areaCtx_forced {a : Area} {st : Student} {es : List Exc} {tr : List Course} {k : String} {c : Course}
    (h : (k, c) ∈ (areaCtx a st es tr).forced) : c.clbid ∈ forcedClbids es := by
  simp only [areaCtx, List.mem_map, List.mem_reverse, List.mem_filter] at h
  obtain ⟨c', ⟨_, h⟩, he⟩ := h
  cases he
  simpa using h

/-- C09 for areas.  Partial: if no query of the area looks at failed courses (otherwise it is false,
`C09_area_limits_refuted`), then of the different courses that the result of an area counts, no more count against one of
the area's limits than the limit's whole-number maximum.  Classes forced in by an exception are not counted. -/
theorem C09_area_respects_its_course_limits_partial (o : Orders) (ho : o.Lawful) (a : Area) (st : Student) (es : List Exc)
    (hl : a.result.Loaded { exceptions := groupExceptions es })
    (hcl : Node.LoadedList { exceptions := groupExceptions es } a.commonRules)
    (hsil : ∀ leaf ∈ Node.leavesList a.commonRules, leaf.Silent)
    (hfail : ∀ leaf ∈ a.result.leaves, leaf.wantsFailed = false)
    (s : AreaSolution) (hs : s ∈ (a.solutions o st es).items) (r : AreaResult) (ha : s.audit o a = .ok r)
    (l : Limit) (hlim : l ∈ a.limit) (hw : l.what = .courses) (n : Nat) (hn : l.atMost = n) :
    ((r.claims.map (·.course)).dedup.filter (fun c => l.Counts (forcedClbids es) c)).length ≤ n := by
  by_cases hne : r.claims = []
  · simp [hne]
  have key : ∃ tr ∈ (limitedTranscripts (o.limit []) a.limit st.courses (forcedClbids es)).items, s.ctx = areaCtx a st es tr := by
    obtain ⟨c, hc⟩ := List.exists_mem_of_ne_nil _ hne
    obtain ⟨tr, htr, hctx, _⟩ := area_claims ho hl hcl hs ha hc
    exact ⟨tr, htr, hctx⟩
  obtain ⟨tr, htr, hctx⟩ := key
  refine le_trans ?_ (C09_course_limits_respected (o.limit []) (ho.1 []) a.limit st.courses tr (forcedClbids es) htr l hlim hw n hn)
  refine ((List.nodup_dedup _).filter _).subperm (fun c hc => ?_) |>.length_le
  obtain ⟨hc, hcount⟩ := List.mem_filter.1 hc
  refine List.mem_filter.2 ⟨?_, hcount⟩
  have hcount := of_decide_eq_true hcount
  obtain ⟨cl, hcl', rfl⟩ := List.mem_map.1 (List.mem_dedup.1 hc)
  obtain ⟨tr', _, hctx', h⟩ := area_claims ho hl hcl hs ha hcl'
  have htr' : tr' = tr := by
    have := hctx'.symm.trans hctx
    exact congrArg Ctx.transcript this
  subst htr'
  rcases h with ⟨leaf, hleaf, h⟩ | ⟨_, leaf, hleaf, x, hx, h⟩
  · rcases leafClaim_known (areaCtx_forcedOk a st es tr') ho h ⟨_, hleaf⟩ with h | ⟨k, h⟩ | ⟨h, _⟩
    · exact h
    · exact absurd (areaCtx_forced h) hcount.1
    · rw [hfail leaf hleaf] at h; cases h
  · exact absurd h (silent_claims ho (hsil leaf hleaf))

/-- C09 for areas loaded from any text.  Partial: see `C09_area_respects_its_course_limits_partial`. -/
theorem C09_loaded_area_partial (c : Constants) (templates : List (String × TemplateCourse)) (st : Student) (es : List Exc)
    (all : Bool) (spec : Dict) (a : Area) (hload : loadArea c templates st es all spec = .ok a)
    (hfail : ∀ leaf ∈ a.result.leaves, leaf.wantsFailed = false) (o : Orders) (ho : o.Lawful)
    (s : AreaSolution) (hs : s ∈ (a.solutions o st es).items) (r : AreaResult) (ha : s.audit o a = .ok r)
    (l : Limit) (hlim : l ∈ a.limit) (hw : l.what = .courses) (n : Nat) (hn : l.atMost = n) :
    ((r.claims.map (·.course)).dedup.filter (fun c => l.Counts (forcedClbids es) c)).length ≤ n :=
  C09_area_respects_its_course_limits_partial o ho a st es (loadArea_loaded hload).1 (loadArea_common hload).1
    (loadArea_common hload).2 hfail s hs r ha l hlim hw n hn

/-! ### Non-trivial cases -/

namespace LimitText
/-- a query for two courses with some further settings -/
def query (more : Dict) : Y := .map (more ++ [("from", .str "courses"),
  ("assert", .map [("count(courses)", .map [("$gte", .int 2)])])])
/-- at most one course in computer science -/
def oneCs : Y := .list [.map [("at_most", .int 1), ("where", .map [("subject", .map [("$eq", .str "CSCI")])])]]
/-- an area -/
def area (more : Dict) (result : Y) : Dict :=
  more ++ [("name", .str "Data"), ("type", .str "concentration"), ("degree", .str "B.A."), ("code", .str "741"), ("result", result)]
/-- two courses in computer science and one in mathematics -/
def taken : List Course := [{ clbid := "1", subject := "CSCI", identity := "CSCI 121" },
  { clbid := "2", subject := "CSCI", identity := "CSCI 251" }, { clbid := "3", subject := "MATH", identity := "MATH 220" }]
/-- a student who took them -/
def student : Student := { courses := taken, coursesWithFailed := taken }
/-- the classes claimed by the audited solutions -/
def claimed (st : Student) (spec : Dict) : Option (List (List String)) :=
  (auditedClaims st [] spec).map (·.map (·.map (·.1)))
end LimitText

open LimitText in
/-- Non-trivial case: with the limit on the query, or on the area, no solution claims both courses in computer
science; without it two do. -/
example : claimed student (area [] (query [("limit", oneCs)])) = some [["3"], ["1", "3"], ["2", "3"]] ∧
    claimed student (area [("limit", oneCs)] (query [])) = some [["3"], ["1", "3"], ["2", "3"]] ∧
    claimed student (area [] (query [])) = some [["1", "2"], ["1", "3"], ["2", "3"], ["1", "2", "3"]] := by
  decide +kernel

/-- some solution of the area as loaded from the text counts more than a whole-number limit allows -/
def overLimit (st : Student) (spec : Dict) (n : Nat) : Bool :=
  match loadArea {} [] st [] false spec with
  | .ok a => (a.solutions .insertion st []).items.any (fun s => match s.audit .insertion a with
      | .ok r => a.limit.any (fun l => decide (l.what = .courses ∧ l.atMost = n ∧
          n < ((r.claims.map (·.course)).dedup.filter (fun c => l.Counts (forcedClbids []) c)).length))
      | .error _ => false)
  | .error _ => false

open LimitText in
/-- An area's limit does not bind queries that look at failed courses: they see every course, whatever the limit
left out.  The area limits computer science to one course and counts two. -/
theorem C09_area_limits_refuted : ∃ (st : Student) (spec : Dict) (a : Area), loadArea {} [] st [] false spec = .ok a ∧
    ∃ s ∈ (a.solutions .insertion st []).items, ∃ r, s.audit .insertion a = .ok r ∧
    ∃ l ∈ a.limit, l.what = .courses ∧ l.atMost = (1 : Nat) ∧
      1 < ((r.claims.map (·.course)).dedup.filter (fun c => l.Counts (forcedClbids []) c)).length := by
  have h : overLimit student (area [("limit", oneCs)] (query [("include_failed", .bool true)])) 1 = true := by decide +kernel
  refine ⟨student, area [("limit", oneCs)] (query [("include_failed", .bool true)]), ?_⟩
  unfold overLimit at h
  split at h
  · rename_i a ha
    obtain ⟨s, hs, h⟩ := List.any_eq_true.1 h
    split at h
    · rename_i r hr
      obtain ⟨l, hl, h⟩ := List.any_eq_true.1 h
      exact ⟨a, ha, s, hs, r, hr, l, hl, of_decide_eq_true h⟩
    · cases h
  · cases h

end Dp
