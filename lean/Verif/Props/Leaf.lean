import Verif.Model.Loaded
import Verif.Model.Area
import Verif.Props.Exceptions
import Verif.Props.Claim
import Verif.Props.Limit
import Verif.Props.Run
import Verif.Props.Search
import Mathlib.Tactic.Common

/-
The rules that claim courses: course rules (C26), proficiencies (C36), queries (C27).
-/
namespace Dp

/-! ### Membership in generators -/

theorem Gen.mem_map {α β : Type} {g : Gen α} {f : α → β} {b : β} :
    b ∈ (g.map f).items ↔ ∃ a ∈ g.items, f a = b := by
  simp [Gen.map]

theorem Gen.mem_forList {α β : Type} {l : List α} {f : α → Gen β} {b : β}
    (h : b ∈ (Gen.forList l f).items) : ∃ a ∈ l, b ∈ (f a).items := by
  induction l with
  | nil => simp [Gen.forList, Gen.nil] at h
  | cons a l ih =>
    rcases Gen.mem_append h with h | h
    · exact ⟨a, List.mem_cons_self, h⟩
    · obtain ⟨a', ha, hb⟩ := ih h
      exact ⟨a', List.mem_cons_of_mem _ ha, hb⟩

theorem Gen.mem_bind {α β : Type} {g : Gen α} {f : α → Gen β} {b : β}
    (h : b ∈ (g.bind f).items) : ∃ a ∈ g.items, b ∈ (f a).items := by
  rcases Gen.mem_append h with h | h
  · exact Gen.mem_forList h
  · simp at h

theorem Gen.mem_orElse {α : Type} {g h : Gen α} {a : α} (ha : a ∈ (g.orElse h).items) :
    a ∈ g.items ∨ a ∈ h.items := by
  unfold Gen.orElse at ha
  split at ha
  · exact Or.inr ha
  · exact Or.inl ha

/-! ### Lookups by clbid -/

/-- every course forced into a transcript is listed under its own clbid -/
def Ctx.ForcedOk (x : Ctx) : Prop := ∀ e ∈ x.forced, e.2.clbid = e.1

theorem findCourseByClbid_some {x : Ctx} {k : String} {c : Course} (h : x.findCourseByClbid k = some c) :
    c ∈ x.transcript ∧ c.clbid = k := by
  unfold Ctx.findCourseByClbid at h
  exact ⟨List.mem_reverse.1 (List.mem_of_find?_eq_some h), by simpa using List.find?_some h⟩

theorem forcedCourseByClbid_ok {x : Ctx} (hx : x.ForcedOk) {k : String} {c : Course}
    (h : x.forcedCourseByClbid k = .ok c) :
    c.clbid = k ∧ (c ∈ x.transcript ∨ (k, c) ∈ x.forced) := by
  unfold Ctx.forcedCourseByClbid at h
  split at h
  · rename_i c' hc
    obtain ⟨h1, h2⟩ := findCourseByClbid_some hc
    cases h
    exact ⟨h2, Or.inl h1⟩
  · split at h
    · rename_i c' hc
      cases h
      unfold Ctx.forcedGet at hc
      rw [Option.map_eq_some_iff] at hc
      obtain ⟨e, he, rfl⟩ := hc
      have hk : e.1 = k := by simpa using List.find?_some he
      have hm := List.mem_of_find?_eq_some he
      refine ⟨(hx e hm).trans hk, Or.inr ?_⟩
      rw [← hk]
      exact hm
    · cases h

/-- the contexts of an area's solutions are of this kind -/
theorem areaCtx_forcedOk (a : Area) (st : Student) (es : List Exc) (tr : List Course) :
    (areaCtx a st es tr).ForcedOk := by
  intro e he
  simp only [areaCtx, List.mem_map] at he
  obtain ⟨c, _, rfl⟩ := he
  rfl

theorem makeClaim_course (m : Multicountable) (t : ClaimTable) (c : Course) (p : Path) (allow : Bool) :
    (makeClaim m t c p allow).1.course = c ∧ (makeClaim m t c p allow).1.claimedBy = p := by
  unfold makeClaim makeMulticountableClaim
  dsimp only
  repeat' split
  all_goals exact ⟨rfl, rfl⟩

theorem makeClaim_allowed (m : Multicountable) (t : ClaimTable) (c : Course) (p : Path) :
    makeClaim m t c p true = (⟨c, p, false⟩, t) := rfl

/-! ### Course rules -/

/-- The course is one the rule asks for: every filter the rule states, the course
satisfies; without an institution and an AP test it must be a St. Olaf course. -/
def RuleMatches (d : CourseData) (c : Course) : Prop :=
  (d.institution = none → d.ap = none → c.isStolaf = true) ∧
  (∀ v, d.crsid = some v → c.crsid = v) ∧
  (∀ v, d.course = some v →
    c.identity = v ∧
    (∀ s, d.section' = some s → c.section' = some s) ∧
    (∀ y, d.yearTerm = some y → c.year = y.1 ∧ c.term = y.2) ∧
    (d.subType = some "E" → c.subType = .ensemble) ∧ (d.subType = some "L" → c.subType = .lab) ∧
    (d.subType = some "F" → c.subType = .flac) ∧ (d.subType = some "D" → c.subType = .discussion)) ∧
  (∀ v, d.name = some v → c.name = v) ∧
  (∀ v, d.institution = some v → c.institution = v) ∧
  (∀ v, d.ap = some v → c.courseType = .ap ∧ c.name = v)

theorem if_false_iff (p : Prop) [Decidable p] (b : Bool) :
    (if p then false else b) = true ↔ ¬ p ∧ b = true := by
  by_cases h : p <;> simp [h]

theorem filter_matches_spec {d : CourseData} {c : Course} (h : d.filter.matches c = true) : RuleMatches d c := by
  unfold CourseFilter.matches at h
  simp only [if_false_iff] at h
  obtain ⟨h1, h2, h3, _, h5, h6, h7, _⟩ := h
  simp only [CourseData.filter] at h1 h2 h3 h5 h6 h7
  refine ⟨?_, ?_, ?_, ?_, ?_, ?_⟩
  · intro hi ha
    simpa [hi, ha] using h1
  · intro v hv
    have := h2
    simp only [hv, Option.any_some, decide_eq_true_eq, not_not] at this
    exact this.symm
  · intro v hv
    simp only [hv, Option.any_some, Bool.or_eq_true, decide_eq_true_eq, not_or, ne_eq, not_not] at h3
    obtain ⟨⟨⟨ha, hb⟩, hc⟩, hd⟩ := h3
    refine ⟨ha, ?_, ?_, ?_, ?_, ?_, ?_⟩
    · intro s hs
      simpa [hs] using hb
    · intro y hy
      simp only [hy, Option.any_some, Bool.or_eq_true, decide_eq_true_eq, not_or, not_not] at hc
      exact hc
    all_goals
      intro hs
      simp [hs, subTypeLookup] at hd
      exact hd.symm
  · intro v hv
    simp only [hv, Option.any_some, decide_eq_true_eq, not_not] at h5
    exact h5.symm
  · intro v hv
    simp only [hv, Option.any_some, decide_eq_true_eq, not_not] at h6
    exact h6.symm
  · intro v hv
    simp only [hv, Option.any_some, Bool.or_eq_true, decide_eq_true_eq, not_or, not_not] at h7
    exact h7

/-- How the solutions of a course rule come about. -/
theorem courseSolutions_cases {x : Ctx} {d s : CourseData} (hs : s ∈ (courseSolutions x d).items) :
    (s = courseSolution d none (overridden := true) ∧
      (d.autoWaived = true ∨ (getWaiveException x.exceptions d.path).isSome = true)) ∨
    (∃ e ∈ getInsertExceptions x.exceptions d.path, ∃ k f c, e.kind = .insertion k f ∧
      x.forcedCourseByClbid k = .ok c ∧ c.clbid ∉ d.excluded ∧ s = courseSolution d (some c) true f) ∨
    (∃ c ∈ x.findCourses d, courseAcceptable d c = true ∧ s = courseSolution d (some c)) ∨
    s = courseSolution d none := by
  unfold courseSolutions at hs
  split at hs
  · rename_i h
    left
    refine ⟨by simpa [Gen.one] using hs, by simpa using h⟩
  · right
    rcases Gen.mem_orElse hs with h | h
    · rcases Gen.mem_append h with h | h
      · left
        generalize getInsertExceptions x.exceptions d.path = es at h
        induction es with
        | nil => simp [courseInsertSolutions, Gen.nil] at h
        | cons e es ih =>
          have tl : s ∈ (courseInsertSolutions x d es).items → ∃ e' ∈ e :: es, ∃ k f c,
              e'.kind = .insertion k f ∧ x.forcedCourseByClbid k = .ok c ∧ c.clbid ∉ d.excluded ∧
              s = courseSolution d (some c) true f := by
            intro h
            obtain ⟨e', he', r⟩ := ih h
            exact ⟨e', List.mem_cons_of_mem _ he', r⟩
          unfold courseInsertSolutions at h
          split at h
          · rename_i k f hk
            split at h
            · simp [Gen.raise] at h
            · rename_i c hc
              split at h
              · exact tl h
              · rename_i hex
                rcases Gen.mem_append h with h | h
                · exact ⟨e, List.mem_cons_self, k, f, c, hk, hc, by simpa using hex, by simpa [Gen.one] using h⟩
                · exact tl h
          · exact tl h
      · right; left
        simp only [Gen.ofList, List.mem_map, List.mem_filter] at h
        obtain ⟨c, ⟨h1, h2⟩, rfl⟩ := h
        exact ⟨c, h1, h2, rfl⟩
    · right; right
      simpa [Gen.one] using h

theorem findCourses_spec {x : Ctx} {d : CourseData} {c : Course} (h : c ∈ x.findCourses d) :
    c ∈ x.transcript ∧ (∀ k, d.clbid = some k → c.clbid = k) ∧ (d.clbid = none → RuleMatches d c) := by
  unfold Ctx.findCourses at h
  split at h
  · rename_i k hk
    rw [Option.mem_toList] at h
    obtain ⟨h1, h2⟩ := findCourseByClbid_some h
    exact ⟨h1, by rw [hk]; intro k' e; cases e; exact h2, by rw [hk]; intro h; cases h⟩
  · rename_i hk
    rw [List.mem_filter] at h
    exact ⟨h.1, (fun k' e => by rw [hk] at e; cases e), fun _ => filter_matches_spec h.2⟩

theorem courseAcceptable_spec {d : CourseData} {c : Course} (h : courseAcceptable d c = true) :
    c.clbid ∉ d.excluded ∧ (∀ g, d.grade = some g → c.isInProgress = true ∨ g ≤ c.gradePoints) ∧
      (∀ g, d.gradeOption = some g → c.gradeOption = g) := by
  unfold courseAcceptable at h
  simp only [Bool.and_eq_true] at h
  obtain ⟨⟨h1, h2⟩, h3⟩ := h
  refine ⟨by simpa using h1, ?_, ?_⟩
  · intro g hg
    simp only [hg, Option.any_some, Bool.not_and, Bool.not_not, Bool.or_eq_true] at h2
    rcases h2 with h2 | h2
    · exact Or.inl h2
    · right
      simp only [Bool.not_eq_true', decide_eq_false_iff_not] at h2
      exact le_of_not_gt h2
  · intro g hg
    simp only [hg, Option.any_some, Bool.not_eq_true', decide_eq_false_iff_not, not_not] at h3
    exact h3

/-- What a course rule is entitled to claim for its own sake. -/
structure CourseEntitled (x : Ctx) (d : CourseData) (c : Course) : Prop where
  onTranscript : c ∈ x.transcript
  byClbid : ∀ k, d.clbid = some k → c.clbid = k
  byFilters : d.clbid = none → RuleMatches d c
  notExcluded : c.clbid ∉ d.excluded
  grade : ∀ g, d.grade = some g → c.isInProgress = true ∨ g ≤ c.gradePoints
  gradeOption : ∀ g, d.gradeOption = some g → c.gradeOption = g

/-- the result of auditing a course solution -/
theorem courseAudit_claim {x : Ctx} {s r : CourseData} {t t' : ClaimTable}
    (h : courseAudit x s t = .ok (r, t')) :
    (r.claim = none ∧ t' = t ∧ r.overridden = s.overridden ∧ (s.matched = none ∨ s.overridden = true ∨ s.fromClaimed = true)) ∨
    (∃ c, s.matched = some c ∧ s.overridden = false ∧ r.overridden = false ∧
      (some (makeClaim x.multicountable t c s.path (s.forced || s.allowClaimed)).1 = r.claim) ∧
      (makeClaim x.multicountable t c s.path (s.forced || s.allowClaimed)).2 = t') := by
  unfold courseAudit at h
  dsimp only at h
  split at h
  · rename_i ho
    obtain ⟨rfl, rfl⟩ := Prod.mk.inj (Except.ok.inj h)
    exact Or.inl ⟨rfl, rfl, ho.symm, Or.inr (Or.inl ho)⟩
  · rename_i ho
    have ho : s.overridden = false := by simpa using ho
    split at h
    · rename_i hm
      obtain ⟨rfl, rfl⟩ := Prod.mk.inj (Except.ok.inj h)
      exact Or.inl ⟨rfl, rfl, ho.symm, Or.inl hm⟩
    · rename_i c hm
      split at h
      · rename_i hf
        obtain ⟨rfl, rfl⟩ := Prod.mk.inj (Except.ok.inj h)
        simp only [Bool.and_eq_true] at hf
        exact Or.inl ⟨rfl, rfl, ho.symm, Or.inr (Or.inr hf.1)⟩
      · split at h
        · cases h
        · obtain ⟨rfl, rfl⟩ := Prod.mk.inj (Except.ok.inj h)
          exact Or.inr ⟨c, hm, ho, rfl, rfl, rfl⟩

theorem courseAudit_fields {x : Ctx} {s r : CourseData} {t t' : ClaimTable}
    (h : courseAudit x s t = .ok (r, t')) :
    r.path = s.path ∧ r.inserted = s.inserted ∧ r.optional = s.optional := by
  unfold courseAudit at h
  dsimp only at h
  repeat' split at h
  all_goals first
    | cases h; done
    | (obtain ⟨rfl, rfl⟩ := Prod.mk.inj (Except.ok.inj h); exact ⟨rfl, rfl, rfl⟩)

/-- **C26.** When a course rule's audit succeeds without a waiver or an insertion
(reported as waived), it claims one course, the claim is not a failed one, and the
course is on the transcript, is one the rule asks for, is not excluded, and meets the
minimum grade (unless it is in progress) and the grade option. -/
theorem C26_course_rule_success (x : Ctx) (o : Orders) (d : CourseData) (s r : Node) (t t' : ClaimTable)
    (hs : s ∈ ((Node.course .rule d).solutions x o).items) (ha : s.audit x o t = .ok (r, t'))
    (hpass : r.status.passing = true) (hw : r.status ≠ .waived) :
    ∃ c, r.claims = [⟨c, d.path, false⟩] ∧ CourseEntitled x d c := by
  simp only [Node.solutions] at hs
  obtain ⟨sd, hsd, rfl⟩ := Gen.mem_map.1 hs
  simp only [Node.audit] at ha
  split at ha
  · cases ha
  rename_i rd t2 hca
  obtain ⟨rfl, rfl⟩ := Prod.mk.inj (Except.ok.inj ha)
  simp only [Node.status] at hpass hw
  simp only [Node.claims]
  obtain ⟨hp, hins, hopt⟩ := courseAudit_fields hca
  -- the status tells that a course was claimed
  have hnw : courseWaived .result rd = false := by
    by_contra h
    exact hw (by simp [courseStatus, h])
  have hclaims : courseClaims .result rd ≠ [] := by
    intro h
    rw [courseStatus, hnw, h] at hpass hw
    simp only [matchedOf, List.filter_nil, List.map_nil, List.dedup_nil, List.any_nil] at hpass hw
    by_cases hopt : rd.optional <;> simp_all [Status.passing]
  obtain ⟨cl, hcl, hf⟩ : ∃ cl, rd.claim = some cl ∧ cl.failed = false := by
    unfold courseClaims at hclaims
    split at hclaims
    · rename_i c _ hc
      refine ⟨c, hc, ?_⟩
      by_contra hf
      simp [hf] at hclaims
    · exact absurd rfl hclaims
  have hins' : rd.inserted = false := by
    unfold courseWaived at hnw
    simp [hcl, hf] at hnw
    exact hnw.1
  rcases courseAudit_claim hca with ⟨h, _⟩ | ⟨c, hm, ho, _, hcl', _⟩
  · rw [h] at hcl; cases hcl
  rw [hcl] at hcl'
  obtain ⟨hc1, hc2⟩ := makeClaim_course x.multicountable t c sd.path (sd.forced || sd.allowClaimed)
  have hceq := Option.some.inj hcl'
  rcases courseSolutions_cases hsd with ⟨rfl, _⟩ | ⟨e, _, k, f, c', _, _, _, rfl⟩ | ⟨c', hfind, hacc, rfl⟩ | rfl
  · cases hm
  · rw [hins] at hins'
    simp [courseSolution] at hins'
  · have hcc : c' = c := by simpa [courseSolution] using hm
    subst hcc
    obtain ⟨g1, g2, g3⟩ := findCourses_spec hfind
    obtain ⟨g4, g5, g6⟩ := courseAcceptable_spec hacc
    refine ⟨c', ?_, ⟨g1, g2, g3, g4, g5, g6⟩⟩
    have : cl = ⟨c', d.path, false⟩ := by
      rw [hceq] at hc1 hc2
      have hp' : cl.claimedBy = d.path := hc2
      obtain ⟨a, b, f⟩ := cl
      simp only at hc1 hp' hf
      subst hc1 hp' hf
      rfl
    simp [courseClaims, hcl, this]
  · cases hm

/-- Non-trivial case for C26: of two transcript courses with the right name only the
one with the grade is claimed. -/
example :
    let d : CourseData := { path := ["$", "*CSCI 121"], course := some "CSCI 121", grade := some 2 }
    let good : Course := { clbid := "1", identity := "CSCI 121" }
    let bad : Course := { clbid := "2", identity := "CSCI 121", gradePoints := 1 }
    let x : Ctx := { transcript := [bad, good] }
    (courseSolutions x d).items.map (·.matched) = [some good] ∧
      ∃ r t', courseAudit x (courseSolution d (some good)) [] = .ok (r, t') ∧
        courseStatus .result r = .done := by
  refine ⟨by decide +kernel, _, _, rfl, by decide +kernel⟩

theorem filter_matches_of {d : CourseData} {c : Course} (h : RuleMatches d c) : d.filter.matches c = true := by
  obtain ⟨h1, h2, h3, h5, h6, h7⟩ := h
  unfold CourseFilter.matches
  simp only [if_false_iff]
  simp only [CourseData.filter]
  refine ⟨?_, ?_, ?_, by simp, ?_, ?_, ?_, by simp⟩
  · simp only [Bool.and_eq_true, Option.isNone_iff_eq_none, Bool.not_eq_true', not_and]
    rintro ⟨ha, hb⟩
    simp [h1 ha hb]
  · cases hc : d.crsid with
    | none => simp
    | some v => simp [h2 v hc]
  · cases hc : d.course with
    | none => simp
    | some v =>
      obtain ⟨ha, hb, hy, he, hl, hf, hd⟩ := h3 v hc
      simp only [Option.any_some, Bool.or_eq_true, decide_eq_true_eq, not_or, ne_eq, not_not]
      refine ⟨⟨⟨ha, ?_⟩, ?_⟩, ?_⟩
      · cases hs : d.section' with
        | none => simp
        | some s => simp [hb s hs]
      · cases hs : d.yearTerm with
        | none => simp
        | some y => simp [hy y hs]
      · cases hs : d.subType with
        | none => simp [subTypeLookup]
        | some s =>
          rw [Option.getD_some, subTypeLookup]
          split
          · rename_i e; rw [beq_iff_eq] at e; subst e; simp [he hs]
          split
          · rename_i e; rw [beq_iff_eq] at e; subst e; simp [hl hs]
          split
          · rename_i e; rw [beq_iff_eq] at e; subst e; simp [hf hs]
          split
          · rename_i e; rw [beq_iff_eq] at e; subst e; simp [hd hs]
          · simp
  · cases hc : d.name with
    | none => simp
    | some v => simp [h5 v hc]
  · cases hc : d.institution with
    | none => simp
    | some v => simp [h6 v hc]
  · cases hc : d.ap with
    | none => simp
    | some v => simp [h7 v hc]

theorem courseAcceptable_of {d : CourseData} {c : Course} (h1 : c.clbid ∉ d.excluded)
    (h2 : ∀ g, d.grade = some g → c.isInProgress = true ∨ g ≤ c.gradePoints)
    (h3 : ∀ g, d.gradeOption = some g → c.gradeOption = g) : courseAcceptable d c = true := by
  unfold courseAcceptable
  simp only [Bool.and_eq_true]
  refine ⟨⟨by simpa using h1, ?_⟩, ?_⟩
  · cases hg : d.grade with
    | none => simp
    | some g =>
      rcases h2 g hg with h | h
      · simp [h]
      · simp [not_lt.2 h]
  · cases hg : d.gradeOption with
    | none => simp
    | some g => simp [h3 g hg]

theorem findCourseByClbid_of_nodup {x : Ctx} (hx : (x.transcript.map (·.clbid)).Nodup) {c : Course}
    (hc : c ∈ x.transcript) : x.findCourseByClbid c.clbid = some c := by
  have hsome : (x.findCourseByClbid c.clbid).isSome := by
    unfold Ctx.findCourseByClbid
    rw [List.find?_isSome]
    exact ⟨c, List.mem_reverse.2 hc, by simp⟩
  obtain ⟨c', hc'⟩ := Option.isSome_iff_exists.1 hsome
  obtain ⟨h1, h2⟩ := findCourseByClbid_some hc'
  rw [hc', List.inj_on_of_nodup_map hx h1 hc h2]

/-- **C26, completeness.** Conversely, without waivers and insertions at its path, a
course rule proposes every course it is entitled to, and claims it if nobody has. -/
theorem C26_every_entitled_course_is_tried (x : Ctx) (o : Orders) (d : CourseData) (c : Course)
    (hx : (x.transcript.map (·.clbid)).Nodup)
    (hw : d.autoWaived = false) (hw' : getWaiveException x.exceptions d.path = none)
    (hi : getInsertExceptions x.exceptions d.path = [])
    (hc : CourseEntitled x d c) :
    ∃ s ∈ ((Node.course .rule d).solutions x o).items, ∀ t, ClaimTable.has t c.clbid = false →
      ∃ r t', s.audit x o t = .ok (r, t') ∧ r.claims = [⟨c, d.path, false⟩] := by
  refine ⟨.course .solution (courseSolution d (some c)), ?_, ?_⟩
  · simp only [Node.solutions]
    refine Gen.mem_map.2 ⟨_, ?_, rfl⟩
    unfold courseSolutions
    rw [hw, hw', hi]
    refine mem_orElse_left ?_
    simp only [courseInsertSolutions, Gen.append, Gen.nil, Gen.ofList, List.nil_append, List.mem_map,
      List.mem_filter]
    refine ⟨c, ⟨?_, courseAcceptable_of hc.notExcluded hc.grade hc.gradeOption⟩, rfl⟩
    unfold Ctx.findCourses
    cases hk : d.clbid with
    | none => exact List.mem_filter.2 ⟨hc.onTranscript, filter_matches_of (hc.byFilters hk)⟩
    | some k =>
      rw [← hc.byClbid k hk]
      simp [findCourseByClbid_of_nodup hx hc.onTranscript]
  · intro t ht
    have hmk : ∃ t', makeClaim x.multicountable t c d.path (false || d.allowClaimed) = (⟨c, d.path, false⟩, t') := by
      unfold makeClaim
      cases d.allowClaimed <;> simp [ht]
    obtain ⟨t', ht'⟩ := hmk
    refine ⟨.course .result
      { (courseSolution d (some c)) with claim := some ⟨c, d.path, false⟩, matched := none }, t', ?_, ?_⟩
    · simp only [Node.audit, courseAudit, courseSolution, Bool.or_false]
      simp only [Bool.false_or] at ht'
      simp [ht']
    · simp [Node.claims, courseClaims]

/-! ### Proficiencies -/

theorem getWaive_isSome (es : List Exc) (p : Path) :
    (getWaiveException (groupExceptions es) p).isSome = true ↔ ∃ e ∈ es, e.path = p ∧ e.kind = .override := by
  obtain ⟨_, _, h, _⟩ := C07_exact_path_first_wins es p
  rw [h, List.find?_isSome]
  refine exists_congr fun e => and_congr_right fun _ => ?_
  simp only [Exc.isOverride, Bool.and_eq_true, beq_iff_eq]
  constructor
  · rintro ⟨h1, h2⟩
    refine ⟨h1, ?_⟩
    split at h2
    · assumption
    · cases h2
  · rintro ⟨h1, h2⟩
    simp [h1, h2]

/-- The student's record of music proficiencies shows the proficiency, in whatever way. -/
def RecordShows (p : Proficiencies) (of : String) : Prop :=
  (of = "Keyboard Level I" ∧ p.keyboard1 ≠ .no) ∨ (of = "Keyboard Level II" ∧ p.keyboard2 ≠ .no) ∨
  (of = "Keyboard Level III" ∧ p.keyboard3 ≠ .no) ∨ (of = "Keyboard Level IV" ∧ p.keyboard4 ≠ .no) ∨
  (of = "Guitar" ∧ p.guitar ≠ .no)

theorem proficiency_status {p : Proficiencies} {of : String} {st : Status} (h : p.status of false = .ok st) :
    (RecordShows p of ∧ st = .done) ∨ (¬ RecordShows p of ∧ st = .empty) := by
  have key : ∀ q : ProfStatus, (Except.ok (if q = .yes ∨ q = .exam ∨ q = .class' then Status.done else .empty) :
      Except Err Status) = .ok st → (q ≠ .no ∧ st = .done) ∨ (¬ q ≠ .no ∧ st = .empty) := by
    intro q hq
    cases hq
    cases q <;> simp
  unfold Proficiencies.status at h
  split at h
  · cases h
  · rename_i q hq
    rw [if_neg (by simp)] at h
    have hk := key q h
    unfold Proficiencies.lookup at hq
    unfold RecordShows
    simp only [beq_iff_eq] at hq
    split at hq
    · rename_i e; subst e; cases hq; simpa using hk
    split at hq
    · rename_i e; subst e; cases hq; simpa using hk
    split at hq
    · rename_i e; subst e; cases hq; simpa using hk
    split at hq
    · rename_i e; subst e; cases hq; simpa using hk
    split at hq
    · rename_i e; subst e; cases hq; simpa using hk
    · cases hq

/-- **C36, as far as it holds.** A waived proficiency is reported as waived; otherwise
it is done if the student's record shows it, whatever the transcript and the claims;
otherwise its status is the one its course rule has with the first course it proposes
(and Empty if there is no course rule).  Missing: that another proposal of the course
rule would do, see `C36_refuted`. -/
theorem C36_proficiency_partial (x : Ctx) (o : Orders) (es : List Exc) (hx : x.exceptions = groupExceptions es)
    (d : ProfData) (cd : Option CourseData) (s r : Node) (t t' : ClaimTable)
    (hs : s ∈ ((Node.prof .rule d (cd.map (fun c => (.rule, c)))).solutions x o).items)
    (ha : s.audit x o t = .ok (r, t')) :
    ((∃ e ∈ es, e.path = d.path ∧ e.kind = .override) → r.status = .waived) ∧
    ((¬ ∃ e ∈ es, e.path = d.path ∧ e.kind = .override) →
      (RecordShows x.proficiencies d.proficiency → r.status = .done) ∧
      (¬ RecordShows x.proficiencies d.proficiency → match cd with
        | none => r.status = .empty
        | some c => ∃ s0 rest r0, ((Node.course .rule c).solutions x o).items = s0 :: rest ∧
            s0.audit x o t = .ok (r0, t') ∧ r.status = r0.status)) := by
  rw [← getWaive_isSome, ← hx]
  simp only [Node.solutions, profSolutions] at hs
  by_cases hw : (getWaiveException x.exceptions d.path).isSome = true
  · rw [if_pos hw] at hs
    refine ⟨fun _ => ?_, fun h => absurd hw h⟩
    have : s = .prof .solution { d with overridden := true, status := .empty } (cd.map (fun c => (.rule, c))) := by
      simpa [Gen.one] using hs
    subst this
    simp only [Node.audit, profAudit, if_true] at ha
    obtain ⟨rfl, rfl⟩ := Prod.mk.inj (Except.ok.inj ha)
    simp [Node.status, profStatus]
  · rw [if_neg hw] at hs
    refine ⟨fun h => absurd h hw, fun _ => ?_⟩
    cases cd with
    | none =>
      simp only [Option.map_none, Gen.one, List.mem_singleton] at hs
      subst hs
      simp only [Node.audit, profAudit, Bool.false_eq_true, if_false] at ha
      split at ha
      · cases ha
      · rename_i st hst
        obtain ⟨rfl, rfl⟩ := Prod.mk.inj (Except.ok.inj ha)
        rcases proficiency_status hst with ⟨h1, rfl⟩ | ⟨h1, rfl⟩ <;>
          simp [h1, Node.status, profStatus, Status.inWaivedAndDone]
    | some c =>
      simp only [Option.map_some] at hs
      split at hs
      · rename_i s0 rest hitems
        simp only [Gen.one, List.mem_singleton] at hs
        subst hs
        simp only [Node.audit, profAudit, Bool.false_eq_true, if_false] at ha
        split at ha
        · cases ha
        · rename_i st hst
          split at ha
          · cases ha
          · rename_i cd' t2 hca
            obtain ⟨rfl, rfl⟩ := Prod.mk.inj (Except.ok.inj ha)
            rcases proficiency_status hst with ⟨h1, rfl⟩ | ⟨h1, rfl⟩
            · simp [h1, Node.status, profStatus, Status.inWaivedAndDone]
            · refine ⟨fun h => absurd h h1, fun _ => ?_⟩
              refine ⟨.course .solution s0, rest.map (Node.course .solution), .course .result cd', ?_, ?_, ?_⟩
              · simp [Node.solutions, Gen.map, hitems]
              · simp [Node.audit, hca]
              · simp [Node.status, profStatus, Status.inWaivedAndDone]
      · simp [Gen.raise] at hs

/-- Non-trivial cases for C36: the record decides against the transcript; and a course
passes where the record is silent. -/
example :
    let c : Course := { clbid := "1", identity := "MUSIC 114" }
    let cd : CourseData := { path := ["$", ".proficiency=Guitar", "*MUSIC 114"], course := some "MUSIC 114" }
    let d : ProfData := { path := ["$", ".proficiency=Guitar"], proficiency := "Guitar" }
    (∃ s r t', ((Node.prof .rule d (some (.rule, cd))).solutions { proficiencies := { guitar := .exam } }
        .insertion).items = [s] ∧
      s.audit { proficiencies := { guitar := .exam } } .insertion [] = .ok (r, t') ∧ r.status = .done) ∧
    (∃ s r t', ((Node.prof .rule d (some (.rule, cd))).solutions { transcript := [c] } .insertion).items = [s] ∧
      s.audit { transcript := [c] } .insertion [] = .ok (r, t') ∧ r.status = .done) :=
  ⟨⟨_, _, _, rfl, rfl, by decide +kernel⟩, ⟨_, _, _, rfl, rfl, by decide +kernel⟩⟩

/-- **C36 is false as stated:** a proficiency tries only the first course that matches;
if another rule has claimed that one, it does not pass although its course rule, on
its own, passes with the second. -/
theorem C36_refuted : ∃ (x : Ctx) (d : ProfData) (c : CourseData) (t : ClaimTable),
    (∃ s ∈ ((Node.course .rule c).solutions x .insertion).items, ∃ r t',
      s.audit x .insertion t = .ok (r, t') ∧ r.status = .done) ∧
    ((Node.prof .rule d (some (.rule, c))).solutions x .insertion).items ≠ [] ∧
    ∀ s ∈ ((Node.prof .rule d (some (.rule, c))).solutions x .insertion).items, ∃ r t',
      s.audit x .insertion t = .ok (r, t') ∧ r.status.passing = false := by
  let c1 : Course := { clbid := "1", identity := "MUSIC 114" }
  let c2 : Course := { clbid := "2", identity := "MUSIC 114" }
  refine ⟨{ transcript := [c1, c2] }, { path := ["$", ".proficiency=Guitar"], proficiency := "Guitar" },
    { path := ["$", ".proficiency=Guitar", "*MUSIC 114"], course := some "MUSIC 114" },
    [("1", [⟨c1, ["$", "*MUSIC 114"], false⟩])],
    ⟨_, List.mem_cons_of_mem _ List.mem_cons_self, _, _, rfl, by decide +kernel⟩,
    (fun h => by cases (show [_] = [] from h)), ?_⟩
  intro s hs
  have : s ∈ [_] := hs
  rw [List.mem_singleton] at this
  subst this
  exact ⟨_, _, rfl, by decide +kernel⟩

end Dp
