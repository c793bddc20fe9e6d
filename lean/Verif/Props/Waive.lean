import Verif.Props.Blocks

/-
C38: waivers.
-/
namespace Dp

/-- `is_waived()`'s flag: the rule was overridden -/
def Node.overridden : Node → Bool
  | .course _ d => d.overridden
  | .query _ d => d.overridden
  | .count _ d _ => d.overridden
  | .req _ d _ => d.overridden
  | .cond _ d _ _ => d.overridden
  | .prof _ d _ => d.overridden

/-- what a waived rule reports: "waived", or "done" for a department-audited or contract
requirement -/
def Node.waivedStatus : Node → Status
  | .req _ d _ => if d.isAudited || d.isContract then .done else .waived
  | _ => .waived

/-- the rule is a conditional -/
def Node.isCond : Node → Bool
  | .cond _ _ _ _ => true
  | _ => false

theorem courseSolutions_waived {x : Ctx} {d : CourseData} (h : (getWaiveException x.exceptions d.path).isSome = true) :
    courseSolutions x d = .one (courseSolution d none (overridden := true)) := by
  simp [courseSolutions, h]

/-- **C38** (partial).  A rule other than a conditional with an override exception at its
path has exactly one solution, whatever the transcript; auditing it succeeds on every
table of claims, claims nothing, and reports the rule as waived (a department-audited or
contract requirement as done), hence passing, with full rank.  Missing: conditionals,
for which it is false (`C38_conditional_refuted`). -/
theorem C38_waived_partial (x : Ctx) (o : Orders) (es : List Exc) (hx : x.exceptions = groupExceptions es)
    (n : Node) (hn : n.Loaded x) (hc : n.isCond = false)
    (hw : ∃ e ∈ es, e.path = n.path ∧ e.kind = .override) :
    ∃ s, n.solutions x o = .one s ∧ ∀ t, ∃ r, s.audit x o t = .ok (r, t) ∧ r.path = n.path ∧
      r.status = n.waivedStatus ∧ r.status.passing = true ∧ r.rank = .ok (1, 1) ∧ r.claims = [] := by
  have hw' : (getWaiveException x.exceptions n.path).isSome = true := by
    rw [hx]; exact (getWaive_isSome es _).2 hw
  cases n with
  | cond => cases hc
  | course st d =>
    simp only [Node.path] at hw'
    refine ⟨.course .solution (courseSolution d none (overridden := true)), ?_, ?_⟩
    · simp [Node.solutions, courseSolutions_waived hw', Gen.one, Gen.map]
    · intro t
      refine ⟨_, rfl, rfl, ?_⟩
      by_cases ho : d.optional <;>
        simp [Node.status, Node.rank, Node.claims, Node.waivedStatus, courseStatus, courseWaived, courseClaims,
          courseRank, courseSolution, statusRank, Status.passing, ho]
  | query st d =>
    simp only [Node.Loaded, QueryData.Loaded] at hn
    have hov : d.overridden = true := by rw [hn.2.2.2.2.2.2]; exact hw'
    refine ⟨.query .solution (querySolution d []), ?_, ?_⟩
    · simp [Node.solutions, querySolutions, hov, Gen.one, Gen.map]
    · intro t
      refine ⟨.query .result { querySolution d [] with successful := [], failed := [] }, ?_, rfl, ?_⟩
      · simp [Node.audit, queryAudit, querySolution, hov]
      · simp [Node.status, Node.rank, Node.claims, Node.waivedStatus, queryStatus, queryClaims, queryRank,
          querySolution, hov, Status.passing]
  | count st d items =>
    simp only [Node.path] at hw'
    simp only [Node.Loaded] at hn
    refine ⟨.count .solution { d with overridden := true } items, ?_, ?_⟩
    · simp [Node.solutions, plainCountSolutions, hw']
    · intro t
      refine ⟨.count .result { d with overridden := true } items, ?_, rfl, ?_⟩
      · simp [Node.audit]
      · simp [Node.status, Node.rank, Node.claims, Node.waivedStatus, countStatus, Status.passing,
          Node.loaded_claimsList x items hn.2.2]
  | req st d r =>
    simp only [Node.path] at hw'
    simp only [Node.Loaded] at hn
    refine ⟨reqSolution d true r, ?_, ?_⟩
    · simp [Node.solutions, hw']
    · intro t
      refine ⟨.req .result { d with overridden := true } r, ?_, rfl, ?_⟩
      · simp [Node.audit, reqSolution]
      · simp only [Node.status, Node.rank, Node.claims, Node.waivedStatus, reqStatus, Node.loaded_claimsOpt x r hn.2.2,
          Bool.true_and, if_true, ite_self, and_true, true_and]
        cases d.isAudited || d.isContract <;> decide
  | prof st d c =>
    simp only [Node.path] at hw'
    simp only [Node.Loaded] at hn
    refine ⟨.prof .solution { d with overridden := true, status := .empty } c, ?_, ?_⟩
    · simp [Node.solutions, profSolutions, hw']
    · intro t
      refine ⟨.prof .result { d with status := .waived, overridden := true } c, ?_, rfl, ?_⟩
      · simp [Node.audit, profAudit]
      · refine ⟨?_, ?_, ?_, ?_⟩
        · simp [Node.status, Node.waivedStatus, profStatus]
        · simp [Node.status, profStatus, Status.passing]
        · simp [Node.rank, profStatus, statusRank]
        · simp only [Node.claims, profClaims]
          split
          · rename_i s' d' _ _
            have := (hn.2.2 _ rfl).1
            simp only at this
            rw [this]
            rfl
          · rfl

/-- The same for the topmost rule of an area, whose independent children would
otherwise be solved first. -/
theorem C38_waived_top_partial (x : Ctx) (o : Orders) (es : List Exc) (hx : x.exceptions = groupExceptions es)
    (n : Node) (hc : n.isCond = false)
    (hw : ∃ e ∈ es, e.path = n.path ∧ e.kind = .override) (t0 : ClaimTable) :
    n.topSolutions x o t0 = (n.solutions x o, t0) := by
  have hw' : (getWaiveException x.exceptions n.path).isSome = true := by
    rw [hx]; exact (getWaive_isSome es _).2 hw
  cases n with
  | cond => cases hc
  | count st d items =>
    simp only [Node.path] at hw'
    simp [Node.topSolutions, topCountSolutions, Node.solutions, plainCountSolutions, hw']
  | course => simp [Node.topSolutions]
  | query => simp [Node.topSolutions]
  | req => simp [Node.topSolutions]
  | prof => simp [Node.topSolutions]

/-- **C38**, the other direction: a rule without an override exception at its own path
is never marked as overridden by the audit of any of its solutions (a course rule that
the specification waives automatically excepted), whatever overrides there are elsewhere. -/
theorem C38_waivers_do_not_spread (x : Ctx) (o : Orders) (ho : o.Lawful) (es : List Exc)
    (hx : x.exceptions = groupExceptions es)
    (n : Node) (hn : n.Loaded x) (hauto : ∀ s d, n = .course s d → d.autoWaived = false)
    (hw : ∀ e ∈ es, e.path = n.path → e.kind ≠ .override)
    (s : Node) (hs : s ∈ (n.solutions x o).items) (r : Node) (t t' : ClaimTable)
    (ha : s.audit x o t = .ok (r, t')) : r.overridden = false := by
  have hw' : (getWaiveException x.exceptions n.path).isSome = false := by
    by_contra h
    obtain ⟨e, he, hp, hk⟩ := (getWaive_isSome es n.path).1 (by rw [← hx]; exact Bool.not_eq_false _ |>.mp h)
    exact hw e he hp hk
  cases n with
  | course st d =>
    simp only [Node.path] at hw'
    simp only [Node.solutions] at hs
    obtain ⟨sd, hsd, rfl⟩ := Gen.mem_map.1 hs
    simp only [Node.audit] at ha
    split at ha
    · cases ha
    rename_i rd t2 hca
    obtain ⟨rfl, rfl⟩ := Prod.mk.inj (Except.ok.inj ha)
    have hso : sd.overridden = false := by
      rcases courseSolutions_cases hsd with ⟨rfl, h⟩ | ⟨e, he, k, f, c'', hk, hfc, hex, rfl⟩ |
        ⟨c'', hfind, hacc, rfl⟩ | rfl
      · rw [hauto st d rfl, hw'] at h
        simp at h
      all_goals rfl
    rcases courseAudit_claim hca with ⟨_, _, h, _⟩ | ⟨_, _, _, h, _⟩
    · simpa [Node.overridden, hso] using h
    · exact h
  | query st d =>
    simp only [Node.path] at hw'
    simp only [Node.Loaded, QueryData.Loaded] at hn
    have hov : d.overridden = false := by rw [hn.2.2.2.2.2.2]; exact hw'
    simp only [Node.solutions] at hs
    obtain ⟨sd, hsd, rfl⟩ := Gen.mem_map.1 hs
    have hso : sd.overridden = false := by
      rcases querySolutions_cases ho hsd with ⟨h, rfl⟩ | ⟨_, f, _, out, rfl, _⟩
      · rw [hov] at h; cases h
      · exact hov
    simp only [Node.audit] at ha
    split at ha
    · cases ha
    rename_i rd t2 hqa
    obtain ⟨rfl, rfl⟩ := Prod.mk.inj (Except.ok.inj ha)
    simp only [Node.overridden]
    unfold queryAudit at hqa
    simp only [hso, Bool.false_eq_true, if_false] at hqa
    split at hqa
    · cases hqa
    · split at hqa
      · cases hqa
      · obtain ⟨rfl, rfl⟩ := Prod.mk.inj (Except.ok.inj hqa)
        rfl
  | count st d items =>
    simp only [Node.path] at hw'
    simp only [Node.solutions, plainCountSolutions, hw', Bool.false_eq_true, if_false] at hs
    split at hs
    · simp [Gen.raise] at hs
    · split at hs
      · simp [Gen.raise] at hs
      · obtain ⟨l, rfl, hl⟩ := countSolutions_items hs
        rcases Node.audit_count ha with ⟨h, _⟩ | ⟨_, rs, as, _, _, rfl⟩
        · cases h
        · rfl
  | req st d c =>
    simp only [Node.path] at hw'
    simp only [Node.solutions, hw', Bool.false_eq_true, if_false] at hs
    split at hs
    · simp only [Gen.one, List.mem_singleton] at hs
      subst hs
      simp only [reqSolution, Node.audit, Bool.false_eq_true, if_false, Node.auditOpt] at ha
      obtain ⟨rfl, rfl⟩ := Prod.mk.inj (Except.ok.inj ha)
      rfl
    · obtain ⟨s', hs', rfl⟩ := Gen.mem_map.1 hs
      simp only [reqSolution, Node.audit, Bool.false_eq_true, if_false] at ha
      split at ha
      · cases ha
      · obtain ⟨rfl, rfl⟩ := Prod.mk.inj (Except.ok.inj ha)
        rfl
  | cond st d th f =>
    simp only [Node.path] at hw'
    simp only [Node.Loaded] at hn
    have hov : d.overridden = false := by rw [hn.2.1]; exact hw'
    simp only [Node.solutions] at hs
    split at hs
    · rename_i hcd
      obtain ⟨s', hs', rfl⟩ := Gen.mem_map.1 hs
      simp only [Node.audit, hcd] at ha
      split at ha
      · cases ha
      · obtain ⟨rfl, rfl⟩ := Prod.mk.inj (Except.ok.inj ha)
        exact hov
    · rename_i hcd
      split at hs
      · obtain ⟨s', hs', rfl⟩ := Gen.mem_map.1 hs
        simp only [Node.audit, hcd] at ha
        split at ha
        · cases ha
        · obtain ⟨rfl, rfl⟩ := Prod.mk.inj (Except.ok.inj ha)
          exact hov
      · simp [Gen.nil] at hs
    · simp [Gen.nil] at hs
  | prof st d c =>
    simp only [Node.path] at hw'
    simp only [Node.solutions, profSolutions, hw', Bool.false_eq_true, if_false] at hs
    split at hs
    · simp only [Gen.one, List.mem_singleton] at hs
      subst hs
      simp only [Node.audit, profAudit, Bool.false_eq_true, if_false] at ha
      split at ha
      · cases ha
      · obtain ⟨rfl, rfl⟩ := Prod.mk.inj (Except.ok.inj ha)
        rfl
    · split at hs
      · simp only [Gen.one, List.mem_singleton] at hs
        subst hs
        simp only [Node.audit, profAudit, Bool.false_eq_true, if_false] at ha
        split at ha
        · cases ha
        · split at ha
          · cases ha
          · obtain ⟨rfl, rfl⟩ := Prod.mk.inj (Except.ok.inj ha)
            rfl
      · simp [Gen.raise] at hs

/-- Non-trivial case for C38: an override at a count of two courses, of which the
student has none. -/
example :
    let c (i : String) : Node := .course .rule { path := ["$", ".count", i, "*CSCI 121"], course := some "CSCI 121" }
    let n : Node := .count .rule { path := ["$", ".count"], count := 2 } [c "[0]", c "[1]"]
    let es : List Exc := [⟨["$", ".count"], .override⟩]
    let x : Ctx := { exceptions := groupExceptions es }
    n.Loaded x ∧ n.isCond = false ∧ (∃ e ∈ es, e.path = n.path ∧ e.kind = .override) ∧
      (({ exceptions := [] } : Ctx).exceptions = groupExceptions [] ∧
        (n.solutions { exceptions := [] } .insertion).items.map (·.status) = [.empty]) := by
  refine ⟨⟨rfl, rfl, ⟨rfl, rfl, rfl, rfl, rfl⟩, ⟨rfl, rfl, rfl, rfl, rfl⟩, trivial⟩, rfl,
    ⟨_, List.mem_cons_self, rfl, rfl⟩, rfl, by decide +kernel⟩

/-- A conditional with an override exception at its path is reported as its branch is. -/
theorem C38_conditional_refuted : ∃ (x : Ctx) (es : List Exc) (n : Node), x.exceptions = groupExceptions es ∧
    n.Loaded x ∧ (∃ e ∈ es, e.path = n.path ∧ e.kind = .override) ∧
    ∃ s ∈ (n.solutions x .insertion).items, ∃ r t', s.audit x .insertion [] = .ok (r, t') ∧
      r.status = .empty ∧ r.status.passing = false := by
  let es : List Exc := [⟨["$", ".cond"], .override⟩]
  refine ⟨{ exceptions := groupExceptions es }, es,
    .cond .rule { path := ["$", ".cond"], condition := some true, overridden := true }
      (.course .rule { path := ["$", ".cond", "/t", "*CSCI 121"], course := some "CSCI 121" }) none,
    rfl, ⟨rfl, by decide, ⟨rfl, rfl, rfl, rfl, rfl⟩, trivial⟩, ⟨_, List.mem_cons_self, rfl, rfl⟩,
    _, List.mem_cons_self, _, _, rfl, by decide +kernel, by decide +kernel⟩

end Dp
