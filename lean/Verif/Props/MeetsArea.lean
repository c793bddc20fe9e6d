import Verif.Props.Meets
import Verif.Props.Provenance
import Verif.Props.LoadRun

/-
C52 for whole areas as loaded from their text.
-/
namespace Dp

/-! ### What holds of every loaded leaf holds after the preparation of the rule -/

/-- `P` does not depend on which classes a rule excludes -/
structure IgnoresExcluded (P : Node → Prop) : Prop where
  course : ∀ s d ks, P (.course s d) → P (.course s { d with excluded := ks })
  query : ∀ s d ks, P (.query s d) → P (.query s { d with excluded := ks })

mutual
theorem Node.exclude_leavesP {P : Node → Prop} (hP : IgnoresExcluded P) (ks : List String) : ∀ n : Node,
    (∀ l ∈ n.leaves, P l) → ∀ l ∈ (n.exclude ks).leaves, P l
  | .course s d, h => h
  | .query s d, h => by
    intro l hl
    simp only [Node.exclude, Node.leaves, List.mem_singleton] at hl
    subst hl
    exact hP.query _ _ _ (h _ (by simp [Node.leaves]))
  | .count s d items, h => by simp only [Node.exclude, Node.leaves] at h ⊢; exact Node.exclude_leavesPList hP ks items h
  | .req s d r, h => by simp only [Node.exclude, Node.leaves] at h ⊢; exact Node.exclude_leavesPOpt hP ks r h
  | .cond s d t f, h => by
    simp only [Node.exclude, Node.leaves, List.mem_append] at h ⊢
    rintro l (hl | hl)
    · exact Node.exclude_leavesP hP ks t (fun l hl => h l (Or.inl hl)) l hl
    · exact Node.exclude_leavesPOpt hP ks f (fun l hl => h l (Or.inr hl)) l hl
  | .prof s d c, h => h
theorem Node.exclude_leavesPList {P : Node → Prop} (hP : IgnoresExcluded P) (ks : List String) : ∀ ns : List Node,
    (∀ l ∈ Node.leavesList ns, P l) → ∀ l ∈ Node.leavesList (Node.excludeList ks ns), P l
  | [], h => h
  | n :: ns, h => by
    simp only [Node.excludeList, Node.leavesList, List.mem_append] at h ⊢
    rintro l (hl | hl)
    · exact Node.exclude_leavesP hP ks n (fun l hl => h l (Or.inl hl)) l hl
    · exact Node.exclude_leavesPList hP ks ns (fun l hl => h l (Or.inr hl)) l hl
theorem Node.exclude_leavesPOpt {P : Node → Prop} (hP : IgnoresExcluded P) (ks : List String) : ∀ n : Option Node,
    (∀ l ∈ Node.leavesOpt n, P l) → ∀ l ∈ Node.leavesOpt (Node.excludeOpt ks n), P l
  | none, h => h
  | some n, h => by
    simp only [Node.excludeOpt, Node.leavesOpt] at h ⊢
    exact Node.exclude_leavesP hP ks n h
end

mutual
theorem Node.applyBlock_leavesP {P : Node → Prop} (hP : IgnoresExcluded P) (p : Path) (k : String) : ∀ n : Node,
    (∀ l ∈ n.leaves, P l) → ∀ l ∈ (n.applyBlock p k).leaves, P l
  | .course s d, h => by
    intro l hl
    simp only [Node.applyBlock, Node.leaves, List.mem_singleton] at hl h
    subst hl
    have := h _ rfl
    split
    · exact hP.course _ _ _ this
    · exact this
  | .query s d, h => by
    intro l hl
    simp only [Node.applyBlock, Node.leaves, List.mem_singleton] at hl h
    subst hl
    have := h _ rfl
    split
    · exact hP.query _ _ _ this
    · exact this
  | .count s d items, h => by
    simp only [Node.applyBlock, Node.leaves] at h ⊢; exact Node.applyBlock_leavesPList hP p k items h
  | .req s d r, h => by simp only [Node.applyBlock, Node.leaves] at h ⊢; exact Node.applyBlock_leavesPOpt hP p k r h
  | .cond s d t f, h => by
    simp only [Node.applyBlock, Node.leaves, List.mem_append] at h ⊢
    rintro l (hl | hl)
    · exact Node.applyBlock_leavesP hP p k t (fun l hl => h l (Or.inl hl)) l hl
    · exact Node.applyBlock_leavesPOpt hP p k f (fun l hl => h l (Or.inr hl)) l hl
  | .prof s d c, h => h
theorem Node.applyBlock_leavesPList {P : Node → Prop} (hP : IgnoresExcluded P) (p : Path) (k : String) : ∀ ns : List Node,
    (∀ l ∈ Node.leavesList ns, P l) → ∀ l ∈ Node.leavesList (Node.applyBlockList p k ns), P l
  | [], h => h
  | n :: ns, h => by
    simp only [Node.applyBlockList, Node.leavesList, List.mem_append] at h ⊢
    rintro l (hl | hl)
    · exact Node.applyBlock_leavesP hP p k n (fun l hl => h l (Or.inl hl)) l hl
    · exact Node.applyBlock_leavesPList hP p k ns (fun l hl => h l (Or.inr hl)) l hl
theorem Node.applyBlock_leavesPOpt {P : Node → Prop} (hP : IgnoresExcluded P) (p : Path) (k : String) : ∀ n : Option Node,
    (∀ l ∈ Node.leavesOpt n, P l) → ∀ l ∈ Node.leavesOpt (Node.applyBlockOpt p k n), P l
  | none, h => h
  | some n, h => by
    simp only [Node.applyBlockOpt, Node.leavesOpt] at h ⊢
    exact Node.applyBlock_leavesP hP p k n h
end

theorem applyBlocks_leavesP {P : Node → Prop} (hP : IgnoresExcluded P) (es : List Exc) (n : Node) (h : ∀ l ∈ n.leaves, P l) :
    ∀ l ∈ (applyBlocks es n).leaves, P l := by
  induction es generalizing n with
  | nil => exact h
  | cons e es ih =>
    rw [applyBlocks_cons]
    apply ih
    split
    · exact Node.applyBlock_leavesP hP _ _ n h
    · exact h

theorem prepareRule_leavesP {P : Node → Prop} (hP : IgnoresExcluded P) (x : Ctx) (es : List Exc) (n : Node)
    (h : ∀ l ∈ n.leaves, P l) : ∀ l ∈ (prepareRule x es n).leaves, P l :=
  applyBlocks_leavesP hP es _ (Node.exclude_leavesP hP _ n h)

/-- What holds of every course rule and every query rule that can be loaded holds of the course and query rules in a
loaded rule. -/
theorem Built.leavesP {P : Node → Prop} {env : Env} (hc : ∀ d p r, loadCourseRule d p = .ok r → P (.course .rule r))
    (hq : ∀ d p q, loadQuery env d p = .ok q → P (.query .rule q)) {kids : Dict} {ems : List Dict} {p : Path} {y : Y}
    {o : Option Node} (h : Built env kids ems p y o) : ∀ n, o = some n → ∀ l ∈ n.leaves, P l := by
  induction h with
  | prof hk h =>
    intro n hn
    cases hn
    obtain ⟨name, c, _, _, rfl, hpc⟩ := loadProficiency_inv h
    intro l hl
    simp only [Node.leaves] at hl
    cases c with
    | none => simp at hl
    | some q =>
      obtain ⟨h1, cd, _, h2⟩ := hpc q rfl
      simp only [Option.toList_some, List.map_cons, List.map_nil, List.mem_singleton] at hl
      subst hl
      rw [show q.1 = .rule from h1]
      exact hc _ _ _ h2
  | course hk h =>
    intro n hn
    cases hn
    intro l hl
    simp only [Node.leaves, List.mem_singleton] at hl
    subst hl
    exact hc _ _ _ h
  | query hk h =>
    intro n hn
    cases hn
    intro l hl
    simp only [Node.leaves, List.mem_singleton] at hl
    subst hl
    exact hq _ _ _ h
  | @cond _ _ p d _ _ _ t f _ hk _ _ _ hyt hbt hbf hno _ iht ihf =>
    intro n hn
    split at hn
    · cases hn
    · cases hn
      have h2 := iht t rfl
      have h3 : ∀ l ∈ Node.leavesOpt f, P l := by
        cases hf : f with
        | none => simp [Node.leavesOpt]
        | some f' =>
          cases ho : Dict.opt d "$else" with
          | none => rw [hno ho] at hf; cases hf
          | some yf => exact ihf yf ho f' hf
      simp only [Node.leaves, List.mem_append]
      rintro l (hl | hl)
      · exact h2 l hl
      · exact h3 l hl
  | @count _ ems p d kids' listed expanded emItems inserts audits _ _ parts hk _ hlist hexp hem hins haud _ hparts hb _ _ _ ih =>
    intro n hn
    cases hn
    simp only [Node.leaves]
    refine Node.leavesList_filterMap (fun t ht n hn => ?_)
    obtain ⟨i, hi⟩ := List.mem_iff_getElem?.1 ht
    obtain ⟨y, o⟩ := t
    exact ih i y o hi n hn
  | @req kids _ p d name body rd r hn _ hnone _ hb hex hpath hname hov _ _ _ _ _ _ ih =>
    intro n hn'
    cases hn'
    simp only [Node.leaves]
    cases hr : r with
    | none => simp [Node.leavesOpt]
    | some r' =>
      cases ho : Dict.opt body "result" with
      | none => rw [hnone ho] at hr; cases hr
      | some yr =>
        obtain ⟨own, hown, _⟩ := hex yr ho
        exact ih yr own ho hown r' hr

/-- What holds of every course and query rule that can be loaded, whatever it excludes, holds of those of a loaded area. -/
theorem loadArea_leavesP {P : Node → Prop} (hP : IgnoresExcluded P) {c : Constants} {templates : List (String × TemplateCourse)}
    {st : Student} {es : List Exc} {all : Bool} {spec : Dict} {a : Area} (h : loadArea c templates st es all spec = .ok a)
    (hc : ∀ d p r, loadCourseRule d p = .ok r → P (.course .rule r))
    (hq : ∀ d p q, loadQuery ⟨loadCtx st es, c, templates⟩ d p = .ok q → P (.query .rule q)) :
    (∀ l ∈ a.result.leaves, P l) ∧ ∀ l ∈ Node.leavesList a.commonRules, P l := by
  obtain ⟨_, _, _, _, rule, _, _, _, _, _, _, hb, hres, ⟨degree, _, hcm⟩, _⟩ := loadArea_inv h
  constructor
  · rw [hres]
    exact prepareRule_leavesP hP _ es rule (hb.leavesP hc hq rule rfl)
  · have hi := prepareCommonRules_inv hcm
    intro l hl
    obtain ⟨n, hn, hl⟩ := Node.mem_leavesList.1 hl
    obtain ⟨i, hn⟩ := List.mem_iff_getElem?.1 hn
    obtain ⟨name, spec, hlc, _⟩ := hi i n hn
    exact (loadCommon_built hlc).leavesP hc hq n rfl l hl

/-! ### Loaded queries -/

theorem loadSingle_asLoaded {x : Ctx} {c : Constants} {p : Path} {y : Y} {a : Assertion}
    (h : loadSingle x c .course p y = .ok a) : a.AsLoaded x := by
  obtain ⟨_, _, _, op, _, _, _, _, _, _, _, _, _, _, _, h1, h2, _, _, _, _, _, _, _, _, rfl⟩ := loadSingle_inv h
  refine ⟨rfl, rfl, ?_, rfl⟩
  cases op <;> simp_all [Operator.isComparison]

theorem AssertionParts.asLoaded {x : Ctx} {c : Constants} {p : Path} {y : Y} {b : AnyAssertion}
    (h : AssertionParts x c .course p y b) : b.AsLoaded x := by
  cases h with
  | single h =>
    refine ⟨fun a ha => ?_, fun _ _ _ h => by cases h⟩
    simp only [AnyAssertion.branches, List.mem_singleton] at ha
    subst ha
    exact loadSingle_asLoaded h
  | @cond _ _ b _ t f h1 h2 h3 h4 h5 h6 =>
    refine ⟨fun a ha => ?_, fun _ _ _ h => by cases h⟩
    simp only [AnyAssertion.branches, List.mem_cons, Option.mem_toList] at ha
    rcases ha with rfl | ha
    · exact loadSingle_asLoaded h4
    · obtain ⟨_, _, h⟩ := h5 _ ha
      exact loadSingle_asLoaded h
  | dyn _ h1 h2 h3 h4 =>
    refine ⟨fun a ha => ?_, fun _ _ _ h => by cases h; rfl⟩
    simp only [AnyAssertion.branches, List.mem_singleton] at ha
    subst ha
    exact loadSingle_asLoaded h4

/-- an exception waives the rule or assertion at the path -/
def WaivedAt (es : List Exc) (p : Path) : Prop := ∃ e ∈ es, e.path = p ∧ e.kind = .override

/-- an exception puts a class into the data of the assertion at the path, or takes one out -/
def TouchedAt (es : List Exc) (p : Path) : Prop := ∃ e ∈ es, e.path = p ∧ (e.isInsertion = true ∨ e.isBlock = true)

/-- the query looks at courses, all of them or those claimed by others, and its result reports the courses it found -/
structure QueryData.ReportsCourses (d : QueryData) : Prop where
  source : d.source = .courses ∨ d.source = .claimed
  reports : d.recordClaims = true ∨ (d.source = .courses ∧ d.attemptClaims = true)

/-- a query rule as it is loaded with the exceptions `es` -/
def LoadedQuery (es : List Exc) (n : Node) : Prop := ∀ s d, n = .query s d →
  (d.overridden = true ↔ WaivedAt es d.path) ∧
  (d.ReportsCourses → ∀ x : Ctx, x.exceptions = groupExceptions es → ∀ b ∈ d.assertions, b.AsLoaded x)

theorem LoadedQuery.ignores (es : List Exc) : IgnoresExcluded (LoadedQuery es) where
  course := fun s d ks _ s' d' h => by cases h
  query := fun s d ks h s' d' he => by
    cases he
    have := h s d rfl
    exact ⟨this.1, fun hr => this.2 ⟨hr.1, hr.2⟩⟩

theorem Assertion.AsLoaded.congr {x y : Ctx} (hxy : x.exceptions = y.exceptions) {a : Assertion} (h : a.AsLoaded x) :
    a.AsLoaded y := ⟨by rw [← hxy]; exact h.waived, h.state, h.comparison, h.courses⟩

theorem loadQuery_asLoaded {env : Env} {es : List Exc} (henv : env.ctx.exceptions = groupExceptions es) {d : Dict} {p : Path}
    {q : QueryData} (h : loadQuery env d p = .ok q) : LoadedQuery es (.query .rule q) := by
  obtain ⟨src, w, lim, as, allow, failed, _, _, _, _, _, has, _, _, _, _, _, hr⟩ := loadQuery_inv h
  intro s d' he
  cases he
  constructor
  · rw [hr, WaivedAt, ← getWaive_isSome, henv]
  · intro hrep x hx b hb
    have hd : q.source.dataType = .course := by
      rcases hrep.source with h | h <;> rw [h] <;> rfl
    rw [hr] at hb
    obtain ⟨i, hi⟩ := List.mem_iff_getElem?.1 hb
    obtain ⟨y, hy⟩ := loadQueryAssertions_inv has i b hi
    rw [hd] at hy
    have := hy.asLoaded
    exact ⟨fun a ha => (this.branches a ha).congr (henv.trans hx.symm), this.result⟩

theorem untouched_of {es : List Exc} {x : Ctx} (hx : x.exceptions = groupExceptions es) {a : Assertion}
    (h : ¬ TouchedAt es a.path) : a.Untouched x := by
  obtain ⟨h1, h2, _⟩ := C07_exact_path_first_wins es a.path
  rw [Assertion.Untouched, hx, h1, h2]
  constructor
  all_goals
    rw [List.filter_eq_nil_iff]
    intro e he hb
    rw [Bool.and_eq_true, beq_iff_eq] at hb
    exact h ⟨e, he, hb.2, by simp [hb.1]⟩

/-- what C52 says of one result, given the rule it is the result of -/
def MeetsWhatIsAsked (es : List Exc) (d : QueryData) (r : Node) : Prop :=
  ∀ b ∈ d.assertions, ∀ a, Asks r.courses b a → WaivedAt es a.path ∨ MetBy a r.courses

theorem resultOf_path {x : Ctx} {o : Orders} (ho : o.Lawful) {d : QueryData} {r : Node} (h : ResultOf x o (.query .rule d) r) :
    r.path = d.path := by
  obtain ⟨s, hs, t, t', ha⟩ := h
  rw [Node.audit_path ha]
  exact Node.solutions_path ho hs

theorem resultOf_query {x : Ctx} {o : Orders} {leaf : Node} {q : QueryData} (hk : ∃ n : Node, leaf ∈ n.leaves)
    (h : ResultOf x o leaf (.query .result q)) : ∃ s d, leaf = .query s d := by
  obtain ⟨n, hn⟩ := hk
  rcases Node.leaves_kind n leaf hn with ⟨s, d, rfl⟩ | h'
  · obtain ⟨s, hs, t, t', ha⟩ := h
    simp only [Node.solutions] at hs
    obtain ⟨sd, _, rfl⟩ := Gen.mem_map.1 hs
    simp only [Node.audit] at ha
    split at ha
    · cases ha
    · cases ha
  · exact h'

/-- Every query result in an area's result is the result of a query rule of the area. -/
theorem area_query_results {o : Orders} (ho : o.Lawful) {c : Constants} {templates : List (String × TemplateCourse)}
    {st : Student} {es : List Exc} {all : Bool} {spec : Dict} {a : Area} (hload : loadArea c templates st es all spec = .ok a)
    {s : AreaSolution} (hs : s ∈ (a.solutions o st es).items) {r : AreaResult} (ha : s.audit o a = .ok r)
    {q : QueryData} (hq : .query .result q ∈ r.result.leaves) :
    ∃ d, .query .rule d ∈ a.result.leaves ++ Node.leavesList a.commonRules ∧ d.path = q.path ∧
      (d.overridden = true ↔ WaivedAt es d.path) ∧
      ∃ x : Ctx, x.exceptions = groupExceptions es ∧ (d.ReportsCourses → ∀ b ∈ d.assertions, b.AsLoaded x) ∧
        ResultOf x o (.query .rule d) (.query .result q) := by
  have hl := (loadArea_loaded hload).1
  have hcl := (loadArea_common hload).1
  obtain ⟨hP, hPc⟩ := loadArea_leavesP (LoadedQuery.ignores es) hload (fun d p r _ s d' h => by cases h)
    (fun d p q h => loadQuery_asLoaded (es := es) rfl h)
  obtain ⟨tr, _, _, h⟩ := area_results ho hl hcl hs ha (Node.mem_leafResults.2 ⟨hq, rfl⟩)
  rcases h with ⟨leaf, hleaf, h⟩ | ⟨_, leaf, hleaf, x, hx, h⟩
  · obtain ⟨sg, d, rfl⟩ := resultOf_query ⟨_, hleaf⟩ h
    have hst := Node.loaded_leaves _ _ hl _ hleaf
    simp only [Node.stage] at hst
    subst hst
    have := hP _ hleaf _ _ rfl
    exact ⟨d, List.mem_append_left _ hleaf, (resultOf_path ho h).symm, this.1, _, rfl, fun hr => this.2 hr _ rfl, h⟩
  · obtain ⟨n, _, hn⟩ := Node.mem_leavesList.1 hleaf
    obtain ⟨sg, d, rfl⟩ := resultOf_query ⟨n, hn⟩ h
    have hst := Node.loaded_leavesList _ _ hcl _ hleaf
    simp only [Node.stage] at hst
    subst hst
    have := hPc _ hleaf _ _ rfl
    exact ⟨d, List.mem_append_right _ hleaf, (resultOf_path ho h).symm, this.1, x, hx.exceptions,
      fun hr => this.2 hr _ hx.exceptions, h⟩

/-! ### C52 -/

/-- C52 for loaded areas: every query result that passes in the result of an area, as loaded from any text, belongs to a
query rule of the area.  If that rule looks at courses and reports them, is not waived, and no exception adds to or takes
from the data of its assertions, then every assertion it makes is waived or holds of the courses reported. -/
theorem C52_loaded_area (c : Constants) (templates : List (String × TemplateCourse)) (st : Student) (es : List Exc)
    (all : Bool) (spec : Dict) (a : Area) (hload : loadArea c templates st es all spec = .ok a)
    (o : Orders) (ho : o.Lawful)
    (s : AreaSolution) (hs : s ∈ (a.solutions o st es).items) (r : AreaResult) (ha : s.audit o a = .ok r)
    (q : QueryData) (hq : .query .result q ∈ r.result.leaves) (hp : Passes (Node.query .result q).status) :
    ∃ d, .query .rule d ∈ a.result.leaves ++ Node.leavesList a.commonRules ∧ d.path = q.path ∧
      (d.ReportsCourses → d.RealConditions → ¬ WaivedAt es d.path →
        (∀ b ∈ d.assertions, ∀ a ∈ b.branches, ¬ TouchedAt es a.path) →
        ∀ b ∈ d.assertions, ∀ a, Asks (Node.query .result q).courses b a →
          WaivedAt es a.path ∨ MetBy a (Node.query .result q).courses) := by
  obtain ⟨d, hd, hpath, hov, x, hx, hrep, sol, hsol, t, t', haud⟩ := area_query_results ho hload hs ha hq
  refine ⟨d, hd, hpath, fun h1 h2 h3 h4 b hb a hask => ?_⟩
  have hcc : d.CountsCourses x := ⟨h1.source, h1.reports, hrep h1, fun b hb a ha => untouched_of hx (h4 b hb a ha)⟩
  have hw : d.overridden = false := by
    rw [← Bool.not_eq_true, hov]; exact h3
  refine (C52_passing_query_meets_its_assertions x o ho d hcc h2 hw sol _ t t' hsol haud hp b hb a hask).imp_left fun h => ?_
  rw [((hrep h1 b hb).branches a hask.branch).waived, hx, getWaive_isSome] at h
  exact h

/-- C52 for loaded areas, the other direction and completeness.  Partial: the three cases excluded from
`C52_met_query_passes_partial`. -/
theorem C52_loaded_area_met_partial (c : Constants) (templates : List (String × TemplateCourse)) (st : Student) (es : List Exc)
    (all : Bool) (spec : Dict) (a : Area) (hload : loadArea c templates st es all spec = .ok a)
    (o : Orders) (ho : o.Lawful)
    (s : AreaSolution) (hs : s ∈ (a.solutions o st es).items) (r : AreaResult) (ha : s.audit o a = .ok r)
    (q : QueryData) (hq : .query .result q ∈ r.result.leaves) :
    ∃ d, .query .rule d ∈ a.result.leaves ++ Node.leavesList a.commonRules ∧ d.path = q.path ∧
      (d.ReportsCourses → ¬ WaivedAt es d.path →
        (∀ b ∈ d.assertions, ∀ a ∈ b.branches, ¬ TouchedAt es a.path ∧ a.key ∉ mostCommonKeys) →
        ((Node.query .result q).courses ≠ [] ∨ nonPrimaryLt d.assertions = false) →
        (∀ b ∈ d.assertions, b.AsksSomething) →
        (Passes (Node.query .result q).status ↔ ∀ b ∈ d.assertions, ∀ a, Asks (Node.query .result q).courses b a →
          WaivedAt es a.path ∨ MetBy a (Node.query .result q).courses) ∧
        ((∀ c ∈ (Node.query .result q).courses, 0 ≤ c.credits) →
          (Complete (Node.query .result q).status ↔ ∀ b ∈ d.assertions, ∀ a, Asks (Node.query .result q).courses b a →
            WaivedAt es a.path ∨ (MetBy a (Node.query .result q).courses ∧
              (a.treatInProgressAsPass = true ∨ MetBy a (Completed (Node.query .result q).courses)))))) := by
  obtain ⟨d, hd, hpath, hov, x, hx, hrep, sol, hsol, t, t', haud⟩ := area_query_results ho hload hs ha hq
  refine ⟨d, hd, hpath, fun h1 h3 h4 h5 h6 => ?_⟩
  have hcc : d.CountsCourses x := ⟨h1.source, h1.reports, hrep h1, fun b hb a ha => untouched_of hx (h4 b hb a ha).1⟩
  have hw : d.overridden = false := by
    rw [← Bool.not_eq_true, hov]; exact h3
  have hwa : ∀ b ∈ d.assertions, ∀ a, Asks (Node.query .result q).courses b a → (a.overridden = true ↔ WaivedAt es a.path) := by
    intro b hb a hask
    rw [((hrep h1 b hb).branches a hask.branch).waived, hx, getWaive_isSome]
    rfl
  obtain ⟨k1, k2⟩ := C52_met_query_passes_partial x o ho d hcc hw sol _ t t' hsol haud (fun b hb a ha => (h4 b hb a ha).2) h5 h6
  refine ⟨k1.trans ?_, fun hn => (k2 hn).trans ?_⟩
  · exact forall₂_congr fun b hb => forall₂_congr fun a hask => or_congr_left (hwa b hb a hask)
  · exact forall₂_congr fun b hb => forall₂_congr fun a hask => or_congr_left (hwa b hb a hask)

/-- path, status and reported classes of the query results in the audited solutions of an area, if it can be loaded -/
def auditedQueries (st : Student) (es : List Exc) (spec : Dict) : Option (List (List (Path × Status × List String))) :=
  match loadArea {} [] st es false spec with
  | .ok a => some ((a.solutions .insertion st es).items.map (fun s => match s.audit .insertion a with
      | .ok r => (r.result.leafResults.filter (fun q => match q with | .query _ _ => true | _ => false)).map
          (fun q => (q.path, q.status, q.courses.map (·.clbid)))
      | .error _ => []))
  | .error _ => none

/-- Non-trivial case: the first query result of each solution of the sample area, from its text.  Two courses are asked
for; the two solutions with one course fail, the others pass. -/
example : (auditedQueries sampleTaken [] sampleText).map (·.map (·.head?)) = some
    (let electives : Path := ["$", ".count", "[1]", "%Electives", ".query"]
     [some (electives, .needsMoreItems, ["3"]), some (electives, .needsMoreItems, ["4"]),
      some (electives, .done, ["3", "4"]), some (electives, .done, ["3", "4"])]) := by
  decide +kernel

end Dp
