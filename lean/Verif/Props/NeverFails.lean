import Verif.Props.SafeTree
import Verif.Props.PrintTotal
import Verif.Props.Common
import Verif.Props.FoundArea

/-
C87: an audit whose filters have answers, and whose exceptions name classes that are there, does not end in an exception.
-/
namespace Dp

/-! ### Specification -/

/-- the records of a kind that a student has -/
def Student.Has (st : Student) : DataType → Item → Prop
  | .course, .course c => c ∈ st.courses ∨ c ∈ st.coursesWithFailed
  | .area, .area a => a ∈ st.areas
  | .musicPerformance, .performance m => m ∈ st.performances
  | .recital, .attendance m => m ∈ st.recitals
  | _, _ => False

/-- the filter has an answer for every record of the kind -/
def Pred.AnswersFor (st : Student) (t : DataType) (p : Pred) : Prop :=
  ∀ i, st.Has t i → ∃ b, p.apply i.applyLeaf = .ok b

/-- The class is one of the student's; if the area limits the classes that may count, it has to be forced in. -/
def CanBeInserted (a : Area) (st : Student) (es : List Exc) (k : String) : Prop :=
  (∃ c ∈ st.courses, c.clbid = k) ∧ (a.limit = [] ∨ ∃ e ∈ es, e.kind = .insertion k true)

/-- the classes inserted at a path can be inserted -/
def InsertsClear (a : Area) (st : Student) (es : List Exc) (p : Path) : Prop :=
  ∀ e ∈ es, e.path = p → ∀ k f, e.kind = .insertion k f → CanBeInserted a st es k

/-- An assertion about records of a kind: its filter has answers, it does not count seminars (of which there are none), and the
classes that are inserted into or blocked from what it counts are there.  (Only classes can be.) -/
structure Assertion.Clear (a : Area) (st : Student) (es : List Exc) (t : DataType) (b : Assertion) : Prop where
  answers : ∀ p, b.where' = some p → p.AnswersFor st t
  seminars : b.key ≠ "count(seminars)"
  inserts : InsertsClear a st es b.path
  courses : t = .course ∨ ∀ e ∈ es, e.path = b.path → e.isInsertion = false
  blocks : ∀ e ∈ es, e.path = b.path → ∀ k, e.kind = .block k → CanBeInserted a st es k

/-- There is no way to satisfy the rule at all: it is, or leads to, a conditional whose condition is false and that has no
else-branch. -/
inductive Stuck (es : List Exc) : Node → Prop
  | noElse {s d t} : d.condition = some false → Stuck es (.cond s d t none)
  | thenBranch {s d t f} : d.condition = some true → Stuck es t → Stuck es (.cond s d t f)
  | elseBranch {s d t f} : d.condition = some false → Stuck es f → Stuck es (.cond s d t (some f))
  | requirement {s d r} : ¬ WaivedAt es d.path → Stuck es r → Stuck es (.req s d (some r))

/-- One rule of an area, not looking at the rules inside it, that makes sense for the student. -/
def ClearAt (a : Area) (st : Student) (es : List Exc) : Node → Prop
  | .course _ d => InsertsClear a st es d.path
  | .query _ d => InsertsClear a st es d.path ∧
      (∀ p, d.where' = some p → p.AnswersFor st d.source.dataType) ∧
      (∀ l ∈ d.limit, 0 ≤ l.atMost ∧ l.where'.AnswersFor st .course) ∧
      (∀ b ∈ d.assertions, ∀ n ∈ b.branches, n.Clear a st es d.source.dataType ∧
        (d.source = .courses → n.key ∈ ["count(courses)", "count(terms)"] → ∃ k : Nat, n.expected = k))
  | .count _ d items => (∀ b ∈ d.audits, ∀ n ∈ b.branches, n.Clear a st es .course) ∧
      (d.count = 1 → d.atMost = true → items ≠ [])
  | .req s d r => (∃ e ∈ es, d.path <+: e.path) → ¬ Stuck es (.req s d r)
  | .cond _ _ _ _ => True
  | .prof _ d _ => d.proficiency ∈ ["Keyboard Level I", "Keyboard Level II", "Keyboard Level III", "Keyboard Level IV", "Guitar"]

/-- some rule counts the courses claimed so far -/
def LooksAtClaims (a : Area) : Prop := ∃ s d, Node.query s d ∈ a.result.within ∧ d.source = .claimed

/-- An area that makes sense for a student. -/
structure ClearAudit (a : Area) (st : Student) (es : List Exc) : Prop where
  /-- each rule does -/
  rules : ∀ m ∈ a.result.within, ClearAt a st es m
  /-- the limits of the area do -/
  limits : ∀ l ∈ a.limit, 0 ≤ l.atMost ∧ l.where'.AnswersFor st .course
  /-- a course in progress says when -/
  dated : ∀ c, c ∈ st.courses ∨ c ∈ st.coursesWithFailed → c.Dated
  /-- what is claimed can be looked up, if somebody does -/
  claimed : LooksAtClaims a → a.limit = [] ∧ ∀ s d, Node.query s d ∈ a.result.within → d.source = .courses →
    d.attemptClaims = true → d.includeFailed = false
  /-- a major is a count, no exception is for its common requirements, and the codes of departments are plain -/
  major : a.kind = "major" → (∃ s d items, a.result = .count s d items) ∧ (∀ e ∈ es, ¬ commonPath <+: e.path) ∧
    ∀ p ∈ st.areas, ∀ d, p.dept = some d → d.toList.head? ≠ some '$'

/-! ### What loading guarantees of assertions -/

/-- it counts something that records of the kind have, and its condition is decided -/
structure AnyAssertion.Known (t : DataType) (b : AnyAssertion) : Prop where
  keys : ∀ a ∈ b.branches, a.key ∈ actionKeys t
  decided : ∀ t' f, b ≠ .cond none t' f
  dynamic : ∀ c r t', b = .dyn c r t' → t = .course

/-- for the assertions of a rule -/
def KnownAt : Node → Prop
  | .query _ d => ∀ b ∈ d.assertions, b.Known d.source.dataType
  | .count _ d _ => ∀ b ∈ d.audits, b.Known .course
  | _ => True

theorem loadSingle_key {x : Ctx} {c : Constants} {t : DataType} {p : Path} {y : Y} {a : Assertion}
    (h : loadSingle x c t p y = .ok a) : a.key ∈ actionKeys t := by
  obtain ⟨_, _, _, _, _, _, _, _, _, _, _, _, _, hk, _, _, _, _, _, _, _, _, _, _, _, rfl⟩ := loadSingle_inv h
  exact hk

theorem AssertionParts.known {x : Ctx} {c : Constants} {t : DataType} {p : Path} {y : Y} {b : AnyAssertion}
    (h : AssertionParts x c t p y b) : b.Known t := by
  cases h with
  | single h =>
    refine ⟨fun a ha => ?_, (fun _ _ h => by cases h), (fun _ _ _ h => by cases h)⟩
    simp only [AnyAssertion.branches, List.mem_singleton] at ha
    exact ha ▸ loadSingle_key h
  | cond h1 h2 h3 h4 h5 h6 =>
    refine ⟨fun a ha => ?_, (fun _ _ h => by cases h), (fun _ _ _ h => by cases h)⟩
    simp only [AnyAssertion.branches, List.mem_cons, Option.mem_toList] at ha
    rcases ha with rfl | ha
    · exact loadSingle_key h4
    · obtain ⟨_, _, h⟩ := h5 _ ha
      exact loadSingle_key h
  | dyn h0 h1 h2 h3 h4 =>
    refine ⟨fun a ha => ?_, (fun _ _ h => by cases h), (fun _ _ _ _ => h0)⟩
    simp only [AnyAssertion.branches, List.mem_singleton] at ha
    exact ha ▸ loadSingle_key h4

theorem readFrom_known {env : Env} {d : Dict} {m : Node} (h : ReadFrom env d m) : KnownAt m := by
  cases m with
  | query s q =>
    obtain ⟨p, h⟩ := h
    obtain ⟨src, w, lim, as, allow, failed, _, _, hw, hlim, _, has, _, _, _, _, _, hq⟩ := loadQuery_inv h
    intro b hb
    rw [hq] at hb
    obtain ⟨i, hi⟩ := List.mem_iff_getElem?.1 hb
    obtain ⟨y, hy⟩ := loadQueryAssertions_inv has i b hi
    exact hy.known
  | count s c items =>
    intro b hb
    obtain ⟨i, hi⟩ := List.mem_iff_getElem?.1 hb
    obtain ⟨y, hy⟩ := loadAudits_inv h.1 i b hi
    exact hy.known
  | _ => exact trivial

mutual
theorem Node.prep_known (ks : List String) (es : List Exc) : ∀ n : Node, (∀ m ∈ n.within, KnownAt m) →
    ∀ m ∈ (prep ks es n).within, KnownAt m
  | .course s d, h => by
    obtain ⟨l, he, _⟩ := applyBlocks_course es s d
    unfold prep
    rw [Node.exclude, he]
    intro m hm
    rw [Node.within, List.mem_singleton] at hm
    subst hm
    exact trivial
  | .query s d, h => by
    obtain ⟨l, he, _⟩ := applyBlocks_query es s { d with excluded := d.excluded ++ ks }
    unfold prep
    rw [Node.exclude, he]
    intro m hm
    rw [Node.within, List.mem_singleton] at hm
    subst hm
    exact (h _ (Node.self_within _) : KnownAt (.query s d))
  | .count s d items, h => by
    rw [prep_count]
    intro m hm
    rw [Node.within, List.mem_cons] at hm
    rcases hm with rfl | hm
    · exact (h _ (Node.self_within _) : KnownAt (.count s d items))
    · exact Node.prep_knownList ks es items (fun m hm => h m (by simp [Node.within, hm])) m hm
  | .req s d r, h => by
    rw [prep_req]
    intro m hm
    rw [Node.within, List.mem_cons] at hm
    rcases hm with rfl | hm
    · exact trivial
    · exact Node.prep_knownOpt ks es r (fun m hm => h m (by simp [Node.within, hm])) m hm
  | .cond s d t f, h => by
    rw [prep_cond]
    intro m hm
    rw [Node.within, List.mem_cons, List.mem_append] at hm
    rcases hm with rfl | hm | hm
    · exact trivial
    · exact Node.prep_known ks es t (fun m hm => h m (by simp [Node.within, hm])) m hm
    · exact Node.prep_knownOpt ks es f (fun m hm => h m (by simp [Node.within, hm])) m hm
  | .prof s d c, h => by
    rw [prep_prof]
    exact h
theorem Node.prep_knownList (ks : List String) (es : List Exc) : ∀ ns : List Node,
    (∀ m ∈ Node.withinList ns, KnownAt m) → ∀ m ∈ Node.withinList (ns.map (prep ks es)), KnownAt m
  | [], _ => by simp [Node.withinList]
  | n :: ns, h => by
    intro m hm
    rw [List.map_cons, Node.withinList, List.mem_append] at hm
    rcases hm with hm | hm
    · exact Node.prep_known ks es n (fun m hm => h m (by simp [Node.withinList, hm])) m hm
    · exact Node.prep_knownList ks es ns (fun m hm => h m (by simp [Node.withinList, hm])) m hm
theorem Node.prep_knownOpt (ks : List String) (es : List Exc) : ∀ r : Option Node,
    (∀ m ∈ Node.withinOpt r, KnownAt m) → ∀ m ∈ Node.withinOpt (r.map (prep ks es)), KnownAt m
  | none, _ => by simp [Node.withinOpt]
  | some n, h => Node.prep_known ks es n h
end

theorem loadArea_known {c : Constants} {templates : List (String × TemplateCourse)} {st : Student} {es : List Exc} {all : Bool}
    {spec : Dict} {a : Area} (h : loadArea c templates st es all spec = .ok a) : ∀ m ∈ a.result.within, KnownAt m := by
  obtain ⟨emphases, declared, children, data, rule, code, dept, h1, h2, h3, h4, hb, hres, _⟩ := loadArea_inv h
  have hprep : a.result = prep ((rule.requiredCourses (loadCtx st es)).map (·.clbid)) es rule := hres
  rw [hprep]
  refine Node.prep_known _ es rule (fun m hm => ?_)
  obtain ⟨d, _, hr⟩ := hb.each (Q := fun _ => True) (fun _ _ => trivial) (fun _ _ => trivial) (fun _ _ _ _ _ => trivial)
    (fun _ _ _ _ => trivial) rule rfl m hm
  exact readFrom_known hr

/-! ### The context of a limited transcript -/

theorem areaCtx_knows {a : Area} {st : Student} {es : List Exc} {tr : List Course} (htr : ∀ c ∈ tr, c ∈ st.courses) {c : Course}
    (h : (areaCtx a st es tr).Knows c) : c ∈ st.courses ∨ c ∈ st.coursesWithFailed := by
  rcases h with h | h | ⟨k, h⟩
  · exact .inl (htr c h)
  · exact .inr h
  · simp only [areaCtx, List.mem_map, List.mem_reverse, List.mem_filter, Prod.mk.injEq] at h
    obtain ⟨c', ⟨h1, _⟩, _, rfl⟩ := h
    exact .inl h1

theorem areaCtx_holds {a : Area} {st : Student} {es : List Exc} {tr : List Course} (htr : ∀ c ∈ tr, c ∈ st.courses)
    {t : DataType} {i : Item} (h : (areaCtx a st es tr).Holds t i) : st.Has t i := by
  cases t <;> cases i <;> first | exact areaCtx_knows htr h | exact h

theorem answersOn_of {a : Area} {st : Student} {es : List Exc} {tr : List Course} (htr : ∀ c ∈ tr, c ∈ st.courses)
    {t : DataType} {p : Pred} (h : p.AnswersFor st t) : p.AnswersOn (areaCtx a st es tr) t :=
  fun i hi => h i (areaCtx_holds htr hi)

/-- the transcript is one that the limits of the area allow -/
structure AllowedTr (a : Area) (st : Student) (tr : List Course) : Prop where
  sub : ∀ c ∈ tr, c ∈ st.courses
  all : a.limit = [] → tr = st.courses

theorem found_of {a : Area} {st : Student} {es : List Exc} {tr : List Course} (htr : AllowedTr a st tr) {k : String}
    (h : CanBeInserted a st es k) : ∃ c, (areaCtx a st es tr).forcedCourseByClbid k = .ok c := by
  obtain ⟨⟨c, hc, hk⟩, h⟩ := h
  unfold Ctx.forcedCourseByClbid
  split
  · exact ⟨_, rfl⟩
  · rename_i hnone
    split
    · exact ⟨_, rfl⟩
    · rename_i hf
      exfalso
      rcases h with h | ⟨e, he, hek⟩
      · have := htr.all h
        unfold Ctx.findCourseByClbid at hnone
        rw [List.find?_eq_none] at hnone
        exact hnone c (by simp [areaCtx, this, hc]) (by simp [hk])
      · unfold Ctx.forcedGet at hf
        rw [Option.map_eq_none_iff, List.find?_eq_none] at hf
        refine hf (c.clbid, c) ?_ (by simp [hk])
        simp only [areaCtx, List.mem_map, List.mem_reverse, List.mem_filter]
        refine ⟨c, ⟨hc, ?_⟩, rfl⟩
        rw [List.contains_eq_mem, decide_eq_true_eq, forcedClbids, List.mem_dedup, List.mem_filterMap]
        exact ⟨e, he, by rw [hek, hk]⟩

theorem insertsFound_of {a : Area} {st : Student} {es : List Exc} {tr : List Course} (htr : AllowedTr a st tr) {p : Path}
    (h : InsertsClear a st es p) : (areaCtx a st es tr).InsertsFound p := by
  intro e he k f hk
  have he' : e ∈ getInsertExceptions (groupExceptions es) p := he
  rw [(C07_exact_path_first_wins es p).1, List.mem_filter] at he'
  simp only [Bool.and_eq_true, beq_iff_eq] at he'
  exact found_of htr (h e he'.1 he'.2.2 k f hk)

theorem blocksFound_of {a : Area} {st : Student} {es : List Exc} {tr : List Course} (htr : AllowedTr a st tr) {p : Path}
    (h : ∀ e ∈ es, e.path = p → ∀ k, e.kind = .block k → CanBeInserted a st es k) : (areaCtx a st es tr).BlocksFound p := by
  intro e he k hk
  have he' : e ∈ getBlockExceptions (groupExceptions es) p := he
  rw [(C07_exact_path_first_wins es p).2.1, List.mem_filter] at he'
  simp only [Bool.and_eq_true, beq_iff_eq] at he'
  exact found_of htr (h e he'.1 he'.2.2 k hk)

theorem areaCtx_sound {a : Area} {st : Student} {es : List Exc} {tr : List Course} (htr : AllowedTr a st tr) {look : Bool}
    (hd : ∀ c, c ∈ st.courses ∨ c ∈ st.coursesWithFailed → c.Dated) (hl : look = true → a.limit = []) :
    (areaCtx a st es tr).Sound look where
  forcedOk := areaCtx_forcedOk a st es tr
  dated c h := hd c (areaCtx_knows htr.sub h)
  listed h e he := by
    have := htr.all (hl h)
    subst this
    simp only [areaCtx, List.mem_map, List.mem_reverse, List.mem_filter] at he
    obtain ⟨c, ⟨hc, _⟩, rfl⟩ := he
    exact listed_of_transcript hc

/-! ### The rules of a clear area can be searched and audited -/

theorem assertion_safe {a : Area} {st : Student} {es : List Exc} {tr : List Course} (htr : AllowedTr a st tr) {t : DataType}
    {b : AnyAssertion} (hk : b.Known t) (hf : b.Fresh es t) (hc : ∀ n ∈ b.branches, n.Clear a st es t) :
    b.Safe (areaCtx a st es tr) t where
  branches n hn := {
    type := (hf.branches n hn).type
    key := hk.keys n hn
    seminars := (hc n hn).seminars
    comparison := (hf.branches n hn).comparison
    answers := fun p hp => answersOn_of htr.sub ((hc n hn).answers p hp)
    inserts := insertsFound_of htr (hc n hn).inserts
    courses := by
      refine (hc n hn).courses.imp id (fun h => ?_)
      change getInsertExceptions (groupExceptions es) n.path = []
      rw [(C07_exact_path_first_wins es n.path).1, List.filter_eq_nil_iff]
      intro e he hb
      simp only [Bool.and_eq_true, beq_iff_eq] at hb
      rw [h e he hb.2] at hb
      exact absurd hb.1 (by simp)
    blocks := blocksFound_of htr (hc n hn).blocks }
  known := hk.decided
  dynamic := hk.dynamic

mutual
theorem Node.bears_of {es : List Exc} {x : Ctx} (hx : x.exceptions = groupExceptions es) : ∀ n : Node, n.Fresh es →
    ¬ Stuck es n → n.Bears x
  | .course _ _, _, _ => by simp [Node.Bears]
  | .query _ _, _, _ => by simp [Node.Bears]
  | .count _ _ _, _, _ => by simp [Node.Bears]
  | .prof _ _ _, _, _ => by simp [Node.Bears]
  | .req s d r, hf, hs => by
    simp only [Node.Bears]
    by_cases hw : WaivedAt es d.path
    · left
      rw [hx]
      exact (getWaive_isSome es d.path).2 hw
    · right
      exact Node.bears_ofReq hx r (fun m hm k hk => hf k (by
        subst hm
        simp [Node.within, Node.withinOpt, hk])) (fun m hm h => hs (by subst hm; exact .requirement hw h))
  | .cond s d t f, hf, hs => by
    simp only [Node.Bears]
    cases hc : d.condition with
    | none => exact (hf _ (Node.self_within _) : FreshAt es (.cond s d t f)).1 hc
    | some b =>
      cases b with
      | true => exact Node.bears_of hx t (fun k hk => hf k (by simp [Node.within, hk])) (fun h => hs (.thenBranch hc h))
      | false =>
        cases f with
        | none => exact hs (.noElse hc)
        | some f =>
          exact Node.bears_of hx f (fun k hk => hf k (by simp [Node.within, Node.withinOpt, hk])) (fun h => hs (.elseBranch hc h))
theorem Node.bears_ofReq {es : List Exc} {x : Ctx} (hx : x.exceptions = groupExceptions es) : ∀ r : Option Node,
    (∀ m, r = some m → m.Fresh es) → (∀ m, r = some m → ¬ Stuck es m) → Node.BearsReq x r
  | none, _, _ => trivial
  | some n, hf, hs => Node.bears_of hx n (hf n rfl) (hs n rfl)
end

theorem prof_known {p : Proficiencies} {name : String}
    (h : name ∈ ["Keyboard Level I", "Keyboard Level II", "Keyboard Level III", "Keyboard Level IV", "Guitar"]) :
    ∃ s, p.status name false = .ok s := by
  unfold Proficiencies.status
  have : ∃ s, p.lookup name = .ok s := by
    simp only [List.mem_cons, List.not_mem_nil, or_false] at h
    rcases h with rfl | rfl | rfl | rfl | rfl <;> exact ⟨_, rfl⟩
  obtain ⟨s, hs⟩ := this
  rw [hs]
  exact ⟨_, rfl⟩

/-- what is known of a rule of a clear area -/
structure ReadyAt (a : Area) (st : Student) (es : List Exc) (look : Bool) (m : Node) : Prop where
  canonical : ∀ p ∈ m.allPaths, CanonicalPath p
  loaded : m.Loaded { exceptions := groupExceptions es }
  known : KnownAt m
  fresh : m.Fresh es
  clear : ClearAt a st es m
  looks : ∀ s d, m = .query s d → (d.source = .claimed → look = true) ∧
    (look = true → d.source = .courses → d.attemptClaims = true → d.includeFailed = false)

theorem course_safe {a : Area} {st : Student} {es : List Exc} {tr : List Course} (htr : AllowedTr a st tr) {look : Bool}
    {s : Stage} {d : CourseData} (h : ReadyAt a st es look (.course s d)) : CourseSafe (areaCtx a st es tr) look s d where
  canonical := h.canonical _ (by simp [Node.allPaths])
  inserts := insertsFound_of htr h.clear
  matched c hc := by
    have := h.loaded
    simp only [Node.Loaded, CourseData.Loaded] at this
    rw [this.2.2.1] at hc
    cases hc
  claim c hc := by
    have := h.loaded
    simp only [Node.Loaded, CourseData.Loaded] at this
    rw [this.2.1] at hc
    cases hc
  fresh hs := by
    have := h.loaded
    simp only [Node.Loaded] at this
    rw [this.1] at hs
    cases hs

theorem query_safe {a : Area} {st : Student} {es : List Exc} {tr : List Course} (htr : AllowedTr a st tr) {look : Bool}
    {s : Stage} {d : QueryData} (h : ReadyAt a st es look (.query s d)) : QuerySafe (areaCtx a st es tr) look s d where
  canonical := h.canonical _ (by simp [Node.allPaths])
  claims c hc := by
    have := h.loaded
    simp only [Node.Loaded, QueryData.Loaded] at this
    rw [this.2.2.2.2.1] at hc
    cases hc
  output hs := by
    have := h.loaded
    simp only [Node.Loaded] at this
    rw [this.1] at hs
    cases hs
  ready _ := by
    obtain ⟨c1, c2, c3, c4⟩ := h.clear
    have hfr : FreshAt es (.query s d) := h.fresh _ (Node.self_within _)
    refine ⟨fun b hb => ?_, insertsFound_of htr c1, fun p hp => answersOn_of htr.sub (c2 p hp), fun l hl => ?_, ?_, ?_,
      (h.looks s d rfl).1, (h.looks s d rfl).2⟩
    · exact assertion_safe htr (h.known b hb) (hfr.2.2.2.2 b hb) (fun n hn => (c4 b hb n hn).1)
    · refine ⟨(c3 l hl).1, fun c hc => ?_⟩
      exact (c3 l hl).2 (.course c) (areaCtx_knows htr.sub hc)
    · intro hs n hn hsc
      unfold flattenAssertions at hn
      obtain ⟨b, hb, hn⟩ := List.mem_flatMap.1 hn
      refine (c4 b hb n ?_).2 hs ?_
      · cases b <;> exact hn
      · simpa [Assertion.isSimpleCount] using hsc
    · intro k hk
      rw [hfr.2.1] at hk
      cases hk

mutual
theorem Node.safe_of {a : Area} {st : Student} {es : List Exc} {tr : List Course} (htr : AllowedTr a st tr) {look : Bool} :
    ∀ n : Node, (∀ m ∈ n.within, ReadyAt a st es look m) → n.Safe (areaCtx a st es tr) look
  | .course s d, h => by
    rw [Node.Safe]
    exact course_safe htr (h _ (Node.self_within _))
  | .query s d, h => by
    rw [Node.Safe]
    exact query_safe htr (h _ (Node.self_within _))
  | .count s d items, h => by
    have h0 := h _ (Node.self_within _)
    have hfr : FreshAt es (.count s d items) := h0.fresh _ (Node.self_within _)
    rw [Node.Safe]
    refine ⟨h0.canonical _ (by simp [Node.allPaths]), fun _ b hb => ?_, fun h1 h2 _ => h0.clear.2 h1 h2,
      Node.safe_ofList htr items (fun m hm => h m (by simp [Node.within, hm]))⟩
    exact assertion_safe htr (h0.known b hb) (hfr.2 b hb) (h0.clear.1 b hb)
  | .req s d r, h => by
    have h0 := h _ (Node.self_within _)
    rw [Node.Safe]
    refine ⟨h0.canonical _ (by simp [Node.allPaths]), fun _ he => ?_,
      Node.safe_ofOpt htr r (fun m hm => h m (by simp [Node.within, hm]))⟩
    exact Node.bears_of rfl _ h0.fresh (h0.clear ((existsBeneath_group es d.path).1 he))
  | .cond s d t f, h => by
    have h0 := h _ (Node.self_within _)
    rw [Node.Safe]
    exact ⟨h0.canonical _ (by simp [Node.allPaths]), Node.safe_of htr t (fun m hm => h m (by simp [Node.within, hm])),
      Node.safe_ofOpt htr f (fun m hm => h m (by simp [Node.within, hm]))⟩
  | .prof s d c, h => by
    have h0 := h _ (Node.self_within _)
    rw [Node.Safe]
    refine ⟨h0.canonical _ (by simp [Node.allPaths]), prof_known h0.clear, fun q hq => ?_⟩
    subst hq
    exact course_safe htr (h _ (by simp [Node.within]))
theorem Node.safe_ofList {a : Area} {st : Student} {es : List Exc} {tr : List Course} (htr : AllowedTr a st tr) {look : Bool} :
    ∀ ns : List Node, (∀ m ∈ Node.withinList ns, ReadyAt a st es look m) → Node.SafeList (areaCtx a st es tr) look ns
  | [], _ => trivial
  | n :: ns, h => ⟨Node.safe_of htr n (fun m hm => h m (by simp [Node.withinList, hm])),
      Node.safe_ofList htr ns (fun m hm => h m (by simp [Node.withinList, hm]))⟩
theorem Node.safe_ofOpt {a : Area} {st : Student} {es : List Exc} {tr : List Course} (htr : AllowedTr a st tr) {look : Bool} :
    ∀ n : Option Node, (∀ m ∈ Node.withinOpt n, ReadyAt a st es look m) → Node.SafeOpt (areaCtx a st es tr) look n
  | none, _ => trivial
  | some n, h => Node.safe_of htr n h
end

/-! ### The common requirements of a major -/

/-- a common requirement as it is loaded, without exceptions -/
inductive CommonForm : Node → Prop
  | department {rd : ReqData} : commonPath <+: rd.path → CanonicalPath rd.path → CommonForm (.req .rule rd none)
  | query {rd : ReqData} {pr : Pred} {q : QueryData} {a : Assertion} {action : String} {op : Operator} {k : Nat} :
      commonPath <+: rd.path → commonPath <+: q.path → commonPath <+: a.path → CanonicalPath rd.path → CanonicalPath q.path →
      q = silentQuery q.path pr a → a = plainAssertion a.path action op k → op.isComparison →
      action = "sum(credits)" ∨ action = "count(courses)" → (∀ c, ∃ b, pr.applyCourse c = .ok b) →
      CommonForm (.req .rule rd (some (.query .rule q)))

theorem common_canonical {env : Env} {name : String} {spec : Y} {i : Nat} {n : Node} (h : loadCommon env name spec i = .ok n) :
    ∀ p ∈ n.allPaths, CanonicalPath p := by
  intro p hp
  obtain ⟨s, r, rfl, hc⟩ := (loadCommon_built h).beneath n rfl p hp
  intro t ht
  rcases List.mem_append.1 ht with ht | ht
  · simp only [List.mem_cons, List.not_mem_nil, or_false] at ht
    rcases ht with rfl | rfl | rfl | rfl
    · exact Or.inl (by decide)
    · exact Or.inl (by decide)
    · exact Or.inl (by decide)
    · exact indexSeg_canonical i
  · exact hc t ht

theorem common_form {env : Env} {es : List Exc} (hes : env.ctx.exceptions = groupExceptions es)
    (hno : ∀ e ∈ es, ¬ commonPath <+: e.path) {name m : String} {w : Dict} {action op : String} {k : Nat} {i : Nat} {n : Node}
    (h : loadCommon env name (commonSpec m (commonQuery (.map w) action op k)) i = .ok n) {opr : Operator}
    (hop : parseOperator op = some opr) (hk : op ∉ ["$changes", "at_most", "treat_in_progress_as_pass", "$ifs"])
    (hcmp : opr.isComparison) (hact : action = "sum(credits)" ∨ action = "count(courses)") {pr : Pred}
    (hw : loadFilter env.ctx env.c .course (.map w) = .ok pr) (hf : ∀ c, ∃ b, pr.applyCourse c = .ok b) : CommonForm n := by
  have hcan := common_canonical h
  obtain ⟨rd, pr', q, a, rfl, _, h1, h2, h3, hl, hq, ha⟩ := loadCommon_query hes hno h hop hk
  rw [hw] at hl
  cases hl
  exact .query h1 h2 h3 (hcan _ (by simp [Node.allPaths])) (hcan _ (by simp [Node.allPaths, Node.allPathsOpt])) hq
    (by simpa using ha) hcmp hact hf

theorem common_forms {env : Env} {es : List Exc} (hes : env.ctx.exceptions = groupExceptions es)
    (hno : ∀ e ∈ es, ¬ commonPath <+: e.path) {degree : Option String} {st : Student} {code : String} {rules : List Node}
    (hd : ∀ p ∈ st.areas, ∀ d, p.dept = some d → d.toList.head? ≠ some '$')
    (h : prepareCommonRules env degree ((st.areas.reverse.find? (fun p => p.code == code)).bind (·.dept)) st.areas code = .ok rules) :
    (∀ n ∈ rules, CommonForm n) ∧ ∃ r0 r1 rest, rules = r0 :: r1 :: rest := by
  unfold prepareCommonRules at h
  simp only [ld_bind_ok] at h
  obtain ⟨r0, h0, r1, h1, h⟩ := h
  have f0 : CommonForm r0 := common_form hes hno (w := cOrBetterWhere) (opr := .gte) h0 (by decide) (by decide)
    ⟨by decide, by decide⟩ (.inl rfl) (load_cOrBetter _ _) (fun c => ⟨_, cOrBetter_selects c⟩)
  by_cases hbm : degree = some "B.M."
  · subst hbm
    have hb : ((some "B.M." : Option String) == some "B.M.") = true := rfl
    rw [hb] at h1 h
    cases h
    have f1 : CommonForm r1 := common_form hes hno (w := suBmWhere) (opr := .eq) (k := 0) h1 (by decide) (by decide)
      ⟨by decide, by decide⟩ (.inr rfl) (load_suBm _ _) (fun c => ⟨_, optionSU_selects c⟩)
    refine ⟨?_, _, _, _, rfl⟩
    intro n hn
    simp only [List.mem_cons, List.not_mem_nil, or_false] at hn
    rcases hn with rfl | rfl
    · exact f0
    · exact f1
  · have hb : (degree == some "B.M.") = false := by simpa using hbm
    rw [hb] at h1 h
    simp only [Bool.false_eq_true, if_false, ld_bind_ok] at h
    obtain ⟨r2, h2, h⟩ := h
    cases h
    have f1 : CommonForm r1 := common_form hes hno (w := suWhere) (opr := .lte) (k := 1) h1 (by decide) (by decide)
      ⟨by decide, by decide⟩ (.inr rfl) (load_su _ _) (fun c => ⟨_, su_selects c⟩)
    have f2 : CommonForm r2 := by
      cases hdep : (st.areas.reverse.find? (fun p => p.code == code)).bind (·.dept) with
      | none =>
        rw [hdep] at h2
        have hcan := common_canonical h2
        obtain ⟨body, rd, r', hb, rfl, hpath, _, _, hau, _, hnone, _⟩ := loadCommon_inv h2
        cases hb
        cases hnone rfl
        exact .department (by rw [hpath]; exact ⟨_, rfl⟩) (hcan _ (by simp [Node.allPaths]))
      | some dept =>
        obtain ⟨p, hp, hpd⟩ := Option.bind_eq_some_iff.1 hdep
        have hdd : dept.toList.head? ≠ some '$' := hd p (by simpa using List.mem_of_find?_eq_some hp) dept hpd
        rw [hdep] at h2
        simp only [outsideSpec] at h2
        split at h2
        · exact common_form hes hno (w := artWhere) (opr := .gte) (k := 18) h2 (by decide) (by decide)
            ⟨by decide, by decide⟩ (.inl rfl) (load_art _ _) (fun c => ⟨_, art_selects c⟩)
        · split at h2
          · exact common_form hes hno (w := musicWhere) (opr := .gte) (k := 21) h2 (by decide) (by decide)
              ⟨by decide, by decide⟩ (.inl rfl) (load_music _ _) (fun c => ⟨_, outside_selects _ _ c (musicSubject_selects c)⟩)
          · exact common_form hes hno (w := deptWhere dept) (opr := .gte) (k := 21) h2 (by decide) (by decide)
              ⟨by decide, by decide⟩ (.inl rfl) (load_dept _ _ hdd)
              (fun c => ⟨_, outside_selects [dept] _ c ((notSubject_selects dept c).trans (by simp))⟩)
    refine ⟨?_, _, _, _, rfl⟩
    intro n hn
    simp only [List.mem_cons, List.not_mem_nil, or_false] at hn
    rcases hn with rfl | rfl | rfl
    · exact f0
    · exact f1
    · exact f2

theorem commonResult_safe {x : Ctx} (hx : x.Sound false) {es : List Exc} (hes : x.exceptions = groupExceptions es)
    (hno : ∀ e ∈ es, ¬ commonPath <+: e.path) {o : Orders} (ho : o.Lawful) {n : Node} (hn : CommonForm n) (hl : n.Loaded x) :
    ∃ r, commonResult x o n = .ok r ∧ r.Safe x false := by
  have hb : ∀ p : Path, commonPath <+: p → existsBeneath x.exceptions p = false := by
    intro p hp
    rw [hes, Bool.eq_false_iff]
    intro h
    obtain ⟨e, he, hpe⟩ := (existsBeneath_group es p).1 h
    exact hno e he (hp.trans hpe)
  have hins : ∀ p : Path, commonPath <+: p → x.InsertsFound p ∧ getInsertExceptions x.exceptions p = [] ∧ x.BlocksFound p := by
    intro p hp
    have := no_exception_at (not_beneath hno hp)
    rw [← hes] at this
    refine ⟨fun e he => ?_, this.2.2.1, fun e he => ?_⟩
    · rw [this.2.2.1] at he; cases he
    · rw [this.2.2.2] at he; cases he
  have key : n.Safe x false ∧ n.Bears x := by
    cases hn with
    | department h1 h2 =>
      refine ⟨?_, ?_⟩
      · simp only [Node.Safe, Node.SafeOpt, and_true]
        refine ⟨h2, fun _ he => ?_⟩
        rw [hb _ h1] at he
        cases he
      · simp [Node.Bears, Node.BearsReq]
    | @query rd pr q a action op k h1 h2 h3 c1 c2 hq ha hcmp hact hf =>
      refine ⟨?_, by simp [Node.Bears, Node.BearsReq]⟩
      simp only [Node.Safe, Node.SafeOpt]
      refine ⟨c1, fun _ he => ?_, ?_⟩
      · rw [hb _ h1] at he
        cases he
      have hA : q.assertions = [.single a] := by rw [hq]; rfl
      have hsrc : q.source = .courses := by rw [hq]; rfl
      have hlim : q.limit = [] := by rw [hq]; rfl
      have hwh : q.where' = some pr := by rw [hq]; rfl
      refine ⟨c2, ?_, fun _ => ⟨?_, (hins _ h2).1, ?_, ?_, ?_, ?_, ?_, ?_⟩, fun h => by cases h⟩
      · have : q.successful = [] := by rw [hq]; rfl
        simp [this]
      · rw [hA, hsrc]
        intro b hb'
        rw [List.mem_singleton] at hb'
        subst hb'
        refine ⟨fun n hn => ?_, (fun _ _ h => by cases h), (fun _ _ _ h => by cases h)⟩
        simp only [AnyAssertion.branches, List.mem_singleton] at hn
        subst hn
        have ekey : n.key = action := by rw [ha]; rfl
        have eop : n.op = op := by rw [ha]; rfl
        have ew : n.where' = none := by rw [ha]; rfl
        refine ⟨by rw [ha]; rfl, ?_, ?_, by rw [eop]; exact hcmp, by simp [ew], (hins _ h3).1, .inl rfl, (hins _ h3).2.2⟩
        · rw [ekey]
          rcases hact with rfl | rfl <;> decide
        · rw [ekey]
          rcases hact with rfl | rfl <;> decide
      · intro p hp
        rw [hwh] at hp
        cases hp
        rw [hsrc]
        intro i hi
        cases i with
        | course c => exact hf c
        | _ => exact hi.elim
      · simp [hlim]
      · intro _ n hn _
        rw [hA] at hn
        have : n = a := by simpa [flattenAssertions] using hn
        subst this
        exact ⟨k, by rw [ha]; rfl⟩
      · have : q.inserted = [] := by rw [hq]; rfl
        simp [this]
      · rw [hsrc]
        intro h
        cases h
      · intro h
        cases h
  obtain ⟨r, t', h1, h2, _⟩ := findBest_safe hx ho hl key.1 key.2 (TableOk.nil x false) false
  exact ⟨r, by unfold commonResult; rw [h1], h2⟩

/-! ### The area -/

mutual
theorem Node.within_trans : ∀ n m k : Node, k ∈ m.within → m ∈ n.within → k ∈ n.within
  | .course s d, m, k, hk, hm => by rw [Node.within, List.mem_singleton] at hm; subst hm; exact hk
  | .query s d, m, k, hk, hm => by rw [Node.within, List.mem_singleton] at hm; subst hm; exact hk
  | .count s d items, m, k, hk, hm => by
    have ih := Node.within_transList items m k hk
    rw [Node.within, List.mem_cons] at hm
    rcases hm with rfl | hm
    · exact hk
    · simp [Node.within, ih hm]
  | .req s d r, m, k, hk, hm => by
    have ih := Node.within_transOpt r m k hk
    rw [Node.within, List.mem_cons] at hm
    rcases hm with rfl | hm
    · exact hk
    · simp [Node.within, ih hm]
  | .cond s d t f, m, k, hk, hm => by
    have ih1 := Node.within_trans t m k hk
    have ih2 := Node.within_transOpt f m k hk
    rw [Node.within, List.mem_cons, List.mem_append] at hm
    rcases hm with rfl | hm | hm
    · exact hk
    · simp [Node.within, ih1 hm]
    · simp [Node.within, ih2 hm]
  | .prof s d c, m, k, hk, hm => by
    have hm' := hm
    rw [Node.within, List.mem_cons, List.mem_map] at hm'
    rcases hm' with rfl | ⟨q, hq, rfl⟩
    · exact hk
    · rw [Node.within, List.mem_singleton] at hk
      subst hk
      exact hm
theorem Node.within_transList : ∀ (ns : List Node) (m k : Node), k ∈ m.within → m ∈ Node.withinList ns → k ∈ Node.withinList ns
  | [], _, _, _, hm => by simp [Node.withinList] at hm
  | n :: ns, m, k, hk, hm => by
    have ih1 := Node.within_trans n m k hk
    have ih2 := Node.within_transList ns m k hk
    rw [Node.withinList, List.mem_append] at hm ⊢
    exact hm.imp ih1 ih2
theorem Node.within_transOpt : ∀ (n : Option Node) (m k : Node), k ∈ m.within → m ∈ Node.withinOpt n → k ∈ Node.withinOpt n
  | none, _, _, _, hm => by simp [Node.withinOpt] at hm
  | some n, m, k, hk, hm => Node.within_trans n m k hk hm
end

/-- does somebody look at the claims -/
noncomputable def looksAt (a : Area) : Bool := by classical exact decide (LooksAtClaims a)

theorem clear_ready {c : Constants} {templates : List (String × TemplateCourse)} {st : Student} {es : List Exc} {all : Bool}
    {spec : Dict} {a : Area} (hload : loadArea c templates st es all spec = .ok a) (h : ClearAudit a st es) :
    ∀ m ∈ a.result.within, ReadyAt a st es (looksAt a) m := by
  intro m hm
  refine ⟨fun p hp => ?_, ?_, loadArea_known hload m hm, fun k hk => ?_, h.rules m hm, ?_⟩
  · exact (loadArea_canonical hload p ((Node.within_paths _ m hm).subset hp)).2
  · exact Node.within_loaded _ m (loadArea_loaded hload).1 hm
  · exact (loadArea_fresh hload).1 k (Node.within_trans _ m k hk hm)
  · rintro s d rfl
    refine ⟨fun hs => ?_, fun hl => ?_⟩
    · simp only [looksAt, decide_eq_true_eq]
      exact ⟨s, d, hm, hs⟩
    · simp only [looksAt, decide_eq_true_eq] at hl
      exact (h.claimed hl).2 s d hm

theorem topCountSolutions_items {x : Ctx} {o : Orders} {d : CountData} {items : List Node} {t : ClaimTable} {s : Node}
    (h : s ∈ (topCountSolutions x o d items t).1.items) : ∃ d' l, s = .count .solution d' l := by
  unfold topCountSolutions at h
  split at h
  · simp only [Gen.one, List.mem_singleton] at h
    exact ⟨_, _, h⟩
  split at h
  · simp [Gen.raise] at h
  split at h
  · unfold plainCountSolutions at h
    split at h
    · simp only [Gen.one, List.mem_singleton] at h
      exact ⟨_, _, h⟩
    split at h
    · simp [Gen.raise] at h
    split at h
    · simp [Gen.raise] at h
    obtain ⟨l, hl, _⟩ := countSolutions_items h
    exact ⟨_, _, hl⟩
  split at h
  · simp [Gen.raise] at h
  split at h
  · simp [Gen.raise] at h
  split at h
  · simp [Gen.raise] at h
  dsimp only at h
  split at h
  · simp [Gen.raise] at h
  obtain ⟨l, hl, _⟩ := countSolutions_items h
  exact ⟨_, _, hl⟩

theorem countAudit_result {x : Ctx} {o : Orders} {d : CountData} {l : List Node} {t t' : ClaimTable} {r : Node}
    (h : (Node.count .solution d l).audit x o t = .ok (r, t')) : ∃ d' l', r = .count .result d' l' := by
  simp only [Node.audit] at h
  split at h
  · cases h; exact ⟨_, _, rfl⟩
  split at h
  · cases h
  split at h
  · cases h
  cases h
  exact ⟨_, _, rfl⟩

theorem rankList_append {ns ms : List Node} {rs qs : List (Rat × Rat)} (h1 : Node.rankList ns = .ok rs)
    (h2 : Node.rankList ms = .ok qs) : Node.rankList (ns ++ ms) = .ok (rs ++ qs) := by
  induction ns generalizing rs with
  | nil => cases h1; exact h2
  | cons n ns ih =>
    simp only [Node.rankList] at h1
    split at h1
    · cases h1
    rename_i r hr
    split at h1
    · cases h1
    rename_i rs' hrs
    cases h1
    simp only [List.cons_append, Node.rankList, hr, ih hrs]

theorem rank_of_items {s : Stage} {d : CountData} {items : List Node} {rs : List (Rat × Rat)} (hr : Node.rankList items = .ok rs)
    (hne : rs ≠ []) : ∃ r, (Node.count s d items).rank = .ok r := by
  simp only [Node.rank]
  split
  · exact ⟨_, rfl⟩
  · rw [hr]
    exact countRank_ok (fun _ _ => hne)

/-- a solution of the area, as the search hands it out -/
structure SolutionSafe (a : Area) (st : Student) (es : List Exc) (s : AreaSolution) : Prop where
  ctx : ∃ tr, AllowedTr a st tr ∧ s.ctx = areaCtx a st es tr
  safe : s.solution.Safe s.ctx (looksAt a)
  claims : TableOk s.ctx (looksAt a) s.claims
  count : (∃ s d items, a.result = .count s d items) → ∃ d items, s.solution = .count .solution d items

/-- the context in which the common requirements are audited -/
def commonCtx (x : Ctx) (cs : List Course) : Ctx :=
  { transcript := cs, multicountable := x.multicountable, exceptions := x.exceptions, areas := x.areas,
    performances := x.performances, attendances := x.attendances, proficiencies := x.proficiencies }

theorem auditCommon_safe {c : Constants} {templates : List (String × TemplateCourse)} {st : Student} {es : List Exc} {all : Bool}
    {spec : Dict} {a : Area} (hload : loadArea c templates st es all spec = .ok a)
    (hd : ∀ c, c ∈ st.courses ∨ c ∈ st.coursesWithFailed → c.Dated) (hno : ∀ e ∈ es, ¬ commonPath <+: e.path)
    (hdept : ∀ p ∈ st.areas, ∀ d, p.dept = some d → d.toList.head? ≠ some '$')
    {tr : List Course} (htr : AllowedTr a st tr) {o : Orders} (ho : o.Lawful) {look : Bool} {r : Node}
    (hr : r.Safe (areaCtx a st es tr) look) : ∃ n q, auditCommon o a (areaCtx a st es tr) r = .ok n ∧ n.rank = .ok q := by
  obtain ⟨_, _, _, _, _, code, dept, _, _, _, _, _, _, ⟨degree, _, hcom⟩, _, hdp, _⟩ := loadArea_inv hload
  subst hdp
  obtain ⟨hforms, r0, r1, rest, hrules⟩ := common_forms (es := es) rfl hno hdept hcom
  have hloaded := (loadArea_common hload).1
  rw [hrules] at hforms hloaded
  simp only [Node.LoadedList] at hloaded
  have hins : getInsertExceptionsBeneath (areaCtx a st es tr).exceptions r0.path = [] := by
    have hp : commonPath <+: r0.path := by
      cases hforms r0 (by simp) with
      | department h => exact h
      | query h => exact h
    change getInsertExceptionsBeneath (groupExceptions es) r0.path = []
    rw [List.eq_nil_iff_forall_not_mem]
    intro e he
    obtain ⟨h1, _, h3⟩ := (C07_insertions_beneath es r0.path e).1 he
    exact hno e h1 (hp.trans h3)
  have hsound : ∀ cs : List Course, (∀ c ∈ cs, c ∈ st.courses ∨ c ∈ st.coursesWithFailed) →
      (commonCtx (areaCtx a st es tr) cs).Sound false := by
    intro cs hcs
    refine ⟨(fun e he => by cases he), fun c hc => ?_, (fun h => by cases h)⟩
    rcases hc with hc | hc | ⟨_, hc⟩
    · exact hd c (hcs c hc)
    · cases hc
    · cases hc
  have hclaimed := hsound (o.matched ["$"] r.matched) (fun c hc =>
    areaCtx_knows htr.sub (matched_safe hr c ((ho.2.1 _ _).mem_iff.1 hc)))
  have hwhole := hsound st.courses (fun c hc => .inl hc)
  obtain ⟨c0, e0, s0⟩ := commonResult_safe hclaimed (es := es) rfl hno ho (hforms r0 (by simp)) (by exact Node.loaded_congr (x := { exceptions := groupExceptions es }) (by rfl) _ hloaded.1)
  obtain ⟨c1, e1, s1⟩ := commonResult_safe hclaimed (es := es) rfl hno ho (hforms r1 (by simp)) (by exact Node.loaded_congr (x := { exceptions := groupExceptions es }) (by rfl) _ hloaded.2.1)
  obtain ⟨q0, k0⟩ := Node.rank_safe _ s0
  obtain ⟨q1, k1⟩ := Node.rank_safe _ s1
  have hitems : ∃ items rs, commonItems
      (commonCtx (areaCtx a st es tr) (o.matched ["$"] r.matched))
      (commonCtx (areaCtx a st es tr) (st.courses)) o
      (r0 :: r1 :: rest) = .ok items ∧ Node.rankList items = .ok rs ∧ rs ≠ [] := by
    cases rest with
    | nil => exact ⟨[c0, c1], [q0, q1], by simp only [commonItems, e0, e1], by simp only [Node.rankList, k0, k1], by simp⟩
    | cons r2 rest =>
      simp only [Node.LoadedList] at hloaded
      obtain ⟨c2, e2, s2⟩ := commonResult_safe hwhole (es := es) rfl hno ho (hforms r2 (by simp))
        (by exact Node.loaded_congr (x := { exceptions := groupExceptions es }) (by rfl) _ hloaded.2.2.1)
      obtain ⟨q2, k2⟩ := Node.rank_safe _ s2
      exact ⟨[c0, c1, c2], [q0, q1, q2], by simp only [commonItems, e0, e1, e2], by simp only [Node.rankList, k0, k1, k2], by simp⟩
  obtain ⟨items, rs, hi, hrs, hne⟩ := hitems
  have e : auditCommon o a (areaCtx a st es tr) r = .ok (.req .result
      { path := ["$", "%Common Requirements"], name := "Common " ++ a.degree ++ " Major Requirements", inGpa := false }
      (some (.count .result { path := ["$", "%Common Requirements", ".count"], count := items.length } items))) := by
    unfold auditCommon
    rw [hrules]
    dsimp only
    rw [hins]
    change (match commonItems (commonCtx (areaCtx a st es tr) (o.matched ["$"] r.matched)) (commonCtx (areaCtx a st es tr) st.courses) o
      (r0 :: r1 :: rest) with
      | .error e => _
      | .ok items => _) = _
    rw [hi]
  rw [e]
  obtain ⟨q, hq⟩ := rank_of_items (s := .result)
    (d := { path := ["$", "%Common Requirements", ".count"], count := items.length }) hrs hne
  refine ⟨_, if (Node.count Stage.result { path := ["$", "%Common Requirements", ".count"], count := items.length }
    items).status.passing = true then (q.1 + 1, q.2 + 1) else q, rfl, ?_⟩
  simp only [Node.rank, Node.rankReq] at hq ⊢
  simp only [Bool.false_eq_true, if_false] at hq ⊢
  rw [hq]
  dsimp only
  split <;> rfl

theorem outcome_safe {c : Constants} {templates : List (String × TemplateCourse)} {st : Student} {es : List Exc} {all : Bool}
    {spec : Dict} {a : Area} (hload : loadArea c templates st es all spec = .ok a) (h : ClearAudit a st es)
    {o : Orders} (ho : o.Lawful) {s : AreaSolution} (hs : SolutionSafe a st es s) : ∃ out, s.outcome o a = .ok out := by
  obtain ⟨tr, htr, hctx⟩ := hs.ctx
  have hlim : looksAt a = true → a.limit = [] := fun hl => (h.claimed (by simpa [looksAt] using hl)).1
  have hx : s.ctx.Sound (looksAt a) := hctx ▸ areaCtx_sound htr h.dated hlim
  obtain ⟨r, t', h1, h2, _⟩ := Node.audit_safe hx ho s.solution hs.safe s.claims hs.claims
  have key : ∃ res q, s.audit o a = .ok res ∧ res.rank = .ok q := by
    unfold AreaSolution.audit
    rw [h1]
    dsimp only
    split
    · rename_i hk
      obtain ⟨hcount, hno, hdept⟩ := h.major hk
      rw [hctx] at h2 ⊢
      obtain ⟨n, q, hn, hq⟩ := auditCommon_safe hload h.dated hno hdept htr ho h2
      rw [hn]
      obtain ⟨d, items, hsol⟩ := hs.count hcount
      rw [hsol] at h1
      obtain ⟨d', items', rfl⟩ := countAudit_result h1
      dsimp only
      simp only [Node.Safe] at h2
      obtain ⟨rs, hrs, _⟩ := Node.rank_safeList _ h2.2.2.2
      have hl2 : Node.rankList [n] = .ok [q] := by simp only [Node.rankList, hq]
      obtain ⟨q', hq'⟩ := rank_of_items (s := .result) (d := { d' with count := d'.count + 1 }) (rankList_append hrs hl2)
        (by simp)
      exact ⟨_, q', rfl, hq'⟩
    · obtain ⟨q, hq⟩ := Node.rank_safe r h2
      exact ⟨_, q, rfl, hq⟩
  obtain ⟨res, q, h3, h4⟩ := key
  unfold AreaSolution.outcome
  rw [h3]
  dsimp only
  rw [h4]
  exact ⟨_, rfl⟩

theorem areaLoop_safe {c : Constants} {templates : List (String × TemplateCourse)} {st : Student} {es : List Exc} {all : Bool}
    {spec : Dict} {a : Area} (hload : loadArea c templates st es all spec = .ok a) (h : ClearAudit a st es)
    {o : Orders} (ho : o.Lawful) : ∀ (trs : List (List Course)) (t : ClaimTable), (∀ tr ∈ trs, AllowedTr a st tr) →
    (∀ tr, AllowedTr a st tr → TableOk (areaCtx a st es tr) (looksAt a) t) →
    (areaLoop o a st es none trs t).err = none ∧ ∀ s ∈ (areaLoop o a st es none trs t).items, SolutionSafe a st es s
  | [], t, _, _ => ⟨rfl, by simp [areaLoop]⟩
  | tr :: trs, t, htrs, ht => by
    have htr := htrs tr List.mem_cons_self
    have hlim : looksAt a = true → a.limit = [] := fun hl => (h.claimed (by simpa [looksAt] using hl)).1
    have hx : (areaCtx a st es tr).Sound (looksAt a) := areaCtx_sound htr h.dated hlim
    have hl : a.result.Loaded (areaCtx a st es tr) := Node.loaded_congr (x := { exceptions := groupExceptions es }) (by rfl) _ (loadArea_loaded hload).1
    have hsafe := Node.safe_of htr a.result (clear_ready hload h)
    obtain ⟨⟨g1, g2⟩, g3⟩ := Node.topSolutions_safe hx ho a.result hl hsafe t (ht tr htr)
    have hcount : (∃ s d items, a.result = .count s d items) → ∀ s ∈ (a.result.topSolutions (areaCtx a st es tr) o t).1.items,
        ∃ d items, s = .count .solution d items := by
      rintro ⟨s0, d, items, hr⟩ s hs
      rw [hr] at hs
      exact topCountSolutions_items (by simpa only [Node.topSolutions] using hs)
    have hany : ∀ t', TableOk (areaCtx a st es tr) (looksAt a) t' →
        ∀ tr', AllowedTr a st tr' → TableOk (areaCtx a st es tr') (looksAt a) t' := by
      intro t' h' tr' htr' hl
      have e1 := htr.all (hlim hl)
      have e2 := htr'.all (hlim hl)
      rw [e2, ← e1]
      exact h' hl
    generalize hres : a.result.topSolutions (areaCtx a st es tr) o t = res at g1 g2 g3 hcount
    obtain ⟨⟨items, err⟩, t'⟩ := res
    simp only at g1 g2 g3 hcount
    subst g1
    cases items with
    | nil =>
      obtain ⟨q1, q2⟩ := areaLoop_safe hload h ho trs t' (fun r hr => htrs r (List.mem_cons_of_mem _ hr)) (hany t' g3)
      have e : areaLoop o a st es none (tr :: trs) t = Gen.append ⟨[], none⟩ (areaLoop o a st es none trs t') := by
        simp only [areaLoop, transcriptSolutions, hres]
      rw [e]
      refine ⟨by simp only [Gen.append, q1], fun s hs => ?_⟩
      simp only [Gen.append, List.nil_append] at hs
      exact q2 s hs
    | cons s0 ss =>
      obtain ⟨q1, q2⟩ := areaLoop_safe hload h ho trs [] (fun r hr => htrs r (List.mem_cons_of_mem _ hr))
        (fun _ _ => TableOk.nil _ _)
      have e : areaLoop o a st es none (tr :: trs) t = Gen.append ⟨⟨s0, areaCtx a st es tr, t'⟩ ::
          ss.map (fun s => ⟨s, areaCtx a st es tr, []⟩), none⟩ (areaLoop o a st es none trs []) := by
        simp only [areaLoop, transcriptSolutions, hres]
      rw [e]
      refine ⟨by simp only [Gen.append, q1], fun s hs => ?_⟩
      simp only [Gen.append, List.cons_append, List.mem_cons, List.mem_append, List.mem_map] at hs
      rcases hs with rfl | ⟨s', hs', rfl⟩ | hs
      · exact ⟨⟨tr, htr, rfl⟩, g2 s0 (by simp), g3, fun hc => hcount hc s0 (by simp)⟩
      · exact ⟨⟨tr, htr, rfl⟩, g2 s' (by simp [hs']), TableOk.nil _ _, fun hc => hcount hc s' (by simp [hs'])⟩
      · exact q2 s hs

theorem runEnd_clean {ρ : Type} (args : Args) (s : RunState ρ) : (runEnd args s).err = none := by
  unfold runEnd
  split
  · rfl
  · split <;> rfl

theorem append_clean {α : Type} {g h : Gen α} (hg : g.err = none) (hh : h.err = none) : (g.append h).err = none := by
  unfold Gen.append
  rw [hg]
  exact hh

theorem runLoop_clean {ρ : Type} (args : Args) (h1 : args.auditEach ≠ 0) (h2 : args.progressEvery ≠ 0) :
    ∀ (sols : List (Except Err (Outcome ρ))) (s : RunState ρ), (∀ e ∈ sols, ∃ out, e = .ok out) →
    (runLoop args none sols s).err = none
  | [], s, _ => runEnd_clean args s
  | sol :: sols, s, h => by
    obtain ⟨out, rfl⟩ := h sol List.mem_cons_self
    have ih := fun s => runLoop_clean args h1 h2 sols s (fun e he => h e (List.mem_cons_of_mem _ he))
    unfold runLoop
    dsimp only
    rw [if_neg h1, if_neg h2]
    split
    · exact ih _
    split
    · exact ih _
    split
    · exact runEnd_clean _ _
    refine append_clean (by split <;> rfl) (append_clean (by split <;> rfl) ?_)
    split
    · exact runEnd_clean _ _
    · exact ih _

/-- C87 (part). An audit does not end in an exception if: the filters of the area have an answer for every record of the student,
numbers of courses are whole and not negative, limits are not negative; the classes that exceptions insert or block are on the
transcript; an exception is beneath no requirement that cannot be satisfied; proficiencies are known ones; courses in progress say
when; a rule that looks at the claimed courses comes with no area limits and no rule claiming failed courses; a major is a count,
and no exception is for its common requirements.  Missing: without these conditions audits do raise, see below. -/
theorem C87_audit_does_not_raise_partial {c : Constants} {templates : List (String × TemplateCourse)} {st : Student} {es : List Exc}
    {all : Bool} {spec : Dict} {a : Area} (hload : loadArea c templates st es all spec = .ok a) (h : ClearAudit a st es)
    {o : Orders} (ho : o.Lawful) {args : Args} (h1 : args.auditEach ≠ 0) (h2 : args.progressEvery ≠ 0) :
    (auditArea o a st es args).err = none := by
  have hlimits := limitedTranscripts_clean (ho.1 []) (limits := a.limit) (courses := st.courses) (fun l hl => (h.limits l hl).1)
    (fun l hl c hc => (h.limits l hl).2 (.course c) (.inl hc)) (forcedClbids es)
  have hallowed : ∀ tr ∈ (limitedTranscripts (o.limit []) a.limit st.courses (forcedClbids es)).items, AllowedTr a st tr := by
    intro tr htr
    refine ⟨(C10_only_input_courses _ (ho.1 []) _ _ _ _ htr).1, fun hl => ?_⟩
    rw [hl] at htr
    simpa [limitedTranscripts, Gen.one] using htr
  have hlim : looksAt a = true → a.limit = [] := fun hl => (h.claimed (by simpa [looksAt] using hl)).1
  have hest : ∃ n, a.estimate o st es = .ok n := by
    unfold Area.estimate
    dsimp only
    obtain ⟨n, hn⟩ := sumE_total ((limitedTranscripts (o.limit []) a.limit st.courses (forcedClbids es)).items.map
      (fun tr => a.result.topEstimate (areaCtx a st es tr) o)) (fun e he => by
        obtain ⟨tr, htr, rfl⟩ := List.mem_map.1 he
        have hal := hallowed tr htr
        exact Node.topEstimate_safe (areaCtx_sound hal h.dated hlim) ho a.result
          (Node.loaded_congr (x := { exceptions := groupExceptions es }) (by rfl) _ (loadArea_loaded hload).1) (Node.safe_of hal a.result (clear_ready hload h)))
    rw [hn, hlimits]
    exact ⟨n, rfl⟩
  obtain ⟨n, hn⟩ := hest
  have hsols := areaLoop_safe hload h ho (limitedTranscripts (o.limit []) a.limit st.courses (forcedClbids es)).items []
    hallowed (fun _ _ => TableOk.nil _ _)
  unfold auditArea runAudit
  rw [hn]
  refine append_clean rfl ?_
  split
  · rfl
  have e : a.solutions o st es = areaLoop o a st es none
      (limitedTranscripts (o.limit []) a.limit st.courses (forcedClbids es)).items [] := by
    unfold Area.solutions
    dsimp only
    rw [hlimits]
  rw [e]
  simp only [Gen.map, hsols.1]
  refine runLoop_clean args h1 h2 _ _ (fun e he => ?_)
  obtain ⟨s, hs, rfl⟩ := List.mem_map.1 he
  exact outcome_safe hload h ho (hsols.2 s hs)

/-! ### Audits that do raise -/

namespace RaiseText
/-- an area -/
def area (result : Y) (reqs : Dict := []) : Dict :=
  [("name", .str "Data"), ("type", .str "concentration"), ("code", .str "741"), ("result", result), ("requirements", .map reqs)]
/-- a query for at least so many -/
def query (more : Dict) (source action : String) (n : Y) : Y :=
  .map (more ++ [("from", .str source), ("assert", .map [(action, .map [("$gte", n)])])])
/-- a course -/
def one : Course := { clbid := "1", subject := "CSCI", identity := "CSCI 121", credits := 1 }
/-- a student with a course and a failed one -/
def student : Student :=
  { courses := [one], coursesWithFailed := [one, { clbid := "2", subject := "CSCI", identity := "CSCI 251", credits := 1, gradeCode := .F }] }
/-- a course in progress in a term that is neither this one nor a later one -/
def late : Student := { courses := [{ one with gradeCode := .IP, isInProgress := true }] }
/-- a requirement for those who took another course -/
def conditional : Dict := area (.map [("all", .list [.map [("requirement", .str "R")]])])
  [("R", .map [("result", .map [("$if", .map [("has-course", .str "MATH 999")]), ("$then", .map [("course", .str "CSCI 251")])])])]
end RaiseText

/-- the exception with which the audit of the area in the text ends, if it can be loaded and does -/
def raisedBy (st : Student) (es : List Exc) (spec : Dict) : Option Err :=
  match loadArea {} [] st es false spec with
  | .ok a => (auditArea .insertion a st es {}).err
  | .error _ => none

/-- the audit of the area in the text, which can be loaded, ends in an exception -/
def AuditRaises (st : Student) (es : List Exc) (spec : Dict) : Prop :=
  ∃ a e, loadArea {} [] st es false spec = .ok a ∧ (auditArea .insertion a st es {}).err = some e

theorem raises_of {st : Student} {es : List Exc} {spec : Dict} {e : Err} (h : raisedBy st es spec = some e) :
    AuditRaises st es spec := by
  unfold raisedBy at h
  split at h
  · rename_i a ha
    exact ⟨a, e, ha, h⟩
  · cases h

open RaiseText in
/-- C87 is false without the conditions of `C87_audit_does_not_raise_partial`: audits of areas that load end in an exception
for each of these reasons. -/
theorem C87_audits_do_raise :
    -- a query claims a failed course, and another one looks at what is claimed
    AuditRaises student [] (area (.map [("all", .list [query [("include_failed", .bool true)] "courses" "count(courses)" (.int 2),
      query [] "claimed" "count(courses)" (.int 1)])])) ∧
    -- an exception forces in a class that the student has not
    AuditRaises student [⟨["$", ".query"], .insertion "9" true⟩] (area (query [] "courses" "count(courses)" (.int 2))) ∧
    -- an exception is beneath a requirement that cannot be satisfied
    AuditRaises student [⟨["$", ".count", "[0]", "%R", "/t", "*CSCI 251"], .override⟩] conditional ∧
    -- seminars are counted
    AuditRaises student [] (area (query [] "music recitals" "count(seminars)" (.int 2))) ∧
    -- a course has been in progress since an earlier term
    AuditRaises late [] (area (query [] "courses" "count(courses)" (.int 1))) ∧
    -- a filter compares what cannot be compared
    AuditRaises student [] (area (query [("where", .map [("gereqs", .map [("$gte", .str "a")])])] "courses" "count(courses)" (.int 1))) ∧
    -- a number of courses is negative, or not whole
    AuditRaises student [] (area (query [] "courses" "count(courses)" (.int (-1)))) ∧
    AuditRaises student [] (area (query [] "courses" "count(courses)" (.str "1.5"))) ∧
    -- a limit is negative
    AuditRaises student [] (area (query [("limit", .list [.map [("at_most", .int (-1)),
      ("where", .map [("subject", .map [("$eq", .str "CSCI")])])]])] "courses" "count(courses)" (.int 1))) ∧
    -- a proficiency is unknown
    AuditRaises student [] (area (.map [("proficiency", .str "Keyboard Level V")])) ∧
    -- at most one of no items
    AuditRaises student [] (area (.map [("count", .int 1), ("at_most", .bool true), ("of", .list [])])) := by
  refine ⟨raises_of (e := .keyError) ?_, raises_of (e := .missingClbid) ?_, raises_of (e := .unboundLocal) ?_,
    raises_of (e := .typeError) ?_, raises_of (e := .assertion) ?_, raises_of (e := .other) ?_, raises_of (e := .valueError) ?_,
    raises_of (e := .typeError) ?_, raises_of (e := .runtimeError) ?_, raises_of (e := .keyError) ?_,
    raises_of (e := .valueError) ?_⟩ <;> decide +kernel

/-! ### Non-trivial case -/

/-- class 1 is forced into the electives, though the core requires it -/
def forcedIn : List Exc := [⟨["$", ".count", "[1]", "%Electives", ".query"], .insertion "1" true⟩,
  ⟨["$", ".count", "[0]", "%Core"], .override⟩]

set_option maxRecDepth 100000 in
theorem forcedIn_loaded : (loadArea {} [] sampleTaken forcedIn false satisfiedText).map (fun a => (a.result, a.kind, a.limit)) =
    .ok (satisfiedRule, "concentration", []) := by
  rfl

/-- The hypotheses of `C87_audit_does_not_raise_partial` hold of the area `satisfiedText`, the four classes of `sampleTaken` and
two exceptions. -/
example : ∃ a : Area, loadArea {} [] sampleTaken forcedIn false satisfiedText = .ok a ∧ ClearAudit a sampleTaken forcedIn ∧
    Orders.insertion.Lawful ∧ ({} : Args).auditEach ≠ 0 ∧ ({} : Args).progressEvery ≠ 0 := by
  have h := forcedIn_loaded
  cases hl : loadArea {} [] sampleTaken forcedIn false satisfiedText with
  | error e => rw [hl] at h; cases h
  | ok a =>
    rw [hl] at h
    have h' := Except.ok.inj h
    simp only [Prod.mk.injEq] at h'
    obtain ⟨ha, hk, hlim⟩ := h'
    have hone : ∀ k, k = "1" → CanBeInserted a sampleTaken forcedIn k := by
      rintro k rfl
      exact ⟨⟨_, List.mem_cons_self, rfl⟩, .inl hlim⟩
    have hins : ∀ p, InsertsClear a sampleTaken forcedIn p := by
      intro p e he _ k f hek
      simp only [forcedIn, List.mem_cons, List.not_mem_nil, or_false] at he
      rcases he with rfl | rfl
      · cases hek; exact hone _ rfl
      · cases hek
    have hsub : ∀ c : Course, ∃ b, (Pred.leaf { key := "subject", op := .eq, expected := .sc (.str "CSCI") }).applyCourse c = .ok b := by
      intro c
      unfold Pred.applyCourse Pred.apply applyCourseLeaf
      cases c.isChbi with
      | none => exact ⟨_, rfl⟩
      | some n =>
        simp only [PredLeaf.compare, applyOperator, applyScalar, strVal, Sc.isStr, Sc.pyEq]
        simp
    refine ⟨a, rfl, ⟨?_, ?_, ?_, ?_, ?_⟩, ⟨fun _ _ _ => ⟨.refl _, .refl _⟩, fun _ _ => .refl _, fun _ => .refl _⟩, by decide, by decide⟩
    · rw [ha]
      intro m hm
      simp only [satisfiedRule, Node.within, Node.withinList, Node.withinOpt, apartItem, List.mem_cons, List.mem_append,
        List.not_mem_nil, or_false, List.append_nil] at hm
      rcases hm with rfl | (rfl | rfl | rfl | rfl | rfl | rfl) | rfl | rfl
      · exact ⟨by simp, by simp⟩
      · intro _ h; cases h with | requirement _ h => cases h
      · exact ⟨by simp, by simp⟩
      · exact hins _
      · exact ⟨by simp, by simp⟩
      · exact hins _
      · exact hins _
      · intro _ h; cases h with | requirement _ h => cases h
      · refine ⟨hins _, ?_, by simp [satisfiedElectives], ?_⟩
        · intro p hp
          cases hp
          intro i hi
          cases i with
          | course c => exact hsub c
          | _ => exact hi.elim
        · intro b hb n hn
          rw [satisfiedElectives, List.mem_singleton] at hb
          subst hb
          simp only [AnyAssertion.branches, List.mem_singleton] at hn
          subst hn
          refine ⟨⟨by simp [satisfiedTwo], by decide, hins _, .inl rfl, ?_⟩, fun _ _ => ⟨2, rfl⟩⟩
          intro e he _ k hek
          simp only [forcedIn, List.mem_cons, List.not_mem_nil, or_false] at he
          rcases he with rfl | rfl <;> cases hek
    · simp [hlim]
    · intro c hc
      have : c.isInProgress = false := by
        rcases hc with hc | hc
        · revert c; decide
        · revert c; decide
      intro h; rw [this] at h; cases h
    · rintro ⟨s, d, hq, hs⟩
      rw [ha] at hq
      simp only [satisfiedRule, Node.within, Node.withinList, Node.withinOpt, apartItem, List.mem_cons, List.mem_append,
        List.not_mem_nil, or_false, List.append_nil, reduceCtorEq, false_or, Node.query.injEq] at hq
      rw [hq.2] at hs
      cases hs
    · rw [hk]
      intro h
      exact absurd h (by decide)

end Dp
