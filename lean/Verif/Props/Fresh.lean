import Verif.Props.MeetsArea

/-
The state in which every part of an area is loaded: what is waived, what has been evaluated.
-/
namespace Dp

/-- an assertion about records of the given kind as it is loaded: waived if there is a waiver for it, otherwise not
evaluated yet; it compares with `$lt`, `$lte`, `$gt`, `$gte`, `$eq` or `$neq` -/
structure Assertion.Fresh (es : List Exc) (t : DataType) (a : Assertion) : Prop where
  waived : a.overridden = true ↔ WaivedAt es a.path
  state : a.state = if a.overridden then .waived else .empty
  comparison : a.op.isComparison
  type : a.dataType = t

/-- an assertion, conditional or not, as it is loaded -/
structure AnyAssertion.Fresh (es : List Exc) (t : DataType) (b : AnyAssertion) : Prop where
  branches : ∀ a ∈ b.branches, a.Fresh es t
  result : ∀ c r t, b = .dyn c r t → r = none

/-- one rule, not looking at the rules inside it, as it is loaded -/
def FreshAt (es : List Exc) : Node → Prop
  | .course _ d => d.autoWaived = false ∧ d.overridden = false ∧ d.claim = none
  | .query _ d => (d.overridden = true ↔ WaivedAt es d.path) ∧ d.inserted = [] ∧ d.forceInserted = [] ∧ d.successful = [] ∧
      ∀ b ∈ d.assertions, b.Fresh es d.source.dataType
  | .count _ d _ => d.overridden = false ∧ ∀ b ∈ d.audits, b.Fresh es .course
  | .req _ d _ => d.overridden = false
  | .cond _ d _ _ => d.condition ≠ none ∧ (d.overridden = true ↔ WaivedAt es d.path)
  | .prof _ d _ => d.overridden = false ∧ d.status = .empty

/-- a rule and everything inside it as it is loaded -/
def Node.Fresh (es : List Exc) (n : Node) : Prop := ∀ m ∈ n.within, FreshAt es m

theorem Node.mem_withinList {ns : List Node} {m : Node} : m ∈ Node.withinList ns ↔ ∃ n ∈ ns, m ∈ n.within := by
  induction ns with
  | nil => simp [Node.withinList]
  | cons n ns ih => simp [Node.withinList, ih]

theorem Node.self_within (n : Node) : n ∈ n.within := by
  cases n <;> simp [Node.within]

theorem freshAt_exclude {es : List Exc} {s : Stage} {d : QueryData} {ks : List String} (h : FreshAt es (.query s d)) :
    FreshAt es (.query s { d with excluded := ks }) := h

mutual
theorem Node.exclude_fresh {es : List Exc} (ks : List String) : ∀ n : Node, n.Fresh es → (n.exclude ks).Fresh es
  | .course s d, h => h
  | .query s d, h => by
    intro m hm
    simp only [Node.exclude, Node.within, List.mem_singleton] at hm
    subst hm
    exact freshAt_exclude (h _ (Node.self_within _))
  | .count s d items, h => by
    intro m hm
    simp only [Node.exclude, Node.within, List.mem_cons] at hm
    rcases hm with rfl | hm
    · exact (show FreshAt es (.count s d items) from h _ (Node.self_within _))
    · exact Node.exclude_freshList ks items (fun m hm => h m (by simp [Node.within, hm])) m hm
  | .req s d r, h => by
    intro m hm
    simp only [Node.exclude, Node.within, List.mem_cons] at hm
    rcases hm with rfl | hm
    · exact (show FreshAt es (.req s d r) from h _ (Node.self_within _))
    · exact Node.exclude_freshOpt ks r (fun m hm => h m (by simp [Node.within, hm])) m hm
  | .cond s d t f, h => by
    intro m hm
    simp only [Node.exclude, Node.within, List.mem_cons, List.mem_append] at hm
    rcases hm with rfl | hm | hm
    · exact (show FreshAt es (.cond s d t f) from h _ (Node.self_within _))
    · exact Node.exclude_fresh ks t (fun m hm => h m (by simp [Node.within, hm])) m hm
    · exact Node.exclude_freshOpt ks f (fun m hm => h m (by simp [Node.within, hm])) m hm
  | .prof s d c, h => h
theorem Node.exclude_freshList {es : List Exc} (ks : List String) : ∀ ns : List Node, (∀ m ∈ Node.withinList ns, FreshAt es m) →
    ∀ m ∈ Node.withinList (Node.excludeList ks ns), FreshAt es m
  | [], h => h
  | n :: ns, h => by
    intro m hm
    simp only [Node.excludeList, Node.withinList, List.mem_append] at hm
    rcases hm with hm | hm
    · exact Node.exclude_fresh ks n (fun m hm => h m (by simp [Node.withinList, hm])) m hm
    · exact Node.exclude_freshList ks ns (fun m hm => h m (by simp [Node.withinList, hm])) m hm
theorem Node.exclude_freshOpt {es : List Exc} (ks : List String) : ∀ n : Option Node, (∀ m ∈ Node.withinOpt n, FreshAt es m) →
    ∀ m ∈ Node.withinOpt (Node.excludeOpt ks n), FreshAt es m
  | none, h => h
  | some n, h => Node.exclude_fresh ks n h
end

mutual
theorem Node.applyBlock_fresh {es : List Exc} (p : Path) (k : String) : ∀ n : Node, n.Fresh es → (n.applyBlock p k).Fresh es
  | .course s d, h => by
    intro m hm
    simp only [Node.applyBlock, Node.within, List.mem_singleton] at hm
    subst hm
    have := h _ (Node.self_within _)
    split
    · exact this
    · exact this
  | .query s d, h => by
    intro m hm
    simp only [Node.applyBlock, Node.within, List.mem_singleton] at hm
    subst hm
    have := h _ (Node.self_within _)
    split
    · exact freshAt_exclude this
    · exact this
  | .count s d items, h => by
    intro m hm
    simp only [Node.applyBlock, Node.within, List.mem_cons] at hm
    rcases hm with rfl | hm
    · exact (show FreshAt es (.count s d items) from h _ (Node.self_within _))
    · exact Node.applyBlock_freshList p k items (fun m hm => h m (by simp [Node.within, hm])) m hm
  | .req s d r, h => by
    intro m hm
    simp only [Node.applyBlock, Node.within, List.mem_cons] at hm
    rcases hm with rfl | hm
    · exact (show FreshAt es (.req s d r) from h _ (Node.self_within _))
    · exact Node.applyBlock_freshOpt p k r (fun m hm => h m (by simp [Node.within, hm])) m hm
  | .cond s d t f, h => by
    intro m hm
    simp only [Node.applyBlock, Node.within, List.mem_cons, List.mem_append] at hm
    rcases hm with rfl | hm | hm
    · exact (show FreshAt es (.cond s d t f) from h _ (Node.self_within _))
    · exact Node.applyBlock_fresh p k t (fun m hm => h m (by simp [Node.within, hm])) m hm
    · exact Node.applyBlock_freshOpt p k f (fun m hm => h m (by simp [Node.within, hm])) m hm
  | .prof s d c, h => h
theorem Node.applyBlock_freshList {es : List Exc} (p : Path) (k : String) : ∀ ns : List Node,
    (∀ m ∈ Node.withinList ns, FreshAt es m) → ∀ m ∈ Node.withinList (Node.applyBlockList p k ns), FreshAt es m
  | [], h => h
  | n :: ns, h => by
    intro m hm
    simp only [Node.applyBlockList, Node.withinList, List.mem_append] at hm
    rcases hm with hm | hm
    · exact Node.applyBlock_fresh p k n (fun m hm => h m (by simp [Node.withinList, hm])) m hm
    · exact Node.applyBlock_freshList p k ns (fun m hm => h m (by simp [Node.withinList, hm])) m hm
theorem Node.applyBlock_freshOpt {es : List Exc} (p : Path) (k : String) : ∀ n : Option Node,
    (∀ m ∈ Node.withinOpt n, FreshAt es m) → ∀ m ∈ Node.withinOpt (Node.applyBlockOpt p k n), FreshAt es m
  | none, h => h
  | some n, h => Node.applyBlock_fresh p k n h
end

theorem applyBlocks_fresh {es : List Exc} (bs : List Exc) (n : Node) (h : n.Fresh es) : (applyBlocks bs n).Fresh es := by
  induction bs generalizing n with
  | nil => exact h
  | cons e bs ih =>
    rw [applyBlocks_cons]
    apply ih
    split
    · exact Node.applyBlock_fresh _ _ n h
    · exact h

/-! ### Loading -/

theorem loadSingle_fresh {x : Ctx} {es : List Exc} (hx : x.exceptions = groupExceptions es) {c : Constants} {t : DataType} {p : Path}
    {y : Y} {a : Assertion} (h : loadSingle x c t p y = .ok a) : a.Fresh es t := by
  obtain ⟨_, _, _, op, _, _, _, _, _, _, _, _, _, _, _, h1, h2, _, _, _, _, _, _, _, _, rfl⟩ := loadSingle_inv h
  refine ⟨?_, rfl, ?_, rfl⟩
  · rw [WaivedAt, ← getWaive_isSome, hx]
  · cases op <;> simp_all [Operator.isComparison]

theorem AssertionParts.fresh {x : Ctx} {es : List Exc} (hx : x.exceptions = groupExceptions es) {c : Constants} {t : DataType}
    {p : Path} {y : Y} {b : AnyAssertion} (h : AssertionParts x c t p y b) : b.Fresh es t := by
  cases h with
  | single h =>
    refine ⟨fun a ha => ?_, fun _ _ _ h => by cases h⟩
    simp only [AnyAssertion.branches, List.mem_singleton] at ha
    subst ha
    exact loadSingle_fresh hx h
  | @cond _ _ b _ t f h1 h2 h3 h4 h5 h6 =>
    refine ⟨fun a ha => ?_, fun _ _ _ h => by cases h⟩
    simp only [AnyAssertion.branches, List.mem_cons, Option.mem_toList] at ha
    rcases ha with rfl | ha
    · exact loadSingle_fresh hx h4
    · obtain ⟨_, _, h⟩ := h5 _ ha
      exact loadSingle_fresh hx h
  | dyn _ h1 h2 h3 h4 =>
    refine ⟨fun a ha => ?_, fun _ _ _ h => by cases h; rfl⟩
    simp only [AnyAssertion.branches, List.mem_singleton] at ha
    subst ha
    exact loadSingle_fresh hx h4

theorem dict_get_mem {d : Dict} {k : String} {v : Y} (h : d.get? k = some v) : ∃ e ∈ d, e.1 = k := by
  induction d with
  | nil => simp [Dict.get?] at h
  | cons e d ih =>
    unfold Dict.get? at h
    split at h
    · rename_i hk
      exact ⟨e, by simp, by simpa using hk⟩
    · obtain ⟨e', he, hk⟩ := ih h
      exact ⟨e', by simp [he], hk⟩

theorem loadCourse_fresh {es : List Exc} {d : Dict} {p : Path} {r : CourseData} (h : loadCourseRule d p = .ok r) (s : Stage) :
    FreshAt es (.course s r) := by
  obtain ⟨_, _, _, _, _, _, _, _, _, _, hk, _, _, _, _, _, _, _, _, _, _, _, _, _, _, _, _, _, _, _, _, _, _, haw, hc, _, _, ho, _⟩ :=
    loadCourse_inv h
  refine ⟨?_, ho, hc⟩
  unfold Dict.flag at haw
  split at haw
  · exact (Except.ok.inj haw).symm
  · rename_i v hv
    obtain ⟨e, he, hek⟩ := dict_get_mem hv
    have := List.all_eq_true.1 hk e he
    rw [hek] at this
    exact absurd this (by decide)
  · cases haw

theorem loadQuery_fresh {env : Env} {es : List Exc} (henv : env.ctx.exceptions = groupExceptions es) {d : Dict} {p : Path}
    {q : QueryData} (h : loadQuery env d p = .ok q) (s : Stage) : FreshAt es (.query s q) := by
  obtain ⟨src, w, lim, as, allow, failed, _, _, _, _, _, has, _, _, _, _, _, hr⟩ := loadQuery_inv h
  refine ⟨?_, by rw [hr], by rw [hr], by rw [hr], ?_⟩
  · rw [hr, WaivedAt, ← getWaive_isSome, henv]
  · intro b hb
    rw [hr] at hb
    obtain ⟨i, hi⟩ := List.mem_iff_getElem?.1 hb
    obtain ⟨y, hy⟩ := loadQueryAssertions_inv has i b hi
    exact hy.fresh henv

/-- Everything inside a loaded rule is as loaded. -/
theorem Built.fresh {env : Env} {es : List Exc} (henv : env.ctx.exceptions = groupExceptions es) {kids : Dict} {ems : List Dict}
    {p : Path} {y : Y} {o : Option Node} (h : Built env kids ems p y o) : ∀ n, o = some n → n.Fresh es := by
  induction h with
  | prof hk h =>
    intro n hn
    cases hn
    obtain ⟨name, c, _, _, rfl, hpc⟩ := loadProficiency_inv h
    intro m hm
    simp only [Node.within, List.mem_cons] at hm
    rcases hm with rfl | hm
    · exact ⟨rfl, rfl⟩
    · cases c with
      | none => simp at hm
      | some q =>
        obtain ⟨h1, cd, _, h2⟩ := hpc q rfl
        simp only [Option.toList_some, List.map_cons, List.map_nil, List.mem_singleton] at hm
        subst hm
        exact loadCourse_fresh h2 _
  | course hk h =>
    intro n hn
    cases hn
    intro m hm
    simp only [Node.within, List.mem_singleton] at hm
    subst hm
    exact loadCourse_fresh h _
  | query hk h =>
    intro n hn
    cases hn
    intro m hm
    simp only [Node.within, List.mem_singleton] at hm
    subst hm
    exact loadQuery_fresh henv h _
  | @cond _ _ p d _ _ _ t f _ hk _ _ _ hyt hbt hbf hno _ iht ihf =>
    intro n hn
    split at hn
    · cases hn
    · cases hn
      intro m hm
      simp only [Node.within, List.mem_cons, List.mem_append] at hm
      rcases hm with rfl | hm | hm
      · exact ⟨by simp, by dsimp only; rw [WaivedAt, ← getWaive_isSome, henv]⟩
      · exact iht t rfl m hm
      · cases hf : f with
        | none => rw [hf] at hm; simp [Node.withinOpt] at hm
        | some f' =>
          rw [hf] at hm
          cases ho : Dict.opt d "$else" with
          | none => rw [hno ho] at hf; cases hf
          | some yf => exact ihf yf ho f' hf m hm
  | @count _ ems p d kids' listed expanded emItems inserts audits _ _ parts hk _ hlist hexp hem hins haud _ hparts hb _ _ _ ih =>
    intro n hn
    cases hn
    intro m hm
    simp only [Node.within, List.mem_cons] at hm
    rcases hm with rfl | hm
    · refine ⟨rfl, fun b hb => ?_⟩
      obtain ⟨i, hi⟩ := List.mem_iff_getElem?.1 hb
      obtain ⟨y, hy⟩ := loadAudits_inv haud i b hi
      exact hy.fresh henv
    · obtain ⟨n, hn, hm⟩ := Node.mem_withinList.1 hm
      obtain ⟨t, ht, hn⟩ := List.mem_filterMap.1 hn
      obtain ⟨i, hi⟩ := List.mem_iff_getElem?.1 ht
      obtain ⟨y, o⟩ := t
      exact ih i y o hi n hn m hm
  | @req kids _ p d name body rd r hn _ hnone _ hb hex hpath hname hov _ _ _ _ _ _ ih =>
    intro n hn'
    cases hn'
    intro m hm
    simp only [Node.within, List.mem_cons] at hm
    rcases hm with rfl | hm
    · exact hov
    · cases hr : r with
      | none => rw [hr] at hm; simp [Node.withinOpt] at hm
      | some r' =>
        rw [hr] at hm
        cases ho : Dict.opt body "result" with
        | none => rw [hnone ho] at hr; cases hr
        | some yr =>
          obtain ⟨own, hown, _⟩ := hex yr ho
          exact ih yr own ho hown r' hr m hm

theorem loadArea_fresh {c : Constants} {templates : List (String × TemplateCourse)} {st : Student} {es : List Exc} {all : Bool}
    {spec : Dict} {a : Area} (h : loadArea c templates st es all spec = .ok a) :
    a.result.Fresh es ∧ ∀ n ∈ a.commonRules, n.Fresh es := by
  obtain ⟨_, _, _, _, rule, _, _, _, _, _, _, hb, hres, ⟨degree, _, hcm⟩, _⟩ := loadArea_inv h
  constructor
  · rw [hres]
    exact applyBlocks_fresh es _ (Node.exclude_fresh _ rule (hb.fresh rfl rule rfl))
  · have hi := prepareCommonRules_inv hcm
    intro n hn
    obtain ⟨i, hn⟩ := List.mem_iff_getElem?.1 hn
    obtain ⟨name, spec, hlc, _⟩ := hi i n hn
    exact (loadCommon_built hlc).fresh rfl n rfl

end Dp
