import Verif.Props.LoadDistinct
import Verif.Props.SingleCount

/-
From the text of an area to its audits: what loading guarantees (C48), and the properties of
audits for areas as they are loaded (C23, C25, C26, C37).
-/
namespace Dp

/-! ### Helper lemmas: preparing a loaded rule keeps its paths -/

mutual
theorem Node.exclude_allPaths (ks : List String) : ∀ n : Node, (n.exclude ks).allPaths = n.allPaths
  | .course s d => rfl
  | .query s d => by simp only [Node.exclude, Node.allPaths]
  | .count s d items => by simp only [Node.exclude, Node.allPaths, Node.exclude_allPathsList ks items]
  | .req s d r => by simp only [Node.exclude, Node.allPaths, Node.exclude_allPathsOpt ks r]
  | .cond s d t f => by
    simp only [Node.exclude, Node.allPaths, Node.exclude_allPaths ks t, Node.exclude_allPathsOpt ks f]
  | .prof s d c => rfl
theorem Node.exclude_allPathsList (ks : List String) : ∀ ns : List Node,
    Node.allPathsList (Node.excludeList ks ns) = Node.allPathsList ns
  | [] => rfl
  | n :: ns => by
    simp only [Node.excludeList, Node.allPathsList, Node.exclude_allPaths ks n, Node.exclude_allPathsList ks ns]
theorem Node.exclude_allPathsOpt (ks : List String) : ∀ n : Option Node,
    Node.allPathsOpt (Node.excludeOpt ks n) = Node.allPathsOpt n
  | none => rfl
  | some n => by simp only [Node.excludeOpt, Node.allPathsOpt, Node.exclude_allPaths ks n]
end

mutual
theorem Node.applyBlock_allPaths (p : Path) (k : String) : ∀ n : Node, (n.applyBlock p k).allPaths = n.allPaths
  | .course s d => by simp only [Node.applyBlock, Node.allPaths]; split <;> rfl
  | .query s d => by simp only [Node.applyBlock, Node.allPaths]; split <;> rfl
  | .count s d items => by simp only [Node.applyBlock, Node.allPaths, Node.applyBlock_allPathsList p k items]
  | .req s d r => by simp only [Node.applyBlock, Node.allPaths, Node.applyBlock_allPathsOpt p k r]
  | .cond s d t f => by
    simp only [Node.applyBlock, Node.allPaths, Node.applyBlock_allPaths p k t, Node.applyBlock_allPathsOpt p k f]
  | .prof s d c => rfl
theorem Node.applyBlock_allPathsList (p : Path) (k : String) : ∀ ns : List Node,
    Node.allPathsList (Node.applyBlockList p k ns) = Node.allPathsList ns
  | [] => rfl
  | n :: ns => by
    simp only [Node.applyBlockList, Node.allPathsList, Node.applyBlock_allPaths p k n, Node.applyBlock_allPathsList p k ns]
theorem Node.applyBlock_allPathsOpt (p : Path) (k : String) : ∀ n : Option Node,
    Node.allPathsOpt (Node.applyBlockOpt p k n) = Node.allPathsOpt n
  | none => rfl
  | some n => by simp only [Node.applyBlockOpt, Node.allPathsOpt, Node.applyBlock_allPaths p k n]
end

theorem applyBlocks_allPaths (es : List Exc) (n : Node) : (applyBlocks es n).allPaths = n.allPaths := by
  induction es generalizing n with
  | nil => rfl
  | cons e es ih =>
    rw [applyBlocks_cons, ih]
    split
    · exact Node.applyBlock_allPaths _ _ n
    · rfl

theorem prepareRule_allPaths (x : Ctx) (es : List Exc) (n : Node) : (prepareRule x es n).allPaths = n.allPaths := by
  unfold prepareRule
  rw [applyBlocks_allPaths, Node.exclude_allPaths]

mutual
theorem Node.exclude_leafFlags (ks : List String) : ∀ n : Node, (∀ l ∈ n.leaves, l.LoadedFlags) →
    ∀ l ∈ (n.exclude ks).leaves, l.LoadedFlags
  | .course s d, h => h
  | .query s d, h => by
    intro l hl
    simp only [Node.exclude, Node.leaves, List.mem_singleton] at hl
    subst hl; trivial
  | .count s d items, h => by simp only [Node.exclude, Node.leaves] at h ⊢; exact Node.exclude_leafFlagsList ks items h
  | .req s d r, h => by simp only [Node.exclude, Node.leaves] at h ⊢; exact Node.exclude_leafFlagsOpt ks r h
  | .cond s d t f, h => by
    simp only [Node.exclude, Node.leaves, List.mem_append] at h ⊢
    rintro l (hl | hl)
    · exact Node.exclude_leafFlags ks t (fun l hl => h l (Or.inl hl)) l hl
    · exact Node.exclude_leafFlagsOpt ks f (fun l hl => h l (Or.inr hl)) l hl
  | .prof s d c, h => h
theorem Node.exclude_leafFlagsList (ks : List String) : ∀ ns : List Node, (∀ l ∈ Node.leavesList ns, l.LoadedFlags) →
    ∀ l ∈ Node.leavesList (Node.excludeList ks ns), l.LoadedFlags
  | [], h => h
  | n :: ns, h => by
    simp only [Node.excludeList, Node.leavesList, List.mem_append] at h ⊢
    rintro l (hl | hl)
    · exact Node.exclude_leafFlags ks n (fun l hl => h l (Or.inl hl)) l hl
    · exact Node.exclude_leafFlagsList ks ns (fun l hl => h l (Or.inr hl)) l hl
theorem Node.exclude_leafFlagsOpt (ks : List String) : ∀ n : Option Node, (∀ l ∈ Node.leavesOpt n, l.LoadedFlags) →
    ∀ l ∈ Node.leavesOpt (Node.excludeOpt ks n), l.LoadedFlags
  | none, h => h
  | some n, h => by
    simp only [Node.excludeOpt, Node.leavesOpt] at h ⊢
    exact Node.exclude_leafFlags ks n h
end

mutual
theorem Node.applyBlock_leafFlags (p : Path) (k : String) : ∀ n : Node, (∀ l ∈ n.leaves, l.LoadedFlags) →
    ∀ l ∈ (n.applyBlock p k).leaves, l.LoadedFlags
  | .course s d, h => by
    intro l hl
    simp only [Node.applyBlock, Node.leaves, List.mem_singleton] at hl h
    subst hl
    have := h _ rfl
    simp only [Node.LoadedFlags] at this ⊢
    split <;> exact this
  | .query s d, h => by
    intro l hl
    simp only [Node.applyBlock, Node.leaves, List.mem_singleton] at hl
    subst hl; trivial
  | .count s d items, h => by
    simp only [Node.applyBlock, Node.leaves] at h ⊢; exact Node.applyBlock_leafFlagsList p k items h
  | .req s d r, h => by simp only [Node.applyBlock, Node.leaves] at h ⊢; exact Node.applyBlock_leafFlagsOpt p k r h
  | .cond s d t f, h => by
    simp only [Node.applyBlock, Node.leaves, List.mem_append] at h ⊢
    rintro l (hl | hl)
    · exact Node.applyBlock_leafFlags p k t (fun l hl => h l (Or.inl hl)) l hl
    · exact Node.applyBlock_leafFlagsOpt p k f (fun l hl => h l (Or.inr hl)) l hl
  | .prof s d c, h => h
theorem Node.applyBlock_leafFlagsList (p : Path) (k : String) : ∀ ns : List Node,
    (∀ l ∈ Node.leavesList ns, l.LoadedFlags) → ∀ l ∈ Node.leavesList (Node.applyBlockList p k ns), l.LoadedFlags
  | [], h => h
  | n :: ns, h => by
    simp only [Node.applyBlockList, Node.leavesList, List.mem_append] at h ⊢
    rintro l (hl | hl)
    · exact Node.applyBlock_leafFlags p k n (fun l hl => h l (Or.inl hl)) l hl
    · exact Node.applyBlock_leafFlagsList p k ns (fun l hl => h l (Or.inr hl)) l hl
theorem Node.applyBlock_leafFlagsOpt (p : Path) (k : String) : ∀ n : Option Node,
    (∀ l ∈ Node.leavesOpt n, l.LoadedFlags) → ∀ l ∈ Node.leavesOpt (Node.applyBlockOpt p k n), l.LoadedFlags
  | none, h => h
  | some n, h => by
    simp only [Node.applyBlockOpt, Node.leavesOpt] at h ⊢
    exact Node.applyBlock_leafFlags p k n h
end

theorem applyBlocks_leafFlags (es : List Exc) (n : Node) (h : ∀ l ∈ n.leaves, l.LoadedFlags) :
    ∀ l ∈ (applyBlocks es n).leaves, l.LoadedFlags := by
  induction es generalizing n with
  | nil => exact h
  | cons e es ih =>
    rw [applyBlocks_cons]
    apply ih
    split
    · exact Node.applyBlock_leafFlags _ _ n h
    · exact h

theorem prepareRule_leafFlags (x : Ctx) (es : List Exc) (n : Node) (h : ∀ l ∈ n.leaves, l.LoadedFlags) :
    ∀ l ∈ (prepareRule x es n).leaves, l.LoadedFlags :=
  applyBlocks_leafFlags es _ (Node.exclude_leafFlags _ n h)

/-! ### Helper lemmas: what loading establishes -/

theorem loadCourse_loaded {d : Dict} {p : Path} {r : CourseData} (h : loadCourseRule d p = .ok r) :
    r.Loaded ∧ (r.fromClaimed = true → r.allowClaimed = true) := by
  obtain ⟨_, _, _, _, _, _, fc, ac, _, _, _, _, _, _, _, _, _, _, _, _, _, _, _, _, _, _, _, _, _, _, _, h1, h2, _, h3, h4, h5, h6, _⟩ :=
    loadCourse_inv h
  refine ⟨⟨h3, h4, h5, h6⟩, ?_⟩
  intro hf
  rw [h2, ← h1, hf]
  rfl

theorem Node.leavesList_filterMap {P : Node → Prop} {parts : List (Y × Option Node)}
    (h : ∀ t ∈ parts, ∀ n, t.2 = some n → ∀ l ∈ n.leaves, P l) :
    ∀ l ∈ Node.leavesList (parts.filterMap (·.2)), P l := by
  intro l hl
  obtain ⟨n, hn, hl⟩ := Node.mem_leavesList.1 hl
  obtain ⟨t, ht, he⟩ := List.mem_filterMap.1 hn
  exact h t ht n he l hl

/-- Loading makes rules in which nothing is claimed or waived yet. -/
theorem Built.loaded {env : Env} {kids : Dict} {ems : List Dict} {p : Path} {y : Y} {o : Option Node}
    (h : Built env kids ems p y o) : ∀ n, o = some n → n.Loaded env.ctx ∧ ∀ l ∈ n.leaves, l.LoadedFlags := by
  induction h with
  | prof hk h =>
    intro n hn
    cases hn
    obtain ⟨name, c, _, _, rfl, hc⟩ := loadProficiency_inv h
    constructor
    · refine ⟨rfl, rfl, ?_⟩
      intro q hq
      obtain ⟨h1, cd, _, h2⟩ := hc q hq
      exact ⟨h1, (loadCourse_loaded h2).1⟩
    · intro l hl
      simp only [Node.leaves] at hl
      cases c with
      | none => simp at hl
      | some q =>
        obtain ⟨h1, cd, _, h2⟩ := hc q rfl
        simp only [Option.toList_some, List.map_cons, List.map_nil, List.mem_singleton] at hl
        subst hl
        exact (loadCourse_loaded h2).2
  | course hk h =>
    intro n hn
    cases hn
    refine ⟨⟨rfl, (loadCourse_loaded h).1⟩, ?_⟩
    intro l hl
    simp only [Node.leaves, List.mem_singleton] at hl
    subst hl
    exact (loadCourse_loaded h).2
  | query hk h =>
    intro n hn
    cases hn
    obtain ⟨src, w, lim, as, allow, failed, _, _, _, _, _, _, _, _, _, _, _, hr⟩ := loadQuery_inv h
    constructor
    · refine ⟨rfl, ?_⟩
      rw [hr]
      exact ⟨rfl, rfl, rfl, rfl, rfl, rfl⟩
    · intro l hl
      simp only [Node.leaves, List.mem_singleton] at hl
      subst hl; trivial
  | @cond _ _ p d _ _ _ t f _ hk _ _ _ hyt hbt hbf hno _ iht ihf =>
    intro n hn
    split at hn
    · cases hn
    · cases hn
      obtain ⟨h1, h2⟩ := iht t rfl
      have h3 : Node.LoadedOpt env.ctx f ∧ ∀ l ∈ Node.leavesOpt f, l.LoadedFlags := by
        cases hf : f with
        | none => exact ⟨trivial, by simp [Node.leavesOpt]⟩
        | some f' =>
          cases ho : Dict.opt d "$else" with
          | none => rw [hno ho] at hf; cases hf
          | some yf => exact ihf yf ho f' hf
      refine ⟨⟨rfl, rfl, h1, h3.1⟩, ?_⟩
      simp only [Node.leaves, List.mem_append]
      rintro l (hl | hl)
      · exact h2 l hl
      · exact h3.2 l hl
  | @count _ ems p d kids' listed expanded emItems inserts audits _ _ parts hk _ hlist hexp hem hins haud _ hparts hb _ _ _ ih =>
    intro n hn
    cases hn
    have hall : ∀ t ∈ parts, ∀ n, t.2 = some n → n.Loaded env.ctx ∧ ∀ l ∈ n.leaves, l.LoadedFlags := by
      intro t ht n hn
      obtain ⟨i, hi⟩ := List.mem_iff_getElem?.1 ht
      obtain ⟨y, o⟩ := t
      exact ih i y o hi n hn
    constructor
    · refine ⟨rfl, rfl, ?_⟩
      rw [Node.loadedList_iff]
      intro n hn
      obtain ⟨t, ht, he⟩ := List.mem_filterMap.1 hn
      exact (hall t ht n he).1
    · simp only [Node.leaves]
      exact Node.leavesList_filterMap (fun t ht n hn => (hall t ht n hn).2)
  | @req kids _ p d name body rd r hn _ hnone _ hb hex hpath hname hov _ _ _ _ _ _ ih =>
    intro n hn'
    cases hn'
    have h1 : Node.LoadedOpt env.ctx r ∧ ∀ l ∈ Node.leavesOpt r, l.LoadedFlags := by
      cases hr : r with
      | none => exact ⟨trivial, by simp [Node.leavesOpt]⟩
      | some r' =>
        cases ho : Dict.opt body "result" with
        | none => rw [hnone ho] at hr; cases hr
        | some yr =>
          obtain ⟨own, hown, _⟩ := hex yr ho
          exact ih yr own ho hown r' hr
    exact ⟨⟨rfl, hov, h1.1⟩, h1.2⟩

/-! ### Helper lemmas: paths of children -/

theorem Node.path_mem_allPaths (n : Node) : ∃ l, n.allPaths = n.path :: l := by
  cases n <;> exact ⟨_, rfl⟩

theorem Node.paths_sublist (items : List Node) : (items.map Node.path).Sublist (Node.allPathsList items) := by
  induction items with
  | nil => exact List.Sublist.slnil
  | cons n ns ih =>
    obtain ⟨l, hl⟩ := n.path_mem_allPaths
    simp only [List.map_cons, Node.allPathsList, hl, List.cons_append]
    exact (ih.trans (List.sublist_append_right _ _)).cons_cons _

mutual
theorem Node.topChildren_paths : ∀ n : Node, (n.topChildren.map Node.path).Sublist n.allPaths
  | .course _ _ => by simp [Node.topChildren]
  | .query _ _ => by simp [Node.topChildren]
  | .count _ d items => by
    simp only [Node.topChildren, Node.allPaths]
    exact ((Node.paths_sublist items).trans (List.sublist_append_right _ _)).cons _
  | .req _ _ _ => by simp [Node.topChildren]
  | .cond _ d t f => by
    simp only [Node.topChildren, Node.allPaths]
    split
    · exact ((Node.topChildren_paths t).trans (List.sublist_append_left _ _)).cons _
    · exact ((Node.topChildren_pathsOpt f).trans (List.sublist_append_right _ _)).cons _
    · simp
  | .prof _ _ _ => by simp [Node.topChildren]
theorem Node.topChildren_pathsOpt : ∀ n : Option Node,
    ((Node.topChildrenOpt n).map Node.path).Sublist (Node.allPathsOpt n)
  | none => by simp [Node.topChildrenOpt]
  | some n => by
    simp only [Node.topChildrenOpt, Node.allPathsOpt]
    exact Node.topChildren_paths n
end

/-! ### Helper lemmas: the common rules -/

/-- a requirement whose result, if it has one, is a query that makes no claims -/
def SilentSpec (spec : Y) : Prop :=
  ∃ body : Dict, spec = .map body ∧ (body.opt "result" = none ∨
    ∃ q : Dict, body.opt "result" = some (.map q) ∧ ruleKind q = .query ∧ q.get? "from" = some (.str "courses") ∧
      claimMode q = (false, false))

theorem commonQuery_silent (m : String) (w : Y) (action op : String) (n : Int) :
    SilentSpec (commonSpec m (commonQuery w action op n)) := by
  refine ⟨_, rfl, Or.inr ⟨_, rfl, ?_, ?_, ?_⟩⟩
  · rfl
  · rfl
  · rfl

theorem cOrBetter_silent : SilentSpec cOrBetterSpec := commonQuery_silent _ _ _ _ _

theorem su_silent (b : Bool) : SilentSpec (suSpec b) := by
  unfold suSpec
  split <;> exact commonQuery_silent _ _ _ _ _

theorem outside_silent (dept : Option String) (code : String) (others : List String) :
    SilentSpec (outsideSpec dept code others) := by
  unfold outsideSpec
  repeat' split
  all_goals first
    | exact commonQuery_silent _ _ _ _ _
    | exact ⟨_, rfl, Or.inl rfl⟩

theorem loadCommon_built {env : Env} {name : String} {spec : Y} {i : Nat} {n : Node} (h : loadCommon env name spec i = .ok n) :
    Built env [(name, spec)] [] ["$", "%Common Requirements", ".count", indexSeg i] (.map [("requirement", .str name)])
      (some n) := by
  unfold loadCommon at h
  simp only [ld_bind_ok] at h
  obtain ⟨o, ho, h⟩ := h
  cases o with
  | none => cases h
  | some r => cases h; exact loadRule_built _ ho

theorem kind_reference (name : String) : ruleKind [("requirement", .str name)] = .reference := rfl

theorem loadCommon_inv {env : Env} {name : String} {spec : Y} {i : Nat} {n : Node} (h : loadCommon env name spec i = .ok n) :
    ∃ (body : Dict) (rd : ReqData) (r : Option Node), spec = .map body ∧ n = .req .rule rd r ∧
      rd.path = ["$", "%Common Requirements", ".count", indexSeg i, "%" ++ name] ∧ rd.name = name ∧ rd.overridden = false ∧
      auditedFlag body = .ok rd.isAudited ∧ body.flag "contract" false = .ok rd.isContract ∧
      (body.opt "result" = none → r = none) ∧
      (∀ yr, body.opt "result" = some yr → ∃ own r', r = some r' ∧
        Built env own [] ["$", "%Common Requirements", ".count", indexSeg i, "%" ++ name] yr (some r')) := by
  have hb := loadCommon_built h
  generalize hy : (Y.map [("requirement", .str name)]) = y at hb
  generalize hkids : [(name, spec)] = kids at hb
  generalize ho : some n = o at hb
  cases hb with
  | prof hk => cases hy; rw [kind_reference] at hk; cases hk
  | course hk => cases hy; rw [kind_reference] at hk; cases hk
  | query hk => cases hy; rw [kind_reference] at hk; cases hk
  | cond hk => cases hy; rw [kind_reference] at hk; cases hk
  | count hk => cases hy; rw [kind_reference] at hk; cases hk
  | @req _ _ _ _ nm body rd r hn _ hnone hsome hb hex hpath hname hov _ _ hau hco _ _ =>
    cases hy
    cases ho
    subst hkids
    have hname' : nm = name := by
      rcases hn with ⟨hk, _⟩ | ⟨_, hk, _⟩
      · rw [kind_reference] at hk; cases hk
      · simp [Dict.get?] at hk; exact hk.symm
    have hbody : spec = .map body := by
      rcases hn with ⟨hk, _⟩ | ⟨_, _, hk⟩
      · rw [kind_reference] at hk; cases hk
      · rw [hname'] at hk; simpa [Dict.get?] using hk
    subst hname'
    refine ⟨body, rd, r, hbody, rfl, by simpa using hpath, hname, hov, hau, hco, hnone, ?_⟩
    intro yr hyr
    obtain ⟨own, hown, _⟩ := hex yr hyr
    have hs := hsome yr hyr
    obtain ⟨r', rfl⟩ := Option.isSome_iff_exists.1 hs
    exact ⟨own, r', rfl, by simpa using hb yr own hyr hown⟩

/-- the rule made of the text of a query -/
theorem Built.query_inv {env : Env} {kids : Dict} {ems : List Dict} {p : Path} {q : Dict} {n : Node}
    (h : Built env kids ems p (.map q) (some n)) (hq : ruleKind q = .query) :
    ∃ d, n = .query .rule d ∧ loadQuery env q p = .ok d := by
  generalize hy : (Y.map q) = y at h
  generalize ho : some n = o at h
  cases h with
  | prof hk => cases hy; rw [hq] at hk; cases hk
  | course hk => cases hy; rw [hq] at hk; cases hk
  | query hk hl => cases hy; cases ho; exact ⟨_, rfl, hl⟩
  | cond hk => cases hy; rw [hq] at hk; cases hk
  | count hk => cases hy; rw [hq] at hk; cases hk
  | req hn =>
    cases hy
    rcases hn with ⟨hk, _⟩ | ⟨hk, _⟩
    · rw [hq] at hk; cases hk
    · rw [hq] at hk; cases hk

theorem loadCommon_silent {env : Env} {name : String} {spec : Y} {i : Nat} {n : Node} (h : loadCommon env name spec i = .ok n)
    (hs : SilentSpec spec) : ∀ l ∈ n.leaves, l.Silent := by
  obtain ⟨body, rd, r, rfl, rfl, _, _, _, _, _, hnone, hsome⟩ := loadCommon_inv h
  obtain ⟨body', hb, hres⟩ := hs
  cases hb
  rcases hres with h0 | ⟨q, hq, hk, hfrom, hmode⟩
  · rw [hnone h0]
    simp [Node.leaves, Node.leavesOpt]
  · obtain ⟨own, r', rfl, hb⟩ := hsome _ hq
    obtain ⟨d, rfl, hl⟩ := hb.query_inv hk
    obtain ⟨src, w, lim, as, allow, failed, h1, h2, _, _, _, _, _, _, _, _, _, hr⟩ := loadQuery_inv hl
    intro l hl'
    simp only [Node.leaves, Node.leavesOpt, List.mem_singleton] at hl'
    subst hl'
    refine ⟨_, d, rfl, ?_, ?_, ?_⟩
    · rw [hfrom] at h1
      cases h1
      have : parseSource "courses" = some .courses := by decide
      rw [this] at h2
      exact (Option.some.inj h2).symm
    · rw [hr]; simp only [hmode]
    · rw [hr]; simp only [hmode]

/-- the common rules one by one -/
theorem prepareCommonRules_inv {env : Env} {degree dept : Option String} {others : List AreaPointer} {code : String}
    {rules : List Node} (h : prepareCommonRules env degree dept others code = .ok rules) :
    ∀ i n, rules[i]? = some n → ∃ name spec, loadCommon env name spec i = .ok n ∧ SilentSpec spec := by
  unfold prepareCommonRules at h
  simp only [ld_bind_ok] at h
  obtain ⟨r0, h0, r1, h1, h⟩ := h
  have key : ∀ i n, ([r0, r1] : List Node)[i]? = some n → ∃ name spec, loadCommon env name spec i = .ok n ∧ SilentSpec spec := by
    intro i n hi
    match i, hi with
    | 0, hi => cases hi; exact ⟨_, _, h0, cOrBetter_silent⟩
    | 1, hi => cases hi; exact ⟨_, _, h1, su_silent _⟩
  split at h
  · cases h; exact key
  · simp only [ld_bind_ok] at h
    obtain ⟨r2, h2, h⟩ := h
    cases h
    intro i n hi
    match i, hi with
    | 0, hi => exact key 0 n hi
    | 1, hi => exact key 1 n hi
    | 2, hi => cases hi; exact ⟨_, _, h2, outside_silent _ _ _⟩

/-- the parts of loading an area -/
theorem loadArea_inv {c : Constants} {templates : List (String × TemplateCourse)} {st : Student} {es : List Exc} {all : Bool}
    {spec : Dict} {a : Area} (h : loadArea c templates st es all spec = .ok a) :
    ∃ emphases declared children data rule code dept,
      spec.dict "emphases" = .ok emphases ∧ declaredEmphases st emphases all = .ok declared ∧
      spec.dict "requirements" = .ok children ∧ spec.get? "result" = some data ∧
      Built ⟨loadCtx st es, c, templates⟩ children declared ["$"] data (some rule) ∧
      a.result = prepareRule (loadCtx st es) es rule ∧
      (∃ degree, spec.text "degree" = .ok degree ∧
        prepareCommonRules ⟨loadCtx st es, c, templates⟩ degree dept st.areas code = .ok a.commonRules) ∧
      (∃ t, spec.text "code" = .ok t ∧ code = t.getD "<null>") ∧
      dept = (st.areas.reverse.find? (fun p => p.code == code)).bind (·.dept) ∧
      loadLimits (loadCtx st es) c (spec.opt "limit") = .ok a.limit ∧ onlyKeys areaKeys spec = true := by
  unfold loadArea at h
  simp only [ld_bind_ok] at h
  obtain ⟨emphases, h1, _, _, h⟩ := h
  unfold loadAreaRules at h
  simp only [ld_bind_ok, ld_need] at h
  obtain ⟨code, h2, declared, h3, children, h4, data, h5, loaded, h6, h⟩ := h
  cases loaded with
  | none => cases h
  | some rule =>
    simp only [ld_bind_ok, ld_check_ok] at h
    obtain ⟨limit, h7, md, h8, multi, h9, _, h10, kind, h11, degree, h12, common, h13, h⟩ := h
    cases h
    exact ⟨emphases, declared, children, data, rule, _, _, h1, h3, h4, h5, loadRule_built _ h6, rfl,
      ⟨degree, h12, h13⟩, ⟨code, h2, rfl⟩, rfl, h7, h10⟩

theorem loaded_ctx {x : Ctx} {n : Node} (h : n.Loaded x) {es : List Exc} (hx : x.exceptions = groupExceptions es) :
    n.Loaded { exceptions := groupExceptions es } := Node.loaded_congr (by simpa using hx) n h

theorem loadArea_common {c : Constants} {templates : List (String × TemplateCourse)} {st : Student} {es : List Exc} {all : Bool}
    {spec : Dict} {a : Area} (h : loadArea c templates st es all spec = .ok a) :
    Node.LoadedList { exceptions := groupExceptions es } a.commonRules ∧
    ∀ l ∈ Node.leavesList a.commonRules, l.Silent := by
  obtain ⟨_, _, _, _, _, _, _, _, _, _, _, _, _, ⟨degree, _, hc⟩, _⟩ := loadArea_inv h
  have hi := prepareCommonRules_inv hc
  constructor
  · rw [Node.loadedList_iff]
    intro n hn
    obtain ⟨i, hn⟩ := List.mem_iff_getElem?.1 hn
    obtain ⟨name, spec, hl, _⟩ := hi i n hn
    exact loaded_ctx ((loadCommon_built hl).loaded n rfl).1 rfl
  · intro l hl
    obtain ⟨n, hn, hl⟩ := Node.mem_leavesList.1 hl
    obtain ⟨i, hn⟩ := List.mem_iff_getElem?.1 hn
    obtain ⟨name, spec, hc, hs⟩ := hi i n hn
    exact loadCommon_silent hc hs l hl

/-! ### C48 -/

/-- a rule's paths all begin with the first segment of its own path -/
theorem Built.first_segment {env : Env} {kids : Dict} {ems : List Dict} {p : Path} {y : Y} {n : Node}
    (h : Built env kids ems p y (some n)) {t : String} (ht : t.toList.head? = some '%') (hne : n.path ≠ p ++ [t]) :
    ∀ q ∈ n.allPaths, ¬ ∃ r, q = p ++ t :: r := by
  have key : ∀ {s : String} {q : Path}, s ≠ t → (∃ r, q = p ++ s :: r) → ¬ ∃ r, q = p ++ t :: r := by
    rintro s q hs h1 h2
    exact beneath_ne hs h1 h2 rfl
  have hd : ∀ s : String, s.toList.head? ≠ some '%' → s ≠ t := by
    rintro s h1 rfl
    exact h1 ht
  generalize ho : some n = o at h
  cases h with
  | prof hk h =>
    cases ho
    obtain ⟨name, c, _, _, rfl, hc⟩ := loadProficiency_inv h
    intro q hq
    have hs : (".proficiency=" ++ name : String) ≠ t := hd _ (by simp [String.toList_append])
    refine key hs ?_
    simp only [Node.allPaths, List.mem_cons] at hq
    rcases hq with rfl | hq
    · exact ⟨[], rfl⟩
    · cases c with
      | none => simp at hq
      | some c =>
        obtain ⟨_, cd, _, hl⟩ := hc c rfl
        obtain ⟨s, hs⟩ := loadCourse_path hl
        simp only [Option.map_some, Option.toList_some, List.mem_singleton] at hq
        exact ⟨["*" ++ s], by rw [hq, hs]; simp⟩
  | course hk h =>
    cases ho
    obtain ⟨s, hs⟩ := loadCourse_path h
    intro q hq
    simp only [Node.allPaths, List.mem_singleton] at hq
    subst hq
    exact key (s := "*" ++ s) (hd _ (by simp [String.toList_append])) ⟨[], hs⟩
  | query hk h =>
    cases ho
    obtain ⟨src, w, lim, as, allow, failed, _, _, _, _, _, has, _, _, _, _, _, hr⟩ := loadQuery_inv h
    obtain ⟨h1, _⟩ := assertions_paths (p := p ++ [".query"] ++ [".assertions"]) (fun i a hi => by
        simpa using loadQueryAssertions_inv has i a hi)
    intro q hq
    refine key (s := ".query") (hd _ (by decide)) ?_
    rw [hr] at hq
    simp only [Node.allPaths, List.mem_cons] at hq
    rcases hq with rfl | hq
    · exact ⟨[], rfl⟩
    · exact ((h1 q hq).of_append (canonical_one (seg_dot _ (by decide)))).exists
  | @cond _ _ _ d _ _ yt t f _ hk _ _ _ hyt hbt hbf hno _ =>
    split at ho
    · cases ho
    · cases ho
      intro q hq
      refine key (s := ".cond") (hd _ (by decide)) ?_
      simp only [Node.allPaths, List.mem_cons, List.mem_append] at hq
      have hsplit : ∀ s : String, p ++ [".cond", s] = p ++ [".cond"] ++ [s] := by intro s; simp
      rcases hq with rfl | hq | hq
      · exact ⟨[], rfl⟩
      · have := hbt.beneath t rfl q hq
        rw [hsplit] at this
        exact (this.of_append (canonical_one (seg_dot _ (by decide)))).exists
      · cases hf : f with
        | none => rw [hf] at hq; simp [Node.allPathsOpt] at hq
        | some f' =>
          rw [hf] at hq
          cases ho : Dict.opt d "$else" with
          | none => rw [hno ho] at hf; cases hf
          | some yf =>
            have := (hbf yf ho).beneath f' hf q hq
            rw [hsplit] at this
            exact (this.of_append (canonical_one (seg_dot _ (by decide)))).exists
  | @count _ _ _ d kids' listed expanded emItems inserts audits _ _ parts hk _ hlist hexp hem hins haud _ hparts hb _ _ _ =>
    cases ho
    obtain ⟨ha1, _⟩ := assertions_paths (p := p ++ [".count"] ++ [".audit"]) (fun i a hi => by
        simpa using loadAudits_inv haud i a hi)
    intro q hq
    refine key (s := ".count") (hd _ (by decide)) ?_
    simp only [Node.allPaths, List.mem_cons, List.mem_append, Node.allPathsList_eq, flatMap_filterMap] at hq
    rcases hq with rfl | hq | hq
    · exact ⟨[], rfl⟩
    · exact ((ha1 q hq).of_append (canonical_one (seg_dot _ (by decide)))).exists
    · obtain ⟨⟨y, n⟩, ht, hq⟩ := List.mem_flatMap.1 hq
      obtain ⟨i, hi⟩ := List.mem_iff_getElem?.1 ht
      cases n with
      | none => simp [Node.allPathsOpt] at hq
      | some n =>
        have := (hb i y _ hi).beneath n rfl q hq
        rw [show p ++ [".count", itemSeg i y] = p ++ [".count"] ++ [itemSeg i y] by simp] at this
        exact (this.of_append (canonical_one (itemSeg_canonical i y))).exists
  | @req kids _ _ d name body rd r hn _ hnone _ hb hex hpath _ _ _ _ _ _ _ _ =>
    cases ho
    intro q hq
    have hs : ("%" ++ name : String) ≠ t := by
      intro h
      apply hne
      simp only [Node.path]
      rw [hpath, h]
    refine key hs ?_
    simp only [Node.allPaths, List.mem_cons] at hq
    rcases hq with rfl | hq
    · exact ⟨[], hpath⟩
    · cases hr : r with
      | none => rw [hr] at hq; simp [Node.allPathsOpt] at hq
      | some r' =>
        rw [hr] at hq
        cases ho : Dict.opt body "result" with
        | none => rw [hnone ho] at hr; cases hr
        | some yr =>
          obtain ⟨own, hown, _⟩ := hex yr ho
          exact ((hb yr own ho hown).beneath r' hr q hq).exists

theorem declared_clean {st : Student} {emphases : Dict} {all : Bool} {declared : List Dict} (hc : Y.CleanDict emphases)
    (h : declaredEmphases st emphases all = .ok declared) : ∀ e ∈ declared, Y.CleanDict e := by
  unfold declaredEmphases at h
  intro e he
  obtain ⟨p, hp, hd⟩ := ld_mapE_mem h e he
  rw [ld_asDict] at hd
  have := cleanDict_mem hc p (List.mem_of_mem_filter hp)
  rw [hd] at this
  exact this

theorem SilentSpec.common_clean (name : String) {spec : Y} {env : Env} {i : Nat} {n : Node} (h : loadCommon env name spec i = .ok n)
    (hs : SilentSpec spec) : n.allPaths.Nodup := by
  obtain ⟨body, rd, r, rfl, rfl, hp, _, _, _, _, hnone, hsome⟩ := loadCommon_inv h
  obtain ⟨body', hb, hres⟩ := hs
  cases hb
  rcases hres with h0 | ⟨q, hq, hk, hfrom, hmode⟩
  · rw [hnone h0]
    simp [Node.allPaths, Node.allPathsOpt]
  · obtain ⟨own, r', rfl, hb⟩ := hsome _ hq
    have h1 := hb.beneath r' rfl
    obtain ⟨d, rfl, hl⟩ := hb.query_inv hk
    obtain ⟨src, w, lim, as, allow, failed, _, _, _, _, _, has, _, _, _, _, _, hr⟩ := loadQuery_inv hl
    obtain ⟨h2, h3⟩ := assertions_paths
      (p := ["$", "%Common Requirements", ".count", indexSeg i, "%" ++ name] ++ [".query"] ++ [".assertions"]) (fun i a hi => by
        simpa using loadQueryAssertions_inv has i a hi)
    simp only [Node.allPaths, Node.allPathsOpt, List.nodup_cons] at h1 ⊢
    refine ⟨?_, ?_, ?_⟩
    · intro hq
      rw [hp] at hq
      exact (h1 _ hq).ne rfl
    · rw [hr]
      intro hq
      exact ((h2 _ hq).of_append (canonical_one (seg_dot _ (by decide)))).ne rfl
    · rw [hr]; exact h3

/-- The text of an area does not use the key that the program itself puts on the items of
emphases, and the emphases that apply to the student add requirements of different names. -/
def TidyText (st : Student) (all : Bool) (spec : Dict) : Prop :=
  Y.CleanDict spec ∧ ∀ emphases declared, spec.dict "emphases" = .ok emphases →
    declaredEmphases st emphases all = .ok declared → (declared.flatMap emphasisNames).Nodup

theorem loadArea_nodup {c : Constants} {templates : List (String × TemplateCourse)} {st : Student} {es : List Exc}
    {all : Bool} {spec : Dict} {a : Area} (h : loadArea c templates st es all spec = .ok a)
    (htidy : TidyText st all spec) : a.result.allPaths.Nodup := by
  obtain ⟨emphases, declared, children, data, rule, code, dept, h1, h2, h3, h4, hb, hres, _⟩ := loadArea_inv h
  rw [hres, prepareRule_allPaths]
  exact hb.nodup (Or.inl (Y.clean_get htidy.1 h4)) (dict_clean htidy.1 h3)
    (declared_clean (dict_clean htidy.1 h1) h2) (htidy.2 emphases declared h1 h2) rule rfl

theorem loadArea_canonical {c : Constants} {templates : List (String × TemplateCourse)} {st : Student} {es : List Exc}
    {all : Bool} {spec : Dict} {a : Area} (h : loadArea c templates st es all spec = .ok a) :
    ∀ p ∈ a.result.allPaths, (∃ r, p = "$" :: r) ∧ CanonicalPath p := by
  obtain ⟨emphases, declared, children, data, rule, code, dept, h1, h2, h3, h4, hb, hres, _⟩ := loadArea_inv h
  rw [hres, prepareRule_allPaths]
  intro p hp
  obtain ⟨s, r, rfl, hc⟩ := hb.beneath rule rfl p hp
  refine ⟨⟨s :: r, rfl⟩, ?_⟩
  exact canonical_cons (seg_dot _ (by decide)) hc

/-- **C48.** Load an area from a text that does not use the program's reserved key and whose
declared emphases have distinct names.  Then no two of the rules and assertions of the area (its
own and the common ones) share a path, unless the whole area is one requirement called "Common
Requirements"; every path starts at the root `$` and is written in the one way that the ordering
of paths understands. -/
theorem C48_distinct_paths (c : Constants) (templates : List (String × TemplateCourse)) (st : Student) (es : List Exc)
    (all : Bool) (spec : Dict) (a : Area) (h : loadArea c templates st es all spec = .ok a)
    (htidy : TidyText st all spec)
    (hcommon : a.result.path ≠ ["$", "%Common Requirements"]) :
    (a.result.allPaths ++ Node.allPathsList a.commonRules).Nodup ∧
    ∀ p ∈ a.result.allPaths ++ Node.allPathsList a.commonRules, (∃ r, p = "$" :: r) ∧ CanonicalPath p := by
  obtain ⟨emphases, declared, children, data, rule, code, dept, h1, h2, h3, h4, hb, hres, ⟨degree, _, hcr⟩, _⟩ := loadArea_inv h
  have hpaths : a.result.allPaths = rule.allPaths := by rw [hres, prepareRule_allPaths]
  have hcanon : ∀ {p q}, Beneath p q → CanonicalPath p → CanonicalPath q := by
    rintro p q ⟨s, r, rfl, hc⟩ hp
    intro t ht
    rcases List.mem_append.1 ht with ht | ht
    · exact hp t ht
    · exact hc t ht
  have hi := prepareCommonRules_inv hcr
  have hcb : ∀ i n, a.commonRules[i]? = some n →
      ∀ q ∈ n.allPaths, Beneath ["$", "%Common Requirements", ".count", indexSeg i] q := by
    intro i n hn
    obtain ⟨name, spec, hl, _⟩ := hi i n hn
    exact (loadCommon_built hl).beneath n rfl
  constructor
  · rw [List.nodup_append]
    refine ⟨?_, ?_, ?_⟩
    · exact loadArea_nodup h htidy
    · rw [Node.allPathsList_eq, List.nodup_flatMap]
      constructor
      · intro n hn
        obtain ⟨i, hn⟩ := List.mem_iff_getElem?.1 hn
        obtain ⟨name, spec, hl, hs⟩ := hi i n hn
        exact hs.common_clean name hl
      · rw [List.pairwise_iff_getElem]
        intro i j hi' hj hij q hq1 hq2
        have b1 := hcb i _ (List.getElem?_eq_getElem hi') q hq1
        have b2 := hcb j _ (List.getElem?_eq_getElem hj) q hq2
        have hsp : ∀ s : String, (["$", "%Common Requirements", ".count", s] : Path) =
          ["$", "%Common Requirements", ".count"] ++ [s] := fun s => rfl
        rw [hsp] at b1 b2
        exact beneath_ne (fun he => by have := indexSeg_inj he; omega) b1.exists b2.exists rfl
    · intro q hq q' hq' he
      subst he
      rw [Node.allPathsList_eq] at hq'
      obtain ⟨n, hn, hq'⟩ := List.mem_flatMap.1 hq'
      obtain ⟨i, hn⟩ := List.mem_iff_getElem?.1 hn
      obtain ⟨s, r, hr, _⟩ := hcb i n hn q hq'
      have hne : rule.path ≠ ["$"] ++ ["%Common Requirements"] := by
        intro he
        apply hcommon
        obtain ⟨l, hl⟩ := a.result.path_mem_allPaths
        obtain ⟨l', hl'⟩ := rule.path_mem_allPaths
        rw [hl, hl'] at hpaths
        rw [(List.cons.inj hpaths).1, he]
        rfl
      refine hb.first_segment (t := "%Common Requirements") (by decide) hne q (hpaths ▸ hq)
        ⟨".count" :: indexSeg i :: s :: r, ?_⟩
      rw [hr]
      rfl
  · intro p hp
    rcases List.mem_append.1 hp with hp | hp
    · exact loadArea_canonical h p hp
    · rw [Node.allPathsList_eq] at hp
      obtain ⟨n, hn, hp⟩ := List.mem_flatMap.1 hp
      obtain ⟨i, hn⟩ := List.mem_iff_getElem?.1 hn
      have := hcb i n hn p hp
      refine ⟨?_, hcanon this ?_⟩
      · obtain ⟨s, r, rfl, _⟩ := this
        exact ⟨_, rfl⟩
      · exact canonical_cons (seg_dot _ (by decide)) (canonical_cons (seg_dot _ (by decide))
          (canonical_cons (seg_dot _ (by decide)) (canonical_one (indexSeg_canonical i))))

/-- A text for the examples: a major with a core, electives, and an emphasis. -/
def sampleText : Dict :=
  [("name", .str "Computer Science"), ("type", .str "major"), ("degree", .str "B.A."), ("code", .str "740"),
   ("result", .map [("all", .list [.map [("requirement", .str "Core")], .map [("requirement", .str "Electives")]])]),
   ("requirements", .map [
     ("Core", .map [("result", .map [("all", .list [.map [("course", .str "CSCI 121")],
        .map [("either", .list [.map [("course", .str "CSCI 221")], .map [("course", .str "CSCI 251")]])]])])]),
     ("Electives", .map [("result", .map [("from", .str "courses"),
        ("where", .map [("subject", .map [("$eq", .str "CSCI")])]),
        ("assert", .map [("count(courses)", .map [("$gte", .int 2)])])])])]),
   ("emphases", .map [("1", .map [("name", .str "Theory"), ("code", .str "1"),
      ("result", .map [("all", .list [.map [("requirement", .str "Logic")]])]),
      ("requirements", .map [("Logic", .map [("result", .map [("any", .list [.map [("course", .str "MATH 252")]])])])])])])]

/-- A student with the emphasis. -/
def sampleStudent : Student :=
  { areas := [{ code := "740", kind := "major", dept := some "CSCI" }, { code := "1", kind := "Emphasis" }] }

/-- the paths of an area, if it can be loaded -/
def loadedPaths (a : Except Err Area) : Option (List Path) :=
  match a with
  | .ok a => some (a.result.allPaths ++ Node.allPathsList a.commonRules)
  | .error _ => none

/-- Non-trivial case for C48: the paths of the sample's own rules, with an emphasis; nine more are
those of the common requirements. -/
example : (loadedPaths (loadArea {} [] sampleStudent [] false sampleText)).map (fun l => (l.take 13, l.length)) = some
    ([["$", ".count"], ["$", ".count", "[0]", "%Core"], ["$", ".count", "[0]", "%Core", ".count"],
      ["$", ".count", "[0]", "%Core", ".count", "[0]", "*CSCI 121"],
      ["$", ".count", "[0]", "%Core", ".count", "[1]", ".count"],
      ["$", ".count", "[0]", "%Core", ".count", "[1]", ".count", "[0]", "*CSCI 221"],
      ["$", ".count", "[0]", "%Core", ".count", "[1]", ".count", "[1]", "*CSCI 251"],
      ["$", ".count", "[1]", "%Electives"], ["$", ".count", "[1]", "%Electives", ".query"],
      ["$", ".count", "[1]", "%Electives", ".query", ".assertions", "[0]", ".assert"],
      ["$", ".count", ".emphasis", "%Emphasis: Theory → Logic"],
      ["$", ".count", ".emphasis", "%Emphasis: Theory → Logic", ".count"],
      ["$", ".count", ".emphasis", "%Emphasis: Theory → Logic", ".count", "[0]", "*MATH 252"]], 22) := by
  decide +kernel

example : TidyText sampleStudent false sampleText := by
  refine ⟨by simp [sampleText, Y.CleanDict, Y.Clean, Y.CleanList], ?_⟩
  intro emphases declared h1 h2
  have h1' : Dict.dict sampleText "emphases" = .ok [("1", .map [("name", .str "Theory"), ("code", .str "1"),
      ("result", .map [("all", .list [.map [("requirement", .str "Logic")]])]),
      ("requirements", .map [("Logic", .map [("result", .map [("any", .list [.map [("course", .str "MATH 252")]])])])])])] := rfl
  rw [h1'] at h1
  cases h1
  have h2' : declaredEmphases sampleStudent [("1", .map [("name", .str "Theory"), ("code", .str "1"),
      ("result", .map [("all", .list [.map [("requirement", .str "Logic")]])]),
      ("requirements", .map [("Logic", .map [("result", .map [("any", .list [.map [("course", .str "MATH 252")]])])])])])] false =
      .ok [[("name", .str "Theory"), ("code", .str "1"),
      ("result", .map [("all", .list [.map [("requirement", .str "Logic")]])]),
      ("requirements", .map [("Logic", .map [("result", .map [("any", .list [.map [("course", .str "MATH 252")]])])])])]] := rfl
  rw [h2'] at h2
  cases h2
  decide +kernel

/-- Why C48 asks for distinct names: two emphases of one name get the same place, and so do all
their rules. -/
theorem C48_equal_emphases_refuted : ∃ (st : Student) (spec : Dict) (l : List Path), Y.CleanDict spec ∧
    loadedPaths (loadArea {} [] st [] false spec) = some l ∧ ¬ l.Nodup := by
  let emphasis : Y := .map [("name", .str "Theory"),
      ("result", .map [("all", .list [.map [("course", .str "MATH 252")], .map [("course", .str "MATH 244")]])]),
      ("requirements", .map [])]
  let spec : Dict := [("name", .str "Computer Science"), ("type", .str "major"), ("degree", .str "B.A."), ("code", .str "740"),
   ("result", .map [("all", .list [.map [("course", .str "CSCI 121")]])]),
   ("emphases", .map [("1", emphasis), ("2", emphasis)])]
  let st : Student :=
    { areas := [{ code := "740", kind := "major", dept := some "CSCI" }, { code := "1", kind := "Emphasis" },
                { code := "2", kind := "Emphasis" }] }
  refine ⟨st, spec, ((loadedPaths (loadArea {} [] st [] false spec)).getD []), ?_, ?_, ?_⟩
  · simp [spec, emphasis, Y.CleanDict, Y.Clean, Y.CleanList]
  · decide +kernel
  · decide +kernel

/-- Why C48 excepts an area that is one requirement of that name: the first of its rules has the
path of the first common requirement. -/
theorem C48_common_name_refuted : ∃ (st : Student) (spec : Dict) (l : List Path), TidyText st false spec ∧
    loadedPaths (loadArea {} [] st [] false spec) = some l ∧ ¬ l.Nodup := by
  let spec : Dict := [("name", .str "Computer Science"), ("type", .str "major"), ("degree", .str "B.A."), ("code", .str "740"),
   ("result", .map [("requirement", .str "Common Requirements")]),
   ("requirements", .map [("Common Requirements", .map [("result", .map [("all", .list
      [.map [("requirement", .str "Credits at a C or higher")]])]),
      ("requirements", .map [("Credits at a C or higher", .map [("result", .map [("all", .list
        [.map [("course", .str "CSCI 121")]])])])])])])]
  refine ⟨{}, spec, ((loadedPaths (loadArea {} [] {} [] false spec)).getD []), ⟨?_, ?_⟩, ?_, ?_⟩
  · simp [spec, Y.CleanDict, Y.Clean, Y.CleanList]
  · intro emphases declared h1 h2
    have h1' : Dict.dict spec "emphases" = .ok [] := rfl
    rw [h1'] at h1
    cases h1
    have h2' : declaredEmphases {} [] false = .ok [] := rfl
    rw [h2'] at h2
    cases h2
    decide
  · decide +kernel
  · decide +kernel

end Dp
