import Verif.Props.Json

/-
A result has the paths of its rule, each once.
-/
namespace Dp

theorem Assertion.audit_samePath {x : Ctx} {a b : Assertion} {data : List Item} (h : a.audit x data = .ok b) : b.path = a.path := by
  unfold Assertion.audit at h
  split at h
  · cases h; rfl
  dsimp only at h
  split at h
  · cases h
  split at h
  · cases h
  split at h
  · cases h
  split at h
  · cases h
  cases h
  rfl

theorem AnyAssertion.audit_samePaths {x : Ctx} {a b : AnyAssertion} {data : List Item} (h : a.audit x data = .ok b) :
    b.paths = a.paths := by
  unfold AnyAssertion.audit at h
  split at h
  · split at h
    · cases h
    rename_i h1
    cases h
    simp [AnyAssertion.paths, Assertion.audit_samePath h1]
  · split at h
    · cases h
    rename_i h1
    cases h
    simp [AnyAssertion.paths, Assertion.audit_samePath h1]
  · split at h
    · cases h
    rename_i h1
    cases h
    simp [AnyAssertion.paths, Assertion.audit_samePath h1]
  · cases h; rfl
  · cases h
  · split at h
    · cases h
    split at h
    · split at h
      · cases h
      rename_i h1
      cases h
      simp [AnyAssertion.paths, Assertion.audit_samePath h1]
    · cases h; rfl

theorem auditAssertions_samePaths {x : Ctx} {data : List Item} : ∀ {l as : List AnyAssertion},
    auditAssertions x data l = .ok as → as.flatMap AnyAssertion.paths = l.flatMap AnyAssertion.paths
  | [], as, h => by cases h; rfl
  | a :: l, as, h => by
    unfold auditAssertions at h
    split at h
    · cases h
    rename_i h1
    split at h
    · cases h
    rename_i as' h2
    cases h
    simp [AnyAssertion.audit_samePaths h1, auditAssertions_samePaths h2]

theorem query_samePaths {x : Ctx} {o : Orders} (ho : o.Lawful) {st : Stage} {d s r : QueryData} {t t' : ClaimTable} (hs : s ∈ (querySolutions x o d).items)
    (ha : queryAudit x s t = .ok (r, t')) : (Node.query .result r).allPaths = (Node.query st d).allPaths := by
  have h1 : s.path = d.path ∧ s.assertions = d.assertions := by
    rcases querySolutions_cases ho hs with ⟨_, rfl⟩ | ⟨_, f, _, out, rfl, _⟩ <;> exact ⟨rfl, rfl⟩
  unfold queryAudit at ha
  split at ha
  · cases ha
    simp [Node.allPaths, h1]
  split at ha
  · cases ha
  dsimp only at ha
  split at ha
  · cases ha
  rename_i as has
  cases ha
  simp only [Node.allPaths, ← h1.1, ← h1.2]
  congr 1
  split at has
  · cases has; rfl
  · exact auditAssertions_samePaths has

mutual
/-- a result has the paths of its rule -/
theorem Node.becomes_allPaths {x : Ctx} {o : Orders} (ho : o.Lawful) : ∀ n : Node, (∀ m ∈ n.within, ItemsApart m) → ∀ r,
    Becomes x o n r → r.allPaths.Perm n.allPaths
  | .course st d, ha, r, h => by
    cases h with
    | rule => exact .refl _
    | course hs h' =>
      simp only [Node.allPaths]
      rw [(courseAudit_fields h').1, courseSolutions_path hs]
  | .query st d, ha, r, h => by
    cases h with
    | rule => exact .refl _
    | query hs h' => rw [query_samePaths ho hs h']
  | .prof st d c, ha, r, h => by
    cases h with
    | rule => exact .refl _
    | profWaived => exact .refl _
    | profNone => exact .refl _
    | prof h1 h2 h3 =>
      simp only [Node.allPaths, Option.map_some, Option.toList]
      rw [(courseAudit_fields h3).1, courseSolutions_path (by rw [h2]; simp)]
  | .count st d items, ha, r, h => by
    have ih := Node.becomes_allPathsList (x := x) ho items (fun m hm => ha m (by simp [Node.within, hm]))
    cases h with
    | rule => exact .refl _
    | countWaived => exact .refl _
    | @count _ _ _ rs as f h1 h2 hperm has =>
      obtain ⟨hcan, hnd⟩ := ha _ (Node.self_within _)
      have hp := hperm hcan hnd
      have hpaths : rs.map Node.path = (rs.map f).map Node.path := by
        rw [List.map_map]
        exact List.map_congr_left (fun r hr => (h2 r hr).path_eq ho)
      have hfi : (rs.map f).Perm items := by
        rw [hpaths] at hp
        have hsub : ∀ i ∈ rs.map f, i ∈ items := by
          intro i hi
          obtain ⟨r, hr, rfl⟩ := List.mem_map.1 hi
          exact h1 r hr
        have hnd' : (rs.map f).Nodup := (hp.nodup_iff.2 hnd).of_map
        refine (List.perm_ext_iff_of_nodup hnd' hnd.of_map).2 (fun i => ⟨hsub i, fun hi => ?_⟩)
        obtain ⟨j, hj, hji⟩ := List.mem_map.1 (hp.mem_iff.2 (List.mem_map_of_mem hi))
        have : j = i := List.inj_on_of_nodup_map hnd (hsub j hj) hi hji
        exact this ▸ hj
      simp only [Node.allPaths, Node.allPathsList_eq]
      refine .cons _ ?_
      rw [auditAssertions_samePaths has]
      refine .append_left _ (List.Perm.trans ?_ (hfi.flatMap_right _))
      rw [List.flatMap_map]
      exact List.Perm.flatMap_left rs (fun r hr => ih _ (h1 r hr) r (h2 r hr))
  | .req st d c, ha, r, h => by
    have ih := Node.becomes_allPathsOpt (x := x) ho c (fun m hm => ha m (by simp [Node.within, hm]))
    cases h with
    | rule => exact .refl _
    | reqWaived => exact .refl _
    | reqNone => exact .refl _
    | req h =>
      simp only [Node.allPaths]
      exact .cons _ (ih _ rfl _ h)
  | .cond st d t f, ha, r, h => by
    have iht := Node.becomes_allPaths (x := x) ho t (fun m hm => ha m (by simp [Node.within, hm]))
    have ihf := Node.becomes_allPathsOpt (x := x) ho f (fun m hm => ha m (by simp [Node.within, hm]))
    cases h with
    | rule => exact .refl _
    | condTrue _ hb =>
      simp only [Node.allPaths]
      exact .cons _ ((iht _ hb).append_right _)
    | condFalse _ hb =>
      simp only [Node.allPaths]
      exact .cons _ (.append_left _ (ihf _ rfl _ hb))
theorem Node.becomes_allPathsList {x : Ctx} {o : Orders} (ho : o.Lawful) : ∀ ns : List Node,
    (∀ m ∈ Node.withinList ns, ItemsApart m) → ∀ n ∈ ns, ∀ r, Becomes x o n r → r.allPaths.Perm n.allPaths
  | [], _ => by simp
  | n :: ns, ha => by
    have h1 := Node.becomes_allPaths (x := x) ho n (fun m hm => ha m (by simp [Node.withinList, hm]))
    have h2 := Node.becomes_allPathsList (x := x) ho ns (fun m hm => ha m (by simp [Node.withinList, hm]))
    intro i hi
    rcases List.mem_cons.1 hi with rfl | hi
    · exact h1
    · exact h2 i hi
theorem Node.becomes_allPathsOpt {x : Ctx} {o : Orders} (ho : o.Lawful) : ∀ c : Option Node,
    (∀ m ∈ Node.withinOpt c, ItemsApart m) → ∀ n, c = some n → ∀ r, Becomes x o n r → r.allPaths.Perm n.allPaths
  | none, _ => by simp
  | some n, ha => by
    have h1 := Node.becomes_allPaths (x := x) ho n ha
    rintro _ h
    cases h
    exact h1
end

/-! ### The common requirements -/

theorem commonItems_pairs {claimed whole : Ctx} {o : Orders} {rules rs : List Node}
    (h : commonItems claimed whole o rules = .ok rs) :
    ∃ rules', rules'.Sublist rules ∧
      List.Forall₂ (fun rule r => ∃ x, (x = claimed ∨ x = whole) ∧ ∃ t, findBest x o rule [] false = .ok (some r, t)) rules' rs := by
  have key : ∀ {x rule r}, commonResult x o rule = .ok r → ∃ t, findBest x o rule [] false = .ok (some r, t) := by
    intro x rule r h
    unfold commonResult at h
    split at h
    · cases h
    · cases h
    · rename_i r' t hb
      cases h
      exact ⟨t, hb⟩
  unfold commonItems at h
  split at h
  · cases h
  · cases h
  rename_i r0 r1 rest
  split at h
  · cases h
  rename_i c0 h0
  split at h
  · cases h
  rename_i c1 h1
  split at h
  · cases h
    exact ⟨[r0, r1], .refl _, .cons ⟨_, .inl rfl, key h0⟩ (.cons ⟨_, .inl rfl, key h1⟩ .nil)⟩
  · rename_i r2 rest'
    split at h
    · cases h
    rename_i c2 h2
    cases h
    exact ⟨[r0, r1, r2], ((List.nil_sublist rest').cons₂ r2).cons₂ r1 |>.cons₂ r0,
      .cons ⟨_, .inl rfl, key h0⟩ (.cons ⟨_, .inl rfl, key h1⟩ (.cons ⟨_, .inr rfl, key h2⟩ .nil))⟩

theorem forall₂_leftMem {α β : Type} {R S : α → β → Prop} {l : List α} {l' : List β} (h : List.Forall₂ R l l')
    (hi : ∀ a b, a ∈ l → R a b → S a b) : List.Forall₂ S l l' := by
  induction h with
  | nil => exact .nil
  | cons h _ ih => exact .cons (hi _ _ List.mem_cons_self h) (ih (fun a b ha => hi a b (List.mem_cons_of_mem _ ha)))

/-- the common requirements of a result and the rules they come from -/
theorem area_common_pairs {o : Orders} (ho : o.Lawful) {a : Area} {st : Student} {es : List Exc}
    (hcl : Node.LoadedList { exceptions := groupExceptions es } a.commonRules)
    {s : AreaSolution} (hs : s ∈ (a.solutions o st es).items) {r : AreaResult} (ha : s.audit o a = .ok r) (hk : a.kind = "major")
    {d : CountData} {items : List Node} {rd : ReqData} {cd : CountData} {citems : List Node}
    (hr : r.result = .count .result d (items ++ [.req .result rd (some (.count .result cd citems))])) :
    ∃ rules', rules'.Sublist a.commonRules ∧ List.Forall₂ (fun rule r => ∃ x, Becomes x o rule r) rules' citems := by
  obtain ⟨tr, htr, t0, hctx, hsol⟩ := Area.solutions_mem hs
  unfold AreaSolution.audit at ha
  split at ha
  · cases ha
  rw [if_pos hk] at ha
  split at ha
  · cases ha
  rename_i common hcommon
  split at ha
  · rename_i d' items'
    cases ha
    have he := (Node.count.inj hr).2.2
    have he2 := List.append_inj' he rfl
    rw [hctx] at hcommon
    unfold auditCommon at hcommon
    split at hcommon
    · cases hcommon
    split at hcommon
    · cases hcommon
    rename_i ins hins
    dsimp only at hcommon
    split at hcommon
    · cases hcommon
    rename_i citems' hcitems
    cases hcommon
    have he3 := (List.cons.inj he2.2).1
    have he4 := Option.some.inj (Node.req.inj he3).2.2
    have he5 := (Node.count.inj he4).2.2
    subst he5
    obtain ⟨rules', hsub, hp⟩ := commonItems_pairs hcitems
    refine ⟨rules', hsub, ?_⟩
    have hl' : ∀ rule ∈ rules', rule.Loaded { exceptions := groupExceptions es } :=
      fun rule hrule => Node.loadedList_iff.1 hcl rule (hsub.subset hrule)
    refine forall₂_leftMem hp ?_
    rintro rule c hrule ⟨x, hx, t, hb⟩
    obtain ⟨s', hs', t2, hs''⟩ := findBest_mem hb
    refine ⟨x, Node.outcomes x o ho rule (Node.loaded_congr ?_ _ (hl' rule hrule)) c ⟨s', hs', _, _, hs''⟩⟩
    rcases hx with rfl | rfl <;> rfl
  · cases ha

theorem apart_of_nodup {n : Node} (hnd : n.allPaths.Nodup) (hc : ∀ p ∈ n.allPaths, CanonicalPath p) :
    ∀ m ∈ n.within, ItemsApart m := by
  intro m hm
  cases m with
  | count stage d items =>
    have hitems : (items.map Node.path).Sublist (Node.count stage d items).allPaths := by
      simp only [Node.allPaths]
      exact ((Node.paths_sublist items).trans (List.sublist_append_right _ _)).cons _
    have hsub := hitems.trans (Node.within_paths _ _ hm)
    exact ⟨fun i hi => hc _ (hsub.subset (List.mem_map_of_mem hi)), hnd.sublist hsub⟩
  | _ => trivial

/-- no path of the result of a loaded area occurs twice, and none is the root alone -/
theorem result_paths {c : Constants} {templates : List (String × TemplateCourse)} {st : Student} {es : List Exc}
    {all : Bool} {spec : Dict} {a : Area} (h : loadArea c templates st es all spec = .ok a) (htidy : TidyText st all spec)
    (hcommon : a.result.path ≠ ["$", "%Common Requirements"]) {o : Orders} (ho : o.Lawful) {s : AreaSolution}
    (hs : s ∈ (a.solutions o st es).items) {r : AreaResult} (ha : s.audit o a = .ok r) :
    (["$"] :: r.result.allPaths).Nodup := by
  obtain ⟨hnd, hcan⟩ := C48_distinct_paths c templates st es all spec a h htidy hcommon
  obtain ⟨emphases, declared, children, data, rule, code, dept, h1, h2, h3, h4, hb, hres, ⟨degree, _, hcr⟩, _⟩ := loadArea_inv h
  have hpaths : a.result.allPaths = rule.allPaths := by rw [hres, prepareRule_allPaths]
  have hi := prepareCommonRules_inv hcr
  have hcb : ∀ n ∈ a.commonRules, ∀ q ∈ n.allPaths, ∃ t rest, q = "$" :: "%Common Requirements" :: ".count" :: t :: rest := by
    intro n hn q hq
    obtain ⟨i, hn⟩ := List.mem_iff_getElem?.1 hn
    obtain ⟨name, spec, hl, _⟩ := hi i n hn
    obtain ⟨s, r, rfl, _⟩ := (loadCommon_built hl).beneath n rfl q hq
    exact ⟨_, _, rfl⟩
  have hne : rule.path ≠ ["$"] ++ ["%Common Requirements"] := by
    intro he
    apply hcommon
    obtain ⟨l, hl⟩ := a.result.path_mem_allPaths
    obtain ⟨l', hl'⟩ := rule.path_mem_allPaths
    rw [hl, hl'] at hpaths
    rw [(List.cons.inj hpaths).1, he]
    rfl
  have hfirst : ∀ q ∈ a.result.allPaths, ∀ rest, q ≠ "$" :: "%Common Requirements" :: rest := by
    intro q hq rest he
    exact hb.first_segment (t := "%Common Requirements") (by decide) hne q (hpaths ▸ hq) ⟨rest, he⟩
  have hroot : ∀ q ∈ a.result.allPaths, q ≠ ["$"] := by
    intro q hq he
    obtain ⟨s, r, hr, _⟩ := hb.beneath rule rfl q (hpaths ▸ hq)
    rw [he] at hr
    simp at hr
  have hand := List.nodup_append.1 hnd
  obtain ⟨tr, _, _, _, _, r0, hbec, hr⟩ := area_outcome ho (loadArea_loaded h).1 (loadArea_common h).1 hs ha
  have hown := Node.becomes_allPaths ho a.result (apart_of_nodup hand.1
    (fun p hp => (hcan p (List.mem_append_left _ hp)).2)) r0 hbec
  rcases hr with ⟨hk, hr⟩ | ⟨hk, d, items, nm, citems, rfl, hr, -⟩
  · rw [hr, List.nodup_cons]
    exact ⟨fun hm => hroot _ (hown.mem_iff.1 hm) rfl, hown.nodup_iff.2 hand.1⟩
  · obtain ⟨rules', hsub, hp⟩ := area_common_pairs ho (loadArea_common h).1 hs ha hk hr
    have hcp : (Node.allPathsList citems).Perm (Node.allPathsList rules') := by
      have hrs : ∀ n ∈ rules', ∀ m ∈ n.within, ItemsApart m := by
        intro n hn
        have hn' := hsub.subset hn
        have hmem : ∀ q ∈ n.allPaths, q ∈ Node.allPathsList a.commonRules := by
          intro q hq
          rw [Node.allPathsList_eq]
          exact List.mem_flatMap.2 ⟨n, hn', hq⟩
        refine apart_of_nodup ?_ (fun p hp => (hcan p (List.mem_append_right _ (hmem p hp))).2)
        have := hand.2.1
        rw [Node.allPathsList_eq, List.nodup_flatMap] at this
        exact this.1 n hn'
      clear hsub hr
      induction hp with
      | nil => exact .refl _
      | cons hx _ ih =>
        obtain ⟨x, hx⟩ := hx
        simp only [Node.allPathsList]
        exact (Node.becomes_allPaths ho _ (hrs _ List.mem_cons_self) _ hx).append
          (ih (fun n hn => hrs n (List.mem_cons_of_mem _ hn)))
    have hcsub : (Node.allPathsList rules').Sublist (Node.allPathsList a.commonRules) := by
      rw [Node.allPathsList_eq, Node.allPathsList_eq]
      exact hsub.flatMap _
    have hcnd : (Node.allPathsList citems).Nodup := hcp.nodup_iff.2 (hand.2.1.sublist hcsub)
    have hcmem : ∀ q ∈ Node.allPathsList citems, ∃ t rest, q = "$" :: "%Common Requirements" :: ".count" :: t :: rest := by
      intro q hq
      have := hcsub.subset (hcp.mem_iff.1 hq)
      rw [Node.allPathsList_eq] at this
      obtain ⟨n, hn, hq⟩ := List.mem_flatMap.1 this
      exact hcb n hn q hq
    have hsplit : r.result.allPaths.Perm ((Node.count .result d items).allPaths ++
        ["$", "%Common Requirements"] :: ["$", "%Common Requirements", ".count"] :: Node.allPathsList citems) := by
      rw [hr]
      simp [Node.allPaths, Node.allPathsList_eq, Node.allPathsOpt]
    rw [List.nodup_cons]
    constructor
    · intro hm
      rcases List.mem_append.1 (hsplit.mem_iff.1 hm) with hm | hm
      · exact hroot _ (hown.mem_iff.1 hm) rfl
      · simp only [List.mem_cons] at hm
        rcases hm with hm | hm | hm
        · cases hm
        · cases hm
        · obtain ⟨t, rest, he⟩ := hcmem _ hm
          cases he
    · refine hsplit.nodup_iff.2 (List.nodup_append.2 ⟨hown.nodup_iff.2 hand.1, ?_, ?_⟩)
      · simp only [List.nodup_cons, List.mem_cons]
        refine ⟨?_, ?_, hcnd⟩
        · rintro (h | h)
          · cases h
          · obtain ⟨t, rest, he⟩ := hcmem _ h
            cases he
        · intro h
          obtain ⟨t, rest, he⟩ := hcmem _ h
          cases he
      · intro q hq q' hq' he
        subst he
        have hq := hfirst q (hown.mem_iff.1 hq)
        simp only [List.mem_cons] at hq'
        rcases hq' with rfl | rfl | hq'
        · exact hq _ rfl
        · exact hq _ rfl
        · obtain ⟨t, rest, he⟩ := hcmem _ hq'
          exact hq _ he

/-! ### C93: the paths of a document -/

/-- the assertions in an assertion -/
def AnyAssertion.heads : AnyAssertion → List Assertion
  | .single a => [a]
  | .cond _ t f => t :: f.toList
  | .dyn _ _ t => [t]

mutual
/-- the parts of a tree and their assertions, in the order of `allPaths` -/
def Node.marks : Node → List (Node ⊕ Assertion)
  | .course s d => [.inl (.course s d)]
  | .query s d => .inl (.query s d) :: (d.assertions.flatMap AnyAssertion.heads).map .inr
  | .count s d items => .inl (.count s d items) :: ((d.audits.flatMap AnyAssertion.heads).map .inr ++ Node.marksList items)
  | .req s d r => .inl (.req s d r) :: Node.marksOpt r
  | .cond s d t f => .inl (.cond s d t f) :: (t.marks ++ Node.marksOpt f)
  | .prof s d c => .inl (.prof s d c) :: (c.map (fun q => .inl (.course q.1 q.2))).toList
/-- of all items -/
def Node.marksList : List Node → List (Node ⊕ Assertion)
  | [] => []
  | n :: ns => n.marks ++ Node.marksList ns
/-- of an optional rule -/
def Node.marksOpt : Option Node → List (Node ⊕ Assertion)
  | none => []
  | some n => n.marks
end

/-- the path of a part or of an assertion -/
def markPath : Node ⊕ Assertion → Path
  | .inl n => n.path
  | .inr a => a.path

theorem heads_paths (l : List AnyAssertion) :
    ((l.flatMap AnyAssertion.heads).map (Sum.inr : Assertion → Node ⊕ Assertion)).map markPath = l.flatMap AnyAssertion.paths := by
  induction l with
  | nil => rfl
  | cons b l ih =>
    simp only [List.flatMap_cons, List.map_append, ih]
    congr 1
    cases b with
    | single a => rfl
    | cond c t f => cases f <;> rfl
    | dyn c r t => rfl

mutual
theorem Node.marks_paths : ∀ n : Node, n.marks.map markPath = n.allPaths
  | .course s d => rfl
  | .query s d => by simp only [Node.marks, Node.allPaths, List.map_cons, heads_paths]; rfl
  | .count s d items => by
    simp only [Node.marks, Node.allPaths, List.map_cons, List.map_append, heads_paths, Node.marks_pathsList items]; rfl
  | .req s d r => by simp only [Node.marks, Node.allPaths, List.map_cons, Node.marks_pathsOpt r]; rfl
  | .cond s d t f => by
    simp only [Node.marks, Node.allPaths, List.map_cons, List.map_append, Node.marks_paths t, Node.marks_pathsOpt f]; rfl
  | .prof s d c => by cases c <;> rfl
theorem Node.marks_pathsList : ∀ ns : List Node, (Node.marksList ns).map markPath = Node.allPathsList ns
  | [] => rfl
  | n :: ns => by simp only [Node.marksList, Node.allPathsList, List.map_append, Node.marks_paths n, Node.marks_pathsList ns]
theorem Node.marks_pathsOpt : ∀ n : Option Node, (Node.marksOpt n).map markPath = Node.allPathsOpt n
  | none => rfl
  | some n => Node.marks_paths n
end

theorem BranchOf.mem {b : AnyAssertion} {a : Assertion} (h : BranchOf b a) : a ∈ b.heads := by
  cases h <;> simp [AnyAssertion.heads]

theorem AssertionAt.mem {m : Node} {a : Assertion} (h : AssertionAt m a) : .inr a ∈ m.marks := by
  cases h with
  | query hb ha =>
    simp only [Node.marks, List.mem_cons]
    exact .inr (List.mem_map_of_mem (List.mem_flatMap.2 ⟨_, hb, ha.mem⟩))
  | count hb ha =>
    simp only [Node.marks, List.mem_cons, List.mem_append]
    exact .inr (.inl (List.mem_map_of_mem (List.mem_flatMap.2 ⟨_, hb, ha.mem⟩)))

theorem Node.self_marks (n : Node) : .inl n ∈ n.marks := by cases n <;> simp [Node.marks]

mutual
theorem Node.within_marks : ∀ n m : Node, m ∈ n.within → ∀ k ∈ m.marks, k ∈ n.marks
  | .course s d, m, h, k, hk => by simp only [Node.within, List.mem_singleton] at h; subst h; exact hk
  | .query s d, m, h, k, hk => by simp only [Node.within, List.mem_singleton] at h; subst h; exact hk
  | .count s d items, m, h, k, hk => by
    simp only [Node.within, List.mem_cons] at h
    have ih := Node.within_marksList items m
    rcases h with rfl | h
    · exact hk
    · simp only [Node.marks, List.mem_cons, List.mem_append]
      exact .inr (.inr (ih h k hk))
  | .req s d r, m, h, k, hk => by
    simp only [Node.within, List.mem_cons] at h
    have ih := Node.within_marksOpt r m
    rcases h with rfl | h
    · exact hk
    · simp only [Node.marks, List.mem_cons]
      exact .inr (ih h k hk)
  | .cond s d t f, m, h, k, hk => by
    simp only [Node.within, List.mem_cons, List.mem_append] at h
    have iht := Node.within_marks t m
    have ihf := Node.within_marksOpt f m
    simp only [Node.marks, List.mem_cons, List.mem_append]
    rcases h with rfl | h | h
    · simpa [Node.marks] using hk
    · exact .inr (.inl (iht h k hk))
    · exact .inr (.inr (ihf h k hk))
  | .prof s d c, m, h, k, hk => by
    simp only [Node.within, List.mem_cons] at h
    rcases h with rfl | h
    · exact hk
    · cases c with
      | none => simp at h
      | some q =>
        simp only [Option.toList, List.map_cons, List.map_nil, List.mem_singleton] at h
        subst h
        simp only [Node.marks, List.mem_singleton] at hk
        subst hk
        simp [Node.marks]
theorem Node.within_marksList : ∀ (ns : List Node) (m : Node), m ∈ Node.withinList ns → ∀ k ∈ m.marks, k ∈ Node.marksList ns
  | [], m, h, k, hk => by simp [Node.withinList] at h
  | n :: ns, m, h, k, hk => by
    have h1 := Node.within_marks n m
    have h2 := Node.within_marksList ns m
    simp only [Node.withinList, List.mem_append] at h
    simp only [Node.marksList, List.mem_append]
    rcases h with h | h
    · exact .inl (h1 h k hk)
    · exact .inr (h2 h k hk)
theorem Node.within_marksOpt : ∀ (n : Option Node) (m : Node), m ∈ Node.withinOpt n → ∀ k ∈ m.marks, k ∈ Node.marksOpt n
  | none, m, h, k, hk => by simp [Node.withinOpt] at h
  | some n, m, h, k, hk => Node.within_marks n m h k hk
end

/-- **C93**, the path tells which: in the stored document of an audited solution of an area, as loaded from any text that
does not use the program's reserved key and declares emphases of distinct names, two objects with the same path are equal,
unless the whole area is one requirement called "Common Requirements". -/
theorem C93_path_tells_which (c : Constants) (templates : List (String × TemplateCourse)) (st : Student)
    (es : List Exc) (all : Bool) (spec : Dict) (a : Area) (hload : loadArea c templates st es all spec = .ok a)
    (htidy : TidyText st all spec) (hcommon : a.result.path ≠ ["$", "%Common Requirements"])
    (o : Orders) (ho : o.Lawful) (s : AreaSolution) (hs : s ∈ (a.solutions o st es).items) (r : AreaResult)
    (ha : s.audit o a = .ok r) (W : Writes) (name code : String) (j : Json) (h : r.toJson W a name code = .ok j)
    (x y : Json) (hx : Inside x j) (hy : Inside y j) (p : Json) (hpx : x.at? "path" = some p) (hpy : y.at? "path" = some p) :
    x = y := by
  have hnd := result_paths hload htidy hcommon ho hs ha
  rw [← Node.marks_paths, List.nodup_cons] at hnd
  have key : ∀ z, Inside z j → z.at? "path" = some p → z = j ∧ p = .list ([.text "$"]) ∨
      ∃ m ∈ r.result.marks, p = .list ((markPath m).map .text) ∧
        ((∃ n, m = .inl n ∧ n.toJson W = .ok z) ∨ ∃ b, m = .inr b ∧ z = b.toJson W) := by
    intro z hz hp
    rcases AreaResult.toJson_inside h hz (by rw [hp]; simp) with rfl | ⟨m, hm, hj⟩ | ⟨m, hm, b, hb, rfl⟩
    · obtain ⟨rank, j', _, hj', rfl⟩ := AreaResult.toJson_inv h
      exact .inl ⟨rfl, (Option.some.inj hp).symm⟩
    · refine .inr ⟨.inl m, Node.within_marks _ m hm _ m.self_marks, ?_, .inl ⟨m, rfl, hj⟩⟩
      exact Option.some.inj (hp.symm.trans (Node.toJson_describes hj).path)
    · refine .inr ⟨.inr b, Node.within_marks _ m hm _ hb.mem, ?_, .inr ⟨b, rfl, rfl⟩⟩
      exact Option.some.inj (hp.symm.trans (describesAssertion W b).path)
  have hroot : ∀ m ∈ r.result.marks, Json.list ([.text "$"]) ≠ .list ((markPath m).map .text) := by
    intro m hm he
    have : (["$"] : Path) = markPath m := texts_inj he
    exact hnd.1 (this ▸ List.mem_map_of_mem hm)
  rcases key x hx hpx with ⟨rfl, hp⟩ | ⟨m, hm, hp, hmx⟩ <;> rcases key y hy hpy with ⟨rfl, hp'⟩ | ⟨m', hm', hp', hmy⟩
  · rfl
  · exact absurd (hp.symm.trans hp') (hroot m' hm')
  · exact absurd (hp'.symm.trans hp) (hroot m hm)
  · have : m = m' := List.inj_on_of_nodup_map hnd.2 hm hm' (texts_inj (hp.symm.trans hp'))
    subst this
    rcases hmx with ⟨n, rfl, h1⟩ | ⟨b, rfl, rfl⟩ <;> rcases hmy with ⟨n', he, h2⟩ | ⟨b', he, rfl⟩ <;> cases he
    · exact Except.ok.inj (h1.symm.trans h2)
    · rfl

end Dp
