import Verif.Props.AreaClaims

/-
C25 (block exceptions), and C26/C27 for every claim of an area.
-/
namespace Dp

/-- the classes a course or query rule must not use -/
def Node.excludedOf : Node → List String
  | .course _ d => d.excluded
  | .query _ d => d.excluded
  | _ => []

/-- The rule may claim the course for its own sake: for a course rule see
`CourseEntitled`; for a query the course is in its source and passes its filter. -/
def Entitled (x : Ctx) (leaf : Node) (c : Course) : Prop :=
  match leaf with
  | .course _ d => CourseEntitled x d c
  | .query _ d => (∃ t, InSource x t d c) ∧
      ∀ p, d.where' = some p → p.apply (Item.course c).applyLeaf = .ok true
  | _ => False

/-- an exception inserts the class at the path -/
def InsertedBy (es : List Exc) (p : Path) (k : String) : Prop :=
  ∃ e ∈ es, e.path = p ∧ ∃ forced, e.kind = .insertion k forced

mutual
theorem Node.leaves_loaded {x : Ctx} : ∀ n : Node, n.Loaded x → ∀ leaf ∈ n.leaves, leaf.Loaded x
  | .course s d, h => by
    intro leaf hleaf
    simp only [Node.leaves, List.mem_singleton] at hleaf
    exact hleaf ▸ h
  | .query s d, h => by
    intro leaf hleaf
    simp only [Node.leaves, List.mem_singleton] at hleaf
    exact hleaf ▸ h
  | .count s d items, h => by
    simp only [Node.Loaded] at h
    simp only [Node.leaves]
    exact Node.leaves_loadedList items h.2.2
  | .req s d r, h => by
    simp only [Node.Loaded] at h
    simp only [Node.leaves]
    exact Node.leaves_loadedOpt r h.2.2
  | .cond s d t f, h => by
    simp only [Node.Loaded] at h
    simp only [Node.leaves, List.mem_append]
    rintro leaf (hleaf | hleaf)
    · exact Node.leaves_loaded t h.2.2.1 leaf hleaf
    · exact Node.leaves_loadedOpt f h.2.2.2 leaf hleaf
  | .prof s d c, h => by
    simp only [Node.Loaded] at h
    simp only [Node.leaves, List.mem_map, Option.mem_toList]
    rintro leaf ⟨p, hp, rfl⟩
    simp only [Node.Loaded]
    exact h.2.2 p hp
theorem Node.leaves_loadedList {x : Ctx} : ∀ ns : List Node, Node.LoadedList x ns →
    ∀ leaf ∈ Node.leavesList ns, leaf.Loaded x
  | [], _ => by simp [Node.leavesList]
  | n :: ns, h => by
    simp only [Node.LoadedList] at h
    simp only [Node.leavesList, List.mem_append]
    rintro leaf (hleaf | hleaf)
    · exact Node.leaves_loaded n h.1 leaf hleaf
    · exact Node.leaves_loadedList ns h.2 leaf hleaf
theorem Node.leaves_loadedOpt {x : Ctx} : ∀ n : Option Node, Node.LoadedOpt x n →
    ∀ leaf ∈ Node.leavesOpt n, leaf.Loaded x
  | none, _ => by simp [Node.leavesOpt]
  | some n, h => by
    simp only [Node.LoadedOpt] at h
    simp only [Node.leavesOpt]
    exact Node.leaves_loaded n h
end

mutual
/-- leaves are course and query rules -/
theorem Node.leaves_kind : ∀ n : Node, ∀ leaf ∈ n.leaves, (∃ s d, leaf = .course s d) ∨ ∃ s d, leaf = .query s d
  | .course s d => by simp [Node.leaves]
  | .query s d => by simp [Node.leaves]
  | .count s d items => by
    simp only [Node.leaves]
    exact Node.leaves_kindList items
  | .req s d r => by
    simp only [Node.leaves]
    exact Node.leaves_kindOpt r
  | .cond s d t f => by
    simp only [Node.leaves, List.mem_append]
    rintro leaf (hleaf | hleaf)
    · exact Node.leaves_kind t leaf hleaf
    · exact Node.leaves_kindOpt f leaf hleaf
  | .prof s d c => by
    simp only [Node.leaves, List.mem_map]
    rintro leaf ⟨p, _, rfl⟩
    exact Or.inl ⟨_, _, rfl⟩
theorem Node.leaves_kindList : ∀ ns : List Node,
    ∀ leaf ∈ Node.leavesList ns, (∃ s d, leaf = .course s d) ∨ ∃ s d, leaf = .query s d
  | [] => by simp [Node.leavesList]
  | n :: ns => by
    simp only [Node.leavesList, List.mem_append]
    rintro leaf (hleaf | hleaf)
    · exact Node.leaves_kind n leaf hleaf
    · exact Node.leaves_kindList ns leaf hleaf
theorem Node.leaves_kindOpt : ∀ n : Option Node,
    ∀ leaf ∈ Node.leavesOpt n, (∃ s d, leaf = .course s d) ∨ ∃ s d, leaf = .query s d
  | none => by simp [Node.leavesOpt]
  | some n => by
    simp only [Node.leavesOpt]
    exact Node.leaves_kind n
end

/-- what a course rule claims -/
theorem course_claims {x : Ctx} (hx : x.ForcedOk) {es : List Exc} (hes : x.exceptions = groupExceptions es)
    {o : Orders} {st : Stage} {d : CourseData} {c : Claim} (h : LeafClaim x o (.course st d) c) :
    c.failed = false ∧ c.claimedBy = d.path ∧ c.course.clbid ∉ d.excluded ∧
      (CourseEntitled x d c.course ∨ InsertedBy es d.path c.course.clbid) := by
  obtain ⟨s, hs, t, t', r, ha, hc⟩ := h
  simp only [Node.solutions] at hs
  obtain ⟨sd, hsd, rfl⟩ := Gen.mem_map.1 hs
  simp only [Node.audit] at ha
  split at ha
  · cases ha
  rename_i rd t2 hca
  obtain ⟨rfl, rfl⟩ := Prod.mk.inj (Except.ok.inj ha)
  simp only [Node.claims, courseClaims] at hc
  split at hc
  · rename_i cl _ hcl
    split at hc
    · simp at hc
    · rename_i hf
      simp only [List.mem_singleton] at hc
      subst hc
      rcases courseAudit_claim hca with ⟨h, _⟩ | ⟨c', hm, ho, _, hcl', _⟩
      · rw [h] at hcl; cases hcl
      rw [hcl] at hcl'
      obtain ⟨hc1, hc2⟩ := makeClaim_course x.multicountable t c' sd.path (sd.forced || sd.allowClaimed)
      rw [Option.some.inj hcl'] at hc1 hc2
      refine ⟨by simpa using hf, ?_⟩
      rw [hc1, hc2]
      rcases courseSolutions_cases hsd with ⟨rfl, _⟩ | ⟨e, he, k, f, c'', hk, hfc, hex, rfl⟩ |
        ⟨c'', hfind, hacc, rfl⟩ | rfl
      · cases hm
      · have : c'' = c' := by simpa [courseSolution] using hm
        subst this
        refine ⟨rfl, hex, Or.inr ?_⟩
        rw [hes, (C07_exact_path_first_wins es d.path).1] at he
        simp only [List.mem_filter, Bool.and_eq_true, beq_iff_eq] at he
        exact ⟨e, he.1, he.2.2, f, by rw [hk, (forcedCourseByClbid_ok hx hfc).1]⟩
      · have : c'' = c' := by simpa [courseSolution] using hm
        subst this
        obtain ⟨g1, g2, g3⟩ := findCourses_spec hfind
        obtain ⟨g4, g5, g6⟩ := courseAcceptable_spec hacc
        exact ⟨rfl, g4, Or.inl ⟨g1, g2, g3, g4, g5, g6⟩⟩
      · cases hm
  · simp at hc

/-- what a leaf claims -/
theorem leaf_claims {x : Ctx} (hx : x.ForcedOk) {es : List Exc} (hes : x.exceptions = groupExceptions es)
    {o : Orders} (ho : o.Lawful) {n leaf : Node} (hn : leaf ∈ n.leaves) (hl : leaf.Loaded x) {c : Claim}
    (h : LeafClaim x o leaf c) :
    c.failed = false ∧ c.claimedBy = leaf.path ∧ c.course.clbid ∉ leaf.excludedOf ∧
      (Entitled x leaf c.course ∨ InsertedBy es leaf.path c.course.clbid) := by
  rcases Node.leaves_kind n leaf hn with ⟨s, d, rfl⟩ | ⟨s, d, rfl⟩
  · exact course_claims hx hes h
  · obtain ⟨sol, hs, t, t', r, ha, hc⟩ := h
    simp only [Node.Loaded] at hl
    obtain ⟨rfl, hl⟩ := hl
    obtain ⟨h1, h2, h3, h4⟩ := C27_claims_come_from_source_or_insertion x hx o ho es hes d hl sol r t t' hs ha c hc
    refine ⟨h1, h2, h3, ?_⟩
    rcases h4 with ⟨h4, h5⟩ | h4
    · exact Or.inl ⟨⟨t, h4⟩, h5⟩
    · exact Or.inr h4

/-! ### Blocks -/

mutual
/-- the course rules inside proficiency rules -/
def Node.proficiencyCourses : Node → List CourseData
  | .course _ _ => []
  | .query _ _ => []
  | .count _ _ items => Node.proficiencyCoursesList items
  | .req _ _ r => Node.proficiencyCoursesOpt r
  | .cond _ _ t f => t.proficiencyCourses ++ Node.proficiencyCoursesOpt f
  | .prof _ _ c => c.toList.map (·.2)
/-- of all children -/
def Node.proficiencyCoursesList : List Node → List CourseData
  | [] => []
  | n :: ns => n.proficiencyCourses ++ Node.proficiencyCoursesList ns
/-- of an optional child -/
def Node.proficiencyCoursesOpt : Option Node → List CourseData
  | none => []
  | some n => n.proficiencyCourses
end

mutual
/-- the course and query rules that are not inside proficiency rules -/
def Node.ownLeaves : Node → List Node
  | .course s d => [.course s d]
  | .query s d => [.query s d]
  | .count _ _ items => Node.ownLeavesList items
  | .req _ _ r => Node.ownLeavesOpt r
  | .cond _ _ t f => t.ownLeaves ++ Node.ownLeavesOpt f
  | .prof _ _ _ => []
/-- of all children -/
def Node.ownLeavesList : List Node → List Node
  | [] => []
  | n :: ns => n.ownLeaves ++ Node.ownLeavesList ns
/-- of an optional child -/
def Node.ownLeavesOpt : Option Node → List Node
  | none => []
  | some n => n.ownLeaves
end

mutual
theorem Node.leaves_split : ∀ n : Node, ∀ leaf ∈ n.leaves,
    leaf ∈ n.ownLeaves ∨ ∃ s d, leaf = .course s d ∧ d ∈ n.proficiencyCourses
  | .course s d => by simp [Node.leaves, Node.ownLeaves]
  | .query s d => by simp [Node.leaves, Node.ownLeaves]
  | .count s d items => by
    simp only [Node.leaves, Node.ownLeaves, Node.proficiencyCourses]
    exact Node.leaves_splitList items
  | .req s d r => by
    simp only [Node.leaves, Node.ownLeaves, Node.proficiencyCourses]
    exact Node.leaves_splitOpt r
  | .cond s d t f => by
    simp only [Node.leaves, Node.ownLeaves, Node.proficiencyCourses, List.mem_append]
    rintro leaf (h | h)
    · rcases Node.leaves_split t leaf h with h | ⟨s, d, rfl, h'⟩
      · exact Or.inl (Or.inl h)
      · exact Or.inr ⟨s, d, rfl, Or.inl h'⟩
    · rcases Node.leaves_splitOpt f leaf h with h | ⟨s, d, rfl, h'⟩
      · exact Or.inl (Or.inr h)
      · exact Or.inr ⟨s, d, rfl, Or.inr h'⟩
  | .prof s d c => by
    simp only [Node.leaves, Node.proficiencyCourses, List.mem_map]
    rintro leaf ⟨p, hp, rfl⟩
    exact Or.inr ⟨p.1, p.2, rfl, p, hp, rfl⟩
theorem Node.leaves_splitList : ∀ ns : List Node, ∀ leaf ∈ Node.leavesList ns,
    leaf ∈ Node.ownLeavesList ns ∨ ∃ s d, leaf = .course s d ∧ d ∈ Node.proficiencyCoursesList ns
  | [] => by simp [Node.leavesList]
  | n :: ns => by
    simp only [Node.leavesList, Node.ownLeavesList, Node.proficiencyCoursesList, List.mem_append]
    rintro leaf (h | h)
    · rcases Node.leaves_split n leaf h with h | ⟨s, d, rfl, h'⟩
      · exact Or.inl (Or.inl h)
      · exact Or.inr ⟨s, d, rfl, Or.inl h'⟩
    · rcases Node.leaves_splitList ns leaf h with h | ⟨s, d, rfl, h'⟩
      · exact Or.inl (Or.inr h)
      · exact Or.inr ⟨s, d, rfl, Or.inr h'⟩
theorem Node.leaves_splitOpt : ∀ n : Option Node, ∀ leaf ∈ Node.leavesOpt n,
    leaf ∈ Node.ownLeavesOpt n ∨ ∃ s d, leaf = .course s d ∧ d ∈ Node.proficiencyCoursesOpt n
  | none => by simp [Node.leavesOpt]
  | some n => by
    simp only [Node.leavesOpt, Node.ownLeavesOpt, Node.proficiencyCoursesOpt]
    exact Node.leaves_split n
end

mutual
theorem Node.applyBlock_own (p : Path) (k : String) : ∀ n : Node,
    (n.applyBlock p k).ownLeaves = n.ownLeaves.map (Node.applyBlock p k)
  | .course s d => rfl
  | .query s d => rfl
  | .count s d items => by
    simp only [Node.applyBlock, Node.ownLeaves, Node.applyBlock_ownList p k items]
  | .req s d r => by
    simp only [Node.applyBlock, Node.ownLeaves, Node.applyBlock_ownOpt p k r]
  | .cond s d t f => by
    simp only [Node.applyBlock, Node.ownLeaves, Node.applyBlock_own p k t, Node.applyBlock_ownOpt p k f,
      List.map_append]
  | .prof s d c => rfl
theorem Node.applyBlock_ownList (p : Path) (k : String) : ∀ ns : List Node,
    Node.ownLeavesList (Node.applyBlockList p k ns) = (Node.ownLeavesList ns).map (Node.applyBlock p k)
  | [] => rfl
  | n :: ns => by
    simp only [Node.applyBlockList, Node.ownLeavesList, Node.applyBlock_own p k n, Node.applyBlock_ownList p k ns,
      List.map_append]
theorem Node.applyBlock_ownOpt (p : Path) (k : String) : ∀ n : Option Node,
    Node.ownLeavesOpt (Node.applyBlockOpt p k n) = (Node.ownLeavesOpt n).map (Node.applyBlock p k)
  | none => rfl
  | some n => by
    simp only [Node.applyBlockOpt, Node.ownLeavesOpt, Node.applyBlock_own p k n]
end

mutual
theorem Node.applyBlock_profs (p : Path) (k : String) : ∀ n : Node,
    (n.applyBlock p k).proficiencyCourses = n.proficiencyCourses
  | .course s d => rfl
  | .query s d => rfl
  | .count s d items => by
    simp only [Node.applyBlock, Node.proficiencyCourses, Node.applyBlock_profsList p k items]
  | .req s d r => by
    simp only [Node.applyBlock, Node.proficiencyCourses, Node.applyBlock_profsOpt p k r]
  | .cond s d t f => by
    simp only [Node.applyBlock, Node.proficiencyCourses, Node.applyBlock_profs p k t,
      Node.applyBlock_profsOpt p k f]
  | .prof s d c => rfl
theorem Node.applyBlock_profsList (p : Path) (k : String) : ∀ ns : List Node,
    Node.proficiencyCoursesList (Node.applyBlockList p k ns) = Node.proficiencyCoursesList ns
  | [] => rfl
  | n :: ns => by
    simp only [Node.applyBlockList, Node.proficiencyCoursesList, Node.applyBlock_profs p k n,
      Node.applyBlock_profsList p k ns]
theorem Node.applyBlock_profsOpt (p : Path) (k : String) : ∀ n : Option Node,
    Node.proficiencyCoursesOpt (Node.applyBlockOpt p k n) = Node.proficiencyCoursesOpt n
  | none => rfl
  | some n => by
    simp only [Node.applyBlockOpt, Node.proficiencyCoursesOpt, Node.applyBlock_profs p k n]
end

mutual
theorem Node.exclude_profs (ks : List String) : ∀ n : Node,
    (n.exclude ks).proficiencyCourses = n.proficiencyCourses
  | .course s d => rfl
  | .query s d => rfl
  | .count s d items => by
    simp only [Node.exclude, Node.proficiencyCourses, Node.exclude_profsList ks items]
  | .req s d r => by
    simp only [Node.exclude, Node.proficiencyCourses, Node.exclude_profsOpt ks r]
  | .cond s d t f => by
    simp only [Node.exclude, Node.proficiencyCourses, Node.exclude_profs ks t,
      Node.exclude_profsOpt ks f]
  | .prof s d c => rfl
theorem Node.exclude_profsList (ks : List String) : ∀ ns : List Node,
    Node.proficiencyCoursesList (Node.excludeList ks ns) = Node.proficiencyCoursesList ns
  | [] => rfl
  | n :: ns => by
    simp only [Node.excludeList, Node.proficiencyCoursesList, Node.exclude_profs ks n,
      Node.exclude_profsList ks ns]
theorem Node.exclude_profsOpt (ks : List String) : ∀ n : Option Node,
    Node.proficiencyCoursesOpt (Node.excludeOpt ks n) = Node.proficiencyCoursesOpt n
  | none => rfl
  | some n => by
    simp only [Node.excludeOpt, Node.proficiencyCoursesOpt, Node.exclude_profs ks n]
end

mutual
theorem Node.applyBlock_loaded {x : Ctx} (p : Path) (k : String) : ∀ n : Node, n.Loaded x → (n.applyBlock p k).Loaded x
  | .course s d, h => by
    simp only [Node.applyBlock, Node.Loaded] at h ⊢
    split
    · exact h
    · exact h
  | .query s d, h => by
    simp only [Node.applyBlock, Node.Loaded] at h ⊢
    split
    · exact h
    · exact h
  | .count s d items, h => by
    simp only [Node.applyBlock, Node.Loaded] at h ⊢
    exact ⟨h.1, h.2.1, Node.applyBlock_loadedList p k items h.2.2⟩
  | .req s d r, h => by
    simp only [Node.applyBlock, Node.Loaded] at h ⊢
    exact ⟨h.1, h.2.1, Node.applyBlock_loadedOpt p k r h.2.2⟩
  | .cond s d t f, h => by
    simp only [Node.applyBlock, Node.Loaded] at h ⊢
    exact ⟨h.1, h.2.1, Node.applyBlock_loaded p k t h.2.2.1, Node.applyBlock_loadedOpt p k f h.2.2.2⟩
  | .prof s d c, h => h
theorem Node.applyBlock_loadedList {x : Ctx} (p : Path) (k : String) : ∀ ns : List Node,
    Node.LoadedList x ns → Node.LoadedList x (Node.applyBlockList p k ns)
  | [], _ => trivial
  | n :: ns, h => by
    simp only [Node.applyBlockList, Node.LoadedList] at h ⊢
    exact ⟨Node.applyBlock_loaded p k n h.1, Node.applyBlock_loadedList p k ns h.2⟩
theorem Node.applyBlock_loadedOpt {x : Ctx} (p : Path) (k : String) : ∀ n : Option Node,
    Node.LoadedOpt x n → Node.LoadedOpt x (Node.applyBlockOpt p k n)
  | none, _ => trivial
  | some n, h => by
    simp only [Node.applyBlockOpt, Node.LoadedOpt] at h ⊢
    exact Node.applyBlock_loaded p k n h
end

mutual
theorem Node.exclude_loaded {x : Ctx} (ks : List String) : ∀ n : Node, n.Loaded x → (n.exclude ks).Loaded x
  | .course s d, h => h
  | .query s d, h => by
    simp only [Node.exclude, Node.Loaded] at h ⊢
    exact h
  | .count s d items, h => by
    simp only [Node.exclude, Node.Loaded] at h ⊢
    exact ⟨h.1, h.2.1, Node.exclude_loadedList ks items h.2.2⟩
  | .req s d r, h => by
    simp only [Node.exclude, Node.Loaded] at h ⊢
    exact ⟨h.1, h.2.1, Node.exclude_loadedOpt ks r h.2.2⟩
  | .cond s d t f, h => by
    simp only [Node.exclude, Node.Loaded] at h ⊢
    exact ⟨h.1, h.2.1, Node.exclude_loaded ks t h.2.2.1, Node.exclude_loadedOpt ks f h.2.2.2⟩
  | .prof s d c, h => h
theorem Node.exclude_loadedList {x : Ctx} (ks : List String) : ∀ ns : List Node,
    Node.LoadedList x ns → Node.LoadedList x (Node.excludeList ks ns)
  | [], _ => trivial
  | n :: ns, h => by
    simp only [Node.excludeList, Node.LoadedList] at h ⊢
    exact ⟨Node.exclude_loaded ks n h.1, Node.exclude_loadedList ks ns h.2⟩
theorem Node.exclude_loadedOpt {x : Ctx} (ks : List String) : ∀ n : Option Node,
    Node.LoadedOpt x n → Node.LoadedOpt x (Node.excludeOpt ks n)
  | none, _ => trivial
  | some n, h => by
    simp only [Node.excludeOpt, Node.LoadedOpt] at h ⊢
    exact Node.exclude_loaded ks n h
end

theorem applyBlocks_cons (e : Exc) (es : List Exc) (n : Node) :
    applyBlocks (e :: es) n = applyBlocks es (match e.kind with
      | .block clbid => n.applyBlock e.path clbid
      | _ => n) := rfl

theorem applyBlocks_own (es : List Exc) (n : Node) :
    (applyBlocks es n).ownLeaves = n.ownLeaves.map (applyBlocks es) := by
  induction es generalizing n with
  | nil => exact (List.map_id' _).symm
  | cons e es ih =>
    have : applyBlocks (e :: es) = fun n => applyBlocks es (match e.kind with
      | .block clbid => n.applyBlock e.path clbid
      | _ => n) := rfl
    rw [this]
    dsimp only
    split
    · rw [ih, Node.applyBlock_own, List.map_map]; rfl
    · rw [ih]

theorem applyBlocks_profs (es : List Exc) (n : Node) :
    (applyBlocks es n).proficiencyCourses = n.proficiencyCourses := by
  induction es generalizing n with
  | nil => rfl
  | cons e es ih =>
    rw [applyBlocks_cons, ih]
    split
    · exact Node.applyBlock_profs _ _ n
    · rfl

theorem applyBlocks_loaded {x : Ctx} (es : List Exc) (n : Node) (h : n.Loaded x) : (applyBlocks es n).Loaded x := by
  induction es generalizing n with
  | nil => exact h
  | cons e es ih =>
    rw [applyBlocks_cons]
    apply ih
    split
    · exact Node.applyBlock_loaded _ _ n h
    · exact h

theorem prepareRule_loaded {x y : Ctx} (es : List Exc) (n : Node) (h : n.Loaded x) : (prepareRule y es n).Loaded x :=
  applyBlocks_loaded es _ (Node.exclude_loaded _ n h)

mutual
theorem Node.ownLeaves_kind : ∀ n : Node, ∀ leaf ∈ n.ownLeaves,
    (∃ s d, leaf = .course s d) ∨ ∃ s d, leaf = .query s d
  | .course s d => by simp [Node.ownLeaves]
  | .query s d => by simp [Node.ownLeaves]
  | .count s d items => by
    simp only [Node.ownLeaves]
    exact Node.ownLeaves_kindList items
  | .req s d r => by
    simp only [Node.ownLeaves]
    exact Node.ownLeaves_kindOpt r
  | .cond s d t f => by
    simp only [Node.ownLeaves, List.mem_append]
    rintro leaf (hleaf | hleaf)
    · exact Node.ownLeaves_kind t leaf hleaf
    · exact Node.ownLeaves_kindOpt f leaf hleaf
  | .prof s d c => by simp [Node.ownLeaves]
theorem Node.ownLeaves_kindList : ∀ ns : List Node,
    ∀ leaf ∈ Node.ownLeavesList ns, (∃ s d, leaf = .course s d) ∨ ∃ s d, leaf = .query s d
  | [] => by simp [Node.ownLeavesList]
  | n :: ns => by
    simp only [Node.ownLeavesList, List.mem_append]
    rintro leaf (hleaf | hleaf)
    · exact Node.ownLeaves_kind n leaf hleaf
    · exact Node.ownLeaves_kindList ns leaf hleaf
theorem Node.ownLeaves_kindOpt : ∀ n : Option Node,
    ∀ leaf ∈ Node.ownLeavesOpt n, (∃ s d, leaf = .course s d) ∨ ∃ s d, leaf = .query s d
  | none => by simp [Node.ownLeavesOpt]
  | some n => by
    simp only [Node.ownLeavesOpt]
    exact Node.ownLeaves_kind n
end

/-- blocks keep a leaf's path and what is excluded, and exclude the blocked classes -/
theorem applyBlocks_leaf (es : List Exc) : ∀ leaf : Node,
    ((∃ s d, leaf = .course s d) ∨ ∃ s d, leaf = .query s d) →
    (applyBlocks es leaf).path = leaf.path ∧ leaf.excludedOf ⊆ (applyBlocks es leaf).excludedOf ∧
    ∀ e ∈ es, ∀ k, e.kind = .block k → e.path = leaf.path → k ∈ (applyBlocks es leaf).excludedOf := by
  induction es with
  | nil => intro leaf _; exact ⟨rfl, List.Subset.refl _, by simp⟩
  | cons e es ih =>
    intro leaf hleaf
    rw [applyBlocks_cons]
    split
    · rename_i k hk
      have hb : ((∃ s d, leaf.applyBlock e.path k = .course s d) ∨ ∃ s d, leaf.applyBlock e.path k = .query s d) ∧
          (leaf.applyBlock e.path k).path = leaf.path ∧
          leaf.excludedOf ⊆ (leaf.applyBlock e.path k).excludedOf ∧
          (e.path = leaf.path → k ∈ (leaf.applyBlock e.path k).excludedOf) := by
        rcases hleaf with ⟨s, d, rfl⟩ | ⟨s, d, rfl⟩
        · refine ⟨Or.inl ⟨_, _, rfl⟩, ?_⟩
          simp only [Node.applyBlock]
          by_cases hp : d.path = e.path
          · simp [hp, Node.path, Node.excludedOf]
          · simp only [hp, if_false, Node.path, Node.excludedOf, List.Subset.refl, true_and]
            exact fun h => absurd h.symm hp
        · refine ⟨Or.inr ⟨_, _, rfl⟩, ?_⟩
          simp only [Node.applyBlock]
          by_cases hp : d.path = e.path
          · simp [hp, Node.path, Node.excludedOf]
          · simp only [hp, if_false, Node.path, Node.excludedOf, List.Subset.refl, true_and]
            exact fun h => absurd h.symm hp
      obtain ⟨h1, h2, h3, h4⟩ := hb
      obtain ⟨g1, g2, g3⟩ := ih _ h1
      refine ⟨g1.trans h2, fun a ha => g2 (h3 ha), ?_⟩
      intro e' he' k' hk' hp'
      rcases List.mem_cons.1 he' with rfl | he'
      · rw [hk] at hk'
        cases hk'
        exact g2 (h4 hp')
      · exact g3 e' he' k' hk' (by rw [h2]; exact hp')
    · rename_i hnb
      obtain ⟨g1, g2, g3⟩ := ih _ hleaf
      refine ⟨g1, g2, ?_⟩
      intro e' he' k' hk' hp'
      rcases List.mem_cons.1 he' with rfl | he'
      · exact absurd hk' (hnb k')
      · exact g3 e' he' k' hk' hp'

/-- A query that makes no claims, as those of the rules common to all majors
(`"claim": False`, `dp/area.py:438-595`, `dp/rule/query.py:94-95`). -/
def Node.Silent (leaf : Node) : Prop :=
  ∃ s d, leaf = .query s d ∧ d.source = .courses ∧ d.attemptClaims = false ∧ d.recordClaims = false

theorem silent_claims {x : Ctx} {o : Orders} (ho : o.Lawful) {leaf : Node} (hl : leaf.Silent) {c : Claim} :
    ¬ LeafClaim x o leaf c := by
  rintro ⟨sol, hs, t, t', r, ha, hc⟩
  obtain ⟨st, d, rfl, h1, h2, h3⟩ := hl
  simp only [Node.solutions] at hs
  obtain ⟨sd, hsd, rfl⟩ := Gen.mem_map.1 hs
  simp only [Node.audit] at ha
  split at ha
  · cases ha
  rename_i rd t2 hqa
  obtain ⟨rfl, rfl⟩ := Prod.mk.inj (Except.ok.inj ha)
  simp only [Node.claims, queryClaims, if_true] at hc
  have hsd' : sd.source = .courses ∧ sd.attemptClaims = false ∧ sd.recordClaims = false := by
    rcases querySolutions_cases ho hsd with ⟨_, rfl⟩ | ⟨_, f, _, out, rfl, _⟩
    · exact ⟨h1, h2, h3⟩
    · exact ⟨h1, h2, h3⟩
  have : rd.successful = [] := by
    unfold queryAudit at hqa
    split at hqa
    · obtain ⟨rfl, rfl⟩ := Prod.mk.inj (Except.ok.inj hqa)
      rfl
    · split at hqa
      · cases hqa
      · rename_i col t3 hcol
        simp only [collect, hsd'.1, collectCourses, hsd'.2.1, hsd'.2.2, Bool.false_eq_true, if_false] at hcol
        split at hcol
        · cases hcol
        · obtain ⟨rfl, rfl⟩ := Prod.mk.inj (Except.ok.inj hcol)
          dsimp only at hqa
          split at hqa
          · cases hqa
          · obtain ⟨rfl, rfl⟩ := Prod.mk.inj (Except.ok.inj hqa)
            rfl
  rw [this] at hc
  simp at hc

/-- **C26 and C27 for whole areas.** Every claim in the result of any audited solution
of an area is a successful claim by one of the area's own course or query rules (the
rules common to all majors make none), recorded under that rule's path; the class is
not excluded from the rule; and the rule was entitled to the course, or an exception
inserts the class at the rule's path. -/
theorem C26_every_claim_of_an_area (o : Orders) (ho : o.Lawful) (a : Area) (st : Student) (es : List Exc)
    (hl : a.result.Loaded { exceptions := groupExceptions es })
    (hcl : Node.LoadedList { exceptions := groupExceptions es } a.commonRules)
    (hsil : ∀ leaf ∈ Node.leavesList a.commonRules, leaf.Silent)
    (s : AreaSolution) (hs : s ∈ (a.solutions o st es).items) (r : AreaResult) (ha : s.audit o a = .ok r)
    (c : Claim) (hc : c ∈ r.claims) :
    ∃ leaf ∈ a.result.leaves,
      c.failed = false ∧ c.claimedBy = leaf.path ∧ c.course.clbid ∉ leaf.excludedOf ∧
      (Entitled s.ctx leaf c.course ∨ InsertedBy es leaf.path c.course.clbid) := by
  obtain ⟨tr, htr, hctx, h⟩ := area_claims ho hl hcl hs ha hc
  rcases h with ⟨leaf, hleaf, h⟩ | ⟨_, leaf, hleaf, x, hx, h⟩
  · have hlo := Node.leaves_loaded _ hl leaf hleaf
    obtain ⟨h1, h2, h3, h4⟩ := leaf_claims (areaCtx_forcedOk a st es tr) (es := es) rfl ho hleaf
      (Node.loaded_congr (x := { exceptions := groupExceptions es }) (y := areaCtx a st es tr) rfl _ hlo) h
    exact ⟨leaf, hleaf, h1, h2, h3, hctx ▸ h4⟩
  · exact absurd h (silent_claims ho (hsil leaf hleaf))

/-- **C25** (partial).  Let an area's rule be loaded and prepared with the exceptions
`es`, one of which blocks class `k` at path `e.path`.  Then no claim in the result of
any audited solution of the area is a claim of class `k` recorded under that path,
unless the path is that of a course rule inside a proficiency rule.  Missing: course
rules inside proficiency rules, for which it is false (`C25_proficiency_refuted`). -/
theorem C25_blocked_class_is_not_claimed_partial (o : Orders) (ho : o.Lawful) (x0 : Ctx) (n : Node)
    (a : Area) (st : Student) (es : List Exc)
    (hn : n.Loaded { exceptions := groupExceptions es }) (hprep : a.result = prepareRule x0 es n)
    (hcl : Node.LoadedList { exceptions := groupExceptions es } a.commonRules)
    (hsil : ∀ leaf ∈ Node.leavesList a.commonRules, leaf.Silent)
    (e : Exc) (he : e ∈ es) (k : String) (hk : e.kind = .block k)
    (hprof : ∀ d ∈ n.proficiencyCourses, d.path ≠ e.path)
    (s : AreaSolution) (hs : s ∈ (a.solutions o st es).items) (r : AreaResult) (ha : s.audit o a = .ok r)
    (c : Claim) (hc : c ∈ r.claims) :
    ¬ (c.claimedBy = e.path ∧ c.course.clbid = k) := by
  rintro ⟨hby, hclbid⟩
  obtain ⟨leaf, hleaf, -, h2, h3, -⟩ := C26_every_claim_of_an_area o ho a st es
    (by rw [hprep]; exact prepareRule_loaded es n hn) hcl hsil s hs r ha c hc
  rw [hby] at h2
  rw [hclbid] at h3
  rw [hprep] at hleaf
  rcases Node.leaves_split _ leaf hleaf with hown | ⟨st', d, rfl, hd⟩
  · unfold prepareRule at hown
    rw [applyBlocks_own] at hown
    obtain ⟨l0, hl0, rfl⟩ := List.mem_map.1 hown
    obtain ⟨g1, g2, g3⟩ := applyBlocks_leaf es l0 (Node.ownLeaves_kind _ l0 hl0)
    exact h3 (g3 e he k hk (by rw [h2, g1]))
  · unfold prepareRule at hd
    rw [applyBlocks_profs, Node.exclude_profs] at hd
    exact hprof d hd h2.symm

/-- Non-trivial case for C25: two courses match a course rule, the first is blocked
there; the area's only solution claims the second. -/
example :
    let c1 : Course := { clbid := "1", identity := "CSCI 121" }
    let c2 : Course := { clbid := "2", identity := "CSCI 121" }
    let p : Path := ["$", "*CSCI 121"]
    let n : Node := .course .rule { path := p, course := some "CSCI 121" }
    let es : List Exc := [⟨p, .block "1"⟩]
    let a : Area := { result := prepareRule {} es n }
    ((a.solutions .insertion { courses := [c1, c2] } es).items.map
      (fun s => match s.audit .insertion a with
        | .ok r => r.claims
        | .error _ => [])) = [[⟨c2, p, false⟩]] := by
  decide +kernel

/-- A block at the path of a proficiency rule's course is ignored. -/
theorem C25_proficiency_refuted : ∃ (n : Node) (a : Area) (st : Student) (es : List Exc) (e : Exc) (k : String),
    n.Loaded { exceptions := groupExceptions es } ∧ a.result = prepareRule {} es n ∧ a.commonRules = [] ∧
    e ∈ es ∧ e.kind = .block k ∧
    ∃ s ∈ (a.solutions .insertion st es).items, ∃ r, s.audit .insertion a = .ok r ∧
      ∃ c ∈ r.claims, c.claimedBy = e.path ∧ c.course.clbid = k := by
  let p : Path := ["$", ".proficiency=Guitar", "*MUSIC 1"]
  let c : Course := { clbid := "1", identity := "MUSIC 1" }
  let n : Node := .prof .rule { path := ["$", ".proficiency=Guitar"], proficiency := "Guitar" }
    (some (.rule, { path := p, course := some "MUSIC 1" }))
  let es : List Exc := [⟨p, .block "1"⟩]
  let a : Area := { result := prepareRule {} es n }
  refine ⟨n, a, { courses := [c] }, es, ⟨p, .block "1"⟩, "1", ⟨rfl, rfl, ?_⟩, rfl, rfl, by simp [es], rfl,
    _, List.mem_cons_self, _, rfl, ⟨c, p, false⟩, by decide +kernel, rfl, rfl⟩
  rintro q hq
  cases hq
  exact ⟨rfl, rfl, rfl, rfl, rfl⟩

end Dp
