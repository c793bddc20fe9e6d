import Verif.Props.LoadArea
import Verif.Props.CountRule
import Verif.Props.Waive

/-
The properties of audits (C23, C25, C26, C37, C38) for areas as they are loaded from their text: what
those theorems assume of a rule tree holds of every loaded one.
-/
namespace Dp

/-! ### Specification -/

mutual
/-- a tree and all rules in it -/
def Node.within : Node → List Node
  | .course s d => [.course s d]
  | .query s d => [.query s d]
  | .count s d items => .count s d items :: Node.withinList items
  | .req s d r => .req s d r :: Node.withinOpt r
  | .cond s d t f => .cond s d t f :: (t.within ++ Node.withinOpt f)
  | .prof s d c => .prof s d c :: c.toList.map (fun p => .course p.1 p.2)
/-- of all items -/
def Node.withinList : List Node → List Node
  | [] => []
  | n :: ns => n.within ++ Node.withinList ns
/-- of an optional rule -/
def Node.withinOpt : Option Node → List Node
  | none => []
  | some n => n.within
end

/-! ### Helper lemmas -/

mutual
theorem Node.within_paths : ∀ n m : Node, m ∈ n.within → m.allPaths.Sublist n.allPaths
  | .course s d, m, h => by simp only [Node.within, List.mem_singleton] at h; subst h; exact List.Sublist.refl _
  | .query s d, m, h => by simp only [Node.within, List.mem_singleton] at h; subst h; exact List.Sublist.refl _
  | .count s d items, m, h => by
    simp only [Node.within, List.mem_cons] at h
    rcases h with rfl | h
    · exact List.Sublist.refl _
    · simp only [Node.allPaths]
      exact ((Node.within_pathsList items m h).trans (List.sublist_append_right _ _)).cons _
  | .req s d r, m, h => by
    simp only [Node.within, List.mem_cons] at h
    rcases h with rfl | h
    · exact List.Sublist.refl _
    · simp only [Node.allPaths]
      exact (Node.within_pathsOpt r m h).cons _
  | .cond s d t f, m, h => by
    simp only [Node.within, List.mem_cons, List.mem_append] at h
    rcases h with rfl | h | h
    · exact List.Sublist.refl _
    · simp only [Node.allPaths]
      exact ((Node.within_paths t m h).trans (List.sublist_append_left _ _)).cons _
    · simp only [Node.allPaths]
      exact ((Node.within_pathsOpt f m h).trans (List.sublist_append_right _ _)).cons _
  | .prof s d c, m, h => by
    simp only [Node.within, List.mem_cons] at h
    rcases h with rfl | h
    · exact List.Sublist.refl _
    · cases c with
      | none => simp at h
      | some c =>
        simp only [Option.toList_some, List.map_cons, List.map_nil, List.mem_singleton] at h
        subst h
        simp only [Node.allPaths, Option.map_some, Option.toList_some]
        exact (List.Sublist.refl _).cons _
theorem Node.within_pathsList : ∀ (ns : List Node) (m : Node), m ∈ Node.withinList ns →
    m.allPaths.Sublist (Node.allPathsList ns)
  | [], m, h => by simp [Node.withinList] at h
  | n :: ns, m, h => by
    simp only [Node.withinList, List.mem_append] at h
    simp only [Node.allPathsList]
    rcases h with h | h
    · exact (Node.within_paths n m h).trans (List.sublist_append_left _ _)
    · exact (Node.within_pathsList ns m h).trans (List.sublist_append_right _ _)
theorem Node.within_pathsOpt : ∀ (n : Option Node) (m : Node), m ∈ Node.withinOpt n →
    m.allPaths.Sublist (Node.allPathsOpt n)
  | none, m, h => by simp [Node.withinOpt] at h
  | some n, m, h => by
    simp only [Node.withinOpt] at h
    simp only [Node.allPathsOpt]
    exact Node.within_paths n m h
end

mutual
theorem Node.within_loaded {x : Ctx} : ∀ n m : Node, n.Loaded x → m ∈ n.within → m.Loaded x
  | .course s d, m, hl, h => by simp only [Node.within, List.mem_singleton] at h; subst h; exact hl
  | .query s d, m, hl, h => by simp only [Node.within, List.mem_singleton] at h; subst h; exact hl
  | .count s d items, m, hl, h => by
    simp only [Node.within, List.mem_cons] at h
    rcases h with rfl | h
    · exact hl
    · simp only [Node.Loaded] at hl
      exact Node.within_loadedList items m hl.2.2 h
  | .req s d r, m, hl, h => by
    simp only [Node.within, List.mem_cons] at h
    rcases h with rfl | h
    · exact hl
    · simp only [Node.Loaded] at hl
      exact Node.within_loadedOpt r m hl.2.2 h
  | .cond s d t f, m, hl, h => by
    simp only [Node.within, List.mem_cons, List.mem_append] at h
    rcases h with rfl | h | h
    · exact hl
    · simp only [Node.Loaded] at hl
      exact Node.within_loaded t m hl.2.2.1 h
    · simp only [Node.Loaded] at hl
      exact Node.within_loadedOpt f m hl.2.2.2 h
  | .prof s d c, m, hl, h => by
    simp only [Node.within, List.mem_cons] at h
    rcases h with rfl | h
    · exact hl
    · cases c with
      | none => simp at h
      | some c =>
        simp only [Option.toList_some, List.map_cons, List.map_nil, List.mem_singleton] at h
        subst h
        simp only [Node.Loaded] at hl ⊢
        exact hl.2.2 c rfl
theorem Node.within_loadedList {x : Ctx} : ∀ (ns : List Node) (m : Node), Node.LoadedList x ns → m ∈ Node.withinList ns →
    m.Loaded x
  | [], m, _, h => by simp [Node.withinList] at h
  | n :: ns, m, hl, h => by
    simp only [Node.withinList, List.mem_append] at h
    simp only [Node.LoadedList] at hl
    rcases h with h | h
    · exact Node.within_loaded n m hl.1 h
    · exact Node.within_loadedList ns m hl.2 h
theorem Node.within_loadedOpt {x : Ctx} : ∀ (n : Option Node) (m : Node), Node.LoadedOpt x n → m ∈ Node.withinOpt n →
    m.Loaded x
  | none, m, _, h => by simp [Node.withinOpt] at h
  | some n, m, hl, h => by
    simp only [Node.withinOpt] at h
    simp only [Node.LoadedOpt] at hl
    exact Node.within_loaded n m hl h
end

theorem Node.silent_not_claiming {l : Node} (h : l.Silent) : ¬ l.ClaimsForItself := by
  obtain ⟨s, d, rfl, _, h1, _⟩ := h
  rintro ⟨_, h2, _⟩
  rw [h1] at h2
  cases h2

theorem loadArea_loaded {c : Constants} {templates : List (String × TemplateCourse)} {st : Student} {es : List Exc} {all : Bool}
    {spec : Dict} {a : Area} (h : loadArea c templates st es all spec = .ok a) :
    a.result.Loaded { exceptions := groupExceptions es } ∧ ∀ l ∈ a.result.leaves, l.LoadedFlags := by
  obtain ⟨_, _, _, _, rule, _, _, _, _, _, _, hb, hres, _⟩ := loadArea_inv h
  obtain ⟨h1, h2⟩ := hb.loaded rule rfl
  rw [hres]
  exact ⟨prepareRule_loaded es rule (loaded_ctx h1 rfl), prepareRule_leafFlags _ es rule h2⟩

/-! ### The properties -/

/-- **C23** for loaded areas: in an area loaded from a tidy text, every solution of every count rule
that is not waived mentions each child exactly once, in path order. -/
theorem C23_loaded_area (c : Constants) (templates : List (String × TemplateCourse)) (st : Student) (es : List Exc)
    (all : Bool) (spec : Dict) (a : Area) (hload : loadArea c templates st es all spec = .ok a) (htidy : TidyText st all spec)
    (x : Ctx) (hx : x.exceptions = groupExceptions es) (o : Orders) (ho : o.Lawful)
    (stage : Stage) (d : CountData) (items : List Node) (hin : Node.count stage d items ∈ a.result.within)
    (hw : ∀ e ∈ es, e.path = d.path → e.kind ≠ .override)
    (s : Node) (hs : s ∈ ((Node.count stage d items).solutions x o).items) :
    ∃ l, s = .count .solution { d with overridden := false } l ∧ MentionsAll x o items l := by
  have hsub := Node.within_paths _ _ hin
  have hitems : (items.map Node.path).Sublist (Node.count stage d items).allPaths := by
    simp only [Node.allPaths]
    exact ((Node.paths_sublist items).trans (List.sublist_append_right _ _)).cons _
  have hsub' := hitems.trans hsub
  refine C23_each_child_once x o ho es hx stage d items hw ?_ ((loadArea_nodup hload htidy).sublist hsub') s hs
  intro i hi
  exact (loadArea_canonical hload _ (hsub'.subset (List.mem_map_of_mem hi))).2

/-- **C26 and C27** for loaded areas: every claim in the result of any audited solution of an area, as
loaded from any text, is a successful claim by one of the area's own course or query rules, recorded
under that rule's path, for a class not excluded from the rule, and the rule was entitled to the course
or an exception inserts the class there. -/
theorem C26_loaded_area (c : Constants) (templates : List (String × TemplateCourse)) (st : Student) (es : List Exc)
    (all : Bool) (spec : Dict) (a : Area) (hload : loadArea c templates st es all spec = .ok a)
    (o : Orders) (ho : o.Lawful)
    (s : AreaSolution) (hs : s ∈ (a.solutions o st es).items) (r : AreaResult) (ha : s.audit o a = .ok r)
    (cl : Claim) (hc : cl ∈ r.claims) :
    ∃ leaf ∈ a.result.leaves,
      cl.failed = false ∧ cl.claimedBy = leaf.path ∧ cl.course.clbid ∉ leaf.excludedOf ∧
      (Entitled s.ctx leaf cl.course ∨ InsertedBy es leaf.path cl.course.clbid) :=
  C26_every_claim_of_an_area o ho a st es (loadArea_loaded hload).1 (loadArea_common hload).1 (loadArea_common hload).2
    s hs r ha cl hc

theorem Node.exclude_proficiencyCourses (x : Ctx) (es : List Exc) (n : Node) :
    (prepareRule x es n).proficiencyCourses = n.proficiencyCourses := by
  unfold prepareRule
  rw [applyBlocks_profs, Node.exclude_profs]

/-- **C25** for loaded areas (partial): if an exception blocks class `k` at a path, no claim of that
class is recorded under the path in any audited solution of the area, as loaded from any text, unless
the path is that of a course rule inside a proficiency rule.  Missing: course rules inside proficiency
rules, for which it is false (`C25_proficiency_refuted`). -/
theorem C25_loaded_area_partial (c : Constants) (templates : List (String × TemplateCourse)) (st : Student) (es : List Exc)
    (all : Bool) (spec : Dict) (a : Area) (hload : loadArea c templates st es all spec = .ok a)
    (o : Orders) (ho : o.Lawful)
    (e : Exc) (he : e ∈ es) (k : String) (hk : e.kind = .block k)
    (hprof : ∀ d ∈ a.result.proficiencyCourses, d.path ≠ e.path)
    (s : AreaSolution) (hs : s ∈ (a.solutions o st es).items) (r : AreaResult) (ha : s.audit o a = .ok r)
    (cl : Claim) (hc : cl ∈ r.claims) : ¬ (cl.claimedBy = e.path ∧ cl.course.clbid = k) := by
  obtain ⟨_, _, _, _, rule, _, _, _, _, _, _, hb, hres, _⟩ := loadArea_inv hload
  rw [hres, Node.exclude_proficiencyCourses] at hprof
  exact C25_blocked_class_is_not_claimed_partial o ho _ rule a st es (loaded_ctx (hb.loaded rule rfl).1 rfl) hres
    (loadArea_common hload).1 (loadArea_common hload).2 e he k hk hprof s hs r ha cl hc

/-- **C37** for loaded areas (partial): a class of the student's transcript that is not multicountable and
not force-inserted is counted at most once by the rules that claim for themselves, in every audited
solution of an area loaded from a tidy text.  Missing: areas in which a requirement marked `disjoint:
true` does claim courses for itself, for which it is false (`C37_disjoint_flag_refuted`); the common
requirements, which claim nothing. -/
theorem C37_loaded_area_partial (c : Constants) (templates : List (String × TemplateCourse)) (st : Student) (es : List Exc)
    (all : Bool) (spec : Dict) (a : Area) (hload : loadArea c templates st es all spec = .ok a) (htidy : TidyText st all spec)
    (o : Orders) (ho : o.Lawful) (hflags : HonestFlags a.result.topChildren)
    (hids : (st.courses.map (·.clbid)).Nodup)
    (c0 : Course) (h0 : ∀ c ∈ st.courses ++ st.coursesWithFailed, c.clbid = c0.clbid → c = c0)
    (hforced : ∀ e ∈ es, e.kind ≠ .insertion c0.clbid true)
    (hmulti : a.multicountable.get? c0.identity = none)
    (s : AreaSolution) (hs : s ∈ (a.solutions o st es).items) (hc0 : c0 ∈ s.ctx.transcript)
    (r : AreaResult) (ha : s.audit o a = .ok r) :
    timesClaimed c0.clbid r.result.exclusive ≤ 1 := by
  refine C37_single_count_partial a st es o ho (loadArea_loaded hload).1 (loadArea_common hload).1 ?_ ?_ ?_ hflags hids c0 h0
    hforced hmulti s hs hc0 r ha
  · intro l hl
    exact (loadArea_loaded hload).2 l (Node.liveLeaves_subset _ hl)
  · intro l hl
    exact Node.silent_not_claiming ((loadArea_common hload).2 l hl)
  · exact (loadArea_nodup hload htidy).sublist (Node.topChildren_paths _)

/-- **C38** for loaded areas (partial): an override at the path of any rule of an area, as loaded from any
text, makes that rule count as waived: it has one solution, whose audit passes with full rank, claims
nothing and changes no claims.  Missing: conditional rules, for which it is false
(`C38_conditional_refuted`). -/
theorem C38_loaded_area_partial (c : Constants) (templates : List (String × TemplateCourse)) (st : Student) (es : List Exc)
    (all : Bool) (spec : Dict) (a : Area) (hload : loadArea c templates st es all spec = .ok a)
    (x : Ctx) (o : Orders) (hx : x.exceptions = groupExceptions es)
    (n : Node) (hn : n ∈ a.result.within) (hc : n.isCond = false)
    (hw : ∃ e ∈ es, e.path = n.path ∧ e.kind = .override) :
    ∃ s, n.solutions x o = .one s ∧ ∀ t, ∃ r, s.audit x o t = .ok (r, t) ∧ r.path = n.path ∧
      r.status = n.waivedStatus ∧ r.status.passing = true ∧ r.rank = .ok (1, 1) ∧ r.claims = [] :=
  C38_waived_partial x o es hx n (Node.loaded_congr hx.symm n
    (Node.within_loaded _ n (loadArea_loaded hload).1 hn)) hc hw

/-! ### Non-trivial cases -/

/-- the claims of the audited solutions of an area, if it can be loaded -/
def auditedClaims (st : Student) (es : List Exc) (spec : Dict) : Option (List (List (String × Path))) :=
  match loadArea {} [] st es false spec with
  | .ok a => some ((a.solutions .insertion st es).items.map (fun s => match s.audit .insertion a with
      | .ok r => r.claims.map (fun c => (c.course.clbid, c.claimedBy))
      | .error _ => []))
  | .error _ => none

/-- the sample student with four classes -/
def sampleTaken : Student :=
  { sampleStudent with courses := [{ clbid := "1", identity := "CSCI 121", subject := "CSCI" },
      { clbid := "2", identity := "CSCI 251", subject := "CSCI" }, { clbid := "3", identity := "CSCI 300", subject := "CSCI" },
      { clbid := "4", identity := "CSCI 301", subject := "CSCI" }] }

/-- The sample area from its text to the claims of its four audited solutions: class 1 is claimed by the
core only, though the electives could use it too. -/
example : auditedClaims sampleTaken [] sampleText = some
    (let core : List (String × Path) := [("1", ["$", ".count", "[0]", "%Core", ".count", "[0]", "*CSCI 121"]),
      ("2", ["$", ".count", "[0]", "%Core", ".count", "[1]", ".count", "[1]", "*CSCI 251"])]
     let elective (k : String) : String × Path := (k, ["$", ".count", "[1]", "%Electives", ".query"])
     [core ++ [elective "3"], core ++ [elective "4"], core ++ [elective "3", elective "4"],
      core ++ [elective "3", elective "4"]]) := by
  decide +kernel

/-- With class 3 blocked at the electives, no solution claims it there. -/
example : auditedClaims sampleTaken [⟨["$", ".count", "[1]", "%Electives", ".query"], .block "3"⟩] sampleText = some
    [[("1", ["$", ".count", "[0]", "%Core", ".count", "[0]", "*CSCI 121"]),
      ("2", ["$", ".count", "[0]", "%Core", ".count", "[1]", ".count", "[1]", "*CSCI 251"]),
      ("4", ["$", ".count", "[1]", "%Electives", ".query"])]] := by
  decide +kernel

end Dp
