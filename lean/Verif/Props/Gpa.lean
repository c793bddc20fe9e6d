import Verif.Props.Satisfied
import Verif.Props.Transcript

/-
Which courses the grade point average of an area is taken over (C60).
-/
namespace Dp

/-! ### Specification -/

/-- `CountsForGpa r c`: somewhere in the result `r` the course `c` was claimed with success, not inside a requirement that
is kept out of the GPA or left to the department, and not inside the branch a conditional did not take. -/
inductive CountsForGpa : Node → Course → Prop where
  | course {d : CourseData} {k : Claim} : d.claim = some k → k.failed = false →
      CountsForGpa (.course .result d) k.course
  | query {d : QueryData} {k : Claim} : k ∈ d.successful → k.failed = false → CountsForGpa (.query .result d) k.course
  | count {s : Stage} {d : CountData} {items : List Node} {n : Node} {c : Course} : n ∈ items → CountsForGpa n c →
      CountsForGpa (.count s d items) c
  | req {s : Stage} {d : ReqData} {n : Node} {c : Course} : d.inGpa = true → d.isAudited = false → CountsForGpa n c →
      CountsForGpa (.req s d (some n)) c
  | condTrue {s : Stage} {d : CondData} {t : Node} {f : Option Node} {c : Course} : d.condition = some true →
      CountsForGpa t c → CountsForGpa (.cond s d t f) c
  | condFalse {s : Stage} {d : CondData} {t f : Node} {c : Course} : d.condition = some false →
      CountsForGpa f c → CountsForGpa (.cond s d t (some f)) c
  | prof {d : ProfData} {cd : CourseData} {k : Claim} : cd.claim = some k → k.failed = false →
      CountsForGpa (.prof .result d (some (.result, cd))) k.course

/-- the distinct courses that a property picks out, in any order -/
def Lists (p : Course → Prop) (cs : List Course) : Prop := cs.Nodup ∧ ∀ c, c ∈ cs ↔ p c

/-! ### Proofs -/

theorem mem_matchedOf {l : List Claim} {c : Course} : c ∈ matchedOf l ↔ ∃ k ∈ l, k.failed = false ∧ k.course = c := by
  simp only [matchedOf, List.mem_dedup, List.mem_map, List.mem_filter]
  constructor
  · rintro ⟨k, ⟨h1, h2⟩, h3⟩
    exact ⟨k, h1, by simpa using h2, h3⟩
  · rintro ⟨k, h1, h2, h3⟩
    exact ⟨k, ⟨h1, by simpa using h2⟩, h3⟩

theorem courseClaims_mem {s : Stage} {d : CourseData} {k : Claim} :
    k ∈ courseClaims s d ↔ s = .result ∧ d.claim = some k ∧ k.failed = false := by
  unfold courseClaims
  split
  · rename_i c hc
    rw [hc]
    by_cases hf : c.failed = true
    · rw [if_pos hf]
      simp only [List.not_mem_nil, Option.some.injEq, true_and, false_iff, not_and]
      rintro rfl
      simp [hf]
    · rw [if_neg hf]
      simp only [List.mem_singleton, Option.some.injEq, true_and]
      constructor
      · rintro rfl
        exact ⟨rfl, by simpa using hf⟩
      · rintro ⟨rfl, _⟩
        rfl
  · rename_i hne
    simp only [List.not_mem_nil, false_iff, not_and]
    rintro rfl h _
    exact hne k rfl h

mutual
theorem Node.gpa_iff : ∀ (n : Node) (c : Course), (∃ k ∈ n.claimsForGpa, k.failed = false ∧ k.course = c) ↔ CountsForGpa n c
  | .course s d, c => by
    simp only [Node.claimsForGpa, courseClaims_mem]
    constructor
    · rintro ⟨k, ⟨rfl, h1, _⟩, h2, rfl⟩
      exact .course h1 h2
    · rintro ⟨h1, h2⟩
      exact ⟨_, ⟨rfl, h1, h2⟩, h2, rfl⟩
  | .query s d, c => by
    simp only [Node.claimsForGpa, queryClaims]
    constructor
    · rintro ⟨k, h1, h2, rfl⟩
      split at h1
      · rename_i hs
        subst hs
        exact .query h1 h2
      · simp at h1
    · rintro (_ | ⟨h1, h2⟩)
      exact ⟨_, by simpa using h1, h2, rfl⟩
  | .count s d items, c => by
    simp only [Node.claimsForGpa]
    refine (Node.gpaList_iff items c).trans ⟨?_, ?_⟩
    · rintro ⟨n, hn, h⟩
      exact .count hn h
    · rintro (_ | _ | ⟨hn, h⟩)
      exact ⟨_, hn, h⟩
  | .req s d r, c => by
    simp only [Node.claimsForGpa]
    constructor
    · rintro ⟨k, h1, h2, h3⟩
      split at h1
      · rename_i hd
        simp only [Bool.and_eq_true, Bool.not_eq_true'] at hd
        cases r with
        | none => simp [Node.claimsForGpaOpt] at h1
        | some n => exact .req hd.1 hd.2 ((Node.gpa_iff n c).1 ⟨k, h1, h2, h3⟩)
      · simp at h1
    · rintro (_ | _ | _ | ⟨h1, h2, h⟩)
      rw [h1, h2]
      exact (Node.gpa_iff _ c).2 h
  | .cond s d t f, c => by
    simp only [Node.claimsForGpa]
    constructor
    · rintro ⟨k, h1, h2, h3⟩
      split at h1
      · rename_i hc
        exact .condTrue hc ((Node.gpa_iff t c).1 ⟨k, h1, h2, h3⟩)
      · rename_i hc
        cases f with
        | none => simp [Node.claimsForGpaOpt] at h1
        | some n => exact .condFalse hc ((Node.gpa_iff n c).1 ⟨k, h1, h2, h3⟩)
      · simp at h1
    · intro h
      cases h with
      | condTrue hc h =>
        rw [hc]
        exact (Node.gpa_iff t c).2 h
      | condFalse hc h =>
        rw [hc]
        exact (Node.gpa_iff _ c).2 h
  | .prof s d cd, c => by
    simp only [Node.claimsForGpa, profClaims]
    constructor
    · rintro ⟨k, h1, h2, rfl⟩
      split at h1
      · rename_i s' d'
        rw [courseClaims_mem] at h1
        obtain ⟨rfl, h1, _⟩ := h1
        exact .prof h1 h2
      · simp at h1
    · intro h
      cases h with
      | prof h1 h2 => exact ⟨_, courseClaims_mem.2 ⟨rfl, h1, h2⟩, h2, rfl⟩
theorem Node.gpaList_iff : ∀ (l : List Node) (c : Course),
    (∃ k ∈ Node.claimsForGpaList l, k.failed = false ∧ k.course = c) ↔ ∃ n ∈ l, CountsForGpa n c
  | [], c => by simp [Node.claimsForGpaList]
  | n :: l, c => by
    simp only [Node.claimsForGpaList, List.mem_append, List.exists_mem_cons_iff]
    rw [← Node.gpa_iff n c, ← Node.gpaList_iff l c]
    constructor
    · rintro ⟨k, h1 | h1, h2⟩
      · exact .inl ⟨k, h1, h2⟩
      · exact .inr ⟨k, h1, h2⟩
    · rintro (⟨k, h1, h2⟩ | ⟨k, h1, h2⟩)
      · exact ⟨k, .inl h1, h2⟩
      · exact ⟨k, .inr h1, h2⟩
end

theorem matchedForGpa_lists (n : Node) : Lists (CountsForGpa n) n.matchedForGpa :=
  ⟨by unfold Node.matchedForGpa matchedOf; exact List.nodup_dedup _,
   fun c => by unfold Node.matchedForGpa; rw [mem_matchedOf]; exact Node.gpa_iff n c⟩

theorem Lists.gpa_eq {p : Course → Prop} {cs ds : List Course} (hc : Lists p cs) (hd : Lists p ds) :
    gradePointAverage cs = gradePointAverage ds := by
  apply C31_order_does_not_matter
  exact ((List.perm_ext_iff_of_nodup hc.1 hd.1).2 (fun c => (hc.2 c).trans (hd.2 c).symm)).filter _

/-- C60.  The grade point average of an audited degree is that of all courses of the student, failed ones included. -/
theorem C60_degree_gpa (c : Constants) (templates : List (String × TemplateCourse)) (st : Student) (es : List Exc) (all : Bool)
    (spec : Dict) (a : Area) (hload : loadArea c templates st es all spec = .ok a) (hk : a.kind = "degree") (o : Orders) (ho : o.Lawful)
    (s : AreaSolution) (hs : s ∈ (a.solutions o st es).items) (r : AreaResult) (ha : s.audit o a = .ok r) :
    r.gpa = gradePointAverage st.coursesWithFailed := by
  obtain ⟨tr, _, h1, h2, h3, _⟩ := area_outcome ho (loadArea_loaded hload).1 (loadArea_common hload).1 hs ha
  unfold AreaResult.gpa
  rw [if_pos (h3.trans hk), h2, h1]
  rfl

/-- C60.  The grade point average of any other area is that of the different courses claimed with success in the result of
the area's own rule, outside of requirements that are kept out of the GPA or left to the department: the requirements common
to majors add nothing. -/
theorem C60_area_gpa (c : Constants) (templates : List (String × TemplateCourse)) (st : Student) (es : List Exc) (all : Bool)
    (spec : Dict) (a : Area) (hload : loadArea c templates st es all spec = .ok a) (hk : a.kind ≠ "degree") (o : Orders) (ho : o.Lawful)
    (s : AreaSolution) (hs : s ∈ (a.solutions o st es).items) (r : AreaResult) (ha : s.audit o a = .ok r) :
    ∃ r0 t, s.solution.audit s.ctx o s.claims = .ok (r0, t) ∧
      ∀ cs, Lists (CountsForGpa r0) cs → r.gpa = gradePointAverage cs := by
  have hao := area_outcome ho (loadArea_loaded hload).1 (loadArea_common hload).1 hs ha
  unfold AreaSolution.audit at ha
  split at ha
  · cases ha
  rename_i r0 t1 hr0
  refine ⟨r0, t1, hr0, fun cs hcs => ?_⟩
  obtain ⟨tr, _, h1, h2, h3, _⟩ := hao
  unfold AreaResult.gpa
  rw [if_neg (by rw [h3]; exact hk)]
  refine Lists.gpa_eq ?_ hcs
  split at ha
  · split at ha
    · cases ha
    rename_i common hcommon
    split at ha
    · rename_i d items
      cases ha
      have hcn : ∀ c, ¬ CountsForGpa common c := by
        unfold auditCommon at hcommon
        split at hcommon
        · cases hcommon
        split at hcommon
        · cases hcommon
        dsimp only at hcommon
        split at hcommon
        · cases hcommon
        cases hcommon
        intro c hc
        cases hc with
        | req hg _ _ => cases hg
      refine ⟨(matchedForGpa_lists _).1, fun c => ((matchedForGpa_lists _).2 c).trans ⟨fun h => ?_, fun h => ?_⟩⟩
      · cases h with
        | count hn h =>
          rcases List.mem_append.1 hn with hn | hn
          · exact .count hn h
          · rw [List.mem_singleton] at hn
            subst hn
            exact absurd h (hcn c)
      · cases h with
        | count hn h => exact .count (List.mem_append_left _ hn) h
    · cases ha
  · cases ha
    exact matchedForGpa_lists _

/-! ### A non-trivial case -/

/-- a concentration whose core is kept out of the GPA -/
def gpaText (kind : String) : Dict :=
  [("name", .str "Statistics"), ("type", .str kind), ("code", .str "900"), ("degree", .str "B.A."),
   ("result", .map [("all", .list [.map [("requirement", .str "Core")], .map [("requirement", .str "Electives")]])]),
   ("requirements", .map [
     ("Core", .map [("in_gpa", .bool false), ("result", .map [("all", .list [.map [("course", .str "CSCI 121")]])])]),
     ("Electives", .map [("result", .map [("from", .str "courses"),
        ("where", .map [("subject", .map [("$eq", .str "CSCI")])]),
        ("assert", .map [("count(courses)", .map [("$gte", .int 2)])])])])])]

/-- a student with a class of the core, two electives and a failed class -/
def gpaTaken : Student :=
  { sampleStudent with
    courses := [{ clbid := "1", identity := "CSCI 121", subject := "CSCI", isInGpa := true, gpaPoints := 2 },
      { clbid := "2", identity := "CSCI 251", subject := "CSCI", isInGpa := true, gpaPoints := 4 },
      { clbid := "3", identity := "CSCI 300", subject := "CSCI", isInGpa := true, gpaPoints := 3 }]
    coursesWithFailed := [{ clbid := "1", identity := "CSCI 121", subject := "CSCI", isInGpa := true, gpaPoints := 2 },
      { clbid := "2", identity := "CSCI 251", subject := "CSCI", isInGpa := true, gpaPoints := 4 },
      { clbid := "3", identity := "CSCI 300", subject := "CSCI", isInGpa := true, gpaPoints := 3 },
      { clbid := "4", identity := "CSCI 301", subject := "CSCI", isInGpa := true, gpaPoints := 0 }] }

/-- the grade point averages of the audited solutions of an area -/
def auditedGpas (st : Student) (spec : Dict) : Option (List Rat) :=
  match loadArea {} [] st [] false spec with
  | .ok a => some ((a.solutions .insertion st []).items.filterMap (fun s => match s.audit .insertion a with
      | .ok r => some r.gpa
      | .error _ => none))
  | .error _ => none

/-- The core does not count, the electives do; for a degree all four classes do. -/
example : auditedGpas gpaTaken (gpaText "concentration") = some [7/2] ∧
    auditedGpas gpaTaken (gpaText "degree") = some [9/4] := by
  decide +kernel

end Dp
