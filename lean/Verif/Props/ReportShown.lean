import Verif.Props.ReportRow

/-!
# C115: which of the courses in an audit are in the report
-/

namespace Dp

/-! ### Nothing else is shown -/

/-- The identity is one of the course: that of the class, or with that of the schedule. -/
def RpIs (c : RpCourse) (k : String) : Prop :=
  c.clbid = k ∨ (∃ sid, c.schedid = some sid ∧ c.clbid ++ ":" ++ sid = k) ∨
    (c.schedid = none ∧ c.clbid ++ ":None" = k)

/-- The identities that an assertion has counted. -/
def rpAssertionClaims : RpAssertion → List String
  | .rule r => r.inserted ++ r.resolvedClbids
  | .conditional t none => t.inserted ++ t.resolvedClbids
  | .conditional t (some f) => t.inserted ++ t.resolvedClbids ++ (f.inserted ++ f.resolvedClbids)
  | .dynamic r => r.inserted ++ r.resolvedClbids

mutual
/-- All identities that are claimed or counted somewhere in the audit. -/
def rpClaimsOf : RpRule → List String
  | .count _ items _ => rpClaimsOfList items
  | .course c => c.claims
  | .requirement _ _ result _ => rpClaimsOfOpt result
  | .query as _ => as.flatMap rpAssertionClaims
  | .conditional _ t f _ => rpClaimsOf t ++ rpClaimsOfOpt f
  | .proficiency _ none _ => []
  | .proficiency _ (some c) _ => c.claims

/-- The same for a rule that may be absent. -/
def rpClaimsOfOpt : Option RpRule → List String
  | none => []
  | some r => rpClaimsOf r

/-- The same for items. -/
def rpClaimsOfList : List RpRule → List String
  | [] => []
  | r :: rs => rpClaimsOf r ++ rpClaimsOfList rs
end

/-- All courses in the records have one of the identities. -/
def RpFrom (ks : List String) (row : List RpRec) : Prop :=
  ∀ r ∈ row, ∀ cell ∈ r.content, ∀ c ∈ cell.courses, ∃ k ∈ ks, RpIs c k

theorem rpGetClass_is (s : RpStudent) (k : String) (c : RpCourse) (h : s.getClass k = some c) :
    RpIs c k := by
  unfold RpStudent.getClass at h
  split at h
  · rename_i c' hc'
    cases h
    have := List.find?_some hc'
    exact Or.inl (by simpa using this)
  · split at h
    · rename_i c' hc'
      cases h
      have := List.find?_some hc'
      simp only [RpCourse.uniqueId, beq_iff_eq] at this
      cases hs : c.schedid with
      | none => rw [hs] at this; exact Or.inl this
      | some sid => rw [hs] at this; exact Or.inr (Or.inl ⟨sid, hs, this⟩)
    · have := List.find?_some h
      simp only [RpCourse.uniqueIdNone, beq_iff_eq] at this
      cases hs : c.schedid with
      | none => rw [hs] at this; exact Or.inr (Or.inr ⟨hs, this⟩)
      | some sid => rw [hs] at this; exact Or.inr (Or.inl ⟨sid, hs, this⟩)

theorem rpFrom_map (ks : List String) (row : List RpRec) (f : RpRec → RpRec)
    (hf : ∀ r, (f r).content = r.content ∨ (f r).content = []) (h : RpFrom ks row) :
    RpFrom ks (row.map f) := by
  intro r hr cell hcell
  rw [List.mem_map] at hr
  obtain ⟨r', hr', rfl⟩ := hr
  rcases hf r' with e | e
  · rw [e] at hcell; exact h r' hr' cell hcell
  · rw [e] at hcell; simp at hcell

theorem rpFrom_append (ks : List String) (a b : List RpRec) (ha : RpFrom ks a)
    (hb : RpFrom ks b) : RpFrom ks (a ++ b) := by
  intro r hr
  rcases List.mem_append.mp hr with h | h
  · exact ha r h
  · exact hb r h

theorem rpFrom_mono (ks ks' : List String) (row : List RpRec) (hk : ∀ k ∈ ks, k ∈ ks')
    (h : RpFrom ks row) : RpFrom ks' row := by
  intro r hr cell hc c hcc
  obtain ⟨k, h1, h2⟩ := h r hr cell hc c hcc
  exact ⟨k, hk k h1, h2⟩

theorem rpFrom_nil (ks : List String) : RpFrom ks [] := by
  intro r hr; cases hr

theorem rpSetInsert_mem (x y : String) : ∀ l : List String,
    y ∈ rpSetInsert x l ↔ y = x ∨ y ∈ l
  | [] => by simp [rpSetInsert]
  | z :: l => by
    unfold rpSetInsert
    split
    · rename_i e; subst e; simp
    · split
      · simp
      · rw [List.mem_cons, rpSetInsert_mem x y l, List.mem_cons]
        tauto

theorem rpSet_mem (y : String) : ∀ l : List String, y ∈ rpSet l ↔ y ∈ l
  | [] => by simp [rpSet]
  | x :: l => by
    have : rpSet (x :: l) = rpSetInsert x (rpSet l) := rfl
    rw [this, rpSetInsert_mem, rpSet_mem y l, List.mem_cons]

/-- The three records of an assertion. -/
theorem rpAssertRow_eq (s : RpStudent) (a : RpAssert) (row : List RpRec)
    (h : rpAssertRow s a = some row) :
    ∃ header courses, a.clbids.mapM s.getClass = some courses ∧ row = [
      { title := header, subtitle := some "status", status := a.status, content := [rpLeader a] },
      { title := header, subtitle := some "completed", status := a.status,
        content := if (courses.filter (fun c => !c.inProgress)).isEmpty then []
          else [.completed (courses.filter (fun c => !c.inProgress))] },
      { title := header, subtitle := some "in-progress", status := a.status,
        content := if (courses.filter (·.inProgress)).isEmpty then []
          else [.inProgress (courses.filter (·.inProgress))] }] := by
  unfold rpAssertRow at h
  cases hh : rpHeader a.op a.key.statement with
  | none => simp [hh] at h
  | some header =>
    cases hc : a.clbids.mapM s.getClass with
    | none => simp [hh, hc] at h
    | some courses =>
      simp only [hh, hc, Option.bind_eq_bind, Option.bind_some, Option.some.injEq] at h
      exact ⟨header, courses, rfl, h.symm⟩

theorem rpAssertRow_from (s : RpStudent) (a : RpAssert) (row : List RpRec)
    (h : rpAssertRow s a = some row) : RpFrom (a.inserted ++ a.resolvedClbids) row := by
  obtain ⟨header, courses, hc, rfl⟩ := rpAssertRow_eq s a row h
  have hmem : ∀ c ∈ courses, ∃ k ∈ a.inserted ++ a.resolvedClbids, RpIs c k := by
    intro c hcm
    obtain ⟨k, hk, he⟩ := rp_mapM_mem _ _ _ hc c hcm
    exact ⟨k, (rpSet_mem k _).mp hk, rpGetClass_is s k c he⟩
  intro r hr cell hcell c hcc
  simp only [List.mem_cons, List.not_mem_nil, or_false] at hr
  rcases hr with rfl | rfl | rfl
  · simp only [List.mem_cons, List.not_mem_nil, or_false] at hcell
    subst hcell
    rcases rpLeader_cases a with ⟨_, _, _, _, e⟩ | ⟨_, _, _, _, e⟩ <;> rw [e] at hcc <;> cases hcc
  · dsimp only at hcell
    split at hcell
    · cases hcell
    · rw [List.mem_singleton] at hcell
      subst hcell
      exact hmem c (List.mem_of_mem_filter hcc)
  · dsimp only at hcell
    split at hcell
    · cases hcell
    · rw [List.mem_singleton] at hcell
      subst hcell
      exact hmem c (List.mem_of_mem_filter hcc)

theorem rpAssertionRow_from (s : RpStudent) (a : RpAssertion) (row : List RpRec)
    (h : rpAssertionRow s a = some row) : RpFrom (rpAssertionClaims a) row := by
  cases a with
  | rule r => exact rpAssertRow_from s r row h
  | dynamic r => exact rpAssertRow_from s r row h
  | conditional t f =>
    rw [rpAssertionRow] at h
    cases ht : rpAssertRow s t with
    | none => simp [ht] at h
    | some rt =>
      cases f with
      | none =>
        simp [ht] at h
        subst h
        exact rpAssertRow_from s t _ ht
      | some b =>
        cases hb : rpAssertRow s b with
        | none => simp [ht, hb] at h
        | some rb =>
          simp [ht, hb] at h
          subst h
          refine rpFrom_append _ _ _ (rpFrom_mono _ _ _ ?_ (rpAssertRow_from s t _ ht))
            (rpFrom_mono _ _ _ ?_ (rpAssertRow_from s b _ hb))
          · intro k hk; exact List.mem_append_left _ hk
          · intro k hk; exact List.mem_append_right _ hk

theorem rpQueryRow_from (s : RpStudent) (as : List RpAssertion) (row : List RpRec)
    (h : rpQueryRow s as = some row) : RpFrom (as.flatMap rpAssertionClaims) row := by
  unfold rpQueryRow at h
  split at h
  · cases h; exact rpFrom_nil _
  · rename_i a rest ha
    have hm : a ∈ as := List.mem_of_mem_filter (by rw [ha]; simp)
    exact rpFrom_mono _ _ _ (fun k hk => List.mem_flatMap.mpr ⟨a, hm, hk⟩)
      (rpAssertionRow_from s a row h)

theorem rpCourseRow_from (s : RpStudent) (r : RpCourseRule) (w : Bool) (row : List RpRec)
    (h : rpCourseRow s r w = some row) : RpFrom r.claims row := by
  unfold rpCourseRow at h
  split at h
  · cases h
  · dsimp only at h
    cases h
    intro rec hrec cell hcell c hcc
    rw [List.mem_singleton] at hrec
    subst hrec
    obtain ⟨c', h1, rfl⟩ := rpCourseBody_mem _ _ _ _ hcell
    rw [RpCell.courses, List.mem_singleton] at hcc
    subst hcc
    unfold RpCourseRule.claimed at h1
    split at h1
    · cases h1
    · rename_i k ks e
      exact ⟨k, by rw [e]; simp, rpGetClass_is s k c h1⟩

theorem rpProficiencyRow_from (s : RpStudent) (name : String) (c : Option RpCourseRule)
    (st : RpStatus) (w : Bool) (row : List RpRec) (h : rpProficiencyRow s name c st w = some row) :
    RpFrom (rpClaimsOf (.proficiency name c st)) row := by
  unfold rpProficiencyRow at h
  cases c with
  | none =>
    cases h
    intro r hr cell hc
    rw [List.mem_singleton] at hr
    subst hr
    cases hc
  | some c =>
    simp only at h
    split at h
    · rename_i r hr
      cases h
      rw [rpClaimsOf]
      exact rpFrom_map _ [r] (fun r => { r with title := name }) (fun _ => Or.inl rfl)
        (rpCourseRow_from s c _ _ hr)
    · cases h

mutual
theorem rpRow_from (s : RpStudent) : ∀ (r : RpRule) (w : Bool) (row : List RpRec),
    rpRow s r w = some row → RpFrom (rpClaimsOf r) row
  | .count n items st, w, row, h => by
    rw [rpRow] at h
    rw [rpClaimsOf]
    split at h
    · cases hf : rpRowFirst s items (w || st.isWaived) with
      | none => simp [hf] at h
      | some o =>
        cases o with
        | none =>
          simp only [hf] at h
          cases h
          intro r hr cell hc
          rw [List.mem_singleton] at hr
          subst hr
          cases hc
        | some sub =>
          simp only [hf] at h
          cases h
          exact rpFrom_map _ sub _ (fun _ => Or.inl rfl) (rpRowFirst_from s items _ sub hf)
    · exact rpRowItems_from s _ items 1 _ row h
  | .course c, w, row, h => by
    rw [rpRow] at h
    rw [rpClaimsOf]
    exact rpCourseRow_from s c w row h
  | .requirement name path result st, w, row, h => by
    rw [rpRow] at h
    rw [rpClaimsOf]
    split at h
    · cases h; exact rpFrom_nil _
    · cases hs : rpRowOpt s result (w || st.isWaived) with
      | none => simp [hs] at h
      | some sub =>
        simp only [hs, Option.some.injEq] at h
        subst h
        exact rpFrom_map _ sub _ (fun _ => Or.inl rfl) (rpRowOpt_from s result _ sub hs)
  | .query as st, w, row, h => by
    rw [rpRow] at h
    rw [rpClaimsOf]
    exact rpQueryRow_from s as row h
  | .conditional c t f st, w, row, h => by
    rw [rpRow] at h
    rw [rpClaimsOf]
    cases ht : rpRow s t (w || st.isWaived) with
    | none => simp [ht] at h
    | some rt =>
      cases hf : rpRowOpt s f (w || st.isWaived) with
      | none => simp [ht, hf] at h
      | some rf =>
        simp only [ht, hf] at h
        cases h
        exact rpFrom_append _ _ _
          (rpFrom_mono _ _ _ (fun k hk => List.mem_append_left _ hk)
            (rpFrom_map _ rt _ (fun _ => Or.inl rfl) (rpRow_from s t _ rt ht)))
          (rpFrom_mono _ _ _ (fun k hk => List.mem_append_right _ hk)
            (rpFrom_map _ rf _ (fun _ => Or.inl rfl) (rpRowOpt_from s f _ rf hf)))
  | .proficiency name c st, w, row, h => by
    rw [rpRow] at h; exact rpProficiencyRow_from s name c st w row h

theorem rpRowOpt_from (s : RpStudent) : ∀ (r : Option RpRule) (w : Bool) (row : List RpRec),
    rpRowOpt s r w = some row → RpFrom (rpClaimsOfOpt r) row
  | none, w, row, h => by rw [rpRowOpt] at h; cases h; exact rpFrom_nil _
  | some r, w, row, h => by
    rw [rpRowOpt] at h
    rw [rpClaimsOfOpt]
    exact rpRow_from s r w row h

theorem rpRowFirst_from (s : RpStudent) : ∀ (rs : List RpRule) (w : Bool) (row : List RpRec),
    rpRowFirst s rs w = some (some row) → RpFrom (rpClaimsOfList rs) row
  | [], w, row, h => by rw [rpRowFirst] at h; cases h
  | r :: rs, w, row, h => by
    rw [rpRowFirst] at h
    rw [rpClaimsOfList]
    split at h
    · cases hr : rpRow s r w with
      | none => simp [hr] at h
      | some sub =>
        simp only [hr, Option.some.injEq] at h
        subst h
        exact rpFrom_mono _ _ _ (fun k hk => List.mem_append_left _ hk) (rpRow_from s r w sub hr)
    · exact rpFrom_mono _ _ _ (fun k hk => List.mem_append_right _ hk)
        (rpRowFirst_from s rs w row h)

theorem rpRowItems_from (s : RpStudent) (p : Bool) :
    ∀ (rs : List RpRule) (k : Nat) (w : Bool) (row : List RpRec),
    rpRowItems s p rs k w = some row → RpFrom (rpClaimsOfList rs) row
  | [], k, w, row, h => by rw [rpRowItems] at h; cases h; exact rpFrom_nil _
  | r :: rs, k, w, row, h => by
    rw [rpRowItems] at h
    rw [rpClaimsOfList]
    cases hr : rpRow s r w with
    | none => simp [hr] at h
    | some sub =>
      cases hrs : rpRowItems s p rs (k + 1) w with
      | none => simp [hr, hrs] at h
      | some rest =>
        simp only [hr, hrs] at h
        cases h
        exact rpFrom_append _ _ _
          (rpFrom_mono _ _ _ (fun k hk => List.mem_append_left _ hk)
            (rpFrom_map _ sub _ (rpItemRec_content p k r.status) (rpRow_from s r w sub hr)))
          (rpFrom_mono _ _ _ (fun k hk => List.mem_append_right _ hk)
            (rpRowItems_from s p rs (k + 1) w rest hrs))
end

/-- **C115.** For every student and every stored audit whose row can be written: every course in the
row is one that the audit claims or counts. -/
theorem C115_only_claimed_courses (s : RpStudent) (a : RpArea) (row : List RpRec)
    (h : rpAreaRow s a = some row) :
    ∀ r ∈ row, ∀ cell ∈ r.content, ∀ c ∈ cell.courses, ∃ k ∈ rpClaimsOf a.result, RpIs c k := by
  unfold rpAreaRow at h
  cases hr : rpRow s a.result false with
  | none => simp [hr] at h
  | some sub =>
    simp only [hr, Option.bind_eq_bind, Option.bind_some, Option.some.injEq] at h
    subst h
    refine rpFrom_append _ _ _ ?_ (rpRow_from s a.result false sub hr)
    intro r hr cell hc c hcc
    simp only [List.mem_cons, List.not_mem_nil, or_false] at hr
    rcases hr with rfl | rfl | rfl | rfl <;>
      (rw [List.mem_singleton] at hc; subst hc; cases hcc)

/-! ### What is claimed is shown -/

/-- A part of the audit that has its own cells: no part of one of several things, of the common
requirements, or of a waived requirement of the area. -/
inductive RpShows : RpRule → RpRule → Prop
  | self (r : RpRule) : RpShows r r
  | item (n : Nat) (items : List RpRule) (st : RpStatus) (i r : RpRule) : n ≠ 1 → i ∈ items →
      (i.status ≠ .waived ∨ ∃ j ∈ items, j.isRequirement = false) → RpShows i r →
      RpShows (.count n items st) r
  | result (name : String) (path : List String) (i : RpRule) (st : RpStatus) (r : RpRule) :
      path ≠ ["$", "%Common Requirements"] → RpShows i r →
      RpShows (.requirement name path (some i) st) r
  | ifYes (c : RpCond) (t : RpRule) (f : Option RpRule) (st : RpStatus) (r : RpRule) :
      RpShows t r → RpShows (.conditional c t f st) r
  | otherwise (c : RpCond) (t f : RpRule) (st : RpStatus) (r : RpRule) :
      RpShows f r → RpShows (.conditional c t (some f) st) r

theorem rpItemRec_kept (p : Bool) (k : Nat) (st : RpStatus) (r : RpRec)
    (h : st ≠ .waived ∨ p = true) : (rpItemRec p k st r).content = r.content := by
  unfold rpItemRec
  split
  · rfl
  · rename_i hp
    have hst : st.isWaived = false := by
      rcases h with h | h
      · cases st <;> first | rfl | exact absurd rfl h
      · exact absurd h hp
    rw [hst]
    simp only [Bool.false_eq_true, if_false]
    split
    · rename_i he
      exact (List.isEmpty_iff.mp he).symm
    · rfl

theorem rpRowItems_item (s : RpStudent) (p : Bool) : ∀ (rs : List RpRule) (k : Nat) (w : Bool)
    (row : List RpRec), rpRowItems s p rs k w = some row → ∀ i ∈ rs,
    (i.status ≠ .waived ∨ p = true) →
    ∃ sub, rpRow s i w = some sub ∧ ∀ x ∈ sub, ∃ y ∈ row, y.content = x.content
  | [], k, w, row, h, i, hi, _ => absurd hi (by simp)
  | r :: rs, k, w, row, h, i, hi, hp => by
    rw [rpRowItems] at h
    cases hr : rpRow s r w with
    | none => simp [hr] at h
    | some sub =>
      cases hrs : rpRowItems s p rs (k + 1) w with
      | none => simp [hr, hrs] at h
      | some rest =>
        simp only [hr, hrs, Option.some.injEq] at h
        subst h
        rcases List.mem_cons.mp hi with rfl | hi
        · refine ⟨sub, hr, fun x hx => ⟨_, List.mem_append_left _ (List.mem_map_of_mem hx), ?_⟩⟩
          exact rpItemRec_kept p k i.status x hp
        · obtain ⟨sub', h1, h2⟩ := rpRowItems_item s p rs (k + 1) w rest hrs i hi hp
          refine ⟨sub', h1, fun x hx => ?_⟩
          obtain ⟨y, hy, e⟩ := h2 x hx
          exact ⟨y, List.mem_append_right _ hy, e⟩

theorem rpRow_shows (s : RpStudent) (r sub : RpRule) (h : RpShows r sub) :
    ∀ (w : Bool) (row : List RpRec), rpRow s r w = some row →
    ∃ w' part, rpRow s sub w' = some part ∧ ∀ x ∈ part, ∃ y ∈ row, y.content = x.content := by
  induction h with
  | self r => exact fun w row h => ⟨w, row, h, fun x hx => ⟨x, hx, rfl⟩⟩
  | item n items st i r hn hi hw _ ih =>
    intro w row h
    rw [rpRow, if_neg hn] at h
    have hp : i.status ≠ .waived ∨ (!items.all RpRule.isRequirement) = true := by
      rcases hw with hw | ⟨j, hj, e⟩
      · exact Or.inl hw
      · refine Or.inr ?_
        rw [Bool.not_eq_true', List.all_eq_false]
        exact ⟨j, hj, by rw [e]; simp⟩
    obtain ⟨sub, h1, h2⟩ := rpRowItems_item s _ items 1 _ row h i hi hp
    obtain ⟨w', part, h3, h4⟩ := ih _ sub h1
    refine ⟨w', part, h3, fun x hx => ?_⟩
    obtain ⟨y, hy, e⟩ := h4 x hx
    obtain ⟨z, hz, e'⟩ := h2 y hy
    exact ⟨z, hz, e'.trans e⟩
  | result name path i st r hp _ ih =>
    intro w row h
    rw [rpRow, if_neg hp, rpRowOpt] at h
    cases hs : rpRow s i (w || st.isWaived) with
    | none => simp [hs] at h
    | some sub =>
      simp only [hs, Option.some.injEq] at h
      subst h
      obtain ⟨w', part, h3, h4⟩ := ih _ sub hs
      refine ⟨w', part, h3, fun x hx => ?_⟩
      obtain ⟨y, hy, e⟩ := h4 x hx
      exact ⟨_, List.mem_map_of_mem hy, e⟩
  | ifYes c t f st r _ ih =>
    intro w row h
    rw [rpRow] at h
    cases ht : rpRow s t (w || st.isWaived) with
    | none => simp [ht] at h
    | some rt =>
      cases hf : rpRowOpt s f (w || st.isWaived) with
      | none => simp [ht, hf] at h
      | some rf =>
        simp only [ht, hf, Option.some.injEq] at h
        subst h
        obtain ⟨w', part, h3, h4⟩ := ih _ rt ht
        refine ⟨w', part, h3, fun x hx => ?_⟩
        obtain ⟨y, hy, e⟩ := h4 x hx
        exact ⟨_, List.mem_append_left _ (List.mem_map_of_mem hy), e⟩
  | otherwise c t f st r _ ih =>
    intro w row h
    rw [rpRow, rpRowOpt] at h
    cases ht : rpRow s t (w || st.isWaived) with
    | none => simp [ht] at h
    | some rt =>
      cases hf : rpRow s f (w || st.isWaived) with
      | none => simp [ht, hf] at h
      | some rf =>
        simp only [ht, hf, Option.some.injEq] at h
        subst h
        obtain ⟨w', part, h3, h4⟩ := ih _ rf hf
        refine ⟨w', part, h3, fun x hx => ?_⟩
        obtain ⟨y, hy, e⟩ := h4 x hx
        exact ⟨_, List.mem_append_right _ (List.mem_map_of_mem hy), e⟩

/-- The student's class with this identity. -/
def RpTheClass (s : RpStudent) (k : String) (c : RpCourse) : Prop :=
  c ∈ s.courses ∧ c.clbid = k ∧ ∀ c' ∈ s.courses, c'.clbid = k → c' = c

theorem rpGetClass_the (s : RpStudent) (k : String) (c : RpCourse) (h : RpTheClass s k c) :
    s.getClass k = some c := by
  unfold RpStudent.getClass
  cases hf : s.courses.find? (fun c => c.clbid == k) with
  | none =>
    rw [List.find?_eq_none] at hf
    exact absurd (hf c h.1) (by simp [h.2.1])
  | some c' =>
    have h1 := List.mem_of_find?_eq_some hf
    have h2 := List.find?_some hf
    rw [h.2.2 c' h1 (by simpa using h2)]

/-- The assertion asks for a number of courses or credits: at least, exactly, or more than. -/
def RpNumber (a : RpAssert) : Prop :=
  (a.key = .courses ∨ a.key = .distinctCourses ∨ a.key = .credits) ∧
    (a.op = .greaterThanOrEqualTo ∨ a.op = .equalTo ∨ a.op = .greaterThan)

theorem rpNumber_iff (a : RpAssert) :
    (a.isCourseOrCredit && a.isAtLeast) = true ↔ RpNumber a := by
  unfold RpAssert.isCourseOrCredit RpAssert.isAtLeast RpNumber
  cases a.key <;> cases a.op <;> simp

/-- **C115.** For every student and every stored audit whose row can be written, and every part of it
that has its own cells: the class that an item for a course has claimed is in a cell, also if the
item is waived; of a query, each class counted by the first assertion on a number of courses or
credits is in a cell, as completed or as in progress, whichever it is, and there is a cell with the
number needed, the number there is, what remains, and whether the assertion passes.

Missing: what is done for one of several things is shown beneath a title that does not say what it
is, and what was counted for a waived requirement, or by another assertion, is not shown. -/
theorem C115_claimed_courses_are_shown_partial (s : RpStudent) (a : RpArea) (row : List RpRec)
    (h : rpAreaRow s a = some row) :
    (∀ rule, RpShows a.result (.course rule) → ∀ k ks, rule.claims = k :: ks →
      ∀ c, RpTheClass s k c → ∃ r ∈ row, r.content = [.course c]) ∧
    (∀ name rule st, RpShows a.result (.proficiency name (some rule) st) →
      ∀ k ks, rule.claims = k :: ks → ∀ c, RpTheClass s k c → ∃ r ∈ row, r.content = [.course c]) ∧
    (∀ (as : List RpAssert) q bs st, RpShows a.result (.query (as.map .rule ++ .rule q :: bs) st) →
      (∀ x ∈ as, ¬ RpNumber x) → RpNumber q →
      (∀ k ∈ q.inserted ++ q.resolvedClbids, ∀ c, RpTheClass s k c → ∃ r ∈ row, ∃ cs, c ∈ cs ∧
        r.content = [if c.inProgress then .inProgress cs else .completed cs]) ∧
      (q.op = .greaterThanOrEqualTo → ∀ has, q.resolved = some has → ∃ r ∈ row, r.content =
        [.progress (decide (q.status = .done ∨ q.status = .waived ∨ q.status = .pendingCurrent))
          (if has ≤ q.expected then q.expected - has else 0) q.expected has])) := by
  unfold rpAreaRow at h
  cases hr : rpRow s a.result false with
  | none => simp [hr] at h
  | some sub =>
    simp only [hr, Option.bind_eq_bind, Option.bind_some, Option.some.injEq] at h
    subst h
    have hcourse : ∀ (rule : RpCourseRule) (w : Bool) (part : List RpRec),
        rpCourseRow s rule w = some part → ∀ k ks, rule.claims = k :: ks →
        ∀ c, RpTheClass s k c → ∃ x, part = [x] ∧ x.content = [.course c] := by
      intro rule w part hp k ks hk c hc
      unfold rpCourseRow at hp
      split at hp
      · cases hp
      · dsimp only at hp
        cases hp
        refine ⟨_, rfl, ?_⟩
        have : rule.claimed s = some c := by
          unfold RpCourseRule.claimed
          rw [hk]
          exact rpGetClass_the s k c hc
        rw [this]
        unfold rpCourseBody
        cases (w || rule.status.isWaived) <;> rfl
    refine ⟨?_, ?_, ?_⟩
    · intro rule hs k ks hk c hc
      obtain ⟨w, part, hp, hall⟩ := rpRow_shows s _ _ hs false sub hr
      rw [rpRow] at hp
      obtain ⟨x, rfl, e⟩ := hcourse rule w part hp k ks hk c hc
      obtain ⟨y, hy, e'⟩ := hall x (by simp)
      exact ⟨y, List.mem_append_right _ hy, e'.trans e⟩
    · intro name rule st hs k ks hk c hc
      obtain ⟨w, part, hp, hall⟩ := rpRow_shows s _ _ hs false sub hr
      rw [rpRow] at hp
      unfold rpProficiencyRow at hp
      simp only at hp
      split at hp
      · rename_i x hx
        cases hp
        obtain ⟨x', e1, e⟩ := hcourse rule _ _ hx k ks hk c hc
        cases e1
        obtain ⟨y, hy, e'⟩ := hall _ (List.mem_singleton.mpr rfl)
        exact ⟨y, List.mem_append_right _ hy, e'.trans e⟩
      · cases hp
    · intro as q bs st hs has hq
      obtain ⟨w, part, hp, hall⟩ := rpRow_shows s _ _ hs false sub hr
      rw [rpRow] at hp
      unfold rpQueryRow at hp
      have hfil : (as.map RpAssertion.rule ++ .rule q :: bs).filter
          (fun a => a.isCourseOrCredit && a.isAtLeast) =
          .rule q :: bs.filter (fun a => a.isCourseOrCredit && a.isAtLeast) := by
        rw [List.filter_append, List.filter_cons_of_pos]
        · rw [List.filter_eq_nil_iff.mpr, List.nil_append]
          intro x hx
          obtain ⟨y, hy, rfl⟩ := List.mem_map.mp hx
          intro hb
          exact has y hy ((rpNumber_iff y).mp hb)
        · exact (rpNumber_iff q).mpr hq
      rw [hfil] at hp
      simp only [rpAssertionRow] at hp
      obtain ⟨header, courses, hc, rfl⟩ := rpAssertRow_eq s q part hp
      refine ⟨?_, ?_⟩
      · intro k hk c hcl
        have hin : c ∈ courses := by
          have hk' : k ∈ q.clbids := (rpSet_mem k _).mpr hk
          clear hall hp hfil
          revert hc hk'
          generalize q.clbids = l
          intro hc hk'
          induction l generalizing courses with
          | nil => cases hk'
          | cons x l ih =>
            rw [List.mapM_cons] at hc
            cases hx : s.getClass x with
            | none => simp [hx] at hc
            | some cx =>
              cases hrest : l.mapM s.getClass with
              | none => simp [hx, hrest] at hc
              | some rest =>
                simp [hx, hrest] at hc
                subst hc
                rcases List.mem_cons.mp hk' with rfl | hk'
                · rw [rpGetClass_the s k c hcl] at hx
                  cases hx
                  simp
                · exact List.mem_cons_of_mem _ (ih rest hrest hk')
        cases hip : c.inProgress with
        | true =>
          have hm : c ∈ courses.filter (·.inProgress) := List.mem_filter.mpr ⟨hin, hip⟩
          have hne : (courses.filter (·.inProgress)).isEmpty = false := by
            cases hl : courses.filter (·.inProgress) with
            | nil => rw [hl] at hm; cases hm
            | cons => rfl
          obtain ⟨y, hy, e⟩ := hall _ (List.mem_cons_of_mem _ (List.mem_cons_of_mem _
            (List.mem_singleton.mpr rfl)))
          refine ⟨y, List.mem_append_right _ hy, _, hm, ?_⟩
          rw [e]
          simp [hne]
        | false =>
          have hm : c ∈ courses.filter (fun c => !c.inProgress) :=
            List.mem_filter.mpr ⟨hin, by simp [hip]⟩
          have hne : (courses.filter (fun c => !c.inProgress)).isEmpty = false := by
            cases hl : courses.filter (fun c => !c.inProgress) with
            | nil => rw [hl] at hm; cases hm
            | cons => rfl
          obtain ⟨y, hy, e⟩ := hall _ (List.mem_cons_of_mem _ (List.mem_cons_self ..))
          refine ⟨y, List.mem_append_right _ hy, _, hm, ?_⟩
          rw [e]
          simp [hne]
      · intro hop hv hres
        obtain ⟨y, hy, e⟩ := hall _ (List.mem_cons_self ..)
        refine ⟨y, List.mem_append_right _ hy, ?_⟩
        rw [e]
        have h1 : q.status.isPassing =
            decide (q.status = .done ∨ q.status = .waived ∨ q.status = .pendingCurrent) := by
          cases q.status <;> rfl
        have h2 : max 0 (q.expected - hv) = if hv ≤ q.expected then q.expected - hv else 0 := by
          split
          · exact max_eq_right (by linarith)
          · exact max_eq_left (by linarith)
        simp only [rpLeader, hop, hres, Option.getD_some, h1, h2]

/-! ### Example -/

/-- An audit of a major with a core and two electives. -/
def rpElectives : RpArea :=
  { status := .needsMoreItems
    result := .count 2 [
      .requirement "Core" ["$", "%Core"] (some (rpCourseItem "CSCI 121" ["10"] .done)) .done,
      .requirement "Electives" ["$", "%Electives"] (some (rpQueryItem 2 ["11"] .needsMoreItems))
        .needsMoreItems] .needsMoreItems }

/-- Ann's course of the core and the one elective have their own cells, and the row is as the
theorem says. -/
example :
    (∃ rule, RpShows rpElectives.result (.course rule) ∧ rule.claims = ["10"]) ∧
    (∃ q, RpShows rpElectives.result (.query [.rule q] .needsMoreItems) ∧ RpNumber q ∧
      q.resolvedClbids = ["11"]) ∧
    RpTheClass rpAnn "10" (rpCourseOf "10" "CSCI" "121" false) ∧
    (rpAreaRow rpAnn rpElectives).map (fun row => (row.drop 4).map (fun r => r.content)) =
      some [[.course (rpCourseOf "10" "CSCI" "121" false)], [.progress false 1 2 1],
        [.completed [rpCourseOf "11" "CSCI" "251" false]], []] := by
  refine ⟨⟨_, .item _ _ _ _ _ (by decide) (List.mem_cons_self ..) (Or.inl (by decide))
      (.result _ _ _ _ _ (by decide) (.self _)), rfl⟩,
    ⟨_, .item _ _ _ _ _ (by decide) (List.mem_cons_of_mem _ (List.mem_cons_self ..))
      (Or.inl (by decide)) (.result _ _ _ _ _ (by decide) (.self _)),
      ⟨Or.inl rfl, Or.inl rfl⟩, rfl⟩, ?_, by decide +kernel⟩
  unfold RpTheClass
  decide +kernel

end Dp
