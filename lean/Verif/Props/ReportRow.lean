import Verif.Props.ReportSummary

/-!
# C115: what a report shows of an audit
-/

namespace Dp

/-- The courses in a cell. -/
def RpCell.courses : RpCell → List RpCourse
  | .text _ => []
  | .progress .. => []
  | .compare .. => []
  | .course c => [c]
  | .completed cs => cs
  | .inProgress cs => cs

/-- All courses in the records are courses of the student; those shown as completed are not in
progress, and those shown as in progress are. -/
def RpTrue (s : RpStudent) (row : List RpRec) : Prop :=
  ∀ r ∈ row, ∀ cell ∈ r.content, (∀ c ∈ cell.courses, c ∈ s.courses) ∧
    (∀ cs, cell = .completed cs → cs ≠ [] ∧ ∀ c ∈ cs, c.inProgress = false) ∧
    (∀ cs, cell = .inProgress cs → cs ≠ [] ∧ ∀ c ∈ cs, c.inProgress = true)

theorem rpGetClass_mem (s : RpStudent) (clbid : String) (c : RpCourse)
    (h : s.getClass clbid = some c) : c ∈ s.courses := by
  unfold RpStudent.getClass at h
  split at h
  · rename_i c' hc'
    cases h
    exact List.mem_of_find?_eq_some hc'
  · split at h
    · rename_i c' hc'
      cases h
      exact List.mem_of_find?_eq_some hc'
    · exact List.mem_of_find?_eq_some h

theorem rpTrue_map (s : RpStudent) (row : List RpRec) (f : RpRec → RpRec)
    (hf : ∀ r, (f r).content = r.content ∨ (f r).content = []) (h : RpTrue s row) :
    RpTrue s (row.map f) := by
  intro r hr cell hcell
  rw [List.mem_map] at hr
  obtain ⟨r', hr', rfl⟩ := hr
  rcases hf r' with e | e
  · rw [e] at hcell; exact h r' hr' cell hcell
  · rw [e] at hcell; simp at hcell

theorem rpTrue_append (s : RpStudent) (a b : List RpRec) (ha : RpTrue s a) (hb : RpTrue s b) :
    RpTrue s (a ++ b) := by
  intro r hr
  rcases List.mem_append.mp hr with h | h
  · exact ha r h
  · exact hb r h

theorem rpLeader_cases (a : RpAssert) : (∃ b x y z, rpLeader a = .progress b x y z) ∨
    (∃ b x o y, rpLeader a = .compare b x o y) := by
  unfold rpLeader
  cases a.op <;> simp

theorem rpAssertRow_true (s : RpStudent) (a : RpAssert) (row : List RpRec)
    (h : rpAssertRow s a = some row) : RpTrue s row := by
  unfold rpAssertRow at h
  cases hh : rpHeader a.op a.key.statement with
  | none => simp [hh] at h
  | some header =>
    cases hc : a.clbids.mapM s.getClass with
    | none => simp [hh, hc] at h
    | some courses =>
      simp only [hh, hc, Option.bind_eq_bind, Option.bind_some, Option.some.injEq] at h
      have hmem : ∀ c ∈ courses, c ∈ s.courses := by
        intro c hcm
        obtain ⟨clbid, -, he⟩ := rp_mapM_mem _ _ _ hc c hcm
        exact rpGetClass_mem s clbid c he
      subst h
      intro r hr cell hcell
      simp only [List.mem_cons, List.not_mem_nil, or_false] at hr
      rcases hr with rfl | rfl | rfl
      · simp only [List.mem_cons, List.not_mem_nil, or_false] at hcell
        subst hcell
        rcases rpLeader_cases a with ⟨_, _, _, _, e⟩ | ⟨_, _, _, _, e⟩ <;> rw [e] <;>
          simp [RpCell.courses]
      · dsimp only at hcell
        split at hcell
        · simp at hcell
        · rename_i hne
          simp only [List.mem_cons, List.not_mem_nil, or_false] at hcell
          subst hcell
          refine ⟨fun c hc => hmem c (List.mem_of_mem_filter hc), ?_, ?_⟩
          · intro cs e
            cases e
            refine ⟨fun e => hne (by rw [e]; rfl), fun c hc => ?_⟩
            simpa using (List.mem_filter.mp hc).2
          · intro cs e; cases e
      · dsimp only at hcell
        split at hcell
        · simp at hcell
        · rename_i hne
          simp only [List.mem_cons, List.not_mem_nil, or_false] at hcell
          subst hcell
          refine ⟨fun c hc => hmem c (List.mem_of_mem_filter hc), ?_, ?_⟩
          · intro cs e; cases e
          · intro cs e
            cases e
            exact ⟨fun e => hne (by rw [e]; rfl), fun c hc => (List.mem_filter.mp hc).2⟩

theorem rpQueryRow_true (s : RpStudent) (as : List RpAssertion) (row : List RpRec)
    (h : rpQueryRow s as = some row) : RpTrue s row := by
  unfold rpQueryRow at h
  split at h
  · cases h; intro r hr; simp at hr
  · rename_i a rest ha
    cases a with
    | rule r => exact rpAssertRow_true s r row h
    | dynamic r => exact rpAssertRow_true s r row h
    | conditional t f =>
      rw [rpAssertionRow] at h
      cases ht : rpAssertRow s t with
      | none => simp [ht] at h
      | some rt =>
        cases f with
        | none =>
          simp [ht] at h
          subst h
          exact rpAssertRow_true s t _ ht
        | some b =>
          cases hb : rpAssertRow s b with
          | none => simp [ht, hb] at h
          | some rb =>
            simp [ht, hb] at h
            subst h
            exact rpTrue_append s _ _ (rpAssertRow_true s t _ ht) (rpAssertRow_true s b _ hb)

theorem rpClaimed_mem (s : RpStudent) (r : RpCourseRule) (c : RpCourse)
    (h : r.claimed s = some c) : c ∈ s.courses := by
  unfold RpCourseRule.claimed at h
  split at h
  · cases h
  · exact rpGetClass_mem s _ c h

theorem rpCourseBody_mem (oc : Option RpCourse) (w : Bool) (st : RpStatus) (cell : RpCell)
    (h : cell ∈ (rpCourseBody oc w st).1) : ∃ c, oc = some c ∧ cell = .course c := by
  unfold rpCourseBody at h
  cases oc with
  | none => cases w <;> simp at h
  | some c => cases w <;> simp at h <;> exact ⟨c, rfl, h⟩

theorem rpCourseRow_true (s : RpStudent) (r : RpCourseRule) (w : Bool) (row : List RpRec)
    (h : rpCourseRow s r w = some row) : RpTrue s row := by
  unfold rpCourseRow at h
  split at h
  · cases h
  · dsimp only at h
    cases h
    intro rec hrec cell hcell
    rw [List.mem_singleton] at hrec
    subst hrec
    obtain ⟨c, h1, rfl⟩ := rpCourseBody_mem _ _ _ _ hcell
    refine ⟨fun c' hc' => ?_, fun cs e => (by cases e), fun cs e => (by cases e)⟩
    rw [RpCell.courses, List.mem_singleton] at hc'
    subst hc'
    exact rpClaimed_mem s r c' h1

theorem rpProficiencyRow_true (s : RpStudent) (name : String) (c : Option RpCourseRule)
    (st : RpStatus) (w : Bool) (row : List RpRec) (h : rpProficiencyRow s name c st w = some row) :
    RpTrue s row := by
  unfold rpProficiencyRow at h
  cases c with
  | none =>
    cases h
    intro r hr cell hc
    simp at hr
    subst hr
    simp at hc
  | some c =>
    simp only at h
    split at h
    · rename_i r hr
      cases h
      exact rpTrue_map s [r] (fun r => { r with title := name }) (fun _ => Or.inl rfl)
        (rpCourseRow_true s c _ _ hr)
    · cases h

theorem rpItemRec_content (p : Bool) (k : Nat) (st : RpStatus) (r : RpRec) :
    (rpItemRec p k st r).content = r.content ∨ (rpItemRec p k st r).content = [] := by
  unfold rpItemRec
  split
  · exact Or.inl rfl
  · split
    · exact Or.inr rfl
    · split
      · exact Or.inr rfl
      · exact Or.inl rfl

mutual
theorem rpRow_true (s : RpStudent) : ∀ (r : RpRule) (w : Bool) (row : List RpRec),
    rpRow s r w = some row → RpTrue s row
  | .count n items st, w, row, h => by
    rw [rpRow] at h
    split at h
    · cases hf : rpRowFirst s items (w || st.isWaived) with
      | none => simp [hf] at h
      | some o =>
        cases o with
        | none =>
          simp only [hf] at h
          cases h
          intro r hr cell hc
          simp at hr
          subst hr
          simp at hc
        | some sub =>
          simp only [hf] at h
          cases h
          exact rpTrue_map s sub _ (fun _ => Or.inl rfl) (rpRowFirst_true s items _ sub hf)
    · exact rpRowItems_true s _ items 1 _ row h
  | .course c, w, row, h => by rw [rpRow] at h; exact rpCourseRow_true s c w row h
  | .requirement name path result st, w, row, h => by
    rw [rpRow] at h
    split at h
    · cases h; intro r hr; simp at hr
    · cases hs : rpRowOpt s result (w || st.isWaived) with
      | none => simp [hs] at h
      | some sub =>
        simp only [hs, Option.some.injEq] at h
        subst h
        exact rpTrue_map s sub _ (fun _ => Or.inl rfl) (rpRowOpt_true s result _ sub hs)
  | .query as st, w, row, h => by rw [rpRow] at h; exact rpQueryRow_true s as row h
  | .conditional c t f st, w, row, h => by
    rw [rpRow] at h
    cases ht : rpRow s t (w || st.isWaived) with
    | none => simp [ht] at h
    | some rt =>
      cases hf : rpRowOpt s f (w || st.isWaived) with
      | none => simp [ht, hf] at h
      | some rf =>
        simp only [ht, hf] at h
        cases h
        exact rpTrue_append s _ _
          (rpTrue_map s rt _ (fun _ => Or.inl rfl) (rpRow_true s t _ rt ht))
          (rpTrue_map s rf _ (fun _ => Or.inl rfl) (rpRowOpt_true s f _ rf hf))
  | .proficiency name c st, w, row, h => by
    rw [rpRow] at h; exact rpProficiencyRow_true s name c st w row h

theorem rpRowOpt_true (s : RpStudent) : ∀ (r : Option RpRule) (w : Bool) (row : List RpRec),
    rpRowOpt s r w = some row → RpTrue s row
  | none, w, row, h => by rw [rpRowOpt] at h; cases h; intro r hr; simp at hr
  | some r, w, row, h => by rw [rpRowOpt] at h; exact rpRow_true s r w row h

theorem rpRowFirst_true (s : RpStudent) : ∀ (rs : List RpRule) (w : Bool) (row : List RpRec),
    rpRowFirst s rs w = some (some row) → RpTrue s row
  | [], w, row, h => by rw [rpRowFirst] at h; cases h
  | r :: rs, w, row, h => by
    rw [rpRowFirst] at h
    split at h
    · cases hr : rpRow s r w with
      | none => simp [hr] at h
      | some sub =>
        simp only [hr, Option.some.injEq] at h
        subst h
        exact rpRow_true s r w sub hr
    · exact rpRowFirst_true s rs w row h

theorem rpRowItems_true (s : RpStudent) (p : Bool) :
    ∀ (rs : List RpRule) (k : Nat) (w : Bool) (row : List RpRec),
    rpRowItems s p rs k w = some row → RpTrue s row
  | [], k, w, row, h => by rw [rpRowItems] at h; cases h; intro r hr; simp at hr
  | r :: rs, k, w, row, h => by
    rw [rpRowItems] at h
    cases hr : rpRow s r w with
    | none => simp [hr] at h
    | some sub =>
      cases hrs : rpRowItems s p rs (k + 1) w with
      | none => simp [hr, hrs] at h
      | some rest =>
        simp only [hr, hrs] at h
        cases h
        exact rpTrue_append s _ _
          (rpTrue_map s sub _ (rpItemRec_content p k r.status) (rpRow_true s r w sub hr))
          (rpRowItems_true s p rs (k + 1) w rest hrs)
end

/-- **C115.** For every student and every stored audit whose row can be written: the row begins with
the number, name, class and year of the student, every course shown in any cell is one of the
student's courses, and the courses shown as completed are not in progress, those shown as in
progress are. -/
theorem C115_courses_are_the_students (s : RpStudent) (a : RpArea) (row : List RpRec)
    (h : rpAreaRow s a = some row) :
    (row.take 4).map (fun r => (r.title, r.content)) =
      [("student id", [.text s.stnum]), ("name", [.text s.nameSort]),
       ("classification", [.text s.classification.text]), ("class year", [.text s.classYear])] ∧
    ∀ r ∈ row, ∀ cell ∈ r.content, (∀ c ∈ cell.courses, c ∈ s.courses) ∧
      (∀ cs, cell = .completed cs → cs ≠ [] ∧ ∀ c ∈ cs, c.inProgress = false) ∧
      (∀ cs, cell = .inProgress cs → cs ≠ [] ∧ ∀ c ∈ cs, c.inProgress = true) := by
  unfold rpAreaRow at h
  cases hr : rpRow s a.result false with
  | none => simp [hr] at h
  | some sub =>
    simp only [hr, Option.bind_eq_bind, Option.bind_some, Option.some.injEq] at h
    subst h
    refine ⟨rfl, ?_⟩
    refine rpTrue_append s _ _ ?_ (rpRow_true s a.result false sub hr)
    intro r hr cell hc
    simp only [List.mem_cons, List.not_mem_nil, or_false] at hr
    rcases hr with rfl | rfl | rfl | rfl <;>
      (simp only [List.mem_cons, List.not_mem_nil, or_false] at hc
       subst hc
       simp [RpCell.courses])

/-! ### What is shown as passing -/

/-- What the report shows of the requirements of an audit: the parts of the requirement `i` have its
status, except that those of a waived requirement are waived and empty, and those with nothing to
show are empty. -/
theorem rpRowItems_requirements (s : RpStudent) : ∀ (items : List RpRule) (k : Nat) (w : Bool)
    (row : List RpRec), rpRowItems s false items k w = some row → ∀ c ∈ row, ∃ i ∈ items,
      ∃ sub, rpRow s i w = some sub ∧ ∃ c' ∈ sub, c.title = c'.title ∧ c.subtitle = c'.subtitle ∧
        (c.status.isPassing = true ↔
          i.status = .waived ∨ (i.status.isPassing = true ∧ c'.content ≠ [])) ∧
        (c.content = c'.content ∨ i.status = .waived ∧ c.content = [])
  | [], k, w, row, h => by rw [rpRowItems] at h; cases h; simp
  | r :: rs, k, w, row, h => by
    rw [rpRowItems] at h
    cases hr : rpRow s r w with
    | none => simp [hr] at h
    | some sub =>
      cases hrs : rpRowItems s false rs (k + 1) w with
      | none => simp [hr, hrs] at h
      | some rest =>
        simp only [hr, hrs, Option.some.injEq] at h
        subst h
        intro c hc
        rcases List.mem_append.mp hc with hc | hc
        · rw [List.mem_map] at hc
          obtain ⟨c', hc', rfl⟩ := hc
          refine ⟨r, by simp, sub, hr, c', hc', ?_⟩
          unfold rpItemRec
          cases hst : r.status <;> cases hcon : c'.content <;>
            simp [RpStatus.isWaived, RpStatus.isPassing]
        · obtain ⟨i, hi, h⟩ := rpRowItems_requirements s rs (k + 1) w rest hrs c hc
          exact ⟨i, by simp [hi], h⟩

/-- **C115.** For every student and every audit of an area that asks for several requirements: each
part in the report (after the number, name and class) is a part of one of the requirements, and it
is shown as passing exactly if this requirement is waived, or passes and the part has something to
show.

Missing: as this says, it is the requirement's status that is shown, and not that of the part. A
course that was taken is shown as not passing as long as something else of the requirement is
missing (`C115_done_is_shown_as_needed_refuted`), and one of several things that was done is shown
as waived (`C115_done_is_shown_as_waived_refuted`). -/
theorem C115_shown_as_passing_partial (s : RpStudent) (n : Nat) (items : List RpRule)
    (st st' : RpStatus) (hn : n ≠ 1) (hreq : ∀ i ∈ items, i.isRequirement = true)
    (row : List RpRec) (h : rpAreaRow s ⟨st', .count n items st⟩ = some row) :
    ∀ c ∈ row.drop 4, ∃ i ∈ items, ∃ sub, rpRow s i st.isWaived = some sub ∧
      ∃ c' ∈ sub, c.title = c'.title ∧ c.subtitle = c'.subtitle ∧
        (c.status.isPassing = true ↔
          i.status = .waived ∨ (i.status.isPassing = true ∧ c'.content ≠ [])) ∧
        (c.content = c'.content ∨ i.status = .waived ∧ c.content = []) := by
  unfold rpAreaRow at h
  cases hr : rpRow s (.count n items st) false with
  | none => simp [hr] at h
  | some sub =>
    simp only [hr, Option.bind_eq_bind, Option.bind_some, Option.some.injEq] at h
    subst h
    rw [rpRow, if_neg hn] at hr
    have hall : items.all RpRule.isRequirement = true := List.all_eq_true.mpr hreq
    rw [hall] at hr
    intro c hc
    have hc' : c ∈ sub := by simpa using hc
    exact rpRowItems_requirements s items 1 _ sub hr c hc'

/-- The parts of numbered items. -/
theorem rpRowItems_numbered (s : RpStudent) : ∀ (items : List RpRule) (k : Nat) (w : Bool)
    (row : List RpRec), rpRowItems s true items k w = some row → ∀ c ∈ row, ∃ j i,
      items[j]? = some i ∧ ∃ sub, rpRow s i w = some sub ∧ ∃ c' ∈ sub,
        c = ⟨"#" ++ toString (k + j) ++ " -> " ++ c'.title, c'.subtitle, i.status, c'.content⟩
  | [], k, w, row, h => by rw [rpRowItems] at h; cases h; simp
  | r :: rs, k, w, row, h => by
    rw [rpRowItems] at h
    cases hr : rpRow s r w with
    | none => simp [hr] at h
    | some sub =>
      cases hrs : rpRowItems s true rs (k + 1) w with
      | none => simp [hr, hrs] at h
      | some rest =>
        simp only [hr, hrs, Option.some.injEq] at h
        subst h
        intro c hc
        rcases List.mem_append.mp hc with hc | hc
        · rw [List.mem_map] at hc
          obtain ⟨c', hc', rfl⟩ := hc
          exact ⟨0, r, rfl, sub, hr, c', hc', rfl⟩
        · obtain ⟨j, i, hi, sub', hs, c', hc', e⟩ := rpRowItems_numbered s rs (k + 1) w rest hrs c hc
          refine ⟨j + 1, i, hi, sub', hs, c', hc', ?_⟩
          rw [e, Nat.add_assoc, Nat.add_comm 1 j]

/-- **C115.** For every student and every audit of an area that asks for several items, not all of
them requirements: each part in the report (after the number, name and class) is a part of one of the
items, with the number and the status of this item and what the part shows. -/
theorem C115_numbered_items (s : RpStudent) (n : Nat) (items : List RpRule)
    (st st' : RpStatus) (hn : n ≠ 1) (hreq : ∃ i ∈ items, i.isRequirement = false)
    (row : List RpRec) (h : rpAreaRow s ⟨st', .count n items st⟩ = some row) :
    ∀ c ∈ row.drop 4, ∃ j i, items[j]? = some i ∧ ∃ sub, rpRow s i st.isWaived = some sub ∧
      ∃ c' ∈ sub,
        c = ⟨"#" ++ toString (j + 1) ++ " -> " ++ c'.title, c'.subtitle, i.status, c'.content⟩ := by
  unfold rpAreaRow at h
  cases hr : rpRow s (.count n items st) false with
  | none => simp [hr] at h
  | some sub =>
    simp only [hr, Option.bind_eq_bind, Option.bind_some, Option.some.injEq] at h
    subst h
    rw [rpRow, if_neg hn] at hr
    have hall : items.all RpRule.isRequirement = false := by
      rw [List.all_eq_false]
      obtain ⟨i, hi, e⟩ := hreq
      exact ⟨i, hi, by rw [e]; decide⟩
    rw [hall] at hr
    intro c hc
    have hc' : c ∈ sub := by simpa using hc
    obtain ⟨j, i, hi, sub', hs, c', hc'', e⟩ := rpRowItems_numbered s items 1 _ sub hr c hc'
    exact ⟨j, i, hi, sub', hs, c', hc'', by rw [e, Nat.add_comm]⟩

/-- a case that `C115_numbered_items` describes: two courses, of which one is done -/
example : ∃ row, rpAreaRow rpAnn ⟨.needsMoreItems, .count 2 [rpCourseItem "CSCI 121" ["10"] .done,
      rpCourseItem "CSCI 125" [] .empty] .needsMoreItems⟩ = some row ∧
    row.drop 4 = [⟨"#1 -> CSCI 121", none, .done, [.course (rpCourseOf "10" "CSCI" "121" false)]⟩,
      ⟨"#2 -> CSCI 125", none, .empty, []⟩] := by
  exact ⟨_, rfl, by decide +kernel⟩

theorem rpRowFirst_none (s : RpStudent) : ∀ (items : List RpRule) (w : Bool),
    (∀ i ∈ items, i.status.isPassing = false) → rpRowFirst s items w = some none
  | [], w, _ => by rw [rpRowFirst]
  | r :: rs, w, h => by
    rw [rpRowFirst, h r (by simp), if_neg (by decide)]
    exact rpRowFirst_none s rs w (fun i hi => h i (by simp [hi]))

theorem rpRowFirst_first (s : RpStudent) (i : RpRule) (post : List RpRule) (w : Bool)
    (hi : i.status.isPassing = true) : ∀ pre : List RpRule, (∀ j ∈ pre, j.status.isPassing = false) →
      rpRowFirst s (pre ++ i :: post) w = (rpRow s i w).map some
  | [], _ => by
    rw [List.nil_append, rpRowFirst, hi, if_pos rfl]
    cases rpRow s i w <;> rfl
  | r :: rs, h => by
    rw [List.cons_append, rpRowFirst, h r (by simp), if_neg (by decide)]
    exact rpRowFirst_first s i post w hi rs (fun j hj => h j (by simp [hj]))

/-- **C115.** For every student and every audit of an area that asks for one of several items: if no
item passes, the report (after the number, name and class) has one empty cell, which is waived exactly
if the audit is; else it has what the first item that passes shows, as waived. -/
theorem C115_one_of_several (s : RpStudent) (items : List RpRule) (st st' : RpStatus)
    (row : List RpRec) (h : rpAreaRow s ⟨st', .count 1 items st⟩ = some row) :
    ((∀ i ∈ items, i.status.isPassing = false) →
      row.drop 4 = [⟨"1 of these", none, if st = .waived then .waived else .empty, []⟩]) ∧
    (∀ pre i post, items = pre ++ i :: post → (∀ j ∈ pre, j.status.isPassing = false) →
      i.status.isPassing = true → ∃ sub, rpRow s i (decide (st = .waived)) = some sub ∧
        row.drop 4 = sub.map (fun r => ⟨"1 of these", none, .waived, r.content⟩)) := by
  have hw : st.isWaived = decide (st = .waived) := by cases st <;> rfl
  unfold rpAreaRow at h
  cases hr : rpRow s (.count 1 items st) false with
  | none => simp [hr] at h
  | some sub =>
    simp only [hr, Option.bind_eq_bind, Option.bind_some, Option.some.injEq] at h
    subst h
    rw [rpRow, if_pos rfl, Bool.false_or, hw] at hr
    constructor
    · intro hn
      rw [rpRowFirst_none s items _ hn] at hr
      simp only [Option.some.injEq] at hr
      subst hr
      by_cases hs : st = .waived <;> simp [hs]
    · intro pre i post he hpre hi
      rw [he, rpRowFirst_first s i post _ hi pre hpre] at hr
      cases hi' : rpRow s i (decide (st = .waived)) with
      | none => rw [hi'] at hr; cases hr
      | some sub' =>
        rw [hi'] at hr
        simp only [Option.map_some, Option.some.injEq] at hr
        subst hr
        exact ⟨sub', rfl, by simp⟩

/-- a case that `C115_one_of_several` describes: one of two courses, of which the second is done -/
example : ∃ row, rpAreaRow rpAnn ⟨.done, .count 1 [rpCourseItem "CSCI 125" [] .empty,
      rpCourseItem "CSCI 121" ["10"] .done] .done⟩ = some row ∧
    row.drop 4 = [⟨"1 of these", none, .waived,
      [.course (rpCourseOf "10" "CSCI" "121" false)]⟩] := by
  exact ⟨_, rfl, by decide +kernel⟩

/-- **C115.** For every student and every audit of an area that is one course: the report (after the
number, name and class) has one cell. With a course in it, it is waived if the audit is, and else done;
with none in it, it has the status of the audit. -/
theorem C115_course_alone (s : RpStudent) (c : RpCourseRule) (st' : RpStatus)
    (row : List RpRec) (h : rpAreaRow s ⟨st', .course c⟩ = some row) :
    ∃ r, row.drop 4 = [r] ∧ (r.content = [] ∧ r.status = c.status ∨
      ∃ x ∈ s.courses, r.content = [.course x] ∧
        r.status = if c.status = .waived then .waived else .done) := by
  have hin := (C115_courses_are_the_students s _ row h).2
  have hw : c.status.isWaived = decide (c.status = .waived) := by cases c.status <;> rfl
  unfold rpAreaRow at h
  cases hr : rpRow s (.course c) false with
  | none => simp [hr] at h
  | some sub =>
    simp only [hr, Option.bind_eq_bind, Option.bind_some, Option.some.injEq] at h
    subst h
    rw [rpRow] at hr
    unfold rpCourseRow at hr
    split at hr
    · cases hr
    · simp only [Option.some.injEq, Bool.false_or, hw] at hr
      subst hr
      refine ⟨_, rfl, ?_⟩
      cases hc : c.claimed s with
      | none =>
        left
        by_cases hs : c.status = .waived <;> simp [rpCourseBody, hs]
      | some x =>
        right
        have hx := (hin ⟨_, _, _, _⟩ (List.mem_append_right _ (List.mem_singleton.mpr rfl)) (.course x)
          (by simp only [hc, rpCourseBody]; split <;> simp)).1 x (by simp [RpCell.courses])
        refine ⟨x, hx, ?_⟩
        by_cases hs : c.status = .waived <;> simp [rpCourseBody, hs]

/-- a case that `C115_course_alone` describes -/
example : ∃ row, rpAreaRow rpAnn ⟨.done, rpCourseItem "CSCI 121" ["10"] .done⟩ = some row ∧
    row.drop 4 = [⟨"CSCI 121", none, .done, [.course (rpCourseOf "10" "CSCI" "121" false)]⟩] := by
  exact ⟨_, rfl, by decide +kernel⟩

/-! ### The columns of a row -/

/-- An assertion without what it says of the student. -/
def rpEraseAssert (a : RpAssert) : RpAssert :=
  { a with resolved := none, inserted := [], resolvedClbids := [], status := .empty }

/-- An assertion without what it says of the student. -/
def rpEraseAssertion : RpAssertion → RpAssertion
  | .rule r => .rule (rpEraseAssert r)
  | .conditional t f => .conditional (rpEraseAssert t) (f.map rpEraseAssert)
  | .dynamic t => .dynamic (rpEraseAssert t)

/-- An item for a course without what it says of the student. -/
def rpEraseCourse (c : RpCourseRule) : RpCourseRule := { c with claims := [], status := .empty }

mutual
/-- The audit without what it says of the student: no statuses, claims and numbers; only conditions
keep their results. -/
def rpErase : RpRule → RpRule
  | .count n items _ => .count n (rpEraseList items) .empty
  | .course c => .course (rpEraseCourse c)
  | .requirement name path result _ => .requirement name path (rpEraseOpt result) .empty
  | .query as _ => .query (as.map rpEraseAssertion) .empty
  | .conditional c t f _ => .conditional c (rpErase t) (rpEraseOpt f) .empty
  | .proficiency name c _ => .proficiency name (c.map rpEraseCourse) .empty

/-- The same for a rule that may be absent. -/
def rpEraseOpt : Option RpRule → Option RpRule
  | none => none
  | some r => some (rpErase r)

/-- The same for items. -/
def rpEraseList : List RpRule → List RpRule
  | [] => []
  | r :: rs => rpErase r :: rpEraseList rs
end

mutual
/-- The rule nowhere asks for just one of its items. -/
def RpNoOne : RpRule → Prop
  | .count n items _ => n ≠ 1 ∧ RpNoOneList items
  | .course _ => True
  | .requirement _ _ result _ => RpNoOneOpt result
  | .query _ _ => True
  | .conditional _ t f _ => RpNoOne t ∧ RpNoOneOpt f
  | .proficiency _ _ _ => True

/-- The same for a rule that may be absent. -/
def RpNoOneOpt : Option RpRule → Prop
  | none => True
  | some r => RpNoOne r

/-- The same for items. -/
def RpNoOneList : List RpRule → Prop
  | [] => True
  | r :: rs => RpNoOne r ∧ RpNoOneList rs
end

/-- The columns of a row. -/
def rpColumns (row : List RpRec) : List RpTitle := row.map (fun c => (c.title, c.subtitle))

theorem rpAssertRow_columns (s s' : RpStudent) (a : RpAssert) (row : List RpRec)
    (h : rpAssertRow s a = some row) :
    ∃ row', rpAssertRow s' (rpEraseAssert a) = some row' ∧ rpColumns row' = rpColumns row := by
  unfold rpAssertRow at h ⊢
  have hcl : (rpEraseAssert a).clbids = [] := rfl
  have hop : (rpEraseAssert a).op = a.op := rfl
  have hkey : (rpEraseAssert a).key = a.key := rfl
  rw [hcl, hop, hkey]
  cases hh : rpHeader a.op a.key.statement with
  | none => simp [hh] at h
  | some header =>
    cases hc : a.clbids.mapM s.getClass with
    | none => simp [hh, hc] at h
    | some courses =>
      simp only [hh, hc, Option.bind_eq_bind, Option.bind_some, Option.some.injEq] at h
      subst h
      exact ⟨_, rfl, rfl⟩

theorem rpAssertionRow_columns (s s' : RpStudent) (a : RpAssertion) (row : List RpRec)
    (h : rpAssertionRow s a = some row) :
    ∃ row', rpAssertionRow s' (rpEraseAssertion a) = some row' ∧
      rpColumns row' = rpColumns row := by
  cases a with
  | rule r => exact rpAssertRow_columns s s' r row h
  | dynamic r => exact rpAssertRow_columns s s' r row h
  | conditional t f =>
    rw [rpAssertionRow] at h
    cases ht : rpAssertRow s t with
    | none => simp [ht] at h
    | some rt =>
      obtain ⟨rt', ht', et⟩ := rpAssertRow_columns s s' t rt ht
      cases f with
      | none =>
        simp [ht] at h
        subst h
        refine ⟨rt', ?_, et⟩
        simp [rpEraseAssertion, rpAssertionRow, ht']
      | some b =>
        cases hb : rpAssertRow s b with
        | none => simp [ht, hb] at h
        | some rb =>
          obtain ⟨rb', hb', eb⟩ := rpAssertRow_columns s s' b rb hb
          simp [ht, hb] at h
          subst h
          refine ⟨rt' ++ rb', ?_, ?_⟩
          · simp [rpEraseAssertion, rpAssertionRow, ht', hb']
          · unfold rpColumns at *
            rw [List.map_append, List.map_append, et, eb]

theorem rpEraseAssertion_kind (a : RpAssertion) :
    ((rpEraseAssertion a).isCourseOrCredit && (rpEraseAssertion a).isAtLeast) =
      (a.isCourseOrCredit && a.isAtLeast) := by
  cases a with
  | rule r => rfl
  | dynamic r => rfl
  | conditional t f => cases f <;> rfl

theorem rpQueryRow_columns (s s' : RpStudent) (as : List RpAssertion) (row : List RpRec)
    (h : rpQueryRow s as = some row) :
    ∃ row', rpQueryRow s' (as.map rpEraseAssertion) = some row' ∧
      rpColumns row' = rpColumns row := by
  unfold rpQueryRow at h ⊢
  rw [List.filter_map]
  have : ((fun a : RpAssertion => a.isCourseOrCredit && a.isAtLeast) ∘ rpEraseAssertion) =
      fun a => a.isCourseOrCredit && a.isAtLeast := funext rpEraseAssertion_kind
  rw [this]
  cases hf : as.filter (fun a => a.isCourseOrCredit && a.isAtLeast) with
  | nil =>
    rw [hf] at h
    cases h
    exact ⟨[], rfl, rfl⟩
  | cons a rest =>
    rw [hf] at h
    exact rpAssertionRow_columns s s' a row h

theorem rpCourseRow_columns (s s' : RpStudent) (c : RpCourseRule) (w w' : Bool)
    (row : List RpRec) (h : rpCourseRow s c w = some row) :
    ∃ r' header, rpCourseRow s' (rpEraseCourse c) w' = some [r'] ∧ r'.title = header ∧
      r'.subtitle = none ∧ rpColumns row = [(header, none)] ∧ row.length = 1 := by
  unfold rpCourseRow at h ⊢
  have hh : (rpEraseCourse c).header = c.header := rfl
  rw [hh]
  cases hd : c.header with
  | none => simp [hd] at h
  | some header =>
    simp only [hd, Option.some.injEq] at h
    subst h
    exact ⟨_, header, rfl, rfl, rfl, rfl, rfl⟩

theorem rpProficiencyRow_columns (s s' : RpStudent) (name : String) (c : Option RpCourseRule)
    (st : RpStatus) (w w' : Bool) (row : List RpRec)
    (h : rpProficiencyRow s name c st w = some row) :
    ∃ row', rpProficiencyRow s' name (c.map rpEraseCourse) .empty w' = some row' ∧
      rpColumns row' = rpColumns row := by
  unfold rpProficiencyRow at h ⊢
  cases c with
  | none =>
    cases h
    exact ⟨_, rfl, rfl⟩
  | some c =>
    simp only at h
    split at h
    · rename_i r hr
      cases h
      obtain ⟨r', header, h1, h2, h3, h4, -⟩ := rpCourseRow_columns s s' c _
        (w' || RpStatus.empty.isWaived) _ hr
      simp only [Option.map_some, h1]
      refine ⟨_, rfl, ?_⟩
      simp only [rpColumns, List.map_cons, List.map_nil, List.cons.injEq, Prod.mk.injEq,
        and_true] at h4 ⊢
      exact ⟨trivial, h3.trans h4.2.symm⟩
    · cases h

theorem rpErase_isRequirement (r : RpRule) : (rpErase r).isRequirement = r.isRequirement := by
  cases r <;> rfl

theorem rpEraseList_all : ∀ rs : List RpRule,
    (rpEraseList rs).all RpRule.isRequirement = rs.all RpRule.isRequirement
  | [] => rfl
  | r :: rs => by
    rw [rpEraseList, List.all_cons, List.all_cons, rpErase_isRequirement, rpEraseList_all rs]

theorem rpItemRec_column (p : Bool) (k : Nat) (st : RpStatus) (c : RpRec) :
    ((rpItemRec p k st c).title, (rpItemRec p k st c).subtitle) =
      (if p then "#" ++ toString k ++ " -> " ++ c.title else c.title, c.subtitle) := by
  unfold rpItemRec
  cases p
  · simp only [Bool.false_eq_true, if_false]
    split
    · rfl
    · split <;> rfl
  · rfl

theorem rpColumns_map (f g : RpRec → RpRec) (h : String × Option String → String × Option String)
    (hf : ∀ c, ((f c).title, (f c).subtitle) = h (c.title, c.subtitle))
    (hg : ∀ c, ((g c).title, (g c).subtitle) = h (c.title, c.subtitle)) (a b : List RpRec)
    (hab : rpColumns a = rpColumns b) : rpColumns (a.map f) = rpColumns (b.map g) := by
  have e1 : rpColumns (a.map f) = (rpColumns a).map h := by
    unfold rpColumns
    rw [List.map_map, List.map_map]
    exact List.map_congr_left (fun c _ => hf c)
  have e2 : rpColumns (b.map g) = (rpColumns b).map h := by
    unfold rpColumns
    rw [List.map_map, List.map_map]
    exact List.map_congr_left (fun c _ => hg c)
  rw [e1, e2, hab]

theorem rpColumns_append (a b : List RpRec) :
    rpColumns (a ++ b) = rpColumns a ++ rpColumns b := List.map_append

mutual
theorem rpRow_columns (s s' : RpStudent) : ∀ (r : RpRule) (w w' : Bool) (row : List RpRec),
    RpNoOne r → rpRow s r w = some row →
    ∃ row', rpRow s' (rpErase r) w' = some row' ∧ rpColumns row' = rpColumns row
  | .count n items st, w, w', row, hn, h => by
    rw [RpNoOne] at hn
    rw [rpRow, if_neg hn.1] at h
    rw [rpErase, rpRow, if_neg hn.1, rpEraseList_all]
    exact rpRowItems_columns s s' _ items 1 _ _ row hn.2 h
  | .course c, w, w', row, _, h => by
    rw [rpRow] at h
    rw [rpErase, rpRow]
    obtain ⟨r', header, h1, h2, h3, h4, -⟩ := rpCourseRow_columns s s' c w w' row h
    refine ⟨_, h1, ?_⟩
    rw [h4, rpColumns, List.map_cons, List.map_nil, h2, h3]
  | .requirement name path result st, w, w', row, hn, h => by
    rw [RpNoOne] at hn
    rw [rpRow] at h
    rw [rpErase, rpRow]
    split at h
    · rename_i hp
      rw [if_pos hp]
      cases h
      exact ⟨_, rfl, rfl⟩
    · rename_i hp
      rw [if_neg hp]
      cases hs : rpRowOpt s result (w || st.isWaived) with
      | none => simp [hs] at h
      | some sub =>
        simp only [hs, Option.some.injEq] at h
        subst h
        obtain ⟨sub', hs', e⟩ := rpRowOpt_columns s s' result _ (w' || RpStatus.empty.isWaived)
          sub hn hs
        rw [hs']
        exact ⟨_, rfl, rpColumns_map _ _ (fun k => (name ++ " → " ++ k.1, k.2))
          (fun _ => rfl) (fun _ => rfl) _ _ e⟩
  | .query as st, w, w', row, _, h => by
    rw [rpRow] at h
    rw [rpErase, rpRow]
    exact rpQueryRow_columns s s' as row h
  | .conditional c t f st, w, w', row, hn, h => by
    rw [RpNoOne] at hn
    rw [rpRow] at h
    rw [rpErase, rpRow]
    cases ht : rpRow s t (w || st.isWaived) with
    | none => simp [ht] at h
    | some rt =>
      cases hf : rpRowOpt s f (w || st.isWaived) with
      | none => simp [ht, hf] at h
      | some rf =>
        obtain ⟨rt', ht', et⟩ := rpRow_columns s s' t _ (w' || RpStatus.empty.isWaived) rt hn.1 ht
        obtain ⟨rf', hf', ef⟩ := rpRowOpt_columns s s' f _ (w' || RpStatus.empty.isWaived) rf
          hn.2 hf
        simp only [ht, hf, Option.some.injEq] at h
        subst h
        simp only [ht', hf']
        refine ⟨_, rfl, ?_⟩
        rw [rpColumns_append, rpColumns_append]
        congr 1
        · exact rpColumns_map _ _
            (fun k => ("Conditional: " ++ rpCondText c, some ("If yes: " ++ k.1)))
            (fun _ => rfl) (fun _ => rfl) _ _ et
        · exact rpColumns_map _ _
            (fun k => ("Conditional: " ++ rpCondText c, some ("Otherwise: " ++ k.1)))
            (fun _ => rfl) (fun _ => rfl) _ _ ef
  | .proficiency name c st, w, w', row, _, h => by
    rw [rpRow] at h
    rw [rpErase, rpRow]
    exact rpProficiencyRow_columns s s' name c st w w' row h

theorem rpRowOpt_columns (s s' : RpStudent) :
    ∀ (r : Option RpRule) (w w' : Bool) (row : List RpRec),
    RpNoOneOpt r → rpRowOpt s r w = some row →
    ∃ row', rpRowOpt s' (rpEraseOpt r) w' = some row' ∧ rpColumns row' = rpColumns row
  | none, w, w', row, _, h => by
    rw [rpRowOpt] at h
    rw [rpEraseOpt, rpRowOpt]
    cases h
    exact ⟨_, rfl, rfl⟩
  | some r, w, w', row, hn, h => by
    rw [RpNoOneOpt] at hn
    rw [rpRowOpt] at h
    rw [rpEraseOpt, rpRowOpt]
    exact rpRow_columns s s' r w w' row hn h

theorem rpRowItems_columns (s s' : RpStudent) (p : Bool) :
    ∀ (rs : List RpRule) (k : Nat) (w w' : Bool) (row : List RpRec),
    RpNoOneList rs → rpRowItems s p rs k w = some row →
    ∃ row', rpRowItems s' p (rpEraseList rs) k w' = some row' ∧ rpColumns row' = rpColumns row
  | [], k, w, w', row, _, h => by
    rw [rpRowItems] at h
    rw [rpEraseList, rpRowItems]
    cases h
    exact ⟨_, rfl, rfl⟩
  | r :: rs, k, w, w', row, hn, h => by
    rw [RpNoOneList] at hn
    rw [rpRowItems] at h
    rw [rpEraseList, rpRowItems]
    cases hr : rpRow s r w with
    | none => simp [hr] at h
    | some sub =>
      cases hrs : rpRowItems s p rs (k + 1) w with
      | none => simp [hr, hrs] at h
      | some rest =>
        obtain ⟨sub', hr', er⟩ := rpRow_columns s s' r w w' sub hn.1 hr
        obtain ⟨rest', hrs', ers⟩ := rpRowItems_columns s s' p rs (k + 1) w w' rest hn.2 hrs
        simp only [hr, hrs, Option.some.injEq] at h
        subst h
        simp only [hr', hrs']
        refine ⟨_, rfl, ?_⟩
        rw [rpColumns_append, rpColumns_append, ers]
        congr 1
        exact rpColumns_map _ _
          (fun c => (if p then "#" ++ toString k ++ " -> " ++ c.1 else c.1, c.2))
          (rpItemRec_column p k _) (rpItemRec_column p k _) _ _ er
end

/-- **C115.** For every two students and every two audits that differ only in what they say of the
students (statuses, claimed courses, numbers), of an area that nowhere asks for just one of several
things: the two rows have the same columns. So students of one catalog are in one table, unless a
condition has another result for them.

Missing: with one of several things, the columns depend on what the student has done
(`C113_order_of_tables_refuted`), and the result of a condition is in the title of its columns
(`C114_counted_twice_refuted`). -/
theorem C115_same_columns_partial (s s' : RpStudent) (a a' : RpArea)
    (he : rpErase a.result = rpErase a'.result) (hn : RpNoOne a.result) (hn' : RpNoOne a'.result)
    (row row' : List RpRec) (h : rpAreaRow s a = some row) (h' : rpAreaRow s' a' = some row') :
    rpColumns row = rpColumns row' := by
  unfold rpAreaRow at h h'
  cases hr : rpRow s a.result false with
  | none => simp [hr] at h
  | some sub =>
    cases hr' : rpRow s' a'.result false with
    | none => simp [hr'] at h'
    | some sub' =>
      simp only [hr, Option.bind_eq_bind, Option.bind_some, Option.some.injEq] at h
      simp only [hr', Option.bind_eq_bind, Option.bind_some, Option.some.injEq] at h'
      subst h
      subst h'
      obtain ⟨e, h1, h2⟩ := rpRow_columns s s a.result false false sub hn hr
      obtain ⟨e', h1', h2'⟩ := rpRow_columns s' s a'.result false false sub' hn' hr'
      rw [he, h1'] at h1
      cases h1
      rw [rpColumns_append, rpColumns_append, ← h2, ← h2']
      rfl

/-! ### Examples and refutations -/

/-- Ann's and Bob's audits of the core differ only in what they say of Ann and Bob. -/
example : rpErase (rpCore ["10"] ["11"] .done).result =
      rpErase (rpCore ["20"] [] .needsMoreItems).result ∧
    RpNoOne (rpCore ["10"] ["11"] .done).result ∧
    (rpAreaRow rpAnn (rpCore ["10"] ["11"] .done)).isSome = true ∧
    (rpAreaRow rpBob (rpCore ["20"] [] .needsMoreItems)).isSome = true := by
  refine ⟨rfl, ?_, by decide +kernel, by decide +kernel⟩
  simp [rpCore, RpNoOne, RpNoOneList, RpNoOneOpt, rpCourseItem]

/-- Bob has taken CSCI 121, and not CSCI 251: the report shows CSCI 121 as not passing, with the
course in the cell, and the summary counts Bob as needing it. -/
theorem C115_done_is_shown_as_needed_refuted :
    ∃ records, rpFetch [⟨"140", true, 3, rpBob, rpCore ["20"] [] .needsMoreItems⟩] "140" =
        some records ∧
      (∃ doc, rpReport (rpGroups records) = some doc ∧
        ∃ t ∈ doc, ∃ row ∈ t.rows,
          ⟨false, "status--needs-more-items", [.course (rpCourseOf "20" "CSCI" "121" false)]⟩
            ∈ row) ∧
      (rpRowsOf "Core → #1 -> CSCI 121" (rpSummary records (rpCatalogGroups records))).map
        (fun row => (row.overall, row.jr)) = [((1, 1), (1, 1))] := by
  refine ⟨_, rfl, ⟨_, rfl, ?_⟩, ?_⟩ <;> decide +kernel

/-- An audit of a major that is one of two courses. -/
def rpEither (claims : List String) : RpArea :=
  { status := .done
    result := .count 1 [rpCourseItem "CSCI 121" claims .done, rpCourseItem "CSCI 125" [] .empty]
      .done }

/-- Ann has taken the one course, and nothing was waived; the report says that it was. -/
theorem C115_done_is_shown_as_waived_refuted :
    ∃ row, rpAreaRow rpAnn (rpEither ["10"]) = some row ∧
      ⟨"1 of these", none, .waived, [.course (rpCourseOf "10" "CSCI" "121" false)]⟩ ∈ row := by
  exact ⟨_, rfl, by decide +kernel⟩

end Dp
