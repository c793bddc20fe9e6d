import Verif.Props.ReportShown

/-!
# C115: the numbers in the report
-/

namespace Dp

/-- The assertions on numbers in an assertion. -/
def rpAssertsIn : RpAssertion → List RpAssert
  | .rule r => [r]
  | .conditional t none => [t]
  | .conditional t (some f) => [t, f]
  | .dynamic r => [r]

mutual
/-- All assertions on numbers somewhere in the audit. -/
def rpAssertsOf : RpRule → List RpAssert
  | .count _ items _ => rpAssertsOfList items
  | .course _ => []
  | .requirement _ _ result _ => rpAssertsOfOpt result
  | .query as _ => as.flatMap rpAssertsIn
  | .conditional _ t f _ => rpAssertsOf t ++ rpAssertsOfOpt f
  | .proficiency _ _ _ => []

/-- The same for a rule that may be absent. -/
def rpAssertsOfOpt : Option RpRule → List RpAssert
  | none => []
  | some r => rpAssertsOf r

/-- The same for items. -/
def rpAssertsOfList : List RpRule → List RpAssert
  | [] => []
  | r :: rs => rpAssertsOf r ++ rpAssertsOfList rs
end

/-- The number that the audit has found for the assertion: none is zero. -/
def RpFound (a : RpAssert) (n : Rat) : Prop :=
  a.resolved = some n ∨ (a.resolved = none ∧ n = 0)

/-- The assertion is finished, waived, or will be finished by what is being taken. -/
def RpPasses (a : RpAssert) : Prop :=
  a.status = .done ∨ a.status = .waived ∨ a.status = .pendingCurrent

/-- What a cell with numbers says is what the assertion says. -/
def RpTells (a : RpAssert) : RpCell → Prop
  | .progress ok remaining needs has =>
    a.op = .greaterThanOrEqualTo ∧ (ok = true ↔ RpPasses a) ∧ needs = a.expected ∧ RpFound a has ∧
      ((needs ≤ has ∧ remaining = 0) ∨ (has < needs ∧ has + remaining = needs))
  | .compare ok has op expected =>
    a.op ≠ .greaterThanOrEqualTo ∧ op = a.op ∧ (ok = true ↔ RpPasses a) ∧ expected = a.expected ∧
      RpFound a has
  | _ => False

/-- The cell has numbers. -/
def RpCell.hasNumbers : RpCell → Bool
  | .progress .. => true
  | .compare .. => true
  | _ => false

/-- All numbers in the records are those of one of the assertions. -/
def RpNums (as : List RpAssert) (row : List RpRec) : Prop :=
  ∀ r ∈ row, ∀ cell ∈ r.content, cell.hasNumbers = true → ∃ a ∈ as, RpTells a cell

theorem rpNums_map (as : List RpAssert) (row : List RpRec) (f : RpRec → RpRec)
    (hf : ∀ r, (f r).content = r.content ∨ (f r).content = []) (h : RpNums as row) :
    RpNums as (row.map f) := by
  intro r hr cell hcell
  rw [List.mem_map] at hr
  obtain ⟨r', hr', rfl⟩ := hr
  rcases hf r' with e | e
  · rw [e] at hcell; exact h r' hr' cell hcell
  · rw [e] at hcell; simp at hcell

theorem rpNums_append (as : List RpAssert) (a b : List RpRec) (ha : RpNums as a)
    (hb : RpNums as b) : RpNums as (a ++ b) := by
  intro r hr
  rcases List.mem_append.mp hr with h | h
  · exact ha r h
  · exact hb r h

theorem rpNums_mono (as as' : List RpAssert) (row : List RpRec) (hk : ∀ k ∈ as, k ∈ as')
    (h : RpNums as row) : RpNums as' row := by
  intro r hr cell hc hn
  obtain ⟨k, h1, h2⟩ := h r hr cell hc hn
  exact ⟨k, hk k h1, h2⟩

theorem rpNums_nil (as : List RpAssert) : RpNums as [] := by
  intro r hr; cases hr

theorem rpLeader_tells (a : RpAssert) : RpTells a (rpLeader a) := by
  have hp : a.status.isPassing = true ↔ RpPasses a := by
    unfold RpPasses
    cases a.status <;> simp [RpStatus.isPassing]
  have hh : RpFound a (a.resolved.getD 0) := by
    unfold RpFound
    cases a.resolved <;> simp
  unfold rpLeader
  dsimp only
  split
  · rename_i hop
    refine ⟨hop, hp, rfl, hh, ?_⟩
    rcases le_or_gt a.expected (a.resolved.getD 0) with hle | hlt
    · exact Or.inl ⟨hle, max_eq_left (by linarith)⟩
    · refine Or.inr ⟨hlt, ?_⟩
      rw [max_eq_right (by linarith)]
      linarith
  · rename_i hop
    exact ⟨hop, rfl, hp, rfl, hh⟩

theorem rpAssertRow_nums (s : RpStudent) (a : RpAssert) (row : List RpRec)
    (h : rpAssertRow s a = some row) : RpNums [a] row := by
  obtain ⟨header, courses, hc, rfl⟩ := rpAssertRow_eq s a row h
  intro r hr cell hcell hn
  simp only [List.mem_cons, List.not_mem_nil, or_false] at hr
  rcases hr with rfl | rfl | rfl
  · simp only [List.mem_cons, List.not_mem_nil, or_false] at hcell
    subst hcell
    exact ⟨a, by simp, rpLeader_tells a⟩
  · dsimp only at hcell
    split at hcell
    · cases hcell
    · rw [List.mem_singleton] at hcell
      subst hcell
      cases hn
  · dsimp only at hcell
    split at hcell
    · cases hcell
    · rw [List.mem_singleton] at hcell
      subst hcell
      cases hn

theorem rpAssertionRow_nums (s : RpStudent) (a : RpAssertion) (row : List RpRec)
    (h : rpAssertionRow s a = some row) : RpNums (rpAssertsIn a) row := by
  cases a with
  | rule r => exact rpAssertRow_nums s r row h
  | dynamic r => exact rpAssertRow_nums s r row h
  | conditional t f =>
    rw [rpAssertionRow] at h
    cases ht : rpAssertRow s t with
    | none => simp [ht] at h
    | some rt =>
      cases f with
      | none =>
        simp [ht] at h
        subst h
        exact rpAssertRow_nums s t _ ht
      | some b =>
        cases hb : rpAssertRow s b with
        | none => simp [ht, hb] at h
        | some rb =>
          simp [ht, hb] at h
          subst h
          refine rpNums_append _ _ _ (rpNums_mono _ _ _ ?_ (rpAssertRow_nums s t _ ht))
            (rpNums_mono _ _ _ ?_ (rpAssertRow_nums s b _ hb))
          · intro k hk; rw [List.mem_singleton] at hk; subst hk; simp [rpAssertsIn]
          · intro k hk; rw [List.mem_singleton] at hk; subst hk; simp [rpAssertsIn]

theorem rpQueryRow_nums (s : RpStudent) (as : List RpAssertion) (row : List RpRec)
    (h : rpQueryRow s as = some row) : RpNums (as.flatMap rpAssertsIn) row := by
  unfold rpQueryRow at h
  split at h
  · cases h; exact rpNums_nil _
  · rename_i a rest ha
    have hm : a ∈ as := List.mem_of_mem_filter (by rw [ha]; simp)
    exact rpNums_mono _ _ _ (fun k hk => List.mem_flatMap.mpr ⟨a, hm, hk⟩)
      (rpAssertionRow_nums s a row h)

theorem rpCourseRow_nums (s : RpStudent) (r : RpCourseRule) (w : Bool) (as : List RpAssert)
    (row : List RpRec) (h : rpCourseRow s r w = some row) : RpNums as row := by
  unfold rpCourseRow at h
  split at h
  · cases h
  · dsimp only at h
    cases h
    intro rec hrec cell hcell hn
    rw [List.mem_singleton] at hrec
    subst hrec
    obtain ⟨c', h1, rfl⟩ := rpCourseBody_mem _ _ _ _ hcell
    cases hn

theorem rpProficiencyRow_nums (s : RpStudent) (name : String) (c : Option RpCourseRule)
    (st : RpStatus) (w : Bool) (as : List RpAssert) (row : List RpRec)
    (h : rpProficiencyRow s name c st w = some row) : RpNums as row := by
  unfold rpProficiencyRow at h
  cases c with
  | none =>
    cases h
    intro r hr cell hc
    rw [List.mem_singleton] at hr
    subst hr
    cases hc
  | some c =>
    simp only at h
    split at h
    · rename_i r hr
      cases h
      exact rpNums_map _ [r] (fun r => { r with title := name }) (fun _ => Or.inl rfl)
        (rpCourseRow_nums s c _ _ _ hr)
    · cases h

mutual
theorem rpRow_nums (s : RpStudent) : ∀ (r : RpRule) (w : Bool) (row : List RpRec),
    rpRow s r w = some row → RpNums (rpAssertsOf r) row
  | .count n items st, w, row, h => by
    rw [rpRow] at h
    rw [rpAssertsOf]
    split at h
    · cases hf : rpRowFirst s items (w || st.isWaived) with
      | none => simp [hf] at h
      | some o =>
        cases o with
        | none =>
          simp only [hf] at h
          cases h
          intro r hr cell hc
          rw [List.mem_singleton] at hr
          subst hr
          cases hc
        | some sub =>
          simp only [hf] at h
          cases h
          exact rpNums_map _ sub _ (fun _ => Or.inl rfl) (rpRowFirst_nums s items _ sub hf)
    · exact rpRowItems_nums s _ items 1 _ row h
  | .course c, w, row, h => by
    rw [rpRow] at h
    rw [rpAssertsOf]
    exact rpCourseRow_nums s c w _ row h
  | .requirement name path result st, w, row, h => by
    rw [rpRow] at h
    rw [rpAssertsOf]
    split at h
    · cases h; exact rpNums_nil _
    · cases hs : rpRowOpt s result (w || st.isWaived) with
      | none => simp [hs] at h
      | some sub =>
        simp only [hs, Option.some.injEq] at h
        subst h
        exact rpNums_map _ sub _ (fun _ => Or.inl rfl) (rpRowOpt_nums s result _ sub hs)
  | .query as st, w, row, h => by
    rw [rpRow] at h
    rw [rpAssertsOf]
    exact rpQueryRow_nums s as row h
  | .conditional c t f st, w, row, h => by
    rw [rpRow] at h
    rw [rpAssertsOf]
    cases ht : rpRow s t (w || st.isWaived) with
    | none => simp [ht] at h
    | some rt =>
      cases hf : rpRowOpt s f (w || st.isWaived) with
      | none => simp [ht, hf] at h
      | some rf =>
        simp only [ht, hf] at h
        cases h
        exact rpNums_append _ _ _
          (rpNums_mono _ _ _ (fun k hk => List.mem_append_left _ hk)
            (rpNums_map _ rt _ (fun _ => Or.inl rfl) (rpRow_nums s t _ rt ht)))
          (rpNums_mono _ _ _ (fun k hk => List.mem_append_right _ hk)
            (rpNums_map _ rf _ (fun _ => Or.inl rfl) (rpRowOpt_nums s f _ rf hf)))
  | .proficiency name c st, w, row, h => by
    rw [rpRow] at h; exact rpProficiencyRow_nums s name c st w _ row h

theorem rpRowOpt_nums (s : RpStudent) : ∀ (r : Option RpRule) (w : Bool) (row : List RpRec),
    rpRowOpt s r w = some row → RpNums (rpAssertsOfOpt r) row
  | none, w, row, h => by rw [rpRowOpt] at h; cases h; exact rpNums_nil _
  | some r, w, row, h => by
    rw [rpRowOpt] at h
    rw [rpAssertsOfOpt]
    exact rpRow_nums s r w row h

theorem rpRowFirst_nums (s : RpStudent) : ∀ (rs : List RpRule) (w : Bool) (row : List RpRec),
    rpRowFirst s rs w = some (some row) → RpNums (rpAssertsOfList rs) row
  | [], w, row, h => by rw [rpRowFirst] at h; cases h
  | r :: rs, w, row, h => by
    rw [rpRowFirst] at h
    rw [rpAssertsOfList]
    split at h
    · cases hr : rpRow s r w with
      | none => simp [hr] at h
      | some sub =>
        simp only [hr, Option.some.injEq] at h
        subst h
        exact rpNums_mono _ _ _ (fun k hk => List.mem_append_left _ hk) (rpRow_nums s r w sub hr)
    · exact rpNums_mono _ _ _ (fun k hk => List.mem_append_right _ hk)
        (rpRowFirst_nums s rs w row h)

theorem rpRowItems_nums (s : RpStudent) (p : Bool) :
    ∀ (rs : List RpRule) (k : Nat) (w : Bool) (row : List RpRec),
    rpRowItems s p rs k w = some row → RpNums (rpAssertsOfList rs) row
  | [], k, w, row, h => by rw [rpRowItems] at h; cases h; exact rpNums_nil _
  | r :: rs, k, w, row, h => by
    rw [rpRowItems] at h
    rw [rpAssertsOfList]
    cases hr : rpRow s r w with
    | none => simp [hr] at h
    | some sub =>
      cases hrs : rpRowItems s p rs (k + 1) w with
      | none => simp [hr, hrs] at h
      | some rest =>
        simp only [hr, hrs] at h
        cases h
        exact rpNums_append _ _ _
          (rpNums_mono _ _ _ (fun k hk => List.mem_append_left _ hk)
            (rpNums_map _ sub _ (rpItemRec_content p k r.status) (rpRow_nums s r w sub hr)))
          (rpNums_mono _ _ _ (fun k hk => List.mem_append_right _ hk)
            (rpRowItems_nums s p rs (k + 1) w rest hrs))
end

/-- **C115.** For every student and every stored audit whose row can be written: all numbers in the row
are those of an assertion of the audit. What is needed and what was found are its numbers, what is
said to remain is what is missing, and it is said to be fulfilled exactly if it passes. -/
theorem C115_numbers_are_the_audits (s : RpStudent) (a : RpArea) (row : List RpRec)
    (h : rpAreaRow s a = some row) :
    ∀ r ∈ row, ∀ cell ∈ r.content, cell.hasNumbers = true →
      ∃ q ∈ rpAssertsOf a.result, RpTells q cell := by
  unfold rpAreaRow at h
  cases hr : rpRow s a.result false with
  | none => simp [hr] at h
  | some sub =>
    simp only [hr, Option.bind_eq_bind, Option.bind_some, Option.some.injEq] at h
    subst h
    refine rpNums_append _ _ _ ?_ (rpRow_nums s a.result false sub hr)
    intro r hr cell hc hn
    simp only [List.mem_cons, List.not_mem_nil, or_false] at hr
    rcases hr with rfl | rfl | rfl | rfl <;>
      (rw [List.mem_singleton] at hc; subst hc; cases hn)

/-- Non-vacuity: the row of the example can be written and has a number. -/
example : ∃ row, rpAreaRow rpAnn rpElectives = some row ∧
    ∃ r ∈ row, ∃ cell ∈ r.content, cell.hasNumbers = true := by
  refine ⟨_, rfl, ?_⟩
  decide +kernel

end Dp
