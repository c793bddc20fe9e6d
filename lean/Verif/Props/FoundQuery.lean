import Verif.Props.Tried
import Verif.Props.Satisfied
import Verif.Props.Gpa

/-
Queries that ask several things of the courses they count, within limits (for C59 and C69).
-/
namespace Dp

/-! ### Specification -/

/-- one thing that a query asks for: what is measured, how it is compared, and with which number; `capped` if it is marked
`at_most` -/
structure Demand where
  key : String
  op : Operator
  value : Rat
  capped : Bool

def Assertion.demand (a : Assertion) : Demand := ⟨a.key, a.op, a.expected, a.atMost⟩

/-- it asks for a number of courses or terms -/
def Demand.Counts (m : Demand) : Prop := m.key = "count(courses)" ∨ m.key = "count(terms)"

/-- The choice of courses is large enough for all numbers of courses and terms that are asked for, or, if none is asked for, for
all numbers of credits. -/
inductive LargeEnough (ms : List Demand) (cs : List Course) : Prop
  | counted : (∃ m ∈ ms, m.Counts) →
      (∀ m ∈ ms, m.Counts → m.op = .gte ∧ m.capped = false ∧ ∃ n : Nat, m.value = n ∧ n ≤ cs.length) → LargeEnough ms cs
  | summed : (∀ m ∈ ms, ¬ m.Counts) → (∀ m ∈ ms, m.key = "sum(credits)" → m.value ≤ credit cs) → LargeEnough ms cs

/-- `kept` is a choice of those of the courses `all` to which some of the limits apply, and keeps them all.  Limits do not apply to
courses with the ids `forced`.  No two limits are the same.  For limits in credits: the courses have credits, and if all of them fit, all are chosen. -/
structure KeptWithin (limits : List Limit) (forced : List String) (all kept : List Course) : Prop where
  different : limits.Nodup
  nonneg : ∀ l ∈ limits, 0 ≤ l.atMost
  within : Admissible limits all forced kept
  positive : ∀ l ∈ limits, l.what = .credits → ∀ c ∈ all, l.Counts forced c → 0 < c.credits
  whole : ∀ l ∈ limits, l.what = .credits → l.used forced all.dedup ≤ l.atMost → ∀ c ∈ all, l.Counts forced c → c ∈ kept

/-- a course in progress says when -/
def Course.Dated (c : Course) : Prop :=
  c.isInProgress = true → c.isInProgressThisTerm = true ∨ c.isInProgressInFuture = true ∨ c.isIncomplete = true

/-! ### Reordered courses -/

theorem different_perm {α : Type} [DecidableEq α] {l m : List α} (h : l.Perm m) : different l = different m :=
  different_congr fun _ => h.mem_iff

theorem credit_perm {l m : List Course} (h : l.Perm m) : credit l = credit m := (h.map _).sum_eq

theorem Measures.perm {key : String} {cs ds : List Course} {v : Rat} (h : Measures key cs v) (hp : cs.Perm ds)
    (hk : key ∉ mostCommonKeys) : Measures key ds v := by
  cases h with
  | courses => rw [different_perm hp]; exact .courses ds
  | distinctCourses => rw [different_perm (hp.map _)]; exact .distinctCourses ds
  | subjects => rw [different_perm (hp.map _)]; exact .subjects ds
  | terms => rw [different_perm (hp.map _)]; exact .terms ds
  | years => rw [different_perm (hp.map _)]; exact .years ds
  | mathPerspectives =>
    rw [show different (attributesLike "math_perspective_" cs) = different (attributesLike "math_perspective_" ds) from
      different_perm ((hp.flatMap_right _).filter _)]
    exact .mathPerspectives ds
  | religionTraditions =>
    rw [show different (attributesLike "rel_tradition_" cs) = different (attributesLike "rel_tradition_" ds) from
      different_perm ((hp.flatMap_right _).filter _)]
    exact .religionTraditions ds
  | regions =>
    rw [show different (attributesLike "intlr_region_" cs) = different (attributesLike "intlr_region_" ds) from
      different_perm ((hp.flatMap_right _).filter _)]
    exact .regions ds
  | sumCredits => rw [credit_perm hp]; exact .sumCredits ds
  | noSubject _ h => exact .noSubject ds fun c hc => h c (hp.mem_iff.2 hc)
  | singleSubject _ s hs hbest =>
    rw [credit_perm (hp.filter _)]
    refine .singleSubject ds s ?_ fun c hc h0 => ?_
    · obtain ⟨c, hc, h⟩ := hs
      exact ⟨c, hp.mem_iff.1 hc, h⟩
    · rw [← credit_perm (hp.filter _), ← credit_perm (hp.filter _)]
      exact hbest c (hp.mem_iff.2 hc) h0
  | averageGrades =>
    rw [show gradePointAverage cs = gradePointAverage ds from C31_order_does_not_matter _ _ (hp.filter _)]
    exact .averageGrades ds
  | averageCredits =>
    rw [credit_perm hp, (hp.filter _).length_eq]
    exact .averageCredits ds
  | noCourse => exact absurd (by simp [mostCommonKeys]) hk
  | noCourseByName => exact absurd (by simp [mostCommonKeys]) hk
  | mostCommon => exact absurd (by simp [mostCommonKeys]) hk
  | mostCommonByName => exact absurd (by simp [mostCommonKeys]) hk

theorem Selects.perm {w : Option Pred} {l l' m : List Course} (h : Selects w l m) (hp : l.Perm l') :
    ∃ m', Selects w l' m' ∧ m.Perm m' := by
  cases w with
  | none => exact ⟨l', rfl, by rw [show m = l from h]; exact hp⟩
  | some p =>
    obtain ⟨f, h1, rfl⟩ := h
    exact ⟨l'.filter f, ⟨f, fun c hc => h1 c (hp.mem_iff.2 hc), rfl⟩, hp.filter _⟩

/-! ### One assertion -/

theorem enough_waived {final : Bool} : Enough final .waived := by cases final <;> simp [Enough, Passes, Complete]
theorem enough_done {final : Bool} : Enough final .done := by cases final <;> simp [Enough, Passes, Complete]

/-- what can be measured is measured -/
theorem Measures.applied {key : String} {cs : List Course} {v : Rat} (h : Measures key cs v) (ds again : List Course) :
    ∃ r, applyCourses key ds again = .ok r := by
  cases h <;> first
    | exact ⟨_, rfl⟩
    | (cases hb : bestSubject (ds.filter (fun c => decide (c.credits ≠ 0))) with
       | none => exact ⟨{ value := 0 }, by rw [applyCourses_subject, hb]⟩
       | some s => exact ⟨_, by rw [applyCourses_subject, hb]⟩)

/-- a met comparison of courses -/
theorem evaluateCourses_met {final : Bool} {a : Assertion} {cs : List Course} {v : Rat} (hop : a.op.isComparison)
    (hk : a.key ∉ mostCommonKeys) (hm : Measures a.key cs v) (hv : NumHolds a.op v a.expected) (hdate : ∀ c ∈ cs, c.Dated)
    (hfin : final = true → ∀ c ∈ cs, c.isInProgress = false) :
    ∃ s r, evaluateCourses a cs = .ok (s, r) ∧ Enough final s := by
  obtain ⟨r, h1⟩ := hm.applied cs cs
  obtain ⟨r', h4⟩ := hm.applied (cs.filter (fun c => !c.isInProgress)) []
  have h3 := applyCourses_used (fun _ h => h) h1
  have h2 : NumHolds a.op r.value a.expected := by
    rw [(applyCourses_measures h1).unique hm hk]
    exact hv
  unfold evaluateCourses
  rw [h1]
  obtain ⟨b, hb, hb'⟩ := compareNum_iff hop r.value a.expected
  have : b = true := hb'.2 h2
  subst this
  simp only [hb]
  obtain ⟨b2, hb2, _⟩ := compareNum_iff hop r'.value a.expected
  have hms : ∃ s, metStatus a cs r = .ok s ∧ Enough final s := by
    unfold metStatus
    simp only [h4, hb2]
    cases hip : r.courses.any (·.isInProgress) with
    | false => exact ⟨.done, by simp, enough_done⟩
    | true =>
      simp only [if_true]
      rw [List.any_eq_true] at hip
      obtain ⟨c, hc, hci⟩ := hip
      cases final with
      | true =>
        rw [hfin rfl c (h3 c hc)] at hci
        cases hci
      | false =>
        split
        · exact ⟨_, rfl, enough_done⟩
        have hd := hdate c (h3 c hc) hci
        have h5 : r.courses.any (·.isInProgressThisTerm) = true ∨ r.courses.any (·.isInProgressInFuture) = true ∨
            r.courses.any (·.isIncomplete) = true := by
          rcases hd with h | h | h
          · exact .inl (List.any_eq_true.2 ⟨c, hc, h⟩)
          · exact .inr (.inl (List.any_eq_true.2 ⟨c, hc, h⟩))
          · exact .inr (.inr (List.any_eq_true.2 ⟨c, hc, h⟩))
        generalize r.courses.any (·.isInProgressThisTerm) = b1 at h5 ⊢
        generalize r.courses.any (·.isInProgressInFuture) = b2 at h5 ⊢
        generalize r.courses.any (·.isIncomplete) = b3 at h5 ⊢
        cases b1 <;> cases b2 <;> cases b3 <;> simp_all [Enough, Passes]
  obtain ⟨s, hs, he⟩ := hms
  rw [hs]
  exact ⟨s, r, rfl, he⟩

/-! ### The search -/

theorem flattenAssertions_singles (as : List Assertion) : flattenAssertions (as.map .single) = as := by
  unfold flattenAssertions
  rw [List.flatMap_map]
  simp

theorem mem_allCombos {α : Type} {l m : List α} (h : m.Sublist l) (hne : m ≠ []) : m ∈ allCombos l := by
  unfold allCombos
  have hl : 0 < m.length := List.length_pos_iff.mpr hne
  have hl' := h.length_le
  exact List.mem_flatMap.mpr ⟨m.length - 1, List.mem_range.mpr (by omega), mem_combos.mpr ⟨h, by omega⟩⟩

theorem credit_eq (cs : List Course) : credit cs = sumCredits cs := rfl

/-- a choice that is large enough is tried -/
theorem LargeEnough.tried {as : List Assertion} {cs tr : List Course} (h : LargeEnough (as.map Assertion.demand) cs)
    (hsub : cs.Sublist tr) (hne : cs ≠ []) (hcr : ∀ c ∈ tr, 0 ≤ c.credits) :
    cs ∈ (iterateCourseSet (as.map .single) tr).items := by
  have hsimple : ∀ a : Assertion, a.isSimpleCount = true ↔ a.demand.Counts := by
    intro a
    simp [Assertion.isSimpleCount, Assertion.demand, Demand.Counts]
  unfold iterateCourseSet
  rw [flattenAssertions_singles]
  dsimp only
  cases h with
  | counted hsome hall =>
    obtain ⟨m, hm, hc⟩ := hsome
    obtain ⟨a0, ha0, rfl⟩ := List.mem_map.1 hm
    have hne : as.filter (·.isSimpleCount) ≠ [] :=
      List.ne_nil_of_mem (List.mem_filter.mpr ⟨ha0, (hsimple a0).2 hc⟩)
    obtain ⟨a, ha, hle, _⟩ := largestExpected_spec _ hne
    obtain ⟨ha1, ha2⟩ := List.mem_filter.mp ha
    rw [hle]
    obtain ⟨hop, hat, n, hn, hlen⟩ := hall a.demand (List.mem_map_of_mem ha1) ((hsimple a).1 ha2)
    have hop : a.op = .gte := hop
    have hat : a.atMost = false := hat
    refine (countShortcut_spec a n (by rw [hop]; exact ⟨by decide, by decide⟩) hn tr).2.2 cs hsub ?_ ?_
    · rw [hop]
      simp only [NumHolds]
      exact_mod_cast hlen
    · intro _ h
      rw [hat] at h
      cases h
  | summed hnone hall =>
    have h0 : as.filter (·.isSimpleCount) = [] := by
      rw [List.filter_eq_nil_iff]
      intro a ha hc
      exact hnone a.demand (List.mem_map_of_mem ha) ((hsimple a).1 hc)
    rw [h0]
    simp only [largestExpected]
    split
    · rename_i a ha
      have hmem : a ∈ as ∧ a.isSimpleSum = true := by
        by_cases he : as.filter (·.isSimpleSum) = []
        · rw [he] at ha
          cases ha
        · obtain ⟨b, hb, hb', _⟩ := largestExpected_spec _ he
          rw [hb'] at ha
          cases ha
          exact List.mem_filter.1 hb
      have hle : a.expected ≤ sumCredits cs :=
        hall a.demand (List.mem_map_of_mem hmem.1) (by simpa [Assertion.isSimpleSum, Assertion.demand] using hmem.2)
      unfold sumShortcut
      rw [if_neg (not_lt.2 (hle.trans (sublist_sum_le hsub hcr)))]
      simp only [Gen.ofList, List.mem_filter, decide_eq_true_eq]
      exact ⟨mem_allCombos hsub hne, hle⟩
    · exact mem_allCombos hsub hne

theorem limited_evaluable {o : SetOrder} {limits : List Limit} {forced : List String} {all : List Course}
    (hok : (limitedTranscripts o limits all forced).err = none) : Evaluable limits forced all := by
  by_cases hne : limits = []
  · subst hne
    intro l hl
    cases hl
  cases hpr : probeAll (fun c => forced.contains c.clbid) all limits [] with
  | ok d =>
    intro l hl k hk hf
    exact ⟨_, (probeAll_nil hpr).2 l hl k hk (by simpa using hf)⟩
  | error e =>
    unfold limitedTranscripts at hok
    rw [if_neg hne] at hok
    dsimp only at hok
    rw [hpr] at hok
    simp [Gen.raise] at hok

/-- the courses with a choice that keeps the limits are looked at -/
theorem KeptWithin.offered {limits : List Limit} {forced : List String} {all kept : List Course}
    (h : KeptWithin limits forced all kept) {o : SetOrder} (ho : o.Lawful) (hev : Evaluable limits forced all) :
    ∃ tr ∈ (limitedTranscripts o limits all forced).items, ∀ c, c ∈ tr ↔ c ∈ all ∧ (Limited limits forced c → c ∈ kept) := by
  by_cases hne : limits = []
  · subst hne
    refine ⟨all, by simp [limitedTranscripts, Gen.one], fun c => ?_⟩
    simp [Limited]
  obtain ⟨⟨t, ht, hmem⟩, _⟩ := offered_of ho hne h.different h.nonneg hev h.positive h.within h.whole
  refine ⟨t, ht, fun c => ?_⟩
  rw [hmem]
  constructor
  · rintro (⟨h1, h2⟩ | h1)
    · exact ⟨h1, fun hl => absurd hl h2⟩
    · exact ⟨(h.within.sub c h1).1, fun _ => h1⟩
  · rintro ⟨h1, h2⟩
    by_cases hl : Limited limits forced c
    · exact .inr (h2 hl)
    · exact .inl ⟨h1, hl⟩

end Dp
