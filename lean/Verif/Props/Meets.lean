import Verif.Props.Query
import Verif.Props.Search
import Verif.Props.Tree
import Verif.Props.Predicate
import Verif.Props.TreeClaims
import Mathlib.Data.List.Dedup
import Mathlib.Data.List.Nodup

/-
A query that passes has met its assertions (C52).
-/
namespace Dp

/-! ### Specification -/

/-- the number of different values of a list -/
def different {α : Type} [DecidableEq α] (l : List α) : Rat := (l.dedup.length : Rat)

/-- the term a course was taken in, written as year and term number -/
def termOf (c : Course) : String := toString c.year ++ c.term

/-- the subject a course counts for: the `CH/BI` courses are chemistry (125, 126) or biology -/
def countsAsSubject (c : Course) : String :=
  if c.subject = "CH/BI" then (if c.number = "125" ∨ c.number = "126" then "CHEM" else "BIO") else c.subject

/-- the different attributes of courses that start with a text -/
def attributesLike (pre : String) (cs : List Course) : List String :=
  (cs.flatMap (·.attributes)).filter (fun a => decide (pre.toList <+: a.toList))

/-- total of the credits -/
def credit (cs : List Course) : Rat := (cs.map (·.credits)).sum

/-- `k` is a most common value -/
def MostCommon {α : Type} [DecidableEq α] (keys : List α) (k : α) : Prop :=
  k ∈ keys ∧ ∀ k', keys.count k' ≤ keys.count k

/-- What the left side of an assertion over courses stands for: `Measures key cs v` says that measuring the courses
`cs` gives `v`. -/
inductive Measures : String → List Course → Rat → Prop where
  | courses (cs) : Measures "count(courses)" cs (different cs)
  | distinctCourses (cs) : Measures "count(distinct_courses)" cs (different (cs.map (·.crsid)))
  | subjects (cs) : Measures "count(subjects)" cs (different (cs.map countsAsSubject))
  | terms (cs) : Measures "count(terms)" cs (different (cs.map termOf))
  | years (cs) : Measures "count(years)" cs (different (cs.map (fun c => toString c.year)))
  | mathPerspectives (cs) : Measures "count(math_perspectives)" cs (different (attributesLike "math_perspective_" cs))
  | religionTraditions (cs) : Measures "count(religion_traditions)" cs (different (attributesLike "rel_tradition_" cs))
  | regions (cs) : Measures "count(intlr_regions)" cs (different (attributesLike "intlr_region_" cs))
  | sumCredits (cs) : Measures "sum(credits)" cs (credit cs)
  | noSubject (cs) (h : ∀ c ∈ cs, c.credits = 0) : Measures "sum(credits_from_single_subject)" cs 0
  | singleSubject (cs) (s : String) (hs : ∃ c ∈ cs, c.credits ≠ 0 ∧ c.subject = s)
      (hbest : ∀ c ∈ cs, c.credits ≠ 0 →
        credit (cs.filter (·.subject = c.subject)) ≤ credit (cs.filter (·.subject = s))) :
      Measures "sum(credits_from_single_subject)" cs (credit (cs.filter (·.subject = s)))
  | averageGrades (cs) : Measures "average(grades)" cs (gradePointAverage cs)
  -- 0 if none carries credits
  | averageCredits (cs) : Measures "average(credits)" cs
      (credit cs / ((cs.filter (fun c => c.credits ≠ 0)).length : Rat))
  | noCourse : Measures "count(terms_from_most_common_course)" [] 0
  | noCourseByName : Measures "count(terms_from_most_common_course_by_name)" [] 0
  | mostCommon (cs) (k) (h : MostCommon (cs.map (·.crsid)) k) :
      Measures "count(terms_from_most_common_course)" cs (different ((cs.filter (·.crsid = k)).map termOf))
  | mostCommonByName (cs) (k) (h : MostCommon (cs.map (fun c => c.subject ++ ": " ++ c.name)) k) :
      Measures "count(terms_from_most_common_course_by_name)" cs
        (different ((cs.filter (fun c => c.subject ++ ": " ++ c.name = k)).map termOf))

/-! ### The measures are what is computed -/

theorem length_eq_different {α : Type} [DecidableEq α] {l m : List α} (hl : l.Nodup) (h : ∀ a, a ∈ l ↔ a ∈ m) :
    (l.length : Rat) = different m := by
  unfold different
  have : l.Perm m.dedup := (List.perm_ext_iff_of_nodup hl (List.nodup_dedup m)).2 (by simpa using h)
  rw [this.length_eq]

theorem countNew_value (key : Course → String) (cs : List Course) : (countNew key cs).value = different (cs.map key) := by
  have inv : ∀ (cs : List Course) (acc : List String × List Course), acc.1.Nodup →
      (cs.foldl (fun (acc : List String × List Course) c =>
        if acc.1.contains (key c) then acc else (acc.1 ++ [key c], acc.2 ++ [c])) acc).1.Nodup ∧
      ∀ k, k ∈ (cs.foldl (fun (acc : List String × List Course) c =>
        if acc.1.contains (key c) then acc else (acc.1 ++ [key c], acc.2 ++ [c])) acc).1 ↔ k ∈ acc.1 ∨ k ∈ cs.map key := by
    intro cs
    induction cs with
    | nil => intro acc h; simpa using h
    | cons c cs ih =>
      intro acc h
      simp only [List.foldl_cons]
      by_cases hc : acc.1.contains (key c) = true
      · rw [if_pos hc]
        obtain ⟨h1, h2⟩ := ih acc h
        refine ⟨h1, fun k => ?_⟩
        rw [h2, List.map_cons, List.mem_cons]
        have : key c ∈ acc.1 := by simpa using hc
        constructor
        · rintro (h | h)
          · exact .inl h
          · exact .inr (.inr h)
        · rintro (h | rfl | h)
          · exact .inl h
          · exact .inl this
          · exact .inr h
      · rw [if_neg hc]
        have hn : key c ∉ acc.1 := by simpa using hc
        obtain ⟨h1, h2⟩ := ih (acc.1 ++ [key c], acc.2 ++ [c])
          (List.nodup_append.2 ⟨h, List.nodup_singleton _, by
            intro a ha b hb
            rw [List.mem_singleton.1 hb]
            rintro rfl
            exact hn ha⟩)
        refine ⟨h1, fun k => ?_⟩
        rw [h2]
        simp only [List.mem_append, List.map_cons, List.mem_cons]
        tauto
  obtain ⟨h1, h2⟩ := inv cs ([], []) (by simp)
  unfold countNew
  exact length_eq_different h1 (fun k => by rw [h2]; simp)

theorem countNew_courses (key : Course → String) (cs : List Course) :
    (∀ c ∈ (countNew key cs).courses, c ∈ cs) ∧ ∀ c ∈ cs, ∃ c' ∈ (countNew key cs).courses, key c' = key c := by
  have inv : ∀ (cs : List Course) (acc : List String × List Course), (∀ k, k ∈ acc.1 ↔ ∃ c ∈ acc.2, key c = k) →
      let r := cs.foldl (fun (acc : List String × List Course) c =>
        if acc.1.contains (key c) then acc else (acc.1 ++ [key c], acc.2 ++ [c])) acc
      (∀ c ∈ r.2, c ∈ acc.2 ∨ c ∈ cs) ∧ (∀ c ∈ acc.2, c ∈ r.2) ∧ ∀ c ∈ cs, ∃ c' ∈ r.2, key c' = key c := by
    intro cs
    induction cs with
    | nil => intro acc _; simp
    | cons c cs ih =>
      intro acc h
      simp only [List.foldl_cons]
      by_cases hc : acc.1.contains (key c) = true
      · rw [if_pos hc]
        obtain ⟨h1, h2, h3⟩ := ih acc h
        refine ⟨fun b hb => (h1 b hb).imp_right (List.mem_cons_of_mem _), h2, ?_⟩
        intro b hb
        rcases List.mem_cons.1 hb with rfl | hb
        · obtain ⟨c', h4, h5⟩ := (h _).1 (by simpa using hc : key b ∈ acc.1)
          exact ⟨c', h2 c' h4, h5⟩
        · exact h3 b hb
      · rw [if_neg hc]
        obtain ⟨h1, h2, h3⟩ := ih (acc.1 ++ [key c], acc.2 ++ [c]) (by
          intro k
          simp only [List.mem_append, List.mem_singleton, h k, or_and_right, exists_or, exists_eq_left]
          rw [eq_comm])
        refine ⟨?_, fun b hb => h2 b (by simp [hb]), ?_⟩
        · intro b hb
          rcases h1 b hb with h | h
          · simp only [List.mem_append, List.mem_singleton] at h
            rcases h with h | rfl
            · exact .inl h
            · exact .inr (by simp)
          · exact .inr (by simp [h])
        · intro b hb
          rcases List.mem_cons.1 hb with rfl | hb
          · exact ⟨b, h2 b (by simp), rfl⟩
          · exact h3 b hb
  obtain ⟨h1, _, h3⟩ := inv cs ([], []) (by simp)
  refine ⟨fun c hc => ?_, h3⟩
  simpa using h1 c hc

theorem mostCommon_spec (keys : List String) :
    (mostCommon keys = none ↔ keys = []) ∧ ∀ k, mostCommon keys = some k → MostCommon keys k := by
  have inv1 : ∀ (ks acc : List String) (k : String),
      k ∈ (ks.foldl (fun acc k => if acc.contains k then acc else acc ++ [k]) acc) ↔ k ∈ acc ∨ k ∈ ks := by
    intro ks
    induction ks with
    | nil => simp
    | cons a ks ih =>
      intro acc k
      simp only [List.foldl_cons]
      rw [ih]
      split
      · rename_i h
        have h : a ∈ acc := by simpa using h
        simp only [List.mem_cons]
        constructor
        · rintro (h' | h')
          · exact .inl h'
          · exact .inr (.inr h')
        · rintro (h' | rfl | h')
          · exact .inl h'
          · exact .inl h
          · exact .inr h'
      · simp only [List.mem_append, List.mem_cons]
        tauto
  have inv2 : ∀ (us : List String) (best : Option String),
      let r := us.foldl (fun best k => match best with
        | none => some k
        | some b => if keys.count b < keys.count k then some k else some b) best
      (r = none → best = none ∧ us = []) ∧
      ∀ k, r = some k → (best = some k ∨ k ∈ us) ∧ (∀ b, best = some b → keys.count b ≤ keys.count k) ∧
        ∀ u ∈ us, keys.count u ≤ keys.count k := by
    intro us
    induction us with
    | nil =>
      intro best
      simp only [List.foldl_nil]
      refine ⟨fun h => ⟨h, trivial⟩, fun k h => ⟨.inl h, fun b hb => ?_, by simp⟩⟩
      rw [h] at hb
      cases hb
      exact le_refl _
    | cons u us ih =>
      intro best
      simp only [List.foldl_cons]
      cases best with
      | none =>
        obtain ⟨h1, h2⟩ := ih (some u)
        refine ⟨fun h => absurd (h1 h).1 (by simp), fun k hk => ?_⟩
        obtain ⟨h3, h4, h5⟩ := h2 k hk
        refine ⟨.inr ?_, by simp, ?_⟩
        · rcases h3 with h3 | h3
          · cases h3; simp
          · simp [h3]
        · intro v hv
          rcases List.mem_cons.1 hv with rfl | hv
          · exact h4 _ rfl
          · exact h5 v hv
      | some b =>
        by_cases hlt : keys.count b < keys.count u
        · simp only [if_pos hlt]
          obtain ⟨h1, h2⟩ := ih (some u)
          refine ⟨fun h => absurd (h1 h).1 (by simp), fun k hk => ?_⟩
          obtain ⟨h3, h4, h5⟩ := h2 k hk
          refine ⟨.inr ?_, ?_, ?_⟩
          · rcases h3 with h3 | h3
            · cases h3; simp
            · simp [h3]
          · intro b' hb'
            cases hb'
            exact le_trans (le_of_lt hlt) (h4 _ rfl)
          · intro v hv
            rcases List.mem_cons.1 hv with rfl | hv
            · exact h4 _ rfl
            · exact h5 v hv
        · simp only [if_neg hlt]
          obtain ⟨h1, h2⟩ := ih (some b)
          refine ⟨fun h => absurd (h1 h).1 (by simp), fun k hk => ?_⟩
          obtain ⟨h3, h4, h5⟩ := h2 k hk
          refine ⟨?_, h4, ?_⟩
          · rcases h3 with h3 | h3
            · exact .inl h3
            · exact .inr (by simp [h3])
          · intro v hv
            rcases List.mem_cons.1 hv with rfl | hv
            · exact le_trans (not_lt.1 hlt) (h4 _ rfl)
            · exact h5 v hv
  unfold mostCommon
  obtain ⟨h1, h2⟩ := inv2 (keys.foldl (fun acc k => if acc.contains k then acc else acc ++ [k]) []) none
  refine ⟨⟨fun h => ?_, fun h => by subst h; rfl⟩, fun k hk => ?_⟩
  · have := (h1 h).2
    cases keys with
    | nil => rfl
    | cons a ks =>
      have hm := (inv1 (a :: ks) [] a).2 (by simp)
      rw [this] at hm
      cases hm
  · obtain ⟨h3, _, h5⟩ := h2 k hk
    have hk : k ∈ keys := by
      rcases h3 with h3 | h3
      · cases h3
      · simpa using (inv1 keys [] k).1 h3
    refine ⟨hk, fun k' => ?_⟩
    by_cases hk' : k' ∈ keys
    · exact h5 k' ((inv1 keys [] k').2 (by simp [hk']))
    · rw [List.count_eq_zero_of_not_mem hk']
      exact Nat.zero_le _

theorem bestSubject_spec (cs : List Course) :
    (bestSubject cs = none ↔ cs = []) ∧ ∀ s, bestSubject cs = some s → (∃ c ∈ cs, c.subject = s) ∧
      ∀ c ∈ cs, sumCredits (cs.filter (fun b => b.subject == c.subject)) ≤ sumCredits (cs.filter (fun b => b.subject == s)) := by
  have inv : ∀ (us : List String) (best : Option (Rat × String)),
      (∀ p, best = some p → p.1 = sumCredits (cs.filter (fun c => c.subject == p.2))) →
      let r := us.foldl (fun best s =>
        let total := sumCredits (cs.filter (fun c => c.subject == s))
        match best with
        | none => some (total, s)
        | some (t, b) => if t < total ∨ (t = total ∧ b < s) then some (total, s) else some (t, b)) best
      (r = none → best = none ∧ us = []) ∧
      ∀ p, r = some p → (best = some p ∨ p.2 ∈ us) ∧ p.1 = sumCredits (cs.filter (fun c => c.subject == p.2)) ∧
        (∀ b, best = some b → b.1 ≤ p.1) ∧ ∀ u ∈ us, sumCredits (cs.filter (fun c => c.subject == u)) ≤ p.1 := by
    intro us
    induction us with
    | nil =>
      intro best hb
      simp only [List.foldl_nil]
      refine ⟨fun h => ⟨h, trivial⟩, fun p h => ⟨.inl h, hb p h, fun b hb' => ?_, by simp⟩⟩
      rw [h] at hb'
      cases hb'
      exact le_refl _
    | cons u us ih =>
      intro best hb
      simp only [List.foldl_cons]
      cases best with
      | none =>
        obtain ⟨h1, h2⟩ := ih (some (sumCredits (cs.filter (fun c => c.subject == u)), u)) (by
          intro p hp; cases hp; rfl)
        refine ⟨fun h => absurd (h1 h).1 (by simp), fun p hp => ?_⟩
        obtain ⟨h3, h4, h5, h6⟩ := h2 p hp
        refine ⟨.inr ?_, h4, by simp, ?_⟩
        · rcases h3 with h3 | h3
          · cases h3; simp
          · simp [h3]
        · intro v hv
          rcases List.mem_cons.1 hv with rfl | hv
          · exact h5 _ rfl
          · exact h6 v hv
      | some b =>
        obtain ⟨t, b⟩ := b
        by_cases hlt : t < sumCredits (cs.filter (fun c => c.subject == u)) ∨
            (t = sumCredits (cs.filter (fun c => c.subject == u)) ∧ b < u)
        · simp only [if_pos hlt]
          have hle : t ≤ sumCredits (cs.filter (fun c => c.subject == u)) := by
            rcases hlt with h | h
            · exact le_of_lt h
            · exact le_of_eq h.1
          obtain ⟨h1, h2⟩ := ih (some (sumCredits (cs.filter (fun c => c.subject == u)), u)) (by
            intro p hp; cases hp; rfl)
          refine ⟨fun h => absurd (h1 h).1 (by simp), fun p hp => ?_⟩
          obtain ⟨h3, h4, h5, h6⟩ := h2 p hp
          refine ⟨.inr ?_, h4, ?_, ?_⟩
          · rcases h3 with h3 | h3
            · cases h3; simp
            · simp [h3]
          · intro b' hb'
            cases hb'
            exact le_trans hle (h5 _ rfl)
          · intro v hv
            rcases List.mem_cons.1 hv with rfl | hv
            · exact h5 _ rfl
            · exact h6 v hv
        · simp only [if_neg hlt]
          have hle : sumCredits (cs.filter (fun c => c.subject == u)) ≤ t := by
            rw [not_or] at hlt
            exact not_lt.1 hlt.1
          obtain ⟨h1, h2⟩ := ih (some (t, b)) hb
          refine ⟨fun h => absurd (h1 h).1 (by simp), fun p hp => ?_⟩
          obtain ⟨h3, h4, h5, h6⟩ := h2 p hp
          refine ⟨?_, h4, h5, ?_⟩
          · rcases h3 with h3 | h3
            · exact .inl h3
            · exact .inr (by simp [h3])
          · intro v hv
            rcases List.mem_cons.1 hv with rfl | hv
            · exact le_trans hle (h5 _ rfl)
            · exact h6 v hv
  unfold bestSubject
  obtain ⟨h1, h2⟩ := inv (cs.map (·.subject)).dedup none (by simp)
  refine ⟨⟨fun h => ?_, fun h => by subst h; rfl⟩, fun s hs => ?_⟩
  · rw [Option.map_eq_none_iff] at h
    have := (h1 h).2
    cases cs with
    | nil => rfl
    | cons c cs =>
      have hm : c.subject ∈ ((c :: cs).map (·.subject)).dedup := by simp
      rw [this] at hm
      cases hm
  · rw [Option.map_eq_some_iff] at hs
    obtain ⟨p, hp, rfl⟩ := hs
    obtain ⟨h3, h4, _, h6⟩ := h2 p hp
    refine ⟨?_, fun c hc => ?_⟩
    · rcases h3 with h3 | h3
      · cases h3
      · simpa using h3
    · rw [← h4]
      exact h6 _ (by simpa using ⟨c, hc, rfl⟩)

theorem sum_nonzero (cs : List Course) : ((cs.filter (fun c => c.credits ≠ 0)).map (·.credits)).sum = credit cs := by
  unfold credit
  induction cs with
  | nil => rfl
  | cons c cs ih =>
    rw [List.filter_cons]
    split
    · simp only [List.map_cons, List.sum_cons, ih]
    · rename_i h
      have : c.credits = 0 := by simpa using h
      simp only [List.map_cons, List.sum_cons, ih, this, zero_add]

theorem hasPrefix_iff (s p : String) : hasPrefix s p = decide (p.toList <+: s.toList) := by
  unfold hasPrefix
  rw [Bool.eq_iff_iff, beq_iff_eq, decide_eq_true_iff, List.prefix_iff_eq_take]
  exact eq_comm

theorem subjectKey_eq (c : Course) : subjectKey c = countsAsSubject c := by
  unfold subjectKey countsAsSubject
  simp only [beq_iff_eq, Bool.or_eq_true]

theorem subject_sum (cs : List Course) (s : String) :
    sumCredits ((cs.filter (fun c => c.credits ≠ 0)).filter (fun b => b.subject == s)) = credit (cs.filter (·.subject = s)) := by
  rw [← sum_nonzero, List.filter_filter, List.filter_filter]
  unfold sumCredits
  congr 2
  refine List.filter_congr (fun c _ => ?_)
  rw [Bool.and_comm, beq_eq_decide]

theorem applyCourses_subject (cs again : List Course) : applyCourses "sum(credits_from_single_subject)" cs again =
    match bestSubject (cs.filter (fun c => c.credits ≠ 0)) with
    | none => .ok ⟨0, []⟩
    | some s => .ok ⟨sumCredits ((cs.filter (fun c => c.credits ≠ 0)).filter (fun c => c.subject == s)),
        (cs.filter (fun c => c.credits ≠ 0)).filter (fun c => c.subject == s)⟩ := rfl

theorem avg_eq (cs : List Course) :
    avgOr0 ((cs.map (·.credits)).filter (· ≠ 0)) = credit cs / ((cs.filter (fun c => c.credits ≠ 0)).length : Rat) := by
  have hf : (cs.map (·.credits)).filter (· ≠ 0) = (cs.filter (fun c => c.credits ≠ 0)).map (·.credits) := by
    rw [List.filter_map]
    rfl
  rw [hf]
  unfold avgOr0
  split
  · rename_i h
    rw [List.map_eq_nil_iff] at h
    rw [h]
    simp
  · rw [sum_nonzero, List.length_map]

theorem applyCourses_measures {key : String} {cs : List Course} {r : Applied} (h : applyCourses key cs cs = .ok r) :
    Measures key cs r.value := by
  have hb (pre : String) : (countBuckets pre cs).value = different (attributesLike pre cs) := by
    unfold countBuckets attributesLike different
    simp only [hasPrefix_iff]
  have hm (f : Course → String) : (cs = [] ∧ (countTermsMostCommon f cs cs).value = 0) ∨ ∃ k, MostCommon (cs.map f) k ∧
      (countTermsMostCommon f cs cs).value = different ((cs.filter (fun c => f c = k)).map termOf) := by
    obtain ⟨h1, h2⟩ := mostCommon_spec (cs.map f)
    unfold countTermsMostCommon
    cases hk : mostCommon (cs.map f) with
    | none => exact .inl ⟨by simpa using h1.1 hk, rfl⟩
    | some k =>
      refine .inr ⟨k, h2 k hk, ?_⟩
      simp only [different, beq_eq_decide]
      rfl
  by_cases h1 : key = "count(courses)"
  · subst h1; cases h; exact .courses cs
  by_cases h2 : key = "count(distinct_courses)"
  · subst h2; cases h
    rw [countNew_value]
    exact .distinctCourses cs
  by_cases h3 : key = "count(terms_from_most_common_course)"
  · subst h3; cases h
    rcases hm (·.crsid) with ⟨rfl, h⟩ | ⟨k, h, h'⟩
    · exact .noCourse
    · rw [h']; exact .mostCommon cs k h
  by_cases h4 : key = "count(terms_from_most_common_course_by_name)"
  · subst h4; cases h
    rcases hm (fun c => c.subject ++ ": " ++ c.name) with ⟨rfl, h⟩ | ⟨k, h, h'⟩
    · exact .noCourseByName
    · rw [h']; exact .mostCommonByName cs k h
  by_cases h5 : key = "count(math_perspectives)"
  · subst h5; cases h; rw [hb]; exact .mathPerspectives cs
  by_cases h6 : key = "count(religion_traditions)"
  · subst h6; cases h; rw [hb]; exact .religionTraditions cs
  by_cases h7 : key = "count(intlr_regions)"
  · subst h7; cases h; rw [hb]; exact .regions cs
  by_cases h8 : key = "count(subjects)"
  · subst h8; cases h
    rw [countNew_value, show (subjectKey) = countsAsSubject from funext subjectKey_eq]
    exact .subjects cs
  by_cases h9 : key = "count(terms)"
  · subst h9; cases h
    rw [countNew_value]
    exact .terms cs
  by_cases h10 : key = "count(years)"
  · subst h10; cases h
    rw [countNew_value]
    exact .years cs
  by_cases h11 : key = "sum(credits)"
  · subst h11; cases h
    have := Measures.sumCredits cs
    rw [← sum_nonzero] at this
    exact this
  by_cases h12 : key = "sum(credits_from_single_subject)"
  · subst h12
    obtain ⟨b1, b2⟩ := bestSubject_spec (cs.filter (fun c => c.credits ≠ 0))
    rw [applyCourses_subject] at h
    split at h
    · rename_i hn
      cases h
      refine .noSubject cs (fun c hc => ?_)
      have := List.filter_eq_nil_iff.1 (b1.1 hn) c hc
      simpa using this
    · rename_i s hs
      cases h
      obtain ⟨⟨c, hc, hcs⟩, h2⟩ := b2 s hs
      rw [subject_sum]
      refine .singleSubject cs s ⟨c, (List.mem_filter.1 hc).1, by simpa using (List.mem_filter.1 hc).2, hcs⟩ ?_
      intro b hb hb0
      rw [← subject_sum, ← subject_sum]
      exact h2 b (List.mem_filter.2 ⟨hb, by simpa using hb0⟩)
  by_cases h13 : key = "average(grades)"
  · subst h13; cases h; exact .averageGrades cs
  by_cases h14 : key = "average(credits)"
  · subst h14; cases h
    change Measures _ _ (avgOr0 ((cs.map (·.credits)).filter (· ≠ 0)))
    rw [avg_eq]
    exact .averageCredits cs
  unfold applyCourses at h
  simp [h1, h2, h3, h4, h5, h6, h7, h8, h9, h10, h11, h12, h13, h14] at h

/-! ### Courses in progress -/

/-- the courses that are not in progress -/
def Completed (cs : List Course) : List Course := cs.filter (fun c => !c.isInProgress)

/-- the measures whose second look at the courses goes wrong, see `C52_needlessly_pending_refuted` -/
def mostCommonKeys : List String :=
  ["count(terms_from_most_common_course)", "count(terms_from_most_common_course_by_name)"]

theorem different_congr {α : Type} [DecidableEq α] {l m : List α} (h : ∀ a, a ∈ l ↔ a ∈ m) : different l = different m :=
  length_eq_different (List.nodup_dedup l) (by simpa using h)

theorem filter_completed {cs : List Course} {p : Course → Bool} (h : ∀ c ∈ cs, p c = true → c.isInProgress = false) :
    (Completed cs).filter p = cs.filter p := by
  unfold Completed
  rw [List.filter_filter]
  refine List.filter_congr (fun c hc => ?_)
  cases hp : p c with
  | false => rfl
  | true => simp [h c hc hp]

theorem credit_completed {cs : List Course} (h : ∀ c ∈ cs, c.credits ≠ 0 → c.isInProgress = false) :
    credit (Completed cs) = credit cs := by
  rw [← sum_nonzero, ← sum_nonzero, filter_completed]
  intro c hc h0
  exact h c hc (by simpa using h0)

theorem credit_filter_completed_le {cs : List Course} (hn : ∀ c ∈ cs, 0 ≤ c.credits) (p : Course → Bool) :
    credit ((Completed cs).filter p) ≤ credit (cs.filter p) := by
  unfold Completed credit
  rw [List.filter_filter, List.filter_filter.symm.trans (by rw [List.filter_filter])]
  induction cs with
  | nil => exact le_refl _
  | cons c cs ih =>
    have ih := ih (fun b hb => hn b (List.mem_cons_of_mem _ hb))
    have hc := hn c (by simp)
    simp only [List.filter_cons]
    by_cases h1 : p c = true <;> by_cases h2 : (!c.isInProgress) = true <;> simp [h1, h2] <;> linarith

/-- if nothing that was counted is in progress, the completed courses alone measure the same -/
theorem measures_completed {key : String} {cs : List Course} {r : Applied} (h : applyCourses key cs cs = .ok r)
    (hn : ∀ c ∈ cs, 0 ≤ c.credits) (hip : ∀ c ∈ r.courses, c.isInProgress = false) (hk : key ∉ mostCommonKeys) :
    Measures key (Completed cs) r.value := by
  have hnew (f : Course → String) (hip : ∀ c ∈ (countNew f cs).courses, c.isInProgress = false) :
      different ((Completed cs).map f) = different (cs.map f) := by
    refine different_congr (fun k => ?_)
    simp only [List.mem_map, Completed, List.mem_filter]
    constructor
    · rintro ⟨c, ⟨h1, _⟩, h2⟩
      exact ⟨c, h1, h2⟩
    · rintro ⟨c, h1, h2⟩
      obtain ⟨k1, k2⟩ := countNew_courses f cs
      obtain ⟨c', h3, h4⟩ := k2 c h1
      exact ⟨c', ⟨k1 c' h3, by simp [hip c' h3]⟩, h4.trans h2⟩
  have hbuc (pre : String) (hip : ∀ c ∈ (countBuckets pre cs).courses, c.isInProgress = false) :
      different (attributesLike pre (Completed cs)) = different (attributesLike pre cs) := by
    refine different_congr (fun a => ?_)
    unfold attributesLike
    simp only [List.mem_filter, List.mem_flatMap, Completed]
    constructor
    · rintro ⟨⟨c, ⟨h1, _⟩, h2⟩, h3⟩
      exact ⟨⟨c, h1, h2⟩, h3⟩
    · rintro ⟨⟨c, h1, h2⟩, h3⟩
      refine ⟨⟨c, ⟨h1, ?_⟩, h2⟩, h3⟩
      rw [hip c (List.mem_filter.2 ⟨h1, List.any_eq_true.2 ⟨a, h2, by rw [hasPrefix_iff]; exact h3⟩⟩)]
      rfl
  by_cases h1 : key = "count(courses)"
  · subst h1
    cases h
    have : Completed cs = cs := by
      rw [Completed, List.filter_eq_self]
      intro c hc
      rw [hip c (by simpa using hc)]
      rfl
    rw [this]
    exact .courses cs
  by_cases h2 : key = "count(distinct_courses)"
  · subst h2; cases h
    rw [countNew_value, ← hnew _ hip]
    exact .distinctCourses _
  by_cases h3 : key = "count(terms_from_most_common_course)"
  · subst h3; exact absurd (by simp [mostCommonKeys]) hk
  by_cases h4 : key = "count(terms_from_most_common_course_by_name)"
  · subst h4; exact absurd (by simp [mostCommonKeys]) hk
  have hb (pre : String) : (countBuckets pre cs).value = different (attributesLike pre cs) := by
    unfold countBuckets attributesLike different
    simp only [hasPrefix_iff]
  by_cases h5 : key = "count(math_perspectives)"
  · subst h5; cases h; rw [hb, ← hbuc _ hip]; exact .mathPerspectives _
  by_cases h6 : key = "count(religion_traditions)"
  · subst h6; cases h; rw [hb, ← hbuc _ hip]; exact .religionTraditions _
  by_cases h7 : key = "count(intlr_regions)"
  · subst h7; cases h; rw [hb, ← hbuc _ hip]; exact .regions _
  by_cases h8 : key = "count(subjects)"
  · subst h8; cases h
    rw [countNew_value, ← hnew _ hip, show (subjectKey) = countsAsSubject from funext subjectKey_eq]
    exact .subjects _
  by_cases h9 : key = "count(terms)"
  · subst h9; cases h
    rw [countNew_value, ← hnew _ hip]
    exact .terms _
  by_cases h10 : key = "count(years)"
  · subst h10; cases h
    rw [countNew_value, ← hnew _ hip]
    exact .years _
  by_cases h11 : key = "sum(credits)"
  · subst h11; cases h
    have := Measures.sumCredits (Completed cs)
    rw [credit_completed (fun c hc h0 => hip c (List.mem_filter.2 ⟨hc, by simpa using h0⟩)), ← sum_nonzero] at this
    exact this
  by_cases h12 : key = "sum(credits_from_single_subject)"
  · subst h12
    rw [applyCourses_subject] at h
    obtain ⟨b1, b2⟩ := bestSubject_spec (cs.filter (fun c => c.credits ≠ 0))
    split at h
    · rename_i hn'
      cases h
      refine .noSubject _ (fun c hc => ?_)
      have := List.filter_eq_nil_iff.1 (b1.1 hn') c (List.mem_filter.1 hc).1
      simpa using this
    · rename_i s hs
      cases h
      obtain ⟨⟨c, hc, hcs⟩, h2⟩ := b2 s hs
      have hip' : ∀ c ∈ cs.filter (·.subject = s), c.credits ≠ 0 → c.isInProgress = false := by
        intro c hc h0
        obtain ⟨k1, k2⟩ := List.mem_filter.1 hc
        exact hip c (List.mem_filter.2 ⟨List.mem_filter.2 ⟨k1, by simpa using h0⟩, by simpa using k2⟩)
      have hsame : credit ((Completed cs).filter (·.subject = s)) = credit (cs.filter (·.subject = s)) := by
        rw [← credit_completed hip']
        unfold Completed
        rw [List.filter_filter, List.filter_filter]
        congr 1
        refine List.filter_congr (fun c _ => ?_)
        rw [Bool.and_comm]
      rw [subject_sum, ← hsame]
      have hc1 := List.mem_filter.1 hc
      refine .singleSubject _ s ⟨c, List.mem_filter.2 ⟨hc1.1, ?_⟩, by simpa using hc1.2, hcs⟩ ?_
      · rw [hip' c (List.mem_filter.2 ⟨hc1.1, by simpa using hcs⟩) (by simpa using hc1.2)]
        rfl
      · intro b hb hb0
        have hb' := (List.mem_filter.1 hb).1
        rw [hsame]
        refine le_trans (credit_filter_completed_le hn _) ?_
        have := h2 b (List.mem_filter.2 ⟨hb', by simpa using hb0⟩)
        rw [subject_sum, subject_sum] at this
        exact this
  by_cases h13 : key = "average(grades)"
  · subst h13; cases h
    have : gradePointAverage cs = gradePointAverage (Completed cs) := by
      unfold gradePointAverage gpaItems
      rw [filter_completed (fun c hc hg => hip c (List.mem_filter.2 ⟨hc, hg⟩))]
    change Measures _ _ (gradePointAverage cs)
    rw [this]
    exact .averageGrades _
  by_cases h14 : key = "average(credits)"
  · subst h14
    have hip' : ∀ c ∈ cs, c.credits ≠ 0 → c.isInProgress = false := by
      cases h
      exact fun c hc h0 => hip c (List.mem_filter.2 ⟨hc, by simpa using h0⟩)
    cases h
    change Measures _ _ (avgOr0 ((cs.map (·.credits)).filter (· ≠ 0)))
    rw [avg_eq]
    rw [← credit_completed hip', ← filter_completed (fun c hc h0 => hip' c hc (by simpa using h0))]
    exact .averageCredits _
  unfold applyCourses at h
  simp [h1, h2, h3, h4, h5, h6, h7, h8, h9, h10, h11, h12, h13, h14] at h

theorem Measures.unique {key : String} {cs : List Course} {v w : Rat} (h1 : Measures key cs v) (h2 : Measures key cs w)
    (hk : key ∉ mostCommonKeys) : v = w := by
  generalize hk2 : key = key2 at h2
  cases h1 <;> cases h2 <;> first
    | rfl
    | (exact absurd hk2 (by decide))
    | (exact absurd (by decide : _ ∈ mostCommonKeys) hk)
    | skip
  · rename_i hz s hs _
    obtain ⟨c, h1, h2, _⟩ := hs
    exact absurd (hz c h1) h2
  · rename_i s hs _ hz
    obtain ⟨c, h1, h2, _⟩ := hs
    exact absurd (hz c h1) h2
  · rename_i s hs hb s' hs' hb'
    obtain ⟨c, h1, h2, h3⟩ := hs
    obtain ⟨c', h1', h2', h3'⟩ := hs'
    subst h3
    subst h3'
    exact le_antisymm (hb' c h1 h2) (hb c' h1' h2')

theorem applyCourses_again {key : String} {cs a b : List Course} {r : Applied} (hk : key ∉ mostCommonKeys)
    (h : applyCourses key cs a = .ok r) : ∃ r', applyCourses key cs b = .ok r' ∧ r'.value = r.value := by
  have h3 : key ≠ "count(terms_from_most_common_course)" := by
    rintro rfl; exact hk (by simp [mostCommonKeys])
  have h4 : key ≠ "count(terms_from_most_common_course_by_name)" := by
    rintro rfl; exact hk (by simp [mostCommonKeys])
  have e3 : (key == "count(terms_from_most_common_course)") = false := by rw [beq_eq_decide, decide_eq_false h3]
  have e4 : (key == "count(terms_from_most_common_course_by_name)") = false := by rw [beq_eq_decide, decide_eq_false h4]
  unfold applyCourses at h ⊢
  by_cases k0 : (key == "count(courses)") = true
  · rw [if_pos k0] at h ⊢
    exact ⟨r, h, rfl⟩
  rw [if_neg k0] at h ⊢
  by_cases k1 : (key == "count(distinct_courses)") = true
  · rw [if_pos k1] at h ⊢
    exact ⟨r, h, rfl⟩
  rw [if_neg k1] at h ⊢
  rw [if_neg (by rw [e3]; decide)] at h ⊢
  rw [if_neg (by rw [e4]; decide)] at h ⊢
  by_cases k4 : (key == "count(math_perspectives)") = true
  · rw [if_pos k4] at h ⊢
    exact ⟨r, h, rfl⟩
  rw [if_neg k4] at h ⊢
  by_cases k5 : (key == "count(religion_traditions)") = true
  · rw [if_pos k5] at h ⊢
    exact ⟨r, h, rfl⟩
  rw [if_neg k5] at h ⊢
  by_cases k6 : (key == "count(intlr_regions)") = true
  · rw [if_pos k6] at h ⊢
    exact ⟨r, h, rfl⟩
  rw [if_neg k6] at h ⊢
  by_cases k7 : (key == "count(subjects)") = true
  · rw [if_pos k7] at h ⊢
    exact ⟨r, h, rfl⟩
  rw [if_neg k7] at h ⊢
  by_cases k8 : (key == "count(terms)") = true
  · rw [if_pos k8] at h ⊢
    exact ⟨r, h, rfl⟩
  rw [if_neg k8] at h ⊢
  by_cases k9 : (key == "count(years)") = true
  · rw [if_pos k9] at h ⊢
    exact ⟨r, h, rfl⟩
  rw [if_neg k9] at h ⊢
  by_cases k10 : (key == "sum(credits)") = true
  · rw [if_pos k10] at h ⊢
    exact ⟨r, h, rfl⟩
  rw [if_neg k10] at h ⊢
  by_cases k11 : (key == "sum(credits_from_single_subject)") = true
  · rw [if_pos k11] at h ⊢
    exact ⟨r, h, rfl⟩
  rw [if_neg k11] at h ⊢
  by_cases k12 : (key == "average(grades)") = true
  · rw [if_pos k12] at h ⊢
    cases h
    exact ⟨_, rfl, rfl⟩
  rw [if_neg k12] at h ⊢
  by_cases k13 : (key == "average(credits)") = true
  · rw [if_pos k13] at h ⊢
    cases h
    exact ⟨_, rfl, rfl⟩
  rw [if_neg k13] at h ⊢
  cases h

/-! ### One assertion -/

/-- the courses of a list that a filter, if there is one, accepts -/
def Selects (w : Option Pred) (l m : List Course) : Prop :=
  match w with
  | none => m = l
  | some p => ∃ f : Course → Bool, (∀ c ∈ l, p.applyCourse c = .ok (f c)) ∧ m = l.filter f

/-- the assertion holds of the courses: what it measures on those its filter selects compares with the expected number
as it says -/
def MetBy (a : Assertion) (cs : List Course) : Prop :=
  ∃ m v, Selects a.where' cs m ∧ Measures a.key m v ∧ NumHolds a.op v a.expected

theorem met_passes {a : Assertion} {cs : List Course} {r : Applied} {s : Status} (h : metStatus a cs r = .ok s) :
    s = .done ∨ s = .pendingCurrent ∨ s = .pendingRegistered := by
  unfold metStatus at h
  dsimp only at h
  repeat' split at h
  all_goals first
    | (cases h; simp)
    | cases h

theorem unmet_fails (op : Operator) (v e : Rat) : ¬ Passes (unmetStatus op v e) := by
  unfold unmetStatus
  repeat' split
  all_goals simp [Passes]

theorem evaluateCourses_spec {a : Assertion} {cs : List Course} {s : Status} {r : Applied} (hop : a.op.isComparison)
    (h : evaluateCourses a cs = .ok (s, r)) :
    Measures a.key cs r.value ∧ (Passes s ↔ NumHolds a.op r.value a.expected) ∧ s ≠ .waived ∧
    ((∀ c ∈ cs, 0 ≤ c.credits) → a.key ∉ mostCommonKeys →
      (s = .done ↔ NumHolds a.op r.value a.expected ∧ (a.treatInProgressAsPass = true ∨
        ∃ v, Measures a.key (Completed cs) v ∧ NumHolds a.op v a.expected))) := by
  unfold evaluateCourses at h
  split at h
  · cases h
  rename_i r' hr
  obtain ⟨b, hb, hb'⟩ := compareNum_iff hop r'.value a.expected
  rw [hb] at h
  cases b with
  | false =>
    cases h
    have hn : ¬ NumHolds a.op r.value a.expected := fun hh => by simpa using hb'.2 hh
    have hu := unmet_fails a.op r.value a.expected
    refine ⟨applyCourses_measures hr, ⟨fun hp => absurd hp hu, fun hh => absurd hh hn⟩, ?_, fun _ _ => ?_⟩
    · intro he
      exact hu (by rw [he]; simp [Passes])
    · exact ⟨fun he => absurd (by rw [he]; simp [Passes]) hu, fun hh => absurd hh.1 hn⟩
  | true =>
    have hh : NumHolds a.op r'.value a.expected := hb'.1 rfl
    dsimp only at h
    split at h
    · cases h
    rename_i s' hs
    cases h
    refine ⟨applyCourses_measures hr, ?_, ?_, fun hnn hk => ?_⟩
    · refine ⟨fun _ => hh, fun _ => ?_⟩
      rcases met_passes hs with rfl | rfl | rfl <;> simp [Passes]
    · rcases met_passes hs with rfl | rfl | rfl <;> simp
    · have key : s = .done ↔ (a.treatInProgressAsPass = true ∨ ∃ v, Measures a.key (Completed cs) v ∧ NumHolds a.op v a.expected) := by
        unfold metStatus at hs
        dsimp only at hs
        by_cases hip : (r.courses.any (·.isInProgress)) = true
        · rw [if_pos hip] at hs
          split at hs
          · cases hs
          rename_i ok hok
          have hok' : ok = true ↔ ∃ v, Measures a.key (Completed cs) v ∧ NumHolds a.op v a.expected := by
            split at hok
            · cases hok
            rename_i r2 hr2
            obtain ⟨r3, h3, h4⟩ := applyCourses_again (b := Completed cs) hk hr2
            have hm := applyCourses_measures h3
            obtain ⟨b2, hb2, hb2'⟩ := compareNum_iff hop r2.value a.expected
            rw [hb2] at hok
            cases hok
            rw [hb2']
            constructor
            · exact fun hx => ⟨r3.value, hm, h4 ▸ hx⟩
            · rintro ⟨v, hv, hx⟩
              rw [← h4, hm.unique hv hk]
              exact hx
          rw [← hok']
          split at hs
          · rename_i hor
            cases hs
            simpa using hor
          · rename_i hor
            simp only [Bool.or_eq_true, not_or] at hor
            refine ⟨fun hd => ?_, fun hx => absurd hx (by simp [hor.1, hor.2])⟩
            subst hd
            repeat' split at hs
            all_goals cases hs
        · rw [if_neg hip] at hs
          have hnone : ∀ c ∈ r.courses, c.isInProgress = false := by
            simpa using hip
          have hm := measures_completed hr hnn hnone hk
          simp only [Bool.or_true, if_true] at hs
          cases hs
          exact ⟨fun _ => .inr ⟨_, hm, hh⟩, fun _ => rfl⟩
      rw [key]
      exact ⟨fun h => ⟨hh, h⟩, fun h => h.2⟩

theorem Selects.unique {w : Option Pred} {l m m' : List Course} (h : Selects w l m) (h' : Selects w l m') : m = m' := by
  cases w with
  | none => exact h.trans h'.symm
  | some p =>
    obtain ⟨f, hf, rfl⟩ := h
    obtain ⟨g, hg, rfl⟩ := h'
    refine List.filter_congr (fun c hc => ?_)
    have := (hf c hc).symm.trans (hg c hc)
    exact Except.ok.inj this

theorem Selects.completed {w : Option Pred} {l m : List Course} (h : Selects w l m) :
    Selects w (Completed l) (Completed m) := by
  cases w with
  | none =>
    change Completed m = Completed l
    rw [show m = l from h]
  | some p =>
    obtain ⟨f, hf, rfl⟩ := h
    refine ⟨f, fun c hc => hf c (List.mem_filter.1 hc).1, ?_⟩
    unfold Completed
    rw [List.filter_filter, List.filter_filter]
    exact List.filter_congr (fun c _ => Bool.and_comm _ _)

theorem Selects.subset {w : Option Pred} {l m : List Course} (h : Selects w l m) : ∀ c ∈ m, c ∈ l := by
  cases w with
  | none =>
    rw [show m = l from h]
    exact fun c hc => hc
  | some p =>
    obtain ⟨f, _, rfl⟩ := h
    exact fun c hc => (List.mem_filter.1 hc).1

theorem filterItems_selects {p : Pred} {cs : List Course} {out : List Item} (h : filterItems p (cs.map .course) = .ok out) :
    ∃ m, out = m.map .course ∧ Selects (some p) cs m := by
  let f : Course → Bool := fun c => match p.applyCourse c with
    | .ok b => b
    | .error _ => false
  have key : ∀ (cs : List Course) (out : List Item), filterItems p (cs.map .course) = .ok out →
      (∀ c ∈ cs, p.applyCourse c = .ok (f c)) ∧ out = (cs.filter f).map .course := by
    intro cs
    induction cs with
    | nil => intro out h; cases h; simp
    | cons c cs ih =>
      intro out h
      simp only [List.map_cons, filterItems] at h
      split at h
      · cases h
      rename_i b hb
      split at h
      · cases h
      rename_i rest hrest
      obtain ⟨h1, h2⟩ := ih rest hrest
      have hc : p.applyCourse c = .ok b := hb
      have hfc : f c = b := by simp only [f, hc]
      cases h
      refine ⟨?_, ?_⟩
      · intro c' hc'
        rcases List.mem_cons.1 hc' with rfl | hc'
        · rw [hfc, hc]
        · exact h1 c' hc'
      · rw [h2, List.filter_cons, hfc]
        cases b <;> rfl
  obtain ⟨h1, h2⟩ := key cs out h
  exact ⟨cs.filter f, h2, f, h1, rfl⟩

/-- an assertion over courses as it is loaded: waived if there is a waiver for it, otherwise not evaluated yet; it compares
with `$lt`, `$lte`, `$gt`, `$gte`, `$eq` or `$neq` -/
structure Assertion.AsLoaded (x : Ctx) (a : Assertion) : Prop where
  waived : a.overridden = (getWaiveException x.exceptions a.path).isSome
  state : a.state = if a.overridden then .waived else .empty
  comparison : a.op.isComparison
  courses : a.dataType = .course

/-- no exception puts a course into the assertion's data or takes one out -/
def Assertion.Untouched (x : Ctx) (a : Assertion) : Prop :=
  getInsertExceptions x.exceptions a.path = [] ∧ getBlockExceptions x.exceptions a.path = []

theorem Assertion.audit_spec {x : Ctx} {a a' : Assertion} {cs : List Course} (ha : a.AsLoaded x) (hu : a.Untouched x)
    (hov : a.overridden = false) (h : a.audit x (cs.map .course) = .ok a') :
    (Passes a'.state → MetBy a cs) ∧ (a.key ∉ mostCommonKeys → (Passes a'.state ↔ MetBy a cs)) ∧
    ((∀ c ∈ cs, 0 ≤ c.credits) → a.key ∉ mostCommonKeys →
      (Complete a'.state ↔ MetBy a cs ∧ (a.treatInProgressAsPass = true ∨ MetBy a (Completed cs)))) := by
  unfold Assertion.audit at h
  rw [if_neg (by simp [hov]), hu.1, hu.2] at h
  dsimp only at h
  split at h
  · cases h
  rename_i f hf
  have hsel : ∃ m, f = m.map .course ∧ Selects a.where' cs m := by
    cases hw : a.where' with
    | none =>
      rw [hw] at hf
      cases hf
      exact ⟨cs, rfl, rfl⟩
    | some p =>
      rw [hw] at hf
      exact filterItems_selects hf
  obtain ⟨m, rfl, hm⟩ := hsel
  simp only [insertInto, blockFrom, Assertion.evaluate, ha.courses, itemCourses_map] at h
  split at h
  · cases h
  rename_i s r hr
  cases h
  obtain ⟨h1, h2, h3, h4⟩ := evaluateCourses_spec ha.comparison hr
  have hmet : a.key ∉ mostCommonKeys → (MetBy a cs ↔ NumHolds a.op r.value a.expected) := by
    intro hk
    constructor
    · rintro ⟨m', v, k1, k2, k3⟩
      rw [hm.unique k1] at h1
      rw [h1.unique k2 hk]
      exact k3
    · exact fun hh => ⟨m, _, hm, h1, hh⟩
  have hmetc : a.key ∉ mostCommonKeys → (MetBy a (Completed cs) ↔
      ∃ v, Measures a.key (Completed m) v ∧ NumHolds a.op v a.expected) := by
    intro hk
    constructor
    · rintro ⟨m', v, k1, k2, k3⟩
      rw [hm.completed.unique k1]
      exact ⟨v, k2, k3⟩
    · rintro ⟨v, k1, k2⟩
      exact ⟨_, v, hm.completed, k1, k2⟩
  refine ⟨fun hp => ⟨m, _, hm, h1, h2.1 hp⟩, fun hk => h2.trans (hmet hk).symm, fun hn hk => ?_⟩
  have := h4 (fun c hc => hn c (hm.subset c hc)) hk
  rw [hmet hk, hmetc hk, ← this]
  change Complete s ↔ s = .done
  unfold Complete
  constructor
  · rintro (hs | hs)
    · exact hs
    · exact absurd hs h3
  · exact fun hs => .inl hs

/-! ### The assertions of a query -/

/-- the single assertions an assertion is made of -/
def AnyAssertion.branches : AnyAssertion → List Assertion
  | .single a => [a]
  | .cond _ t f => t :: f.toList
  | .dyn _ _ t => [t]

/-- what an assertion, conditional or not, asks of the courses of its query: a conditional one its `$then` or its `$else`
part, a `$when` its `$then` part if the courses meet the condition -/
inductive Asks (cs : List Course) : AnyAssertion → Assertion → Prop where
  | single (a) : Asks cs (.single a) a
  | thenPart (t f) : Asks cs (.cond (some true) t f) t
  | elsePart (t f) : Asks cs (.cond (some false) t (some f)) f
  | whenPart (c r t) (h : c.Holds cs) : Asks cs (.dyn c r t) t

/-- an assertion, conditional or not, as it is loaded -/
structure AnyAssertion.AsLoaded (x : Ctx) (b : AnyAssertion) : Prop where
  branches : ∀ a ∈ b.branches, a.AsLoaded x
  result : ∀ c r t, b = .dyn c r t → r = none

/-- the conditional asks something: its condition holds or there is an `$else` -/
def AnyAssertion.AsksSomething (b : AnyAssertion) : Prop := ∀ t, b ≠ .cond (some false) t none

theorem Asks.branch {cs : List Course} {b : AnyAssertion} {a : Assertion} (h : Asks cs b a) : a ∈ b.branches := by
  cases h <;> simp [AnyAssertion.branches]

theorem Assertion.audit_waived {x : Ctx} {a a' : Assertion} {data : List Item} (ha : a.AsLoaded x)
    (hov : a.overridden = true) (h : a.audit x data = .ok a') : Passes a'.state ∧ Complete a'.state := by
  unfold Assertion.audit at h
  rw [if_pos hov] at h
  cases h
  rw [ha.state, if_pos hov]
  exact ⟨by simp [Passes], by simp [Complete]⟩

/-- one assertion: it passes only if what is asked is waived or met -/
theorem Assertion.passes_only_met {x : Ctx} {a a' : Assertion} {cs : List Course} (ha : a.AsLoaded x) (hu : a.Untouched x)
    (h : a.audit x (cs.map .course) = .ok a') :
    (Passes a'.state → a.overridden = true ∨ MetBy a cs) ∧
    (a.key ∉ mostCommonKeys → (Passes a'.state ↔ a.overridden = true ∨ MetBy a cs)) ∧
    ((∀ c ∈ cs, 0 ≤ c.credits) → a.key ∉ mostCommonKeys → (Complete a'.state ↔ a.overridden = true ∨
      (MetBy a cs ∧ (a.treatInProgressAsPass = true ∨ MetBy a (Completed cs))))) := by
  cases hov : a.overridden with
  | true =>
    obtain ⟨h1, h2⟩ := Assertion.audit_waived ha hov h
    exact ⟨fun _ => .inl rfl, fun _ => ⟨fun _ => .inl rfl, fun _ => h1⟩, fun _ _ => ⟨fun _ => .inl rfl, fun _ => h2⟩⟩
  | false =>
    obtain ⟨h1, h2, h3⟩ := Assertion.audit_spec ha hu hov h
    simp only [Bool.false_eq_true, false_or]
    exact ⟨h1, h2, h3⟩

theorem AnyAssertion.audit_spec {x : Ctx} {b b' : AnyAssertion} {cs : List Course} (hb : b.AsLoaded x)
    (hu : ∀ a ∈ b.branches, a.Untouched x) (h : b.audit x (cs.map .course) = .ok b') :
    (Passes b'.status → b.AsksSomething ∧ ∀ a, Asks cs b a → a.overridden = true ∨ MetBy a cs) ∧
    ((∀ a ∈ b.branches, a.key ∉ mostCommonKeys) →
      (Passes b'.status ↔ b.AsksSomething ∧ ∀ a, Asks cs b a → a.overridden = true ∨ MetBy a cs)) ∧
    ((∀ c ∈ cs, 0 ≤ c.credits) → (∀ a ∈ b.branches, a.key ∉ mostCommonKeys) →
      (Complete b'.status ↔ b.AsksSomething ∧ ∀ a, Asks cs b a → a.overridden = true ∨
        (MetBy a cs ∧ (a.treatInProgressAsPass = true ∨ MetBy a (Completed cs))))) := by
  have go : ∀ a a', a ∈ b.branches → a.audit x (cs.map .course) = .ok a' → b.AsksSomething → b'.status = a'.state →
      (∀ c, Asks cs b c ↔ c = a) → _ := fun a a' hm h1 h2 h3 h4 => by
    obtain ⟨k1, k2, k3⟩ := Assertion.passes_only_met (hb.branches a hm) (hu a hm) h1
    have e : ∀ P : Assertion → Prop, (b.AsksSomething ∧ ∀ c, Asks cs b c → P c) ↔ P a := fun P =>
      ⟨fun hh => hh.2 a ((h4 a).2 rfl), fun hh => ⟨h2, fun c hc => by rw [(h4 c).1 hc]; exact hh⟩⟩
    exact (show (Passes b'.status → b.AsksSomething ∧ ∀ a, Asks cs b a → a.overridden = true ∨ MetBy a cs) ∧
        ((∀ a ∈ b.branches, a.key ∉ mostCommonKeys) →
          (Passes b'.status ↔ b.AsksSomething ∧ ∀ a, Asks cs b a → a.overridden = true ∨ MetBy a cs)) ∧
        ((∀ c ∈ cs, 0 ≤ c.credits) → (∀ a ∈ b.branches, a.key ∉ mostCommonKeys) →
          (Complete b'.status ↔ b.AsksSomething ∧ ∀ a, Asks cs b a → a.overridden = true ∨
            (MetBy a cs ∧ (a.treatInProgressAsPass = true ∨ MetBy a (Completed cs))))) from by
      rw [h3, e (fun a => a.overridden = true ∨ MetBy a cs), e (fun a => a.overridden = true ∨
            (MetBy a cs ∧ (a.treatInProgressAsPass = true ∨ MetBy a (Completed cs))))]
      exact ⟨k1, fun hk => k2 (hk a hm), fun hn hk => k3 hn (hk a hm)⟩)
  cases b with
  | single a =>
    simp only [AnyAssertion.audit] at h
    split at h
    · cases h
    rename_i a' ha'
    cases h
    exact go a a' (by simp [AnyAssertion.branches]) ha' (fun t ht => by cases ht) rfl
      (fun c => ⟨fun hc => by cases hc; rfl, fun hc => by subst hc; exact .single _⟩)
  | cond k t f =>
    match k, f, h with
    | some true, f, h =>
      simp only [AnyAssertion.audit] at h
      split at h
      · cases h
      rename_i a' ha'
      cases h
      exact go t a' (by simp [AnyAssertion.branches]) ha' (fun t ht => by cases ht) rfl
        (fun c => ⟨fun hc => by cases hc; rfl, fun hc => by subst hc; exact .thenPart _ _⟩)
    | some false, some f, h =>
      simp only [AnyAssertion.audit] at h
      split at h
      · cases h
      rename_i a' ha'
      cases h
      exact go f a' (by simp [AnyAssertion.branches]) ha' (fun t ht => by cases ht) rfl
        (fun c => ⟨fun hc => by cases hc; rfl, fun hc => by subst hc; exact .elsePart _ _⟩)
    | some false, none, h =>
      simp only [AnyAssertion.audit] at h
      cases h
      have hno : ¬ (AnyAssertion.cond (some false) t none).AsksSomething := fun hh => hh t rfl
      refine ⟨fun hp => absurd hp (by simp [AnyAssertion.status, Passes]), fun _ => ?_, fun _ _ => ?_⟩
      · exact ⟨fun hp => absurd hp (by simp [AnyAssertion.status, Passes]), fun hh => absurd hh.1 hno⟩
      · exact ⟨fun hp => absurd hp (by simp [AnyAssertion.status, Complete]), fun hh => absurd hh.1 hno⟩
    | none, f, h => simp only [AnyAssertion.audit] at h; cases h
  | dyn k r t =>
    have hr : r = none := hb.result _ _ _ rfl
    subst hr
    simp only [AnyAssertion.audit, itemCourses_map] at h
    split at h
    · rename_i he
      split at h
      · cases h
      rename_i a' ha'
      cases h
      have hh := (C17_when_conditions_are_boolean cs k).1 he
      exact go t a' (by simp [AnyAssertion.branches]) ha' (fun t ht => by cases ht) rfl
        (fun c => ⟨fun hc => by cases hc; rfl, fun hc => by subst hc; exact .whenPart _ _ _ hh⟩)
    · rename_i he
      cases h
      have hh : ¬ k.Holds cs := fun hh => he ((C17_when_conditions_are_boolean cs k).2 hh)
      have hs : (AnyAssertion.dyn k none t).AsksSomething := fun t ht => by cases ht
      have ha : ∀ a, ¬ Asks cs (.dyn k none t) a := fun a ha => by cases ha; exact hh ‹_›
      refine ⟨fun _ => ⟨hs, fun a h => absurd h (ha a)⟩, fun _ => ?_, fun _ _ => ?_⟩
      · exact ⟨fun _ => ⟨hs, fun a h => absurd h (ha a)⟩, fun _ => by simp [AnyAssertion.status, Passes]⟩
      · exact ⟨fun _ => ⟨hs, fun a h => absurd h (ha a)⟩, fun _ => by simp [AnyAssertion.status, Complete]⟩

theorem auditAssertions_forall₂ {x : Ctx} {data : List Item} {bs bs' : List AnyAssertion}
    (h : auditAssertions x data bs = .ok bs') : List.Forall₂ (fun b b' => b.audit x data = .ok b') bs bs' := by
  induction bs generalizing bs' with
  | nil => cases h; exact .nil
  | cons b bs ih =>
    simp only [auditAssertions] at h
    split at h
    · cases h
    rename_i b' hb
    split at h
    · cases h
    rename_i rest hrest
    cases h
    exact .cons hb (ih hrest)

theorem queryStatus_passes (d : QueryData) (ho : d.overridden = false) :
    (Passes (queryStatus d) ↔ ∀ b ∈ d.assertions, Passes b.status) ∧
    (Complete (queryStatus d) ↔ ∀ b ∈ d.assertions, Complete b.status) := by
  have e1 : ∀ s : Status, Passes s ↔ s.inWaivedDoneCurrentPending = true := by
    intro s; cases s <;> simp [Passes, Status.inWaivedDoneCurrentPending]
  have e2 : ∀ s : Status, Complete s ↔ s.inWaivedAndDone = true := by
    intro s; cases s <;> simp [Complete, Status.inWaivedAndDone]
  have i1 : ∀ s : Status, s.inWaivedOnly = true → s.inWaivedAndDone = true := by
    intro s; cases s <;> simp [Status.inWaivedOnly, Status.inWaivedAndDone]
  have i2 : ∀ s : Status, s.inWaivedAndDone = true → s.inWaivedDoneCurrent = true := by
    intro s; cases s <;> simp [Status.inWaivedAndDone, Status.inWaivedDoneCurrent]
  have i3 : ∀ s : Status, s.inWaivedDoneCurrent = true → s.inWaivedDoneCurrentPending = true := by
    intro s; cases s <;> simp [Status.inWaivedDoneCurrent, Status.inWaivedDoneCurrentPending]
  have h1 : (∀ b ∈ d.assertions, Passes b.status) ↔ (d.assertions.map (·.status)).all (·.inWaivedDoneCurrentPending) = true := by
    simp [e1]
  have h2 : (∀ b ∈ d.assertions, Complete b.status) ↔ (d.assertions.map (·.status)).all (·.inWaivedAndDone) = true := by
    simp [e2]
  rw [h1, h2]
  unfold queryStatus
  rw [if_neg (by simp [ho])]
  generalize d.assertions.map (·.status) = ss
  have mono : ∀ f g : Status → Bool, (∀ s, f s = true → g s = true) → ss.all f = true → ss.all g = true := by
    intro f g hfg h
    rw [List.all_eq_true] at h ⊢
    exact fun s hs => hfg s (h s hs)
  dsimp only
  split
  · rename_i hf
    have hmem : Status.failedInvariant ∈ ss := by simpa using hf
    refine ⟨⟨fun h => by simp [Passes] at h, fun h => ?_⟩, ⟨fun h => by simp [Complete] at h, fun h => ?_⟩⟩
    · exact absurd (List.all_eq_true.1 h _ hmem) (by decide)
    · exact absurd (List.all_eq_true.1 h _ hmem) (by decide)
  split
  · rename_i hf
    have k1 := mono _ _ i1 hf
    exact ⟨⟨fun _ => mono _ _ i3 (mono _ _ i2 k1), fun _ => by simp [Passes]⟩, ⟨fun _ => k1, fun _ => by simp [Complete]⟩⟩
  split
  · rename_i k1
    exact ⟨⟨fun _ => mono _ _ i3 (mono _ _ i2 k1), fun _ => by simp [Passes]⟩, ⟨fun _ => k1, fun _ => by simp [Complete]⟩⟩
  rename_i hnd
  have c (s : Status) (hs : ¬ Complete s) : Complete s ↔ ss.all (·.inWaivedAndDone) = true :=
    ⟨fun h => absurd h hs, fun h => absurd h hnd⟩
  split
  · rename_i k1
    exact ⟨⟨fun _ => mono _ _ i3 k1, fun _ => by simp [Passes]⟩, c _ (by simp [Complete])⟩
  split
  · rename_i k1
    exact ⟨⟨fun _ => k1, fun _ => by simp [Passes]⟩, c _ (by simp [Complete])⟩
  rename_i hnp
  have p (s : Status) (hs : ¬ Passes s) : Passes s ↔ ss.all (·.inWaivedDoneCurrentPending) = true :=
    ⟨fun h => absurd h hs, fun h => absurd h hnp⟩
  repeat' split
  all_goals exact ⟨p _ (by simp [Passes]), c _ (by simp [Complete])⟩

theorem claimLoop_items (x : Ctx) (d : QueryData) (cs : List Course) : ∀ (t : ClaimTable) (acc : Collected),
    acc.items = acc.successful.map (fun cl => Item.course cl.course) →
    (claimLoop x d cs t acc).1.items = (claimLoop x d cs t acc).1.successful.map (fun cl => Item.course cl.course) := by
  induction cs with
  | nil => intro t acc h; exact h
  | cons c cs ih =>
    intro t acc h
    obtain ⟨h1, _⟩ := makeClaim_course x.multicountable t c d.path (d.allowClaimed || d.forceInserted.contains c.clbid)
    simp only [claimLoop]
    split
    · exact ih _ _ h
    · refine ih _ _ ?_
      simp only [h, List.map_append, List.map_cons, List.map_nil, h1]

/-- the courses a query counts are those of its claims -/
theorem collect_items {x : Ctx} {d : QueryData} {t t' : ClaimTable} {col : Collected}
    (hsrc : d.source = .courses ∨ d.source = .claimed)
    (hrec : d.recordClaims = true ∨ (d.source = .courses ∧ d.attemptClaims = true))
    (h : collect x d t = .ok (col, t')) : col.items = (col.successful.map (·.course)).map .course := by
  have hr : ∀ cs : List Course, (recordLoop x d.path t cs).map (·.course) = cs := by
    intro cs
    unfold recordLoop
    rw [List.map_map]
    conv_rhs => rw [← List.map_id cs]
    refine List.map_congr_left (fun c _ => ?_)
    exact (makeClaim_course x.multicountable t c d.path true).1
  unfold collect at h
  rcases hsrc with hsrc | hsrc
  · rw [hsrc] at h
    simp only [collectCourses] at h
    split at h
    · cases h
    rename_i cs hcs
    split at h
    · obtain rfl : col = (claimLoop x d cs t {}).1 := (congrArg Prod.fst (Except.ok.inj h)).symm
      rw [claimLoop_items x d cs t {} rfl, List.map_map]
      rfl
    · rename_i hat
      have : d.recordClaims = true := by
        rcases hrec with h | h
        · exact h
        · exact absurd h.2 hat
      rw [if_pos this] at h
      cases h
      simp only [hr]
  · rw [hsrc] at h
    have hrec : d.recordClaims = true := by
      rcases hrec with h | h
      · exact h
      · rw [hsrc] at h; cases h.1
    simp only [collectClaimed] at h
    split at h
    · cases h
    split at h
    · cases h
    split at h
    · cases h
    split at h
    · cases h
    cases h
    simp only [hrec, if_true, hr]

/-! ### Queries -/

/-- A query rule as it is loaded: it looks for courses (or, in the courses already claimed), it reports the courses it
counts, its assertions are as loaded, and no exception inserts or blocks courses at the assertions themselves. -/
structure QueryData.CountsCourses (x : Ctx) (d : QueryData) : Prop where
  source : d.source = .courses ∨ d.source = .claimed
  reports : d.recordClaims = true ∨ (d.source = .courses ∧ d.attemptClaims = true)
  assertions : ∀ b ∈ d.assertions, b.AsLoaded x
  untouched : ∀ b ∈ d.assertions, ∀ a ∈ b.branches, a.Untouched x

/-- no `$when` condition of the query holds of no courses at all, as the empty `$and` would -/
def QueryData.RealConditions (d : QueryData) : Prop := ∀ c r t, AnyAssertion.dyn c r t ∈ d.assertions → ¬ c.Holds []

/-- the courses of the claims a result reports -/
def Node.courses (r : Node) : List Course := r.claims.map (·.course)

theorem query_result {x : Ctx} {o : Orders} (ho : o.Lawful) {d : QueryData} (hd : d.CountsCourses x)
    (hw : d.overridden = false) {s r : Node} (hs : s ∈ ((Node.query .rule d).solutions x o).items) {t t' : ClaimTable}
    (ha : s.audit x o t = .ok (r, t')) :
    ∃ rd : QueryData, r = .query .result rd ∧ rd.overridden = false ∧ r.status = queryStatus rd ∧
      ((d.source = .courses ∧ r.courses = [] ∧ nonPrimaryLt d.assertions = true ∧ rd.assertions = d.assertions) ∨
        List.Forall₂ (fun b b' => b.audit x (r.courses.map .course) = .ok b') d.assertions rd.assertions) := by
  simp only [Node.solutions] at hs
  obtain ⟨sd, hsd, rfl⟩ := Gen.mem_map.1 hs
  simp only [Node.audit] at ha
  split at ha
  · cases ha
  rename_i rd t2 hqa
  obtain ⟨rfl, rfl⟩ := Prod.mk.inj (Except.ok.inj ha)
  rcases querySolutions_cases ho hsd with ⟨hov, _⟩ | ⟨_, f, _, out, rfl, _, _⟩
  · rw [hw] at hov; cases hov
  unfold queryAudit at hqa
  rw [if_neg (by simp [querySolution, hw])] at hqa
  split at hqa
  · cases hqa
  rename_i col t3 hcol
  have hit := collect_items (d := querySolution d out f.inserted f.forceInserted) hd.source hd.reports hcol
  dsimp only at hqa
  split at hqa
  · cases hqa
  rename_i as has
  obtain ⟨rfl, rfl⟩ := Prod.mk.inj (Except.ok.inj hqa)
  refine ⟨_, rfl, hw, rfl, ?_⟩
  have hcs : (Node.query .result { querySolution d out f.inserted f.forceInserted with
      assertions := as, successful := col.successful, failed := col.failed }).courses = col.successful.map (·.course) := by
    simp [Node.courses, Node.claims, queryClaims]
  rw [hcs]
  split at has
  · rename_i hsk
    cases has
    refine .inl ⟨hsk.1, ?_, hsk.2.2, rfl⟩
    rw [hsk.2.1] at hit
    simpa using hit.symm
  · rw [hit] at has
    exact .inr (auditAssertions_forall₂ has)

theorem not_evaluated {x : Ctx} {b : AnyAssertion} (hb : b.AsLoaded x) (hreal : ∀ c r t, b = .dyn c r t → ¬ c.Holds [])
    (hp : Passes b.status) : b.AsksSomething ∧ ∀ a, Asks [] b a → a.overridden = true := by
  have st : ∀ a ∈ b.branches, Passes a.state → a.overridden = true := by
    intro a ha hp
    by_contra hov
    rw [(hb.branches a ha).state, if_neg hov] at hp
    simp [Passes] at hp
  refine ⟨fun t ht => ?_, fun a ha => ?_⟩
  · subst ht
    simp [AnyAssertion.status, Passes] at hp
  · cases ha with
    | single => exact st _ (by simp [AnyAssertion.branches]) hp
    | thenPart => exact st _ (by simp [AnyAssertion.branches]) hp
    | elsePart => exact st _ (by simp [AnyAssertion.branches]) hp
    | whenPart c r t h => exact absurd h (hreal _ _ _ rfl)

/-- C52. When a query passes, every assertion it makes is waived or holds of the courses its result reports: measured over
those of the courses that the assertion's own filter selects, it compares with the expected number as written. -/
theorem C52_passing_query_meets_its_assertions (x : Ctx) (o : Orders) (ho : o.Lawful) (d : QueryData) (hd : d.CountsCourses x)
    (hreal : d.RealConditions) (hw : d.overridden = false) (s r : Node) (t t' : ClaimTable)
    (hs : s ∈ ((Node.query .rule d).solutions x o).items) (ha : s.audit x o t = .ok (r, t')) (hp : Passes r.status) :
    ∀ b ∈ d.assertions, ∀ a, Asks r.courses b a → a.overridden = true ∨ MetBy a r.courses := by
  obtain ⟨rd, rfl, hov, hst, h⟩ := query_result ho hd hw hs ha
  rw [hst, (queryStatus_passes rd hov).1] at hp
  intro b hb a hask
  rcases h with ⟨_, h1, _, h2⟩ | h
  · rw [h1] at hask
    exact .inl ((not_evaluated (hd.assertions b hb) (fun c r t he => hreal c r t (he ▸ hb)) (hp b (h2 ▸ hb))).2 a hask)
  · obtain ⟨b', hb', hbb⟩ := forall₂_mem_left h hb
    exact ((AnyAssertion.audit_spec (hd.assertions b hb) (hd.untouched b hb) hbb).1 (hp b' hb')).2 a hask

/-- C52, the other direction, and what completes a query.  Partial: a conditional assertion whose condition is false and
that has no `$else` is never met (`C52_nothing_asked_refuted`), the terms of the most common course are measured wrongly
(`C52_needlessly_pending_refuted`), and a query without courses that also has assertions of the form "at most" is not
evaluated (`C52_at_most_of_nothing_refuted`). -/
theorem C52_met_query_passes_partial (x : Ctx) (o : Orders) (ho : o.Lawful) (d : QueryData) (hd : d.CountsCourses x)
    (hw : d.overridden = false) (s r : Node) (t t' : ClaimTable)
    (hs : s ∈ ((Node.query .rule d).solutions x o).items) (ha : s.audit x o t = .ok (r, t'))
    (hk : ∀ b ∈ d.assertions, ∀ a ∈ b.branches, a.key ∉ mostCommonKeys) (hsome : r.courses ≠ [] ∨ nonPrimaryLt d.assertions = false)
    (hask : ∀ b ∈ d.assertions, b.AsksSomething) :
    (Passes r.status ↔ ∀ b ∈ d.assertions, ∀ a, Asks r.courses b a → a.overridden = true ∨ MetBy a r.courses) ∧
    ((∀ c ∈ r.courses, 0 ≤ c.credits) →
      (Complete r.status ↔ ∀ b ∈ d.assertions, ∀ a, Asks r.courses b a → a.overridden = true ∨
        (MetBy a r.courses ∧ (a.treatInProgressAsPass = true ∨ MetBy a (Completed r.courses))))) := by
  obtain ⟨rd, rfl, hov, hst, h⟩ := query_result ho hd hw hs ha
  rw [hst, (queryStatus_passes rd hov).1, (queryStatus_passes rd hov).2]
  rcases h with ⟨_, h1, h2, _⟩ | h
  · rcases hsome with hsome | hsome
    · exact absurd h1 hsome
    · rw [h2] at hsome; cases hsome
  · have hr : ∀ b' ∈ rd.assertions, ∃ b ∈ d.assertions,
        b.audit x ((Node.query .result rd).courses.map .course) = .ok b' := fun b' hb' => forall₂_mem_left h.flip hb'
    refine ⟨⟨fun hp b hb => ?_, fun hp b' hb' => ?_⟩, fun hn => ⟨fun hp b hb => ?_, fun hp b' hb' => ?_⟩⟩
    · obtain ⟨b', hb', hbb⟩ := forall₂_mem_left h hb
      exact (((AnyAssertion.audit_spec (hd.assertions b hb) (hd.untouched b hb) hbb).2.1 (hk b hb)).1 (hp b' hb')).2
    · obtain ⟨b, hb, hbb⟩ := hr b' hb'
      exact ((AnyAssertion.audit_spec (hd.assertions b hb) (hd.untouched b hb) hbb).2.1 (hk b hb)).2 ⟨hask b hb, hp b hb⟩
    · obtain ⟨b', hb', hbb⟩ := forall₂_mem_left h hb
      exact (((AnyAssertion.audit_spec (hd.assertions b hb) (hd.untouched b hb) hbb).2.2 hn (hk b hb)).1 (hp b' hb')).2
    · obtain ⟨b, hb, hbb⟩ := hr b' hb'
      exact ((AnyAssertion.audit_spec (hd.assertions b hb) (hd.untouched b hb) hbb).2.2 hn (hk b hb)).2 ⟨hask b hb, hp b hb⟩

/-- C52. A query is complete only if each assertion is waived or met, and met by the completed courses alone unless the
assertion treats courses in progress as passed.  Partial: not for the terms of the most common course. -/
theorem C52_complete_on_completed_courses_partial (x : Ctx) (o : Orders) (ho : o.Lawful) (d : QueryData) (hd : d.CountsCourses x)
    (hreal : d.RealConditions) (hw : d.overridden = false) (s r : Node) (t t' : ClaimTable)
    (hs : s ∈ ((Node.query .rule d).solutions x o).items) (ha : s.audit x o t = .ok (r, t'))
    (hk : ∀ b ∈ d.assertions, ∀ a ∈ b.branches, a.key ∉ mostCommonKeys) (hn : ∀ c ∈ r.courses, 0 ≤ c.credits)
    (hp : Complete r.status) :
    ∀ b ∈ d.assertions, ∀ a, Asks r.courses b a → a.overridden = true ∨
      (MetBy a r.courses ∧ (a.treatInProgressAsPass = true ∨ MetBy a (Completed r.courses))) := by
  obtain ⟨rd, rfl, hov, hst, h⟩ := query_result ho hd hw hs ha
  rw [hst, (queryStatus_passes rd hov).2] at hp
  intro b hb a hask
  rcases h with ⟨_, h1, _, h2⟩ | h
  · rw [h1] at hask
    have hpass : Passes b.status := by
      rcases hp b (h2 ▸ hb) with h | h <;> rw [h] <;> simp [Passes]
    exact .inl ((not_evaluated (hd.assertions b hb) (fun c r t he => hreal c r t (he ▸ hb)) hpass).2 a hask)
  · obtain ⟨b', hb', hbb⟩ := forall₂_mem_left h hb
    exact (((AnyAssertion.audit_spec (hd.assertions b hb) (hd.untouched b hb) hbb).2.2 hn (hk b hb)).1 (hp b' hb')).2 a hask

theorem audited_witness {x : Ctx} {o : Orders} {n : Node} {t : ClaimTable} (i : Nat) (f : Node → Bool)
    (h : ((n.solutions x o).items[i]?).any (fun s => match s.audit x o t with
      | .ok (r, _) => f r
      | .error _ => false) = true) :
    ∃ s ∈ (n.solutions x o).items, ∃ r t', s.audit x o t = .ok (r, t') ∧ f r = true := by
  obtain ⟨s, hs, hf⟩ := (Option.any_eq_true _ _).1 h
  refine ⟨s, List.mem_of_getElem? hs, ?_⟩
  split at hf
  · exact ⟨_, _, ‹_›, hf⟩
  · cases hf

namespace Meets

/-- a completed course -/
def done : Course := { clbid := "1", crsid := "11" }
/-- a course in progress -/
def now : Course := { clbid := "2", crsid := "11", term := "3", isInProgress := true, isInProgressThisTerm := true }
/-- a student with both -/
def student : Ctx := { transcript := [done, now] }
/-- where the assertions of a query are -/
def at' (i : String) : Path := ["$", ".query", ".assertions", i, ".assert"]
/-- a query with some assertions -/
def query (as : List AnyAssertion) : QueryData := { path := ["$", ".query"], assertions := as }
/-- two credits of courses below the 300 level, one of them completed -/
def credits (i : String) (k : Rat) : Assertion :=
  { path := at' i, key := "sum(credits)", op := .gte, expected := k, where' := some (.leaf ⟨"level", .lt, numVal 300, none⟩) }
/-- at least one course -/
def oneCourse (i : String) : Assertion := { path := at' i, key := "count(courses)", op := .gte, expected := 1 }
/-- the most common course was taken in one term at least -/
def oneTerm : Assertion :=
  { path := at' "[0]", key := "count(terms_from_most_common_course)", op := .gte, expected := 1 }
/-- an assertion that is waived -/
def waivedOne : Assertion := { oneCourse "[0]" with overridden := true, state := .waived }
/-- at most two courses -/
def twoAtMost : Assertion := { path := at' "[1]", key := "count(courses)", op := .lte, expected := 2 }
/-- a student without courses, for whom the first assertion is waived -/
def newcomer : Ctx := { exceptions := groupExceptions [⟨at' "[0]", .override⟩] }

theorem student_loaded {as : List AnyAssertion} (h : ∀ b ∈ as, (∀ a ∈ b.branches, a.overridden = false ∧ a.state = .empty ∧
      a.op.isComparison ∧ a.dataType = .course) ∧ ∀ c r t, b = .dyn c r t → r = none) :
    (query as).CountsCourses student :=
  ⟨.inl rfl, .inl rfl, fun b hb => ⟨fun a ha => by
    obtain ⟨h1, h2, h3, h4⟩ := (h b hb).1 a ha
    exact ⟨h1, by rw [h2, h1]; rfl, h3, h4⟩, (h b hb).2⟩, fun b hb a ha => ⟨rfl, rfl⟩⟩

end Meets

open Meets in
/-- Non-trivial case: two credits of courses below the 300 level, of which one course is in progress; the first assertion
passes for both, the second is met by the completed course alone. -/
example : (query [.single (credits "[0]" 2), .single (credits "[1]" 1)]).CountsCourses student ∧
    (query [.single (credits "[0]" 2), .single (credits "[1]" 1)]).RealConditions ∧
    ∃ s ∈ ((Node.query .rule (query [.single (credits "[0]" 2), .single (credits "[1]" 1)])).solutions student .insertion).items,
      ∃ r t', s.audit student .insertion [] = .ok (r, t') ∧ r.courses = [done, now] ∧ r.status = .pendingCurrent := by
  refine ⟨student_loaded ?_, ?_, ?_⟩
  · intro b hb
    simp only [List.mem_cons, List.not_mem_nil, or_false] at hb
    rcases hb with rfl | rfl <;> simp [AnyAssertion.branches, credits, Operator.isComparison]
  · intro c r t h
    simp [query] at h
  · obtain ⟨s, hs, r, t', ha, hf⟩ := audited_witness (x := student) (o := .insertion) (t := [])
      (n := .query .rule (query [.single (credits "[0]" 2), .single (credits "[1]" 1)])) 0
      (fun r => decide (r.courses = [done, now] ∧ r.status = .pendingCurrent)) (by decide +kernel)
    exact ⟨s, hs, r, t', ha, of_decide_eq_true hf⟩

open Meets in
/-- A conditional assertion that asks nothing, because its condition is false and it has no `$else`, keeps its query from
passing although everything that is asked is met. -/
theorem C52_nothing_asked_refuted : ∃ (x : Ctx) (d : QueryData), d.CountsCourses x ∧ d.RealConditions ∧ d.overridden = false ∧
    ∃ s ∈ ((Node.query .rule d).solutions x .insertion).items, ∃ r t', s.audit x .insertion [] = .ok (r, t') ∧
      (∀ b ∈ d.assertions, ∀ a, Asks r.courses b a → MetBy a r.courses) ∧ r.status = .needsMoreItems := by
  refine ⟨student, query [.single (oneCourse "[0]"), .cond (some false) (oneCourse "[1]") none], student_loaded ?_, ?_, rfl, ?_⟩
  · intro b hb
    simp only [List.mem_cons, List.not_mem_nil, or_false] at hb
    rcases hb with rfl | rfl <;> simp [AnyAssertion.branches, oneCourse, Operator.isComparison]
  · intro c r t h
    simp [query] at h
  · obtain ⟨s, hs, r, t', ha, hf⟩ := audited_witness (x := student) (o := .insertion) (t := [])
      (n := .query .rule (query [.single (oneCourse "[0]"), .cond (some false) (oneCourse "[1]") none])) 2
      (fun r => decide (r.courses = [done, now] ∧ r.status = .needsMoreItems)) (by decide +kernel)
    have hf := of_decide_eq_true hf
    refine ⟨s, hs, r, t', ha, ?_, hf.2⟩
    rw [hf.1]
    intro b hb a' hask
    simp only [query, List.mem_cons, List.not_mem_nil, or_false] at hb
    rcases hb with rfl | rfl
    · cases hask
      exact ⟨_, _, rfl, .courses _, by simp only [NumHolds, oneCourse]; decide +kernel⟩
    · cases hask

open Meets in
/-- The number of terms a student has taken their most common course in: one completed course meets "at least one term",
but because another is in progress the assertion is reported as pending.  The second look at the completed courses reads
an iterator that is already used up. -/
theorem C52_needlessly_pending_refuted : ∃ (x : Ctx) (d : QueryData) (a : Assertion), d.CountsCourses x ∧ d.overridden = false ∧
    d.assertions = [.single a] ∧
    ∃ s ∈ ((Node.query .rule d).solutions x .insertion).items, ∃ r t', s.audit x .insertion [] = .ok (r, t') ∧
      MetBy a r.courses ∧ MetBy a (Completed r.courses) ∧ r.status = .pendingCurrent := by
  refine ⟨student, query [.single oneTerm], oneTerm, student_loaded ?_, rfl, rfl, ?_⟩
  · intro b hb
    simp only [List.mem_singleton] at hb
    subst hb
    simp [AnyAssertion.branches, oneTerm, Operator.isComparison]
  · obtain ⟨s, hs, r, t', ha, hf⟩ := audited_witness (x := student) (o := .insertion) (t := [])
      (n := .query .rule (query [.single oneTerm])) 2
      (fun r => decide (r.courses = [done, now] ∧ r.status = .pendingCurrent)) (by decide +kernel)
    have hf := of_decide_eq_true hf
    refine ⟨s, hs, r, t', ha, ?_, ?_, hf.2⟩ <;> rw [hf.1]
    · exact ⟨_, _, rfl, .mostCommon _ "11" ⟨by decide, fun k' => List.count_le_length.trans (by decide)⟩,
        by simp only [NumHolds, oneTerm]; decide +kernel⟩
    · exact ⟨_, _, rfl, .mostCommon _ "11" ⟨by decide, fun k' => List.count_le_length.trans (by decide)⟩,
        by simp only [NumHolds, oneTerm]; decide +kernel⟩

open Meets in
/-- A query whose "at least" assertion is waived and whose "at most" assertion holds of no courses at all is not reported
as met when it has no courses. -/
theorem C52_at_most_of_nothing_refuted : ∃ (x : Ctx) (d : QueryData), d.CountsCourses x ∧ d.overridden = false ∧
    ∃ s ∈ ((Node.query .rule d).solutions x .insertion).items, ∃ r t', s.audit x .insertion [] = .ok (r, t') ∧
      (∀ b ∈ d.assertions, ∀ a, Asks r.courses b a → a.overridden = true ∨ MetBy a r.courses) ∧ r.status = .needsMoreItems := by
  refine ⟨newcomer, query [.single waivedOne, .single twoAtMost], ⟨.inl rfl, .inl rfl, ?_, ?_⟩, rfl, ?_⟩
  · intro b hb
    simp only [query, List.mem_cons, List.not_mem_nil, or_false] at hb
    rcases hb with rfl | rfl <;>
    · refine ⟨?_, fun c r t h => by cases h⟩
      intro a ha
      simp only [AnyAssertion.branches, List.mem_singleton] at ha
      subst ha
      exact ⟨by decide +kernel, rfl, by simp [waivedOne, oneCourse, twoAtMost, Operator.isComparison], rfl⟩
  · intro b hb a ha
    simp only [query, List.mem_cons, List.not_mem_nil, or_false] at hb
    rcases hb with rfl | rfl <;>
    · simp only [AnyAssertion.branches, List.mem_singleton] at ha
      subst ha
      exact ⟨by decide +kernel, by decide +kernel⟩
  · obtain ⟨s, hs, r, t', ha, hf⟩ := audited_witness (x := newcomer) (o := .insertion) (t := [])
      (n := .query .rule (query [.single waivedOne, .single twoAtMost])) 0
      (fun r => decide (r.courses = [] ∧ r.status = .needsMoreItems)) (by decide +kernel)
    have hf := of_decide_eq_true hf
    refine ⟨s, hs, r, t', ha, ?_, hf.2⟩
    rw [hf.1]
    intro b hb a' hask
    simp only [query, List.mem_cons, List.not_mem_nil, or_false] at hb
    rcases hb with rfl | rfl
    · cases hask
      exact .inl rfl
    · cases hask
      exact .inr ⟨_, _, rfl, .courses _, by simp only [NumHolds, twoAtMost]; decide +kernel⟩

end Dp
