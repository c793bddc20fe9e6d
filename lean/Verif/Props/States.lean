import Verif.Props.Meets
import Verif.Props.Exceptions
import Mathlib.Data.List.Count

/-
What the reported state of an assertion says about the courses it was measured on
(C56), and what exceptions do to those courses (C57).
-/
namespace Dp

/-! ### Specification -/

/-- An exception recorded at the path inserts the record, which is a course: it is forced, or it is on the transcript. -/
def InsertsAt (x : Ctx) (es : List Exc) (p : Path) (i : Item) : Prop :=
  ∃ e ∈ es, e.path = p ∧ ∃ k forced c, e.kind = .insertion k forced ∧ x.forcedCourseByClbid k = .ok c ∧
    (forced = true ∨ x.findCourseByClbid k = some c) ∧ i = .course c

/-- An exception recorded at the path blocks the record, which is a course. -/
def BlocksAt (x : Ctx) (es : List Exc) (p : Path) (i : Item) : Prop :=
  ∃ e ∈ es, e.path = p ∧ ∃ k c, e.kind = .block k ∧ x.forcedCourseByClbid k = .ok c ∧ i = .course c

/-- `m` are the records an assertion at `p` is measured on, given those its filter selected: with the inserted ones, and
without the blocked ones.  Nothing is there more often than it was selected and inserted. -/
structure MeasuredOn (x : Ctx) (es : List Exc) (p : Path) (sel m : List Item) : Prop where
  kept : ∀ i, ¬ InsertsAt x es p i → ¬ BlocksAt x es p i → m.count i = sel.count i
  inserted : ∀ i, InsertsAt x es p i → ¬ BlocksAt x es p i → i ∈ m
  blocked : ∀ i, BlocksAt x es p i → ¬ InsertsAt x es p i → sel.count i ≤ 1 → i ∉ m
  within : ∃ ins, m.Sublist (sel ++ ins) ∧ (∀ i ∈ ins, InsertsAt x es p i) ∧
    ins.length ≤ (es.filter (fun e => e.isInsertion && e.path == p)).length

/-- What a state says: `v` has been measured on the courses `m`, using the courses `used`. -/
structure StateSays (a : Assertion) (m : List Course) (v : Rat) (used : List Course) (s : Status) : Prop where
  /-- it passes exactly if the comparison holds -/
  passes : Passes s ↔ NumHolds a.op v a.expected
  /-- "in progress" or "registered" only if a course it uses is -/
  waits : s = .pendingCurrent ∨ s = .pendingRegistered → a.treatInProgressAsPass = false ∧ ∃ c ∈ used, c.isInProgress = true
  current : s = .pendingCurrent → (∃ c ∈ used, c.isInProgressThisTerm = true ∨ c.isIncomplete = true) ∧
    ∀ c ∈ used, c.isInProgressInFuture = false
  registered : s = .pendingRegistered → ∃ c ∈ used, c.isInProgressInFuture = true
  /-- "done" means met by completed courses alone, unless courses in progress count as passed -/
  done : (∀ c ∈ m, 0 ≤ c.credits) → a.key ∉ mostCommonKeys → (s = .done ↔ NumHolds a.op v a.expected ∧
    (a.treatInProgressAsPass = true ∨ ∃ w, Measures a.key (Completed m) w ∧ NumHolds a.op w a.expected))
  /-- a broken upper bound is a failure -/
  failed : s = .failedInvariant ↔ ¬ NumHolds a.op v a.expected ∧ (a.op = .lt ∨ a.op = .lte)
  /-- something, but not enough -/
  more : s = .needsMoreItems ↔ 0 < v ∧ ((a.op = .gt ∧ v ≤ a.expected) ∨ (a.op = .gte ∧ v < a.expected) ∨
    (a.op = .eq ∧ v < a.expected))
  /-- no other state occurs -/
  only : Passes s ∨ s = .failedInvariant ∨ s = .needsMoreItems ∨ s = .empty
  notWaived : s ≠ .waived

/-! ### The measured courses -/

theorem MeasuredOn.only {x : Ctx} {es : List Exc} {p : Path} {sel m : List Item} (h : MeasuredOn x es p sel m) :
    ∀ i ∈ m, i ∈ sel ∨ InsertsAt x es p i := by
  obtain ⟨ins, h1, h2, _⟩ := h.within
  intro i hi
  rcases List.mem_append.1 (h1.subset hi) with h | h
  · exact .inl h
  · exact .inr (h2 i h)

/-- without exceptions at the path the assertion is measured on what its filter selected -/
theorem MeasuredOn.untouched {x : Ctx} {es : List Exc} {p : Path} {sel m : List Item} (h : MeasuredOn x es p sel m)
    (h1 : ∀ i, ¬ InsertsAt x es p i) (h2 : ∀ i, ¬ BlocksAt x es p i) : m = sel := by
  obtain ⟨ins, k1, k2, _⟩ := h.within
  have : ins = [] := by
    rw [List.eq_nil_iff_forall_not_mem]
    exact fun i hi => h1 i (k2 i hi)
  rw [this, List.append_nil] at k1
  refine k1.eq_of_length_le (List.Perm.length_eq ?_).ge
  rw [List.perm_iff_count]
  exact fun i => h.kept i (h1 i) (h2 i)

theorem forcedCourse_found {x : Ctx} {k : String} {c c' : Course} (h : x.forcedCourseByClbid k = .ok c)
    (h' : x.findCourseByClbid k = some c') : c = c' := by
  unfold Ctx.forcedCourseByClbid at h
  rw [h'] at h
  exact (Except.ok.inj h).symm

/-- the insertion loop: what it adds are the courses the exceptions insert -/
theorem insertInto_spec {x : Ctx} : ∀ (es : List Exc) (out : List Item) (ins : List String) (out' : List Item) (ins' : List String),
    insertInto x es out ins = .ok (out', ins') → ∃ l : List Course, out' = out ++ l.map .course ∧ ins' = ins ++ l.map (·.clbid) ∧
      l.length ≤ es.length ∧
      ∀ c, c ∈ l ↔ ∃ e ∈ es, ∃ k forced, e.kind = .insertion k forced ∧ x.forcedCourseByClbid k = .ok c ∧
        (forced = true ∨ x.findCourseByClbid k = some c)
  | [], out, ins, out', ins', h => by
    cases h
    exact ⟨[], by simp, by simp, by simp, by simp⟩
  | e :: es, out, ins, out', ins', h => by
    unfold insertInto at h
    split at h
    · rename_i k forced hk
      split at h
      · cases h
      rename_i c hc
      have one : ∀ c', (forced = true ∨ x.findCourseByClbid k = some c) → (∃ k' f', e.kind = .insertion k' f' ∧
          x.forcedCourseByClbid k' = .ok c' ∧ (f' = true ∨ x.findCourseByClbid k' = some c')) → c' = c := by
        rintro c' _ ⟨k', f', h1, h2, _⟩
        rw [hk] at h1
        cases h1
        rw [hc] at h2
        exact (Except.ok.inj h2).symm
      have fin : ∀ (hf : forced = true ∨ x.findCourseByClbid k = some c),
          insertInto x es (out ++ [.course c]) (ins ++ [c.clbid]) = .ok (out', ins') →
          ∃ l : List Course, out' = out ++ l.map .course ∧ ins' = ins ++ l.map (·.clbid) ∧
            l.length ≤ (e :: es).length ∧
            ∀ c, c ∈ l ↔ ∃ e' ∈ e :: es, ∃ k forced, e'.kind = .insertion k forced ∧ x.forcedCourseByClbid k = .ok c ∧
              (forced = true ∨ x.findCourseByClbid k = some c) := by
        intro hf h
        obtain ⟨l, h1, h2, hlen, h3⟩ := insertInto_spec es _ _ _ _ h
        refine ⟨c :: l, by simp [h1], by simp [h2], by simpa using hlen, fun c' => ?_⟩
        simp only [List.mem_cons, exists_eq_or_imp, h3 c']
        constructor
        · rintro (rfl | h)
          · exact .inl ⟨k, forced, hk, hc, hf⟩
          · exact .inr h
        · rintro (h | h)
          · exact .inl (one c' hf h)
          · exact .inr h
      split at h
      · rename_i hf
        exact fin (.inl hf) h
      · rename_i hf
        split at h
        · rename_i c2 hc2
          obtain rfl := forcedCourse_found hc hc2
          exact fin (.inr hc2) h
        · rename_i hnone
          obtain ⟨l, h1, h2, hlen, h3⟩ := insertInto_spec es _ _ _ _ h
          refine ⟨l, h1, h2, hlen.trans (by simp), fun c' => ?_⟩
          simp only [List.mem_cons, exists_eq_or_imp, h3 c']
          constructor
          · exact .inr
          · rintro (⟨k', f', h4, _, h5⟩ | h)
            · rw [hk] at h4
              cases h4
              rw [hnone] at h5
              simp [hf] at h5
            · exact h
    · rename_i hk
      obtain ⟨l, h1, h2, hlen, h3⟩ := insertInto_spec es _ _ _ _ h
      refine ⟨l, h1, h2, hlen.trans (by simp), fun c' => ?_⟩
      simp only [List.mem_cons, exists_eq_or_imp, h3 c']
      constructor
      · exact .inr
      · rintro (⟨k', f', h4, _, _⟩ | h)
        · exact absurd h4 (hk _ _)
        · exact h

/-- the block loop: it takes out one copy of each blocked course -/
theorem blockFrom_spec {x : Ctx} : ∀ (es : List Exc) (m m' : List Item), blockFrom x es m = .ok m' → m'.Sublist m ∧
      (∀ i, (¬ ∃ e ∈ es, ∃ k c, e.kind = .block k ∧ x.forcedCourseByClbid k = .ok c ∧ i = .course c) → m'.count i = m.count i) ∧
      (∀ i, (∃ e ∈ es, ∃ k c, e.kind = .block k ∧ x.forcedCourseByClbid k = .ok c ∧ i = .course c) → m.count i ≤ 1 → i ∉ m')
  | [], m, m', h => by
    cases h
    exact ⟨List.Sublist.refl _, fun _ _ => rfl, by simp⟩
  | e :: es, m, m', h => by
    unfold blockFrom at h
    split at h
    · rename_i k hk
      split at h
      · cases h
      rename_i c hc
      obtain ⟨h2, h3, h4⟩ := blockFrom_spec es _ _ h
      refine ⟨h2.trans List.erase_sublist, fun b hn => ?_, fun b hb hcount => ?_⟩
      · have hne : b ≠ .course c := by
          rintro rfl
          exact hn ⟨e, by simp, k, c, hk, hc, rfl⟩
        rw [h3 b, List.count_erase_of_ne hne]
        rintro ⟨e', he', h⟩
        exact hn ⟨e', by simp [he'], h⟩
      · obtain ⟨e', he', k', c', hk', hc', hb'⟩ := hb
        by_cases hbc : b = .course c
        · subst hbc
          intro hm
          have := h2.subset hm
          have hc0 : (m.erase (.course c)).count (.course c) = 0 := by
            rw [List.count_erase_self]
            omega
          exact absurd this (List.count_eq_zero.1 hc0)
        · rcases List.mem_cons.1 he' with rfl | he'
          · rw [hk] at hk'
            cases hk'
            rw [hc] at hc'
            cases hc'
            exact absurd hb' hbc
          · refine h4 b ⟨e', he', k', c', hk', hc', hb'⟩ ?_
            rw [List.count_erase_of_ne hbc]
            exact hcount
    · rename_i hk
      obtain ⟨h2, h3, h4⟩ := blockFrom_spec es _ _ h
      refine ⟨h2, fun b hn => h3 b ?_, fun b hb hcount => h4 b ?_ hcount⟩
      · rintro ⟨e', he', h⟩
        exact hn ⟨e', by simp [he'], h⟩
      · obtain ⟨e', he', k', c', hk', hc'⟩ := hb
        rcases List.mem_cons.1 he' with rfl | he'
        · exact absurd hk' (hk _)
        · exact ⟨e', he', k', c', hk', hc'⟩

/-- the two loops together -/
theorem measuredOn_of {x : Ctx} {es : List Exc} (hes : x.exceptions = groupExceptions es) {p : Path} {sel out out' : List Item}
    {ins : List String} (hins : insertInto x (getInsertExceptions x.exceptions p) sel [] = .ok (out, ins))
    (hblk : blockFrom x (getBlockExceptions x.exceptions p) out = .ok out') :
    MeasuredOn x es p sel out' ∧ ∀ k, k ∈ ins ↔ ∃ c, InsertsAt x es p (.course c) ∧ c.clbid = k := by
  obtain ⟨l, rfl, hl2, hlen, hl⟩ := insertInto_spec _ _ _ _ _ hins
  obtain ⟨hm1, hm2, hm3⟩ := blockFrom_spec _ _ _ hblk
  have hI : ∀ i, i ∈ l.map Item.course ↔ InsertsAt x es p i := by
    intro i
    rw [List.mem_map]
    constructor
    · rintro ⟨c, hc, rfl⟩
      obtain ⟨e, he, k, forced, h1, h2, h3⟩ := (hl c).1 hc
      rw [hes, (C07_exact_path_first_wins es p).1, List.mem_filter, Bool.and_eq_true, beq_iff_eq] at he
      exact ⟨e, he.1, he.2.2, k, forced, c, h1, h2, h3, rfl⟩
    · rintro ⟨e, he, hp, k, forced, c, h1, h2, h3, rfl⟩
      refine ⟨c, (hl c).2 ⟨e, ?_, k, forced, h1, h2, h3⟩, rfl⟩
      rw [hes, (C07_exact_path_first_wins es p).1, List.mem_filter, Bool.and_eq_true, beq_iff_eq]
      exact ⟨he, by simp [Exc.isInsertion, h1], hp⟩
  have hB : ∀ i, (∃ e ∈ getBlockExceptions x.exceptions p, ∃ k c, e.kind = .block k ∧ x.forcedCourseByClbid k = .ok c ∧
      i = .course c) ↔ BlocksAt x es p i := by
    intro i
    rw [hes, (C07_exact_path_first_wins es p).2.1]
    constructor
    · rintro ⟨e, he, h⟩
      rw [List.mem_filter, Bool.and_eq_true, beq_iff_eq] at he
      exact ⟨e, he.1, he.2.2, h⟩
    · rintro ⟨e, he, hp, k, c, hk, h⟩
      refine ⟨e, ?_, k, c, hk, h⟩
      rw [List.mem_filter, Bool.and_eq_true, beq_iff_eq]
      exact ⟨he, by simp [Exc.isBlock, hk], hp⟩
  have h0 : ∀ i, ¬ InsertsAt x es p i → (sel ++ l.map Item.course).count i = sel.count i := by
    intro i hi
    rw [List.count_append, List.count_eq_zero.2 (fun h => hi ((hI i).1 h)), Nat.add_zero]
  refine ⟨⟨?_, ?_, ?_, l.map .course, hm1, fun i hi => (hI i).1 hi, ?_⟩, ?_⟩
  · intro i hi hb
    rw [hm2 i (fun h => hb ((hB i).1 h)), h0 i hi]
  · intro i hi hb
    rw [← List.one_le_count_iff, hm2 i (fun h => hb ((hB i).1 h)), List.one_le_count_iff]
    exact List.mem_append_right _ ((hI i).2 hi)
  · intro i hb hi hc
    refine hm3 i ((hB i).2 hb) ?_
    rw [h0 i hi]
    exact hc
  · rw [hes, (C07_exact_path_first_wins es p).1] at hlen
    rw [List.length_map]
    exact hlen
  · intro k
    simp only [hl2, List.nil_append, List.mem_map]
    constructor
    · rintro ⟨c, hc, rfl⟩
      exact ⟨c, (hI _).1 (List.mem_map_of_mem hc), rfl⟩
    · rintro ⟨c, hc, rfl⟩
      obtain ⟨c', hc', he⟩ := List.mem_map.1 ((hI _).2 hc)
      cases he
      exact ⟨_, hc', rfl⟩

/-- records among courses and inserted records are courses -/
theorem MeasuredOn.courses {x : Ctx} {es : List Exc} {p : Path} {sel : List Course} {m : List Item}
    (h : MeasuredOn x es p (sel.map .course) m) : ∃ cs : List Course, m = cs.map .course := by
  have : ∀ i ∈ m, ∃ c, i = Item.course c := by
    intro i hi
    rcases h.only i hi with h | ⟨_, _, _, _, _, c, _, _, _, rfl⟩
    · obtain ⟨c, _, rfl⟩ := List.mem_map.1 h
      exact ⟨c, rfl⟩
    · exact ⟨c, rfl⟩
  clear h
  induction m with
  | nil => exact ⟨[], rfl⟩
  | cons i m ih =>
    obtain ⟨c, rfl⟩ := this i (by simp)
    obtain ⟨cs, rfl⟩ := ih (fun i hi => this i (by simp [hi]))
    exact ⟨c :: cs, rfl⟩

/-! ### States -/

theorem unmet_says {op : Operator} {v e : Rat} (h : ¬ NumHolds op v e) :
    (unmetStatus op v e = .failedInvariant ↔ op = .lt ∨ op = .lte) ∧
    (unmetStatus op v e = .needsMoreItems ↔ 0 < v ∧ ((op = .gt ∧ v ≤ e) ∨ (op = .gte ∧ v < e) ∨ (op = .eq ∧ v < e))) ∧
    (unmetStatus op v e = .failedInvariant ∨ unmetStatus op v e = .needsMoreItems ∨ unmetStatus op v e = .empty) := by
  unfold unmetStatus
  cases op <;> simp only [reduceCtorEq, false_and, true_and, if_false, or_false, false_or, or_self, or_true, if_true]
  all_goals (repeat' split) <;> simp_all

theorem applyCourses_used {key : String} {cs again : List Course} {r : Applied} (ha : ∀ c ∈ again, c ∈ cs)
    (h : applyCourses key cs again = .ok r) : ∀ c ∈ r.courses, c ∈ cs := by
  unfold applyCourses at h
  have hm : ∀ k, ∀ c ∈ (countTermsMostCommon k cs again).courses, c ∈ cs := by
    intro k c hc
    unfold countTermsMostCommon at hc
    split at hc
    · simp at hc
    · exact ha c (List.mem_filter.1 hc).1
  have hb : ∀ p, ∀ c ∈ (countBuckets p cs).courses, c ∈ cs := fun p c hc => (List.mem_filter.1 hc).1
  by_cases k : (key == "count(courses)") = true
  · rw [if_pos k] at h
    cases h
    exact fun c hc => List.mem_dedup.1 hc
  rw [if_neg k] at h
  clear k
  by_cases k : (key == "count(distinct_courses)") = true
  · rw [if_pos k] at h
    cases h
    exact (countNew_courses _ cs).1
  rw [if_neg k] at h
  clear k
  by_cases k : (key == "count(terms_from_most_common_course)") = true
  · rw [if_pos k] at h
    cases h
    exact hm _
  rw [if_neg k] at h
  clear k
  by_cases k : (key == "count(terms_from_most_common_course_by_name)") = true
  · rw [if_pos k] at h
    cases h
    exact hm _
  rw [if_neg k] at h
  clear k
  by_cases k : (key == "count(math_perspectives)") = true
  · rw [if_pos k] at h
    cases h
    exact hb _
  rw [if_neg k] at h
  clear k
  by_cases k : (key == "count(religion_traditions)") = true
  · rw [if_pos k] at h
    cases h
    exact hb _
  rw [if_neg k] at h
  clear k
  by_cases k : (key == "count(intlr_regions)") = true
  · rw [if_pos k] at h
    cases h
    exact hb _
  rw [if_neg k] at h
  clear k
  by_cases k : (key == "count(subjects)") = true
  · rw [if_pos k] at h
    cases h
    exact (countNew_courses _ cs).1
  rw [if_neg k] at h
  clear k
  by_cases k : (key == "count(terms)") = true
  · rw [if_pos k] at h
    cases h
    exact (countNew_courses _ cs).1
  rw [if_neg k] at h
  clear k
  by_cases k : (key == "count(years)") = true
  · rw [if_pos k] at h
    cases h
    exact (countNew_courses _ cs).1
  rw [if_neg k] at h
  clear k
  by_cases k : (key == "sum(credits)") = true
  · rw [if_pos k] at h
    cases h
    exact fun c hc => (List.mem_filter.1 hc).1
  rw [if_neg k] at h
  clear k
  by_cases k : (key == "sum(credits_from_single_subject)") = true
  · rw [if_pos k] at h
    dsimp only at h
    split at h
    · cases h
      simp
    · cases h
      exact fun c hc => (List.mem_filter.1 (List.mem_filter.1 hc).1).1
  rw [if_neg k] at h
  clear k
  by_cases k : (key == "average(grades)") = true
  · rw [if_pos k] at h
    cases h
    exact fun c hc => ha c (List.mem_filter.1 hc).1
  rw [if_neg k] at h
  clear k
  by_cases k : (key == "average(credits)") = true
  · rw [if_pos k] at h
    cases h
    exact fun c hc => ha c (List.mem_filter.1 hc).1
  rw [if_neg k] at h
  clear k
  cases h

theorem met_says {a : Assertion} {cs : List Course} {r : Applied} {s : Status} (h : metStatus a cs r = .ok s) :
    (s = .pendingCurrent ∨ s = .pendingRegistered → a.treatInProgressAsPass = false ∧ ∃ c ∈ r.courses, c.isInProgress = true) ∧
    (s = .pendingCurrent → (∃ c ∈ r.courses, c.isInProgressThisTerm = true ∨ c.isIncomplete = true) ∧
      ∀ c ∈ r.courses, c.isInProgressInFuture = false) ∧
    (s = .pendingRegistered → ∃ c ∈ r.courses, c.isInProgressInFuture = true) := by
  unfold metStatus at h
  dsimp only at h
  split at h
  · cases h
  rename_i ok hok
  split at h
  · cases h
    simp
  rename_i hor
  simp only [Bool.or_eq_true, not_or, Bool.not_eq_true] at hor
  split at h
  · rename_i hip
    have hip' := List.any_eq_true.1 hip
    split at h
    · cases h
    split at h
    · rename_i h1
      cases h
      simp only [Bool.and_eq_true, Bool.or_eq_true, Bool.not_eq_true', List.any_eq_true, List.any_eq_false,
        Bool.not_eq_true] at h1
      refine ⟨fun _ => ⟨hor.1, hip'⟩, fun _ => ⟨?_, h1.2⟩, by simp⟩
      rcases h1.1 with ⟨c, hc, h⟩ | ⟨c, hc, h⟩
      · exact ⟨c, hc, .inl h⟩
      · exact ⟨c, hc, .inr h⟩
    · split at h
      · rename_i h1
        cases h
        exact ⟨fun _ => ⟨hor.1, hip'⟩, by simp, fun _ => List.any_eq_true.1 h1⟩
      · cases h
  · cases h
    simp

theorem evaluateCourses_says {a : Assertion} {cs : List Course} {s : Status} {r : Applied} (hop : a.op.isComparison)
    (h : evaluateCourses a cs = .ok (s, r)) :
    Measures a.key cs r.value ∧ (∀ c ∈ r.courses, c ∈ cs) ∧ StateSays a cs r.value r.courses s := by
  obtain ⟨h1, h2, h3, h4⟩ := evaluateCourses_spec hop h
  unfold evaluateCourses at h
  split at h
  · cases h
  rename_i r' hr
  obtain ⟨b, hb, hb'⟩ := compareNum_iff hop r'.value a.expected
  rw [hb] at h
  cases b with
  | false =>
    cases h
    have hn : ¬ NumHolds a.op r.value a.expected := fun hh => by simpa using hb'.2 hh
    have hu := unmet_fails a.op r.value a.expected
    obtain ⟨u1, u2, u3⟩ := unmet_says hn
    refine ⟨h1, applyCourses_used (fun c hc => hc) hr, h2, ?_, ?_, ?_, h4, ?_, u2, .inr u3, h3⟩
    · rintro (h | h) <;> exact absurd (by rw [h]; simp [Passes]) hu
    · intro h; exact absurd (by rw [h]; simp [Passes]) hu
    · intro h; exact absurd (by rw [h]; simp [Passes]) hu
    · exact u1.trans ⟨fun h => ⟨hn, h⟩, fun h => h.2⟩
  | true =>
    have hh : NumHolds a.op r'.value a.expected := hb'.1 rfl
    dsimp only at h
    split at h
    · cases h
    rename_i s' hs
    cases h
    obtain ⟨m1, m2, m3⟩ := met_says hs
    refine ⟨h1, applyCourses_used (fun c hc => hc) hr, h2, m1, m2, m3, h4, ?_, ?_, .inl (h2.2 hh), h3⟩
    · refine ⟨fun h => ?_, fun h => absurd hh h.1⟩
      have := h2.2 hh
      rw [h] at this
      simp [Passes] at this
    · refine ⟨fun h => ?_, fun h => ?_⟩
      · have := h2.2 hh
        rw [h] at this
        simp [Passes] at this
      · exfalso
        rcases h.2 with ⟨ho, h⟩ | ⟨ho, h⟩ | ⟨ho, h⟩ <;> rw [ho] at hh <;> simp only [NumHolds] at hh
        · exact absurd hh (not_lt.2 h)
        · exact absurd hh (not_le.2 h)
        · rw [hh] at h
          exact lt_irrefl _ h

theorem Assertion.audit_says {x : Ctx} {es : List Exc} (hes : x.exceptions = groupExceptions es) {a a' : Assertion}
    (hop : a.op.isComparison) (hdt : a.dataType = .course) (hov : a.overridden = false) {cs : List Course}
    (h : a.audit x (cs.map .course) = .ok a') :
    ∃ selected m used v, Selects a.where' cs selected ∧ MeasuredOn x es a.path (selected.map .course) (m.map .course) ∧
      Measures a.key m v ∧ a'.resolved = some v ∧ (∀ c ∈ used, c ∈ m) ∧ a'.resolvedClbids = used.map (·.clbid) ∧
      StateSays a m v used a'.state ∧ ∀ k, k ∈ a'.insertedClbids ↔ ∃ c, InsertsAt x es a.path (.course c) ∧ c.clbid = k := by
  unfold Assertion.audit at h
  rw [if_neg (by simp [hov])] at h
  dsimp only at h
  split at h
  · cases h
  rename_i f hf
  have hsel : ∃ m, f = m.map .course ∧ Selects a.where' cs m := by
    cases hw : a.where' with
    | none =>
      rw [hw] at hf
      cases hf
      exact ⟨cs, rfl, rfl⟩
    | some p =>
      rw [hw] at hf
      exact filterItems_selects hf
  obtain ⟨sel, rfl, hsel⟩ := hsel
  split at h
  · cases h
  rename_i out ins hins
  split at h
  · cases h
  rename_i out' hblk
  split at h
  · cases h
  rename_i s r hr
  obtain ⟨hm, hk⟩ := measuredOn_of hes hins hblk
  obtain ⟨m, rfl⟩ := hm.courses
  simp only [Assertion.evaluate, hdt, itemCourses_map] at hr
  obtain ⟨h1, h2, h3⟩ := evaluateCourses_says hop hr
  cases h
  exact ⟨sel, m, r.courses, r.value, hsel, hm, h1, rfl, h2, rfl, h3, hk⟩

/-- C56.  The state reported for an assertion over courses says how the measured number compares and what it still waits
for, as `StateSays` spells out; the number and the courses it comes from are reported with it. -/
theorem C56_state_of_an_assertion (x : Ctx) (es : List Exc) (hes : x.exceptions = groupExceptions es) (a a' : Assertion)
    (ha : a.AsLoaded x) (hov : a.overridden = false) (cs : List Course) (h : a.audit x (cs.map .course) = .ok a') :
    ∃ selected m used v, Selects a.where' cs selected ∧ MeasuredOn x es a.path (selected.map .course) (m.map .course) ∧
      Measures a.key m v ∧ a'.resolved = some v ∧ (∀ c ∈ used, c ∈ m) ∧ a'.resolvedClbids = used.map (·.clbid) ∧
      StateSays a m v used a'.state := by
  obtain ⟨s, m, u, v, h1, h2, h3, h4, h5, h6, h7, _⟩ := Assertion.audit_says hes ha.comparison ha.courses hov h
  exact ⟨s, m, u, v, h1, h2, h3, h4, h5, h6, h7⟩

/-- C57.  A course that an exception inserts at an assertion's path is among the courses the assertion is measured on,
whatever the filter says, and one that an exception blocks there is not; nothing else is added or taken away.  Partial: a
blocked course is only taken out if it is there once (`C57_blocked_but_counted_refuted`). -/
theorem C57_exceptions_at_an_assertion_partial (x : Ctx) (es : List Exc) (hes : x.exceptions = groupExceptions es)
    (a a' : Assertion) (ha : a.AsLoaded x) (hov : a.overridden = false) (cs : List Course)
    (h : a.audit x (cs.map .course) = .ok a') :
    ∃ selected m v, Selects a.where' cs selected ∧ Measures a.key m v ∧ a'.resolved = some v ∧
      (∀ c, InsertsAt x es a.path (.course c) → ¬ BlocksAt x es a.path (.course c) → c ∈ m) ∧
      (∀ c, BlocksAt x es a.path (.course c) → ¬ InsertsAt x es a.path (.course c) → selected.count c ≤ 1 → c ∉ m) ∧
      (∀ c, ¬ InsertsAt x es a.path (.course c) → ¬ BlocksAt x es a.path (.course c) → m.count c = selected.count c) ∧
      (∃ ins : List Course, m.Sublist (selected ++ ins) ∧ (∀ c ∈ ins, InsertsAt x es a.path (.course c)) ∧
        ins.length ≤ (es.filter (fun e => e.isInsertion && e.path == a.path)).length) ∧
      (∀ k, k ∈ a'.insertedClbids ↔ ∃ c, InsertsAt x es a.path (.course c) ∧ c.clbid = k) := by
  obtain ⟨s, m, u, v, h1, h2, h3, h4, h5, h6, h7, h8⟩ := Assertion.audit_says hes ha.comparison ha.courses hov h
  have hcount : ∀ (l : List Course) c, (l.map Item.course).count (.course c) = l.count c := fun l c =>
    List.count_map_of_injective l Item.course itemCourse_injective c
  have hmem : ∀ (l : List Course) c, Item.course c ∈ l.map Item.course ↔ c ∈ l := fun l c => by simp
  refine ⟨s, m, v, h1, h3, h4, fun c hi hb => (hmem m c).1 (h2.inserted _ hi hb), fun c hb hi hc => ?_, fun c hi hb => ?_, ?_, h8⟩
  · rw [← hmem]
    exact h2.blocked _ hb hi (by rw [hcount]; exact hc)
  · rw [← hcount, ← hcount]
    exact h2.kept _ hi hb
  · obtain ⟨ins, k1, k2, k3⟩ := h2.within
    have : ∃ cs : List Course, ins = cs.map .course := by
      have hc : ∀ i ∈ ins, ∃ c, i = Item.course c := by
        intro i hi
        obtain ⟨_, _, _, _, _, c, _, _, _, rfl⟩ := k2 i hi
        exact ⟨c, rfl⟩
      clear k1 k2 k3
      induction ins with
      | nil => exact ⟨[], rfl⟩
      | cons i ins ih =>
        obtain ⟨c, rfl⟩ := hc i (by simp)
        obtain ⟨cs, rfl⟩ := ih (fun i hi => hc i (by simp [hi]))
        exact ⟨c :: cs, rfl⟩
    obtain ⟨cs, rfl⟩ := this
    refine ⟨cs, ?_, fun c hc => k2 _ (List.mem_map_of_mem hc), by simpa using k3⟩
    rw [← List.map_append, List.sublist_map_iff] at k1
    obtain ⟨m', hm', he⟩ := k1
    rw [List.map_injective_iff.2 itemCourse_injective he]
    exact hm'

namespace StatesText

/-- where the assertion is -/
def here : Path := ["$", ".query", ".assertions", "[0]", ".assert"]
/-- a completed course -/
def old : Course := { clbid := "1", crsid := "11", subject := "MATH" }
/-- a course in progress -/
def now : Course := { clbid := "2", crsid := "12", subject := "MATH", isInProgress := true, isInProgressThisTerm := true }
/-- a course of another subject -/
def other : Course := { clbid := "3", crsid := "13", subject := "ART" }
/-- at least `n` courses of mathematics -/
def atLeast (n : Rat) : Assertion :=
  { path := here, key := "count(courses)", op := .gte, expected := n, where' := some (.leaf ⟨"subject", .eq, strVal "MATH", none⟩) }
/-- the student, with some exceptions -/
def student (es : List Exc) : Ctx := { transcript := [old, now, other], exceptions := groupExceptions es }
/-- state, number and courses of an audited assertion -/
def report (es : List Exc) (a : Assertion) : Option (Status × Option Rat × List String) :=
  match a.audit (student es) ((student es).transcript.map .course) with
  | .ok a' => some (a'.state, a'.resolved, a'.resolvedClbids)
  | .error _ => none

theorem loaded (es : List Exc) (h : getWaiveException (groupExceptions es) here = none) (n : Rat) :
    (atLeast n).AsLoaded (student es) :=
  ⟨by simp [atLeast, student, h], rfl, by simp [atLeast, Operator.isComparison], rfl⟩

end StatesText

open StatesText in
/-- Non-trivial cases: one of two courses is under way; two are met once the third is inserted, but not by completed
courses; blocking the course that is under way leaves one, done; three are too many. -/
example : report [] (atLeast 2) = some (.pendingCurrent, some 2, ["1", "2"]) ∧
    report [⟨here, .insertion "3" false⟩] (atLeast 3) = some (.pendingCurrent, some 3, ["1", "2", "3"]) ∧
    report [⟨here, .block "2"⟩] (atLeast 1) = some (.done, some 1, ["1"]) ∧
    report [⟨here, .block "2"⟩] (atLeast 2) = some (.needsMoreItems, some 1, ["1"]) ∧
    (∀ es, es = [⟨here, .insertion "3" false⟩] → (atLeast 3).AsLoaded (student es)) := by
  refine ⟨by decide +kernel, by decide +kernel, by decide +kernel, by decide +kernel, ?_⟩
  rintro es rfl
  exact loaded _ (by decide +kernel) _

open StatesText in
/-- A blocked course that is there twice, because an exception also inserts it, is still counted. -/
theorem C57_blocked_but_counted_refuted : ∃ (x : Ctx) (es : List Exc) (a a' : Assertion) (cs : List Course) (c : Course),
    x.exceptions = groupExceptions es ∧ a.AsLoaded x ∧ a.overridden = false ∧ a.audit x (cs.map .course) = .ok a' ∧
    BlocksAt x es a.path (.course c) ∧ cs.count c = 1 ∧ c.clbid ∈ a'.resolvedClbids ∧ a'.resolved = some 2 := by
  have h : (match (atLeast 2).audit (student [⟨here, .insertion "1" false⟩, ⟨here, .block "1"⟩])
      ([old, now, other].map .course) with
    | .ok a' => decide ("1" ∈ a'.resolvedClbids ∧ a'.resolved = some 2)
    | .error _ => false) = true := by decide +kernel
  split at h
  · rename_i a' ha'
    have h := of_decide_eq_true h
    exact ⟨_, [⟨here, .insertion "1" false⟩, ⟨here, .block "1"⟩], _, a', _, old, rfl, loaded _ (by decide +kernel) _, rfl, ha',
      ⟨⟨here, .block "1"⟩, List.mem_cons_of_mem _ (List.mem_singleton.2 rfl), rfl, "1", old, rfl, by decide, rfl⟩, by decide, h.1, h.2⟩
  · cases h

end Dp
