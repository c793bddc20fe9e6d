import Verif.Props.StudentSays
import Verif.Props.Transcript

/-
C84: each course that is audited is the one of its record: every field, said apart from the loader.
-/
namespace Dp

/-! ### What a record says -/

/-- the credits of a class: those of the last exception that changes them; else those that the area file gives to its name; else those
of the record -/
inductive CreditsSay (ov : List Override) (table : CreditTable) (r : Row) : Rat → Prop
  | exception {pre post : List Override} {q : Rat} (h : ov = pre ++ .credits r.clbid q :: post)
      (hl : ∀ q', .credits r.clbid q' ∉ post) : CreditsSay ov table r q
  | byName {pre post : CreditTable} {q : Rat} (hn : ∀ q', .credits r.clbid q' ∉ ov)
      (h : table = pre ++ ("name=" ++ r.name, q) :: post) (hf : ∀ e ∈ pre, e.1 ≠ "name=" ++ r.name) : CreditsSay ov table r q
  | written (hn : ∀ q', .credits r.clbid q' ∉ ov) (ht : ∀ e ∈ table, e.1 ≠ "name=" ++ r.name) : CreditsSay ov table r r.credits

/-- the subject of a class: that of the last exception that changes it; else that of the record -/
inductive SubjectSays (ov : List Override) (r : Row) : String → Prop
  | exception {pre post : List Override} {s : String} (h : ov = pre ++ .subject r.clbid s :: post)
      (hl : ∀ s', .subject r.clbid s' ∉ post) : SubjectSays ov r s
  | written (hn : ∀ s', .subject r.clbid s' ∉ ov) : SubjectSays ov r r.subject

/-- what is put behind the number of a course of this kind -/
inductive KindMark : SubType → String → Prop
  | lab : KindMark .lab ".L"
  | flac : KindMark .flac ".F"
  | discussion : KindMark .discussion ".D"
  | other {s : SubType} (h1 : s ≠ .lab) (h2 : s ≠ .flac) (h3 : s ≠ .discussion) : KindMark s ""

/-- `g` is `x` cut to hundredths: a number of hundredths that differs from it by less than one, on the side of zero -/
def CutToHundredths (x g : Rat) : Prop :=
  (∃ n : Int, g * 100 = n) ∧ (0 ≤ x → g ≤ x ∧ x < g + 1 / 100) ∧ (x ≤ 0 → x ≤ g ∧ g - 1 / 100 < x)

/-- the course is the one of the record `r` -/
structure CourseSays (current : Option String) (ov : List Override) (table : CreditTable) (r : Row) (c : Course) : Prop where
  clbid : c.clbid = r.clbid ∨ c.clbid = r.clbid ++ ":" ++ r.schedid.getD "None"
  crsid : c.crsid = r.crsid
  credits : CreditsSay ov table r c.credits
  subject : SubjectSays ov r c.subject
  number : c.number = r.number
  identity : ∃ m, KindMark r.subType m ∧ c.identity = c.subject ++ " " ++ r.number ++ m
  section' : (r.section' = "" → c.section' = none) ∧ (r.section' ≠ "" → c.section' = some r.section')
  subType : c.subType = r.subType
  courseType : c.courseType = r.courseType
  name : c.name = r.name
  institution : c.institution = r.institution
  attributes : c.attributes = r.attributes
  gereqs : c.gereqs = r.gereqs
  level : c.level = r.level
  year : c.year = r.year
  term : c.term = r.term
  gradeCode : c.gradeCode = r.gradeCode
  suGradeCode : c.suGradeCode = r.suGradeCode
  gradeOption : c.gradeOption = r.gradeOption
  gradePoints : c.gradePoints = r.gradePoints
  gpaPoints : CutToHundredths (r.gradePoints * c.credits) c.gpaPoints
  inGpa : c.isInGpa = r.flagGpa
  inProgress : c.isInProgress = r.flagInProgress
  incomplete : c.isIncomplete = r.flagIncomplete
  repeat' : c.isRepeat = r.flagRepeat
  stolaf : c.isStolaf = r.flagStolaf
  lab : c.isLab = true ↔ r.subType = .lab
  /-- taken this term: the grade is IP or I, and the term, as text, is not after the current one -/
  thisTerm : c.isInProgressThisTerm = true ↔
    ∃ now, current = some now ∧ now ≠ "" ∧ (r.gradeCode = .IP ∨ r.gradeCode = .I) ∧ ¬ now < toString r.year ++ r.term
  /-- registered for: it is after the current one -/
  future : c.isInProgressInFuture = true ↔
    ∃ now, current = some now ∧ now ≠ "" ∧ (r.gradeCode = .IP ∨ r.gradeCode = .I) ∧ now < toString r.year ++ r.term
  covid : c.isDuringCovid = true ↔ toString r.year ++ r.term = "20193"
  chbi : ∀ n, c.isChbi = some n ↔ (n = 125 ∧ c.identity = "CH/BI 125") ∨ (n = 126 ∧ c.identity = "CH/BI 126")
    ∨ (n = 127 ∧ c.identity = "CH/BI 127") ∨ (n = 227 ∧ c.identity = "CH/BI 227")

/-- credits that were given by other means than a class of the college or of a program it takes part in -/
def GivenCredits (t : CourseType) : Prop := t ∈ [.ap, .pseo, .adjustment, .geReq, .other, .transfer, .paraCollege]

instance (t : CourseType) : Decidable (GivenCredits t) := by unfold GivenCredits; infer_instance

/-- `a` comes before `b` on the transcript: first the classes of the college and of programs it takes part in, then the credits given by
other means; within these by time and class id -/
def CourseBefore (a b : Course) : Prop :=
  (¬ GivenCredits a.courseType ∧ GivenCredits b.courseType) ∨ (GivenCredits a.courseType ↔ GivenCredits b.courseType) ∧
    (a.year < b.year ∨ a.year = b.year ∧ (a.term < b.term ∨ a.term = b.term ∧ a.clbid ≤ b.clbid))

/-! ### The loader reads it so -/

theorem creditsOverride_says (clbid : String) : ∀ ov : List Override,
    (∃ pre post q, ov = pre ++ .credits clbid q :: post ∧ (∀ q', .credits clbid q' ∉ post) ∧ creditsOverride ov clbid = some q)
    ∨ ((∀ q', .credits clbid q' ∉ ov) ∧ creditsOverride ov clbid = none) := by
  intro ov
  induction ov using List.reverseRecOn with
  | nil => exact .inr ⟨by simp, rfl⟩
  | append_singleton ov o ih =>
    have hstep : creditsOverride (ov ++ [o]) clbid = creditsStep clbid (creditsOverride ov clbid) o := by
      simp [creditsOverride, List.foldl_append]
    by_cases ho : ∃ q, o = .credits clbid q
    · obtain ⟨q, rfl⟩ := ho
      exact .inl ⟨ov, [], q, rfl, by simp, by rw [hstep]; simp [creditsStep]⟩
    · have hsame : creditsStep clbid (creditsOverride ov clbid) o = creditsOverride ov clbid := by
        cases o with
        | subject => rfl
        | credits c q =>
          have : c ≠ clbid := fun e => ho ⟨q, by rw [e]⟩
          simp [creditsStep, this]
      have ho' : ∀ q', Override.credits clbid q' ≠ o := fun q' e => ho ⟨q', e.symm⟩
      rcases ih with ⟨pre, post, q, h1, h2, h3⟩ | ⟨h1, h2⟩
      · refine .inl ⟨pre, post ++ [o], q, by simp [h1], ?_, by rw [hstep, hsame, h3]⟩
        intro q'
        simp only [List.mem_append, List.mem_singleton, not_or]
        exact ⟨h2 q', ho' q'⟩
      · refine .inr ⟨?_, by rw [hstep, hsame, h2]⟩
        intro q'
        simp only [List.mem_append, List.mem_singleton, not_or]
        exact ⟨h1 q', ho' q'⟩

theorem subjectOverride_says (clbid : String) : ∀ ov : List Override,
    (∃ pre post s, ov = pre ++ .subject clbid s :: post ∧ (∀ s', .subject clbid s' ∉ post) ∧ subjectOverride ov clbid = some s)
    ∨ ((∀ s', .subject clbid s' ∉ ov) ∧ subjectOverride ov clbid = none) := by
  intro ov
  induction ov using List.reverseRecOn with
  | nil => exact .inr ⟨by simp, rfl⟩
  | append_singleton ov o ih =>
    have hstep : subjectOverride (ov ++ [o]) clbid = subjectStep clbid (subjectOverride ov clbid) o := by
      simp [subjectOverride, List.foldl_append]
    by_cases ho : ∃ s, o = .subject clbid s
    · obtain ⟨s, rfl⟩ := ho
      exact .inl ⟨ov, [], s, rfl, by simp, by rw [hstep]; simp [subjectStep]⟩
    · have hsame : subjectStep clbid (subjectOverride ov clbid) o = subjectOverride ov clbid := by
        cases o with
        | credits => rfl
        | subject c s =>
          have : c ≠ clbid := fun e => ho ⟨s, by rw [e]⟩
          simp [subjectStep, this]
      have ho' : ∀ s', Override.subject clbid s' ≠ o := fun s' e => ho ⟨s', e.symm⟩
      rcases ih with ⟨pre, post, q, h1, h2, h3⟩ | ⟨h1, h2⟩
      · refine .inl ⟨pre, post ++ [o], q, by simp [h1], ?_, by rw [hstep, hsame, h3]⟩
        intro q'
        simp only [List.mem_append, List.mem_singleton, not_or]
        exact ⟨h2 q', ho' q'⟩
      · refine .inr ⟨?_, by rw [hstep, hsame, h2]⟩
        intro q'
        simp only [List.mem_append, List.mem_singleton, not_or]
        exact ⟨h1 q', ho' q'⟩

theorem lookup_says (k : String) : ∀ table : CreditTable,
    (∃ pre post q, table = pre ++ (k, q) :: post ∧ (∀ e ∈ pre, e.1 ≠ k) ∧ table.lookup k = some q)
    ∨ ((∀ e ∈ table, e.1 ≠ k) ∧ table.lookup k = none)
  | [] => .inr ⟨by simp, rfl⟩
  | (k', q) :: t => by
    by_cases hk : k' = k
    · subst hk
      exact .inl ⟨[], t, q, rfl, by simp, by simp⟩
    · have hl : ((k', q) :: t).lookup k = t.lookup k := by
        rw [List.lookup_cons, beq_false_of_ne (fun e => hk e.symm)]
      rcases lookup_says k t with ⟨pre, post, q', h1, h2, h3⟩ | ⟨h1, h2⟩
      · refine .inl ⟨(k', q) :: pre, post, q', by simp [h1], ?_, by rw [hl, h3]⟩
        intro e he
        rcases List.mem_cons.1 he with rfl | he
        · exact hk
        · exact h2 e he
      · refine .inr ⟨?_, by rw [hl, h2]⟩
        intro e he
        rcases List.mem_cons.1 he with rfl | he
        · exact hk
        · exact h1 e he

theorem rowCredits_says (ov : List Override) (table : CreditTable) (r : Row) : CreditsSay ov table r (rowCredits ov table r) := by
  unfold rowCredits
  rcases creditsOverride_says r.clbid ov with ⟨pre, post, q, h1, h2, h3⟩ | ⟨h1, h2⟩
  · rw [h3]; exact .exception h1 h2
  · rw [h2]
    rcases lookup_says ("name=" ++ r.name) table with ⟨pre, post, q, h3, h4, h5⟩ | ⟨h3, h4⟩
    · rw [h5]; exact .byName h1 h3 h4
    · rw [h4]; exact .written h1 h3

theorem rowSubject_says (ov : List Override) (r : Row) : SubjectSays ov r (rowSubject ov r) := by
  unfold rowSubject
  rcases subjectOverride_says r.clbid ov with ⟨pre, post, q, h1, h2, h3⟩ | ⟨h1, h2⟩
  · rw [h3]; exact .exception h1 h2
  · rw [h2]; exact .written h1

theorem suffix_mark (s : SubType) : KindMark s s.suffix := by
  cases s <;> first
    | exact .lab
    | exact .flac
    | exact .discussion
    | exact .other (by decide) (by decide) (by decide)

theorem truncate2_cut (x : Rat) : CutToHundredths x (truncate2 x) := by
  rcases le_total 0 x with h | h
  · obtain ⟨h1, h2, h3, h4⟩ := truncate2_spec h
    refine ⟨h1, fun _ => ⟨h2, h3⟩, fun h' => ?_⟩
    have : x = 0 := le_antisymm h' h
    subst this
    constructor <;> linarith
  · have hneg : truncate2 x = - truncate2 (-x) := by
      unfold truncate2 truncInt
      have : -x * 100 = -(x * 100) := by ring
      rw [this, Rat.neg_num, Rat.neg_den, Int.neg_tdiv]
      push_cast
      ring
    obtain ⟨⟨n, h1⟩, h2, h3, h4⟩ := truncate2_spec (q := -x) (by linarith)
    rw [hneg]
    refine ⟨⟨-n, by push_cast; linarith⟩, fun h' => ?_, fun _ => ?_⟩
    · have : x = 0 := le_antisymm h h'
      subst this
      constructor <;> linarith
    · constructor <;> linarith

theorem progress_says (current : Option String) (r : Row) :
    ((progressFlags current r).1 = true ↔
      ∃ now, current = some now ∧ now ≠ "" ∧ (r.gradeCode = .IP ∨ r.gradeCode = .I) ∧ ¬ now < toString r.year ++ r.term)
    ∧ ((progressFlags current r).2 = true ↔
      ∃ now, current = some now ∧ now ≠ "" ∧ (r.gradeCode = .IP ∨ r.gradeCode = .I) ∧ now < toString r.year ++ r.term) := by
  cases current with
  | none => simp [progressFlags]
  | some now =>
    simp only [progressFlags, Option.some.injEq]
    change _ ∧ _
    have hy : r.yearterm = toString r.year ++ r.term := rfl
    by_cases h : now ≠ "" ∧ (r.gradeCode = .IP ∨ r.gradeCode = .I)
    · rw [if_pos h]
      by_cases hl : now < toString r.year ++ r.term
      · have h1 : ¬ (r.yearterm ≤ now) := by rw [hy]; exact fun e => String.not_lt.2 e hl
        rw [if_neg h1, hy, if_pos hl]
        refine ⟨iff_of_false (by simp) (by rintro ⟨n, rfl, _, _, h4⟩; exact h4 hl), iff_of_true rfl ⟨now, rfl, h.1, h.2, hl⟩⟩
      · have h1 : r.yearterm ≤ now := by rw [hy]; exact String.not_lt.1 hl
        rw [if_pos h1]
        exact ⟨iff_of_true rfl ⟨now, rfl, h.1, h.2, hl⟩, iff_of_false (by simp) (by rintro ⟨n, rfl, _, _, h4⟩; exact hl h4)⟩
    · rw [if_neg h]
      constructor
      · refine iff_of_false (by simp) ?_
        rintro ⟨n, rfl, h1, h2, _⟩
        exact h ⟨h1, h2⟩
      · refine iff_of_false (by simp) ?_
        rintro ⟨n, rfl, h1, h2, _⟩
        exact h ⟨h1, h2⟩

theorem chbiOf_says (s : String) (n : Nat) : chbiOf s = some n ↔ (n = 125 ∧ s = "CH/BI 125") ∨ (n = 126 ∧ s = "CH/BI 126")
    ∨ (n = 127 ∧ s = "CH/BI 127") ∨ (n = 227 ∧ s = "CH/BI 227") := by
  unfold chbiOf
  constructor
  · intro h
    split at h
    · rename_i e; cases h; exact .inl ⟨rfl, beq_iff_eq.1 e⟩
    split at h
    · rename_i e; cases h; exact .inr (.inl ⟨rfl, beq_iff_eq.1 e⟩)
    split at h
    · rename_i e; cases h; exact .inr (.inr (.inl ⟨rfl, beq_iff_eq.1 e⟩))
    split at h
    · rename_i e; cases h; exact .inr (.inr (.inr ⟨rfl, beq_iff_eq.1 e⟩))
    · cases h
  · rintro (⟨rfl, rfl⟩ | ⟨rfl, rfl⟩ | ⟨rfl, rfl⟩ | ⟨rfl, rfl⟩) <;> rfl

theorem loadCourse_says (current : Option String) (ov : List Override) (table : CreditTable) (r : Row) (i : String)
    (hi : i = r.clbid ∨ i = r.clbid ++ ":" ++ r.schedid.getD "None") :
    CourseSays current ov table r { loadCourse current ov table r with clbid := i } where
  clbid := hi
  crsid := rfl
  credits := rowCredits_says ov table r
  subject := rowSubject_says ov r
  number := rfl
  identity := ⟨_, suffix_mark r.subType, rfl⟩
  section' := ⟨fun h => by simp [loadCourse, h], fun h => by simp [loadCourse, h]⟩
  subType := rfl
  courseType := rfl
  name := rfl
  institution := rfl
  attributes := rfl
  gereqs := rfl
  level := rfl
  year := rfl
  term := rfl
  gradeCode := rfl
  suGradeCode := rfl
  gradeOption := rfl
  gradePoints := rfl
  gpaPoints := truncate2_cut _
  inGpa := rfl
  inProgress := rfl
  incomplete := rfl
  repeat' := rfl
  stolaf := rfl
  lab := by simp [loadCourse]
  thisTerm := (progress_says current r).1
  future := (progress_says current r).2
  covid := by simp [loadCourse, Row.yearterm]
  chbi := chbiOf_says _

theorem transcriptLoop_rows (load : Row → Course) (f : Bool) : ∀ (rows : List Row) (seen : List String) (cs : List Course),
    transcriptLoop load f rows seen = .ok cs →
      List.Forall₂ (fun r c => c = { load r with clbid := (load r).clbid }
        ∨ c = { load r with clbid := (load r).clbid ++ ":" ++ (load r).schedid }) (rows.filter (rowKept f)) cs
  | [], seen, cs, h => by
    cases h
    exact .nil
  | r :: rows, seen, cs, h => by
    simp only [transcriptLoop] at h
    split at h
    · split at h
      · cases h
      split at h
      · cases h
      split at h
      · cases h
      rename_i cs' hrec
      cases h
      have ih := transcriptLoop_rows load f rows _ cs' hrec
      by_cases hk : rowKept f r = true
      · rw [List.filter_cons_of_pos hk, if_pos hk]; exact .cons (.inr rfl) ih
      · rw [List.filter_cons_of_neg hk, if_neg hk]; exact ih
    · split at h
      · cases h
      rename_i cs' hrec
      cases h
      have ih := transcriptLoop_rows load f rows _ cs' hrec
      by_cases hk : rowKept f r = true
      · rw [List.filter_cons_of_pos hk, if_pos hk]; exact .cons (.inl rfl) ih
      · rw [List.filter_cons_of_neg hk, if_neg hk]; exact ih

/-- The courses that are audited are those of the file: one for each record that is usable (not audited, not repeated, with a
grade that gives credit or is still to come) and not failed, with every field as the record, the exceptions and the credits of
the area file say; the list with failed courses has those too; both in the order of the transcript and with different class
ids. -/
structure CoursesSay (raw : RawStudent) (ov : List Override) (table : CreditTable) (l : Loaded) : Prop where
  courses : ∃ cs, List.Forall₂ (CourseSays raw.currentTerm ov table) (raw.rows.filter (fun r => r.Usable ∧ r.gradeCode ≠ .F)) cs
    ∧ l.student.courses.Perm cs
  inOrder : l.student.courses.Pairwise CourseBefore
  withFailed : ∃ cs, List.Forall₂ (CourseSays raw.currentTerm ov table) (raw.rows.filter (fun r => r.Usable)) cs
    ∧ l.student.coursesWithFailed.Perm cs
  failedInOrder : l.student.coursesWithFailed.Pairwise CourseBefore
  ids : (l.student.courses.map (·.clbid)).Nodup
  failedIds : (l.student.coursesWithFailed.map (·.clbid)).Nodup

/-- **C84** The courses that are audited are those of the file. -/
theorem C84_courses_are_those_of_the_file (raw : RawStudent) (code : String) (ov : List Override) (table : CreditTable)
    (l : Loaded) (h : raw.load code ov table = .ok l) : CoursesSay raw ov table l := by
  unfold RawStudent.load at h
  obtain ⟨areas, hareas, h⟩ := ld_bind_ok.1 h
  obtain ⟨⟨courses, failed⟩, hcs, h⟩ := ld_bind_ok.1 h
  obtain ⟨ps, hps, h⟩ := ld_bind_ok.1 h
  obtain ⟨pr, hpr, h⟩ := ld_bind_ok.1 h
  obtain ⟨m, hm, h⟩ := ld_bind_ok.1 h
  obtain ⟨_, _, h⟩ := ld_bind_ok.1 h
  cases h
  have hsorted : ∀ l : List Course, (sortCourses l).Pairwise CourseBefore := by
    intro l
    refine (sortCourses_sorted l).imp ?_
    intro a b h
    have h1 : a.courseType.sortOrder < b.courseType.sortOrder ↔ ¬ GivenCredits a.courseType ∧ GivenCredits b.courseType := by
      cases a.courseType <;> cases b.courseType <;> decide
    have h2 : a.courseType.sortOrder = b.courseType.sortOrder ↔ (GivenCredits a.courseType ↔ GivenCredits b.courseType) := by
      cases a.courseType <;> cases b.courseType <;> decide
    unfold CourseBefore
    rw [← h1, ← h2]
    simpa [Course.sortLe] using h
  have key : ∀ f cs, loadTranscript raw.currentTerm ov table f raw.rows = .ok cs →
      List.Forall₂ (CourseSays raw.currentTerm ov table) (raw.rows.filter (rowKept f)) cs := by
    intro f cs h
    refine (transcriptLoop_rows _ f raw.rows [] cs h).imp ?_
    rintro r c (rfl | rfl)
    · exact loadCourse_says _ _ _ r _ (.inl rfl)
    · exact loadCourse_says _ _ _ r _ (.inr rfl)
  have hf : raw.rows.filter (rowKept false) = raw.rows.filter (fun r => r.Usable ∧ r.gradeCode ≠ .F) := by
    congr 1; funext r; rw [Bool.eq_iff_iff, rowKept_iff]; simp
  have ht : raw.rows.filter (rowKept true) = raw.rows.filter (fun r => r.Usable) := by
    congr 1; funext r; rw [Bool.eq_iff_iff, rowKept_iff]; simp
  have hids := C30_unique_class_ids _ _ _ _ _ _ hcs
  unfold loadStudentCourses at hcs
  split at hcs
  · cases hcs
  rename_i cs1 h1
  split at hcs
  · cases hcs
  rename_i cs2 h2
  cases hcs
  refine ⟨⟨cs1, hf ▸ key false cs1 h1, sortCourses_perm cs1⟩, hsorted _, ⟨cs2, ht ▸ key true cs2 h2, sortCourses_perm cs2⟩, hsorted _,
    hids.1, hids.2⟩

open EntryText in
/-- Non-trivial case: of three records one is of a class that was dropped; another is an AP credit that comes last although it is the
oldest, and the third has its credits and its subject changed by exceptions. -/
example :
    let raw : RawStudent := { rows := [
      { clbid := "3", subject := "MATH", number := "120", year := 2015, courseType := .ap },
      { clbid := "1", subject := "CSCI", number := "121", year := 2018, gradePoints := 37 / 10, section' := "A" },
      { clbid := "2", subject := "CSCI", number := "251", year := 2019, gradeCode := .W }] }
    match raw.load "741" [.credits "1" 1, .subject "1" "IS", .credits "1" (1 / 4)] [] with
    | .error _ => False
    | .ok l => l.student.courses.map (fun c => (c.clbid, c.identity)) = [("1", "IS 121"), ("3", "MATH 120")]
        ∧ l.student.courses.map (fun c => (c.credits, c.gpaPoints)) = [(1 / 4, 92 / 100), (1, 3)] := by
  refine ⟨by decide +kernel, by decide +kernel⟩

end Dp
