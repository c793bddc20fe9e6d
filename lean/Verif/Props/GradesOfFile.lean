import Verif.Props.GpaTable
import Verif.Props.TwoFiles

/-
C81 for the file: the table of grades has the courses of the file.  C90: the transcript that is printed is that of the file.
-/
namespace Dp

/-- the changes to classes `ov` and the credits `table` are those of the two files: of the exceptions recorded for the area, and of the area -/
def ChangesSaid (raw : RawStudent) (spec : Dict) (ov : List Override) (table : CreditTable) : Prop :=
  ∃ code ms es, spec.get? "code" = some (.str code) ∧ MigrationsSay spec ms ∧
    List.Forall₂ (ExceptionSays ms) (raw.exceptions.filter (fun e => e.areaCode = code)) es ∧ ChangesOf es ov ∧ CreditTableSays spec table

theorem FilesSay.courses {raw : RawStudent} {spec : Dict} {l : Loaded} {es : List Exc} (h : FilesSay raw spec l es) :
    ∃ ov table, ChangesSaid raw spec ov table ∧ CoursesSay raw ov table l := by
  obtain ⟨code, ms, ov, table, h1, h2, h3, h4, h5, _, h6, _⟩ := h
  exact ⟨ov, table, ⟨code, ms, es, h1, h2, h3, h4, h5⟩, h6⟩

theorem forall₂_filter {α β : Type} {R : α → β → Prop} {p : α → Bool} {q : β → Bool} (hpq : ∀ a b, R a b → p a = q b) :
    ∀ {as : List α} {bs : List β}, List.Forall₂ R as bs → List.Forall₂ R (as.filter p) (bs.filter q)
  | _, _, .nil => .nil
  | _, _, .cons (a := a) (b := b) h t => by
    have ih := forall₂_filter hpq t
    have e := hpq a b h
    cases hb : q b with
    | true => rw [List.filter_cons_of_pos (by rw [e, hb]), List.filter_cons_of_pos hb]; exact .cons h ih
    | false => rw [List.filter_cons_of_neg (by simp [e, hb]), List.filter_cons_of_neg (by simp [hb])]; exact ih

/-- **C81** for a file: the table of grades lists one course for each usable record of the student's file that counts for the grade point
average, failed ones among them, and no other; and it ends with the average of these. -/
theorem C81_table_of_the_file (raw : RawStudent) (spec : Dict) (rows : List GpaRow) (h : runGpa raw spec = .ok rows) :
    ∃ ov table cs, ChangesSaid raw spec ov table ∧
      List.Forall₂ (CourseSays raw.currentTerm ov table) (raw.rows.filter (fun r => r.Usable ∧ r.flagGpa)) cs ∧
      (listedCourses rows).Perm cs ∧ rows.getLast? = some (.overall (gradePointAverage cs)) := by
  unfold runGpa at h
  obtain ⟨p, hp, h⟩ := ld_bind_ok.1 h
  cases h
  obtain ⟨ov, table, hc, hs⟩ := (prepareStudent_says hp).courses
  obtain ⟨cs, h1, h2⟩ := hs.withFailed
  refine ⟨ov, table, cs.filter (·.isInGpa), hc, ?_, (C81_every_graded_course_once _).trans (h2.filter _), ?_⟩
  · have := forall₂_filter (p := fun r : Row => r.flagGpa) (q := fun c : Course => c.isInGpa) (fun a b h => h.inGpa.symm) h1
    rw [List.filter_filter] at this
    have e : raw.rows.filter (fun r => r.Usable ∧ r.flagGpa) = raw.rows.filter (fun a => a.flagGpa && decide a.Usable) := by
      congr 1; funext r; rw [Bool.eq_iff_iff]; simp [and_comm]
    rw [e]
    exact this
  · have e : gradePointAverage (cs.filter (·.isInGpa)) = gradePointAverage p.loaded.student.coursesWithFailed := by
      refine gradePointAverage_items ?_
      change (gpaItems (gpaItems cs)).Perm _
      rw [gpaItems_idem]
      exact (h2.filter _).symm
    rw [e]
    simp [gpaTable]

/-- the row is that of the course -/
structure RowShows (c : Course) (r : TranscriptRow) : Prop where
  course : r.course = c.identity
  name : r.name = c.name
  clbid : r.clbid = c.clbid
  courseType : r.courseType = c.courseType
  credits : r.credits = c.credits
  term : r.term = toString c.year ++ "-" ++ c.term
  subType : r.subType = c.subType
  gradeCode : r.gradeCode = c.gradeCode
  inGpa : (c.isInGpa = true ∧ r.inGpa = "Y") ∨ (c.isInGpa = false ∧ r.inGpa = "N")

/-- **C90** The transcript that is printed has one row for each usable record of the student's file that is not failed, in the order of the
transcript, with the values that the file, the exceptions and the area file give the class; no class id is printed twice. -/
theorem C90_transcript_is_that_of_the_file (raw : RawStudent) (spec : Dict) (rows : List TranscriptRow)
    (h : runTranscript raw spec = .ok rows) :
    ∃ ov table cs printed, ChangesSaid raw spec ov table ∧
      List.Forall₂ (CourseSays raw.currentTerm ov table) (raw.rows.filter (fun r => r.Usable ∧ r.gradeCode ≠ .F)) cs ∧
      printed.Perm cs ∧ printed.Pairwise CourseBefore ∧ List.Forall₂ RowShows printed rows ∧ (rows.map (·.clbid)).Nodup := by
  unfold runTranscript at h
  obtain ⟨p, hp, h⟩ := ld_bind_ok.1 h
  cases h
  obtain ⟨ov, table, hc, hs⟩ := (prepareStudent_says hp).courses
  obtain ⟨cs, h1, h2⟩ := hs.courses
  refine ⟨ov, table, cs, _, hc, h1, h2, hs.inOrder, ?_, ?_⟩
  · rw [List.forall₂_map_right_iff, List.forall₂_same]
    intro c _
    constructor <;> try rfl
    cases hg : c.isInGpa
    · exact .inr ⟨rfl, by simp [Course.transcriptRow, hg]⟩
    · exact .inl ⟨rfl, by simp [Course.transcriptRow, hg]⟩
  · have := hs.ids
    rw [List.map_map]
    exact this

open EntryText in
/-- Non-trivial case: three records and a failed one. -/
example :
    let raw := { student with rows := { rows[0] with clbid := "9", gradeCode := .F, gradePoints := 0 } :: rows.reverse }
    (runTranscript raw (area [] twoCs)).toOption.map (·.map (fun r => (r.clbid, r.term, r.inGpa)))
      = some [("1", "2018-1", "Y"), ("3", "2018-3", "Y"), ("2", "2019-1", "Y")] ∧
    (runGpa raw (area [] twoCs)).toOption.map (fun t => ((listedCourses t).map (·.clbid), t.getLast?))
      = some (["1", "9", "3", "2"], some (.overall (9/4))) := by decide +kernel

end Dp
