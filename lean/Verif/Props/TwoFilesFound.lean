import Verif.Props.MeansFound
import Verif.Props.TwoFiles
import Verif.Props.NeverFails

/-
C86: if what is written in the student's file fulfils what is written in the area file, the audit of the two files reports the area as
complete; and when the audit of two files does not raise.
-/
namespace Dp

/-! ### Specification -/

/-- What the student's file says fulfils what the area file says: for the student, the exceptions and the area that the files give,
the courses `cs` of the student, each counting once, fulfil the text. -/
structure FilesFulfil (raw : RawStudent) (spec : Dict) (l : Loaded) (es : List Exc) (a : Area) (kids : Dict) (ems : List Dict) (y : Y)
    (cs : List Course) : Prop where
  text : AreaText l.student false spec kids ems y
  all : WantsAll ⟨l.student, es, l.constants, l.templates⟩ kids ems y
  courses : ∀ k ∈ cs, k ∈ l.student.courses ∧ k.Dated ∧ CountsOnceWritten spec l.student es k
  once : (cs.map (·.clbid)).Nodup
  fulfilled : TextFulfilled ⟨⟨l.student, es, l.constants, l.templates⟩, true, areaCtx a l.student es l.student.courses,
    KeptByText ⟨l.student, es, l.constants, l.templates⟩ kids ems y⟩ kids ems ["$"] y cs

/-- **C86, partial.** If what is written in the student's file fulfils what is written in the area file, then the last message of the audit
of the two files reports the area as complete, provided that the files load and the audit raises no exception, for an area other than a
major, without limits, that asks for all of its parts.
Missing: as for C69. -/
theorem C86_files_that_fulfil_are_complete_partial (o : Orders) (ho : o.Lawful) (args : Args) (hp : args.Plain)
    (hest : args.estimateOnly = false) (hstop : args.stopAfter = none) (raw : RawStudent) (spec : Dict)
    (htidy : TidyFiles raw spec) (hreal : RealText (.map spec)) (htype : ¬ TextAt spec "type" "major")
    (hlimit : spec.get? "limit" = none)
    (hful : ∀ l es a, FilesSay raw spec l es → prepareStudent raw spec = .ok ⟨l, es⟩ →
      loadArea l.constants l.templates l.student es false spec = .ok a → ∃ kids ems y cs, FilesFulfil raw spec l es a kids ems y cs)
    (hok : (runFiles o args raw spec).err = none) :
    ∃ r i n, (runFiles o args raw spec).items.getLast? = some (.result r (some i) n n) ∧ Complete r.status := by
  unfold runFiles at hok ⊢
  cases hprep : prepareStudent raw spec with
  | error e => rw [hprep] at hok; cases hok
  | ok p =>
    rw [hprep] at hok
    dsimp only at hok ⊢
    cases hload : loadArea p.loaded.constants p.loaded.templates p.loaded.student p.exceptions false spec with
    | error e => rw [hload] at hok; cases hok
    | ok a =>
      rw [hload] at hok
      have hf := prepareStudent_says hprep
      have hnd : (p.loaded.student.courses.map (·.clbid)).Nodup := by
        obtain ⟨_, _, _, _, _, _, _, _, _, _, hc, _⟩ := hf
        exact hc.ids
      obtain ⟨kids, ems, y, cs, h⟩ := hful _ _ _ hf hprep hload
      exact C69_area_with_what_is_written_is_complete_partial _ _ _ _ _ _ _ hload (htidy _ _ hf) hreal htype hlimit hnd kids ems y
        h.text h.all cs h.courses h.once h.fulfilled o ho args hp hest hstop hok

/-- **C87** for two files: if they load, and the area makes sense for the student and the exceptions that the files give, the audit does
not raise. -/
theorem C87_audit_of_two_files_does_not_raise_partial (o : Orders) (ho : o.Lawful) (args : Args) (h1 : args.auditEach ≠ 0)
    (h2 : args.progressEvery ≠ 0) (raw : RawStudent) (spec : Dict)
    (hload : ∃ p a, prepareStudent raw spec = .ok p ∧
      loadArea p.loaded.constants p.loaded.templates p.loaded.student p.exceptions false spec = .ok a)
    (h : ∀ l es a, FilesSay raw spec l es → prepareStudent raw spec = .ok ⟨l, es⟩ →
      loadArea l.constants l.templates l.student es false spec = .ok a → ClearAudit a l.student es) :
    (runFiles o args raw spec).err = none := by
  obtain ⟨p, a, hp, ha⟩ := hload
  unfold runFiles
  rw [hp]
  dsimp only
  rw [ha]
  exact C87_audit_does_not_raise_partial ha (h _ _ _ (prepareStudent_says hp) hp ha) ho h1 h2

/-! ### A non-trivial case -/

namespace PlainFiles
open EntryText
/-- a requirement with one course -/
def spec : Dict := area [("requirements", .map [("Core", .map [("result", .map [("course", .str "CSCI 121")])])])]
  (.map [("requirement", .str "Core")])
def row : Row := { clbid := "1", subject := "CSCI", number := "121", year := 2018, gradePoints := 4, gradeCode := .A }
/-- a student with this course, a failed one, and an exception for another area -/
def raw : RawStudent :=
  { rows := [row, { clbid := "2", subject := "CSCI", number := "251", year := 2019, gradeCode := .F }]
    exceptions := [⟨"140", { type := "override", path := ["$"] }⟩] }
def taken : Course := loadCourse none [] [] row
/-- the student of the file -/
def student : Student := { courses := [taken], coursesWithFailed := [taken, loadCourse none [] [] raw.rows[1]] }
set_option maxRecDepth 100000 in
theorem loaded : (loadArea { currentAreaCode := "741", primaryPerformingMedium := .str "Unknown" } [] student [] false spec).map (fun a => (a.result, a.kind, a.limit)) =
    .ok (.req .rule { path := ["$", "%Core"], name := "Core" } (some (apartItem ["$", "%Core"] "CSCI 121")), "concentration", []) := by
  rfl
theorem prepared {l : Loaded} {es : List Exc} (h : prepareStudent raw spec = .ok ⟨l, es⟩) :
    es = [] ∧ l.student = student ∧ l.constants = { currentAreaCode := "741", primaryPerformingMedium := .str "Unknown" } ∧ l.templates = [] := by
  cases h
  refine ⟨rfl, ?_, rfl, rfl⟩
  have e : ∀ s : Student, s.courses = student.courses → s.coursesWithFailed = student.coursesWithFailed → s.areas = [] →
      s.performances = [] → s.recitals = [] → s.proficiencies = {} → s = student := by
    rintro ⟨⟩ h1 h2 h3 h4 h5 h6
    subst h1 h2 h3 h4 h5 h6
    rfl
  exact e _ rfl rfl rfl rfl rfl rfl
end PlainFiles

open PlainFiles EntryText in
/-- the hypotheses of `C86_files_that_fulfil_are_complete_partial` and of `C87_audit_of_two_files_does_not_raise_partial` -/
example : TidyFiles raw spec ∧ RealText (.map spec) ∧ ¬ TextAt spec "type" "major" ∧ spec.get? "limit" = none ∧
    (∀ l es a, FilesSay raw spec l es → prepareStudent raw spec = .ok ⟨l, es⟩ →
      loadArea l.constants l.templates l.student es false spec = .ok a →
      (∃ kids ems y cs, FilesFulfil raw spec l es a kids ems y cs) ∧ ClearAudit a l.student es) ∧
    (runFiles .insertion {} raw spec).err = none := by
  have hclean : TidyFiles raw spec := by
    rintro l es -
    refine ⟨?_, ?_⟩
    · simp [spec, area, Y.CleanDict, Y.Clean]
    · intro emphases declared h1 h2
      cases h1
      cases h2
      decide
  refine ⟨hclean, realText_of_unused (by decide), by simp [TextAt, spec, area, Dict.get?], by simp [spec, area, Dict.get?], ?_,
    by decide +kernel⟩
  intro l es a _ hp hload
  obtain ⟨rfl, hst, hcon, htem⟩ := prepared hp
  have hc : l.student.courses = [taken] := by rw [hst]; rfl
  have hcf : l.student.coursesWithFailed = [taken, loadCourse none [] [] raw.rows[1]] := by rw [hst]; rfl
  have hta : taken.identity = "CSCI 121" ∧ taken.isStolaf = true ∧ taken.isInProgress = false ∧ taken.clbid = "1" := by decide
  constructor
  · refine ⟨[("Core", .map [("result", .map [("course", .str "CSCI 121")])])], [], .map [("requirement", .str "Core")], [taken],
      ⟨rfl, .inl rfl, [], fun e => l.student.areas.any (fun a => a.kind == "Emphasis" && a.code == e.1), .inr ⟨rfl, rfl⟩,
        fun e => by simp, rfl⟩, .single (by decide), ?_, by simp, ?_⟩
    · intro k hk
      rw [List.mem_singleton] at hk
      subst hk
      refine ⟨by rw [hc]; simp, ?_, ?_, by simp, by simp [spec, area, Dict.get?]⟩
      · intro h; rw [hta.2.2.1] at h; cases h
      · rw [hc, hcf]
        intro k' hk' e
        simp only [List.cons_append, List.nil_append, List.mem_cons, List.not_mem_nil, or_false] at hk'
        rcases hk' with rfl | rfl | rfl
        · rfl
        · rfl
        · rw [hta.2.2.2] at e
          exact absurd e (by decide)
    · refine .req (own := []) (name := "Core") (.inr ⟨by decide, rfl, rfl⟩) ?_ rfl (.inr ⟨rfl, rfl⟩) ?_
      · simp [DepartmentAudited, FlagSet, Dict.get?]
      · refine .course taken (by rfl) (by simp [FlagSet, Dict.get?]) ?_ ?_ (by simp [BlockedAt]) (fun _ => hta.2.2.1)
        · change taken ∈ l.student.courses
          rw [hc]; simp
        · constructor
          · constructor <;> simp [TextAt, Dict.get?, hta]
          · simp [TextAt, Dict.get?]
          · simp [TextAt, Dict.get?]
  · rw [hst, hcon, htem] at hload
    have h := loaded
    rw [hload] at h
    have h' := Except.ok.inj h
    simp only [Prod.mk.injEq] at h'
    obtain ⟨ha, hk, hlim⟩ := h'
    refine ⟨?_, by simp [hlim], ?_, ?_, by simp [hk]⟩
    · rw [ha]
      intro m hm
      simp only [Node.within, Node.withinOpt, apartItem, List.mem_cons, List.not_mem_nil, or_false] at hm
      rcases hm with rfl | rfl
      · simp [ClearAt]
      · simp [ClearAt, InsertsClear]
    · intro c hcc
      have : c.isInProgress = false := by
        simp only [hc, hcf, List.mem_cons, List.not_mem_nil, or_false] at hcc
        rcases hcc with rfl | rfl | rfl <;> decide
      simp [Course.Dated, this]
    · rintro ⟨s, d, hm, _⟩
      rw [ha] at hm
      simp [Node.within, Node.withinOpt, apartItem] at hm

end Dp
