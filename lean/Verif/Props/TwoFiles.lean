import Verif.Props.TranscriptSays
import Verif.Props.MeansArea
import Verif.Props.Exceptions
import Verif.Props.Run

/-
C85: what a passing audit of two files, that of the student and that of the area, says about them.
-/
namespace Dp

/-! ### What the two files say together -/

/-- the migrations written in the area file -/
inductive MigrationsSay (spec : Dict) : List (Path × Path) → Prop
  | absent (h : spec.get? "exceptions-migrations" = none) : MigrationsSay spec []
  | written {l : List Y} {ms : List (Path × Path)} (h : spec.get? "exceptions-migrations" = some (.list l))
      (hl : List.Forall₂ MigrationSays l ms) : MigrationsSay spec ms

/-- the credits that the area file gives to names of courses -/
inductive CreditTableSays (spec : Dict) : CreditTable → Prop
  | absent (h : spec.get? "credit" = none) : CreditTableSays spec []
  | written {d : Dict} {table : CreditTable} (h : spec.get? "credit" = some (.map d))
      (hl : List.Forall₂ (fun e f => f.1 = e.1 ∧ AmountWritten e.2 f.2) d table) : CreditTableSays spec table

/-- the exceptions of the list that change the credits or the subject of a class, in order -/
inductive ChangesOf : List Exc → List Override → Prop
  | nil : ChangesOf [] []
  | credits {p : Path} {c : String} {q : Rat} {es : List Exc} {ov : List Override} (h : ChangesOf es ov) :
      ChangesOf (⟨p, .courseCredits c q⟩ :: es) (.credits c q :: ov)
  | subject {p : Path} {c s : String} {es : List Exc} {ov : List Override} (h : ChangesOf es ov) :
      ChangesOf (⟨p, .courseSubject c s⟩ :: es) (.subject c s :: ov)
  | other {e : Exc} {es : List Exc} {ov : List Override} (h1 : ∀ c q, e.kind ≠ .courseCredits c q)
      (h2 : ∀ c s, e.kind ≠ .courseSubject c s) (h : ChangesOf es ov) : ChangesOf (e :: es) ov

/-- the exception is the recorded one, at the path it is moved to -/
def ExceptionSays (ms : List (Path × Path)) (e : StudentExc) (x : Exc) : Prop :=
  Records e.exc x.kind ∧ Moved ms e.exc.path x.path

/-- The student `l` and the exceptions `es` are those that the two files give: the exceptions are those recorded for the area's code, at
the paths where the migrations of the area file move them; the student is the one of the file, with the credits and subjects of classes that
these exceptions and the area file give them. -/
def FilesSay (raw : RawStudent) (spec : Dict) (l : Loaded) (es : List Exc) : Prop :=
  ∃ code ms ov table, spec.get? "code" = some (.str code) ∧ MigrationsSay spec ms ∧
    List.Forall₂ (ExceptionSays ms) (raw.exceptions.filter (fun e => e.areaCode = code)) es ∧
    ChangesOf es ov ∧ CreditTableSays spec table ∧ StudentSays raw code l ∧ CoursesSay raw ov table l ∧
    l.templates = loadTemplates raw.templates l.student.courses

/-! ### `run` reads them so -/

theorem asTexts_says {y : Y} {l : List String} (h : y.asTexts = .ok l) : y = .list (l.map .str) := by
  unfold Y.asTexts at h
  obtain ⟨ys, h1, h2⟩ := ld_bind_ok.1 h
  rw [ld_asList.1 h1]
  have := (mapE_forall₂ (R := fun y s => y = .str s) (fun _ _ => ld_asText) _ _).1 h2
  congr 1
  clear h h1 h2
  induction this with
  | nil => rfl
  | cons h _ ih => rw [h, ih, List.map_cons]

theorem loadMigration_inv {y : Y} {m : Migration} (h : loadMigration y = .ok m) : MigrationSays y (m.fromPath, m.toPath) := by
  unfold loadMigration at h
  obtain ⟨d, hd, h⟩ := ld_bind_ok.1 h
  obtain ⟨a, ha, h⟩ := ld_bind_ok.1 h
  obtain ⟨s, hs, h⟩ := ld_bind_ok.1 h
  obtain ⟨b, hb, h⟩ := ld_bind_ok.1 h
  obtain ⟨t, ht, h⟩ := ld_bind_ok.1 h
  obtain ⟨c, hc, h⟩ := ld_bind_ok.1 h
  obtain ⟨e, he, h⟩ := ld_bind_ok.1 h
  cases h
  rw [ld_asDict.1 hd]
  exact .intro (by rw [← asTexts_says hs]; exact ld_need.1 ha) (by rw [← asTexts_says ht]; exact ld_need.1 hb) (ld_need.1 hc)
    (ld_need.1 he)

theorem loadMigrations_says {spec : Dict} {migs : List Migration} (h : loadMigrations spec = .ok migs) :
    ∃ ms : List (Path × Path), MigrationsSay spec ms ∧ migs = ms.map (fun m => { fromPath := m.1, toPath := m.2 }) := by
  refine ⟨migs.map (fun m => (m.fromPath, m.toPath)), ?_, by simp [Function.comp_def]⟩
  unfold loadMigrations at h
  split at h
  · rename_i hn; cases h; exact .absent hn
  · rename_i y hy
    obtain ⟨l, hl, h⟩ := ld_bind_ok.1 h
    rw [ld_asList.1 hl] at hy
    refine .written hy ?_
    obtain h := ld_mapE h
    rw [List.forall₂_map_right_iff]
    exact h.imp (fun _ _ h => loadMigration_inv h)

theorem loadCreditTable_says {spec : Dict} {table : CreditTable} (h : loadCreditTable spec = .ok table) :
    CreditTableSays spec table := by
  unfold loadCreditTable at h
  obtain ⟨d, hd, h⟩ := ld_bind_ok.1 h
  have h := ld_mapE h
  have h : List.Forall₂ (fun e f => f.1 = e.1 ∧ AmountWritten e.2 f.2) d table := by
    refine h.imp ?_
    intro e f hf
    obtain ⟨q, hq, hf⟩ := ld_bind_ok.1 hf
    cases hf
    exact ⟨rfl, asDecimal_says hq⟩
  unfold Dict.dict at hd
  split at hd
  · rename_i hn; cases hd; cases h; exact .absent hn
  · rename_i hn; cases hd; exact .written hn h
  · cases hd

theorem moved_total : ∀ (ms : List (Path × Path)) (p : Path), ∃ q, Moved ms p q
  | [], p => ⟨p, .done p⟩
  | (old, new) :: ms, p => by
    by_cases h : old <+: p
    · obtain ⟨rest, rfl⟩ := h
      obtain ⟨q, hq⟩ := moved_total ms (new ++ rest)
      exact ⟨q, .here hq⟩
    · obtain ⟨q, hq⟩ := moved_total ms p
      exact ⟨q, .skip h hq⟩

theorem loadExceptions_says {code : String} {ms : List (Path × Path)} {l : List StudentExc} {es : List Exc}
    (h : loadExceptions code (ms.map (fun m => { fromPath := m.1, toPath := m.2 })) l = .ok es) :
    List.Forall₂ (ExceptionSays ms) (l.filter (fun e => e.areaCode = code)) es := by
  have hfil : l.filter (fun e => e.areaCode == code) = l.filter (fun e => e.areaCode = code) := by congr 1
  unfold loadExceptions at h
  rw [hfil] at h
  refine (ld_mapE h).imp ?_
  intro e x hx
  split at hx
  · rename_i x' hx'
    cases hx
    obtain ⟨h1, h2⟩ := ((C08_loaded_as_recorded _ _).1 _).1 hx'
    refine ⟨h2, ?_⟩
    obtain ⟨q, hq⟩ := moved_total ms e.exc.path
    rw [h1, applyMigrations_moved hq]
    exact hq
  · cases hx

theorem changesOf_filterMap : ∀ es : List Exc, ChangesOf es (es.filterMap Exc.asOverride)
  | [] => .nil
  | ⟨p, k⟩ :: es => by
    have ih := changesOf_filterMap es
    cases k with
    | courseCredits c q => exact .credits ih
    | courseSubject c s => exact .subject ih
    | insertion c f => exact .other (by simp) (by simp) ih
    | override => exact .other (by simp) (by simp) ih
    | block c => exact .other (by simp) (by simp) ih
    | value v => exact .other (by simp) (by simp) ih

theorem load_templates {raw : RawStudent} {code : String} {ov : List Override} {table : CreditTable} {l : Loaded}
    (h : raw.load code ov table = .ok l) : l.templates = loadTemplates raw.templates l.student.courses := by
  unfold RawStudent.load at h
  obtain ⟨areas, hareas, h⟩ := ld_bind_ok.1 h
  obtain ⟨⟨courses, failed⟩, hcs, h⟩ := ld_bind_ok.1 h
  obtain ⟨ps, hps, h⟩ := ld_bind_ok.1 h
  obtain ⟨pr, hpr, h⟩ := ld_bind_ok.1 h
  obtain ⟨m, hm, h⟩ := ld_bind_ok.1 h
  obtain ⟨_, _, h⟩ := ld_bind_ok.1 h
  cases h
  rfl

theorem prepareStudent_says {raw : RawStudent} {spec : Dict} {p : Prepared} (h : prepareStudent raw spec = .ok p) :
    FilesSay raw spec p.loaded p.exceptions := by
  unfold prepareStudent at h
  obtain ⟨y, hy, h⟩ := ld_bind_ok.1 h
  obtain ⟨code, hcode, h⟩ := ld_bind_ok.1 h
  obtain ⟨table, htable, h⟩ := ld_bind_ok.1 h
  obtain ⟨migs, hmigs, h⟩ := ld_bind_ok.1 h
  obtain ⟨es, hes, h⟩ := ld_bind_ok.1 h
  obtain ⟨l, hl, h⟩ := ld_bind_ok.1 h
  cases h
  rw [ld_asText.1 hcode] at hy
  obtain ⟨ms, hms, rfl⟩ := loadMigrations_says hmigs
  exact ⟨code, ms, _, table, ld_need.1 hy, hms, loadExceptions_says hes, changesOf_filterMap es, loadCreditTable_says htable,
    C83_the_student_is_the_one_of_the_file _ _ _ _ _ hl, C84_courses_are_those_of_the_file _ _ _ _ _ hl, load_templates hl⟩

/-! ### A reported result is that of a solution -/

theorem runLoop_reports {ρ : Type} (args : Args) (tail : Option Err) (P : ρ → Prop) :
    ∀ (sols : List (Except Err (Outcome ρ))) (s : RunState ρ), (∀ out, .ok out ∈ sols → P out.result) →
      (∀ b, s.best = some b → P b.1) → ∀ r i n m, .result r i n m ∈ (runLoop args tail sols s).items → P r := by
  have hend : ∀ s : RunState ρ, (∀ b, s.best = some b → P b.1) → ∀ r i n m, .result r i n m ∈ (runEnd args s).items → P r := by
    intro s hs r i n m hm
    unfold runEnd at hm
    split at hm
    · simp [Gen.one] at hm
    · rename_i r' q j hb
      split at hm
      · simp [Gen.nil] at hm
      · simp only [Gen.one, List.mem_singleton, Msg.result.injEq] at hm
        rw [hm.1]
        exact hs _ hb
  intro sols
  induction sols with
  | nil =>
    intro s _ hs r i n m hm
    simp only [runLoop] at hm
    split at hm
    · exact absurd hm (by simp [Gen.raise])
    · exact hend s hs r i n m hm
  | cons sol sols ih =>
    intro s ha hs r i n m hm
    have ha' : ∀ out, .ok out ∈ sols → P out.result := fun out h => ha out (List.mem_cons_of_mem _ h)
    unfold runLoop at hm
    dsimp only at hm
    split at hm
    · exact ih _ ha' (by simpa using hs) _ _ _ _ hm
    split at hm
    · exact absurd hm (by simp [Gen.raise])
    split at hm
    · exact ih _ ha' (by simpa using hs) _ _ _ _ hm
    split at hm
    · exact absurd hm (by simp [Gen.raise])
    rename_i out
    have hout : P out.result := ha out (by simp)
    split at hm
    · exact hend _ (by intro b hb; simp only [Option.some.injEq] at hb; rw [← hb]; exact hout) _ _ _ _ hm
    split at hm
    · exact absurd hm (by simp [Gen.raise])
    have hbest : P (betterOf s.best out (s.total + 1)).1 := by
      unfold betterOf
      split
      · exact hout
      · split
        · exact hout
        · exact hs _ (by assumption)
    have hnew : ∀ b, some (betterOf s.best out (s.total + 1)) = some b → P b.1 := by
      intro b hb; rw [← Option.some.inj hb]; exact hbest
    rcases Gen.mem_append hm with hm | hm
    · split at hm
      · exact absurd hm (by simp [Gen.one])
      · exact absurd hm (by simp [Gen.nil])
    · rcases Gen.mem_append hm with hm | hm
      · split at hm
        · simp only [Gen.one, List.mem_singleton, Msg.result.injEq] at hm
          rw [hm.1]; exact hout
        · exact absurd hm (by simp [Gen.nil])
      · split at hm
        · exact hend _ hnew _ _ _ _ hm
        · exact ih _ ha' hnew _ _ _ _ hm

theorem auditArea_reports {o : Orders} {a : Area} {st : Student} {es : List Exc} {args : Args} {r : AreaResult} {i : Option Int}
    {n m : Int} (h : .result r i n m ∈ (auditArea o a st es args).items) :
    ∃ s ∈ (a.solutions o st es).items, s.audit o a = .ok r := by
  unfold auditArea runAudit at h
  split at h
  · exact absurd h (by simp [Gen.raise])
  rcases Gen.mem_append h with h | h
  · exact absurd h (by simp [Gen.one])
  · split at h
    · exact absurd h (by simp [Gen.nil])
    · refine runLoop_reports args _ (fun r => ∃ s ∈ (a.solutions o st es).items, s.audit o a = .ok r) _ _ ?_ (by simp) _ _ _ _ h
      intro out ho
      obtain ⟨s, hs, he⟩ := Gen.mem_map.1 ho
      refine ⟨s, hs, ?_⟩
      unfold AreaSolution.outcome at he
      split at he
      · cases he
      · rename_i r' hr'
        split at he
        · cases he
        · cases he; exact hr'

theorem runFiles_inv {o : Orders} {args : Args} {raw : RawStudent} {spec : Dict} {r : AreaResult} {i : Option Int} {n m : Int}
    (h : .result r i n m ∈ (runFiles o args raw spec).items) :
    ∃ p a s, prepareStudent raw spec = .ok p ∧
      loadArea p.loaded.constants p.loaded.templates p.loaded.student p.exceptions false spec = .ok a ∧
      s ∈ (a.solutions o p.loaded.student p.exceptions).items ∧ s.audit o a = .ok r := by
  unfold runFiles at h
  split at h
  · exact absurd h (by simp [Gen.raise])
  rename_i p hp
  split at h
  · exact absurd h (by simp [Gen.raise])
  rename_i a ha
  obtain ⟨s, hs, hr⟩ := auditArea_reports h
  exact ⟨p, a, s, hp, ha, hs, hr⟩

/-! ### C85 -/

/-- the emphases of the file that apply to the student add requirements of different names, and no rule of the file has the key that the
program puts on the items of emphases -/
def TidyFiles (raw : RawStudent) (spec : Dict) : Prop :=
  ∀ l es, FilesSay raw spec l es → TidyText l.student false spec

/-- **C85** When the audit of a student's file against an area file, whatever the arguments, reports a passing result, then what is
written in the area file is met by what is written in the student's file: by the student, the classes and the exceptions that
the files give (`FilesSay`). -/
theorem C85_passing_audit_of_two_files (o : Orders) (ho : o.Lawful) (args : Args) (raw : RawStudent) (spec : Dict)
    (r : AreaResult) (i : Option Int) (n m : Int) (h : .result r i n m ∈ (runFiles o args raw spec).items) (hp : Passes r.status)
    (hreal : RealText (.map spec)) (htidy : TidyFiles raw spec) :
    ∃ l es, FilesSay raw spec l es ∧ ∃ (x : Ctx) (kids : Dict) (ems : List Dict) (y : Y) (own : Node) (kind : String),
      AreaText l.student false spec kids ems y ∧ ShownIn kind r.result own ∧
      (∀ k ∈ x.transcript, k ∈ l.student.courses) ∧ x.withFailed = l.student.coursesWithFailed ∧
      (TextMeets ⟨⟨l.student, es, l.constants, l.templates⟩, false, x,
          KeptByText ⟨l.student, es, l.constants, l.templates⟩ kids ems y⟩ kids ems ["$"] y own ∨
        ((∃ d, y = .map d ∧ ruleKind d = .conditional) ∧ WaivedAt es ["$", ".cond"])) := by
  obtain ⟨p, a, s, h1, h2, h3, h4⟩ := runFiles_inv h
  have hf := prepareStudent_says h1
  have hnd : (p.loaded.student.courses.map (·.clbid)).Nodup := by
    obtain ⟨_, _, _, _, _, _, _, _, _, _, hc, _⟩ := hf
    exact hc.ids
  obtain ⟨tr, kids, ems, y, own, g1, g2, g3, g4, g5⟩ :=
    C67_passing_area_meets_its_text _ _ _ _ _ _ _ h2 (htidy _ _ hf) hreal hnd o ho s h3 r h4 hp
  exact ⟨p.loaded, p.exceptions, hf, s.ctx, kids, ems, y, own, a.kind, g3, g4, by rw [g2]; exact g1, by rw [g2]; rfl, g5⟩

/-- **C85** for a result that is reported as done or waived: the same, and what is still in progress is not needed. -/
theorem C85_complete_audit_of_two_files (o : Orders) (ho : o.Lawful) (args : Args) (raw : RawStudent) (spec : Dict)
    (r : AreaResult) (i : Option Int) (n m : Int) (h : .result r i n m ∈ (runFiles o args raw spec).items) (hp : Complete r.status)
    (hreal : RealText (.map spec)) (htidy : TidyFiles raw spec) :
    ∃ l es, FilesSay raw spec l es ∧ ∃ (x : Ctx) (kids : Dict) (ems : List Dict) (y : Y) (own : Node) (kind : String),
      AreaText l.student false spec kids ems y ∧ ShownIn kind r.result own ∧
      (∀ k ∈ x.transcript, k ∈ l.student.courses) ∧ x.withFailed = l.student.coursesWithFailed ∧
      (TextMeets ⟨⟨l.student, es, l.constants, l.templates⟩, true, x,
          KeptByText ⟨l.student, es, l.constants, l.templates⟩ kids ems y⟩ kids ems ["$"] y own ∨
        ((∃ d, y = .map d ∧ ruleKind d = .conditional) ∧ WaivedAt es ["$", ".cond"])) := by
  obtain ⟨p, a, s, h1, h2, h3, h4⟩ := runFiles_inv h
  have hf := prepareStudent_says h1
  have hnd : (p.loaded.student.courses.map (·.clbid)).Nodup := by
    obtain ⟨_, _, _, _, _, _, _, _, _, _, hc, _⟩ := hf
    exact hc.ids
  obtain ⟨tr, kids, ems, y, own, g1, g2, g3, g4, g5⟩ :=
    C67_complete_area_meets_its_text_finally _ _ _ _ _ _ _ h2 (htidy _ _ hf) hreal hnd o ho s h3 r h4 hp
  exact ⟨p.loaded, p.exceptions, hf, s.ctx, kids, ems, y, own, a.kind, g3, g4, by rw [g2]; exact g1, by rw [g2]; rfl, g5⟩

open EntryText in
/-- Non-trivial case: the student of the examples of C76 has two courses in computer science, one of them moved there by an exception
whose path is migrated; the audit reports this, and the hypotheses are met. -/
example :
    let moved : Dict := [("exceptions-migrations", .list [.map [("from-path", .list [.str "$", .str "old"]),
      ("to-path", .list [.str "$"]), ("comment", .str ""), ("date", .str "2020-01-01")]])]
    let raw := { student with exceptions := [⟨"741", { type := "course-subject", path := ["$", "old"], clbid := some "3", subject := some "CSCI" }⟩],
                              rows := rows.drop 1 }
    statuses { raw with exceptions := [] } (area moved twoCs) = some [.needsMoreItems]
      ∧ statuses raw (area moved twoCs) = some [.done] ∧ TidyFiles raw (area moved twoCs) ∧ RealText (.map (area moved twoCs)) := by
  refine ⟨by decide +kernel, by decide +kernel, ?_, realText_of_unused (by decide)⟩
  rintro l es -
  refine ⟨?_, ?_⟩
  · simp [area, twoCs, Y.CleanDict, Y.Clean, Y.CleanList]
  · intro emphases declared h1 h2
    cases h1
    cases h2
    decide

end Dp
