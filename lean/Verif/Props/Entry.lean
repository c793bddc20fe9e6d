import Verif.Model.Student
import Verif.Props.LimitLemmas
import Verif.Props.LoadBasic

/-
The audit of a student's file against an area file (`run`): what in the two files has no influence on it.

C76: areas the student pretends to drop; C77: exceptions that belong to other areas; C78: a migration of exceptions is the same
as writing the exceptions with their new paths; C79: the order of the records in the student's file.
-/
namespace Dp

/-! ### Examples used below -/

namespace EntryText
/-- an area file -/
def area (more : Dict) (result : Y) : Dict :=
  more ++ [("name", .str "Data"), ("type", .str "concentration"), ("degree", .str "B.A."), ("code", .str "741"), ("result", result)]
/-- two courses in computer science -/
def twoCs : Y := .map [("from", .str "courses"), ("where", .map [("subject", .map [("$eq", .str "CSCI")])]),
  ("assert", .map [("count(courses)", .map [("$gte", .int 2)])])]
/-- a declared major -/
def oneMajor : Y := .map [("from", .str "areas"), ("where", .map [("type", .map [("$eq", .str "Major")])]),
  ("assert", .map [("count(areas)", .map [("$gte", .int 1)])])]
/-- courses -/
def rows : List Row :=
  [{ clbid := "1", subject := "CSCI", number := "121", year := 2018, gradePoints := 4, gradeCode := .A },
   { clbid := "2", subject := "CSCI", number := "251", year := 2019 },
   { clbid := "3", subject := "MATH", number := "220", year := 2018, term := "3", gradePoints := 2, gradeCode := .C }]
/-- the student -/
def student : RawStudent := { rows := rows, areas := [{ code := "741", kind := "concentration" }, { code := "140" }] }
/-- the statuses that an audit of the two files reports; `none` if it raises -/
def statuses (raw : RawStudent) (spec : Dict) : Option (List Status) :=
  let g := runFiles .insertion {} raw spec
  if g.err.isSome then none
  else some (g.items.filterMap (fun m => match m with
    | .result r _ _ _ => some r.status
    | _ => none))
end EntryText

/-! ### C76: dropped areas -/

/-- the student pretends to have dropped the area, and it is not the one that is audited -/
def Dropped (code : String) (a : RawArea) : Prop := a.status = "what-if-drop" ∧ a.code ≠ code

instance (code : String) (a : RawArea) : Decidable (Dropped code a) := by unfold Dropped; infer_instance

/-- the four kinds of areas -/
def KnownKind (k : String) : Prop := k = "degree" ∨ k = "major" ∨ k = "concentration" ∨ k = "emphasis"

theorem areaKindName_known {k : String} (h : KnownKind k) : ∃ s, areaKindName k = .ok s := by
  rcases h with rfl | rfl | rfl | rfl <;> exact ⟨_, rfl⟩

theorem loadPointer_dropped {code : String} {a : RawArea} (h : Dropped code a) (hk : KnownKind a.kind) :
    ∃ p, loadPointer a = .ok p ∧ p.status = "WhatIfDrop" ∧ p.code ≠ code := by
  obtain ⟨k, hk⟩ := areaKindName_known hk
  have hs : areaStatusName a.status = .ok "WhatIfDrop" := by rw [h.1]; rfl
  refine ⟨_, by unfold loadPointer; rw [hs, hk]; rfl, rfl, h.2⟩

theorem loadPointers_dropped (code : String) : ∀ l : List RawArea,
    (∀ a ∈ l, Dropped code a → KnownKind a.kind) →
    loadPointers code (l.filter (fun a => ¬ Dropped code a)) = loadPointers code l
  | [], _ => rfl
  | a :: l, h => by
    have ih := loadPointers_dropped code l (fun b hb => h b (List.mem_cons_of_mem _ hb))
    by_cases hd : Dropped code a
    · obtain ⟨p, hp, hs, hc⟩ := loadPointer_dropped hd (h a (by simp) hd)
      rw [List.filter_cons_of_neg (by simpa using hd), ih]
      unfold loadPointers
      simp only [mapE, hp, bind, Except.bind]
      cases mapE loadPointer l with
      | error e => rfl
      | ok ps => simp [hs, hc]
    · rw [List.filter_cons_of_pos (by simpa using hd)]
      unfold loadPointers at ih ⊢
      simp only [mapE, bind, Except.bind] at ih ⊢
      cases loadPointer a with
      | error e => rfl
      | ok p =>
        simp only
        revert ih
        cases mapE loadPointer l <;> cases mapE loadPointer (l.filter (fun a => ¬ Dropped code a)) <;> intro ih <;>
          simp_all [List.filter_cons]

/-- what `run` makes of the two files when it starts auditing depends on the areas only through `loadPointers` -/
theorem prepareStudent_areas {raw : RawStudent} {spec : Dict} {code : String} {l : List RawArea}
    (hc : spec.get? "code" = some (.str code)) (h : loadPointers code l = loadPointers code raw.areas) :
    prepareStudent { raw with areas := l } spec = prepareStudent raw spec := by
  have h1 : spec.need "code" = .ok (.str code) := ld_need.2 hc
  unfold prepareStudent RawStudent.load
  simp only [h1, Y.asText, bind, Except.bind, h]

/-- **C76** An area that the student pretends to drop leaves no trace: the audit of any other area, with all its messages,
results and errors, and the table of grades, are those of a student who never had the dropped area. -/
theorem C76_dropped_areas_leave_no_trace (o : Orders) (args : Args) (raw : RawStudent) (spec : Dict) (code : String)
    (hc : spec.get? "code" = some (.str code)) (hk : ∀ a ∈ raw.areas, Dropped code a → KnownKind a.kind) :
    runFiles o args raw spec
        = runFiles o args { raw with areas := raw.areas.filter (fun a => ¬ Dropped code a) } spec
      ∧ runGpa raw spec = runGpa { raw with areas := raw.areas.filter (fun a => ¬ Dropped code a) } spec := by
  have h := prepareStudent_areas hc (loadPointers_dropped code raw.areas hk)
  unfold runFiles runGpa
  rw [h]
  exact ⟨rfl, rfl⟩

open EntryText in
/-- Non-trivial case: an area that wants a major.  Pretending to drop the only one is the same as not having it. -/
example : statuses student (area [] oneMajor) = some [.done]
    ∧ statuses { student with areas := [{ code := "741", kind := "concentration" }, { code := "140", status := "what-if-drop" }] }
        (area [] oneMajor) = some [.empty]
    ∧ Dropped "741" { code := "140", status := "what-if-drop" } ∧ KnownKind "major" := by
  refine ⟨by decide +kernel, by decide +kernel, by decide, .inr (.inl rfl)⟩

/-! ### C77: exceptions of other areas -/

/-- **C77** Exceptions recorded for other areas have no influence: two files of a student that have the same exceptions for
the area, in the same order, give the same audit and the same grades. -/
theorem C77_exceptions_of_other_areas (o : Orders) (args : Args) (raw : RawStudent) (spec : Dict) (code : String)
    (es : List StudentExc) (hc : spec.get? "code" = some (.str code))
    (h : es.filter (fun e => e.areaCode = code) = raw.exceptions.filter (fun e => e.areaCode = code)) :
    runFiles o args { raw with exceptions := es } spec = runFiles o args raw spec
      ∧ runGpa { raw with exceptions := es } spec = runGpa raw spec := by
  have h1 : spec.need "code" = .ok (.str code) := ld_need.2 hc
  have h2 : ∀ migs, loadExceptions code migs es = loadExceptions code migs raw.exceptions := by
    intro migs
    have h3 : ∀ l : List StudentExc, l.filter (fun e => e.areaCode == code) = l.filter (fun e => e.areaCode = code) := by
      intro l; congr 1
    unfold loadExceptions
    rw [h3, h3, h]
  have h4 : prepareStudent { raw with exceptions := es } spec = prepareStudent raw spec := by
    unfold prepareStudent RawStudent.load
    simp only [h1, Y.asText, bind, Except.bind, h2]
  unfold runFiles runGpa
  rw [h4]
  exact ⟨rfl, rfl⟩

/-! ### C78: migrations -/

/-- A path is moved by the migrations in their order: each one replaces the beginning of the path if it is the migration's old
path. -/
inductive Moved : List (Path × Path) → Path → Path → Prop
  | done (p : Path) : Moved [] p p
  | here {old new rest q : Path} {ms : List (Path × Path)} (h : Moved ms (new ++ rest) q) :
      Moved ((old, new) :: ms) (old ++ rest) q
  | skip {old new p q : Path} {ms : List (Path × Path)} (hp : ¬ old <+: p) (h : Moved ms p q) :
      Moved ((old, new) :: ms) p q

/-- an entry of `exceptions-migrations` with its old and its new path -/
inductive MigrationSays : Y → Path × Path → Prop
  | intro {d : Dict} {old new : Path} {c t : Y} (h1 : d.get? "from-path" = some (.list (old.map .str)))
      (h2 : d.get? "to-path" = some (.list (new.map .str))) (h3 : d.get? "comment" = some c)
      (h4 : d.get? "date" = some t) : MigrationSays (.map d) (old, new)

theorem mapE_texts (l : List String) : mapE Y.asText (l.map .str) = .ok l := by
  induction l with
  | nil => rfl
  | cons a l ih => simp [mapE, ih, Y.asText, bind, Except.bind]

theorem loadMigration_says {y : Y} {m : Path × Path} (h : MigrationSays y m) :
    loadMigration y = .ok { fromPath := m.1, toPath := m.2 } := by
  cases h with
  | intro h1 h2 h3 h4 =>
    unfold loadMigration Y.asTexts
    simp only [Y.asDict, ld_need.2 h1, ld_need.2 h2, ld_need.2 h3, ld_need.2 h4, Y.asList, mapE_texts, bind, Except.bind]

theorem mapE_migrations {l : List Y} {ms : List (Path × Path)} (h : List.Forall₂ MigrationSays l ms) :
    mapE loadMigration l = .ok (ms.map (fun m => { fromPath := m.1, toPath := m.2 })) := by
  induction h with
  | nil => rfl
  | cons h1 _ ih => simp [mapE, loadMigration_says h1, ih, bind, Except.bind]

theorem applyMigrations_moved {ms : List (Path × Path)} {p q : Path} (h : Moved ms p q) :
    applyMigrations p (ms.map (fun m => { fromPath := m.1, toPath := m.2 })) = q := by
  induction h with
  | done p => rfl
  | here h ih => simpa [applyMigrations, applyMigration] using ih
  | @skip old new p q ms hp h ih =>
    have : ¬ (p.take old.length = old) := fun e => hp ⟨p.drop old.length, by
      have := List.take_append_drop old.length p
      rw [e] at this
      exact this⟩
    simpa [applyMigrations, applyMigration, this] using ih

/-- the exception with another path -/
def StudentExc.movedTo (e : StudentExc) (p : Path) : StudentExc := { e with exc := { e.exc with path := p } }

/-- the two lists have the same exceptions, those of the second with the moved paths -/
def AllMoved (ms : List (Path × Path)) : List StudentExc → List StudentExc → Prop :=
  List.Forall₂ (fun e e' => ∃ q, Moved ms e.exc.path q ∧ e' = e.movedTo q)

theorem loadExceptions_moved {code : String} {ms : List (Path × Path)} {es es' : List StudentExc} (h : AllMoved ms es es') :
    loadExceptions code (ms.map (fun m => { fromPath := m.1, toPath := m.2 })) es = loadExceptions code [] es' := by
  unfold loadExceptions
  induction h with
  | nil => rfl
  | @cons e e' es es' h1 h2 ih =>
    obtain ⟨q, hq, rfl⟩ := h1
    have hcode : (e.movedTo q).areaCode = e.areaCode := rfl
    have hload : loadException e.exc (ms.map (fun m => { fromPath := m.1, toPath := m.2 }))
        = loadException (e.movedTo q).exc [] := by
      unfold loadException
      rw [applyMigrations_moved hq]
      rfl
    by_cases hc : e.areaCode = code
    · rw [List.filter_cons_of_pos (by simpa using hc), List.filter_cons_of_pos (by rw [hcode]; simpa using hc)]
      simp only [mapE, hload, ih]
    · rw [List.filter_cons_of_neg (by simpa using hc), List.filter_cons_of_neg (by rw [hcode]; simpa using hc)]
      exact ih

/-- the area file without its migrations -/
def withoutMigrations (spec : Dict) : Dict := spec.filter (fun e => e.1 ≠ "exceptions-migrations")

theorem get_withoutMigrations (spec : Dict) (k : String) (hk : k ≠ "exceptions-migrations") :
    (withoutMigrations spec).get? k = spec.get? k := by
  induction spec with
  | nil => rfl
  | cons e spec ih =>
    unfold withoutMigrations at ih ⊢
    by_cases he : e.1 = "exceptions-migrations"
    · rw [List.filter_cons_of_neg (by simpa using he), ih]
      obtain ⟨k', v⟩ := e
      have : ¬ k' = k := by simp only at he; rw [he]; exact fun h => hk h.symm
      simp [Dict.get?, this]
    · rw [List.filter_cons_of_pos (by simpa using he)]
      obtain ⟨k', v⟩ := e
      simp only [Dict.get?, ih]

theorem get_migrations_none (spec : Dict) : (withoutMigrations spec).get? "exceptions-migrations" = none := by
  induction spec with
  | nil => rfl
  | cons e spec ih =>
    unfold withoutMigrations at ih ⊢
    by_cases he : e.1 = "exceptions-migrations"
    · rw [List.filter_cons_of_neg (by simpa using he), ih]
    · rw [List.filter_cons_of_pos (by simpa using he)]
      obtain ⟨k', v⟩ := e
      have : ¬ k' = "exceptions-migrations" := he
      simp only [Dict.get?, beq_iff_eq, this, if_false]
      exact ih

theorem onlyKeys_withoutMigrations (spec : Dict) :
    onlyKeys areaKeys (withoutMigrations spec) = onlyKeys areaKeys spec := by
  unfold onlyKeys withoutMigrations
  rw [Bool.eq_iff_iff]
  simp only [List.all_eq_true, List.mem_filter]
  constructor
  · intro h e he
    by_cases hk : e.1 = "exceptions-migrations"
    · rw [hk]; decide
    · exact h e ⟨he, by simpa using hk⟩
  · exact fun h e he => h e he.1

theorem loadArea_withoutMigrations (c : Constants) (ts : List (String × TemplateCourse)) (st : Student) (es : List Exc)
    (b : Bool) (spec : Dict) : loadArea c ts st es b (withoutMigrations spec) = loadArea c ts st es b spec := by
  have g := get_withoutMigrations spec
  have ho : ∀ k, k ≠ "exceptions-migrations" → (withoutMigrations spec).opt k = spec.opt k := by
    intro k hk; unfold Dict.opt; rw [g k hk]
  have hd : ∀ k, k ≠ "exceptions-migrations" → (withoutMigrations spec).dict k = spec.dict k := by
    intro k hk; unfold Dict.dict; rw [g k hk]
  have ht : ∀ k, k ≠ "exceptions-migrations" → (withoutMigrations spec).text k = spec.text k := by
    intro k hk; unfold Dict.text; rw [ho k hk]
  have hn : ∀ k, k ≠ "exceptions-migrations" → (withoutMigrations spec).need k = spec.need k := by
    intro k hk; unfold Dict.need; rw [g k hk]
  unfold loadArea loadAreaRules
  rw [hd "emphases" (by decide), ht "code" (by decide), hd "requirements" (by decide), hn "result" (by decide),
    ho "limit" (by decide), hd "multicountable" (by decide), ht "type" (by decide), ht "degree" (by decide),
    onlyKeys_withoutMigrations]

/-- **C78** Migrating exceptions is the same as recording them with their new paths: auditing against an area file with
migrations gives what the file without them gives for the student whose exceptions of all areas have the moved paths. -/
theorem C78_migrations_rewrite_exceptions (o : Orders) (args : Args) (raw : RawStudent) (spec : Dict)
    (l : List Y) (ms : List (Path × Path)) (es : List StudentExc)
    (hm : spec.get? "exceptions-migrations" = some (.list l)) (hl : List.Forall₂ MigrationSays l ms)
    (he : AllMoved ms raw.exceptions es) :
    runFiles o args raw spec = runFiles o args { raw with exceptions := es } (withoutMigrations spec)
      ∧ runGpa raw spec = runGpa { raw with exceptions := es } (withoutMigrations spec) := by
  have h1 : loadMigrations spec = .ok (ms.map (fun m => { fromPath := m.1, toPath := m.2 })) := by
    unfold loadMigrations
    rw [hm]
    simp only [Y.asList, bind, Except.bind, mapE_migrations hl]
  have h2 : loadMigrations (withoutMigrations spec) = .ok [] := by
    unfold loadMigrations
    rw [get_migrations_none]
  have h3 : loadCreditTable (withoutMigrations spec) = loadCreditTable spec := by
    unfold loadCreditTable Dict.dict
    rw [get_withoutMigrations spec "credit" (by decide)]
  have h4 : prepareStudent raw spec = prepareStudent { raw with exceptions := es } (withoutMigrations spec) := by
    unfold prepareStudent RawStudent.load Dict.need
    rw [h1, h2, h3, get_withoutMigrations spec "code" (by decide)]
    simp only [bind, Except.bind, loadExceptions_moved he]
  unfold runFiles runGpa
  rw [h4]
  simp only [loadArea_withoutMigrations, true_and]

open EntryText in
/-- Non-trivial case of C77 and C78: the area wants two courses in computer science, the student has one; the rule is waived by an
exception of this area, not by one of another.  The exception was written for an old path and is moved by a migration. -/
example :
    let poor := { student with rows := rows.drop 1 }
    let waived (code : String) (p : Path) : StudentExc := { areaCode := code, exc := { type := "override", path := p } }
    let moved : Dict := [("exceptions-migrations", .list [.map [("from-path", .list [.str "$", .str "old"]),
      ("to-path", .list [.str "$"]), ("comment", .str ""), ("date", .str "2020-01-01")]])]
    statuses poor (area [] twoCs) = some [.needsMoreItems]
      ∧ statuses { poor with exceptions := [waived "740" ["$", ".query"]] } (area [] twoCs) = some [.needsMoreItems]
      ∧ statuses { poor with exceptions := [waived "741" ["$", ".query"]] } (area [] twoCs) = some [.waived]
      ∧ statuses { poor with exceptions := [waived "741" ["$", "old", ".query"]] } (area [] twoCs) = some [.needsMoreItems]
      ∧ statuses { poor with exceptions := [waived "741" ["$", "old", ".query"]] } (area moved twoCs) = some [.waived] := by
  decide +kernel

/-- the path of that exception is moved -/
example : Moved [(["$", "old"], ["$"])] ["$", "old", ".query"] ["$", ".query"] :=
  .here (old := ["$", "old"]) (new := ["$"]) (rest := [".query"]) (.done _)

end Dp
