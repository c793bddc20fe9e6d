import Verif.Props.Entry
import Mathlib.Data.List.Sort

/-
C79: the order in which the records of the student's file are written has no influence on the audit.
-/
namespace Dp

/-! ### Tuples compared part by part -/

/-- `<` that compares any two -/
structure Strict {β : Type} (lt : β → β → Prop) : Prop where
  trans : ∀ a b c, lt a b → lt b c → lt a c
  irrefl : ∀ a, ¬ lt a a
  tri : ∀ a b, lt a b ∨ a = b ∨ lt b a

theorem strict_int : Strict (fun a b : Int => a < b) :=
  ⟨fun _ _ _ h1 h2 => by omega, fun _ h => by omega, fun _ _ => by omega⟩

theorem strict_string : Strict (fun a b : String => a < b) := by
  refine ⟨fun _ _ _ => String.lt_trans, fun _ => String.lt_irrefl _, fun a b => ?_⟩
  rcases Classical.em (a < b) with h | h
  · exact .inl h
  rcases Classical.em (b < a) with h' | h'
  · exact .inr (.inr h')
  · exact .inr (.inl (String.le_antisymm (String.not_lt.1 h') (String.not_lt.1 h)))

/-- first by `f`, then by `r` -/
def Then {α β : Type} (lt : β → β → Prop) (f : α → β) (r : α → α → Prop) (a b : α) : Prop :=
  lt (f a) (f b) ∨ (f a = f b ∧ r a b)

theorem Then.total {α β : Type} {lt : β → β → Prop} {f : α → β} {r : α → α → Prop} (hs : Strict lt)
    (hr : ∀ a b, r a b ∨ r b a) (a b : α) : Then lt f r a b ∨ Then lt f r b a := by
  rcases hs.tri (f a) (f b) with h | h | h
  · exact .inl (.inl h)
  · rcases hr a b with h' | h'
    · exact .inl (.inr ⟨h, h'⟩)
    · exact .inr (.inr ⟨h.symm, h'⟩)
  · exact .inr (.inl h)

theorem Then.trans {α β : Type} {lt : β → β → Prop} {f : α → β} {r : α → α → Prop} (hs : Strict lt)
    (hr : ∀ a b c, r a b → r b c → r a c) (a b c : α) : Then lt f r a b → Then lt f r b c → Then lt f r a c := by
  rintro (h1 | ⟨e1, h1⟩) (h2 | ⟨e2, h2⟩)
  · exact .inl (hs.trans _ _ _ h1 h2)
  · exact .inl (e2 ▸ h1)
  · exact .inl (e1 ▸ h2)
  · exact .inr ⟨e1.trans e2, hr _ _ _ h1 h2⟩

theorem Then.both {α β : Type} {lt : β → β → Prop} {f : α → β} {r : α → α → Prop} (hs : Strict lt) {a b : α} :
    Then lt f r a b → Then lt f r b a → f a = f b ∧ r a b ∧ r b a := by
  rintro (h1 | ⟨e1, h1⟩) (h2 | ⟨e2, h2⟩)
  · exact absurd (hs.trans _ _ _ h1 h2) (hs.irrefl _)
  · rw [e2] at h1; exact absurd h1 (hs.irrefl _)
  · rw [e1] at h2; exact absurd h2 (hs.irrefl _)
  · exact ⟨e1, h1, h2⟩

/-- Sorting gives the same list for two lists with the same elements, if only equal ones are in both orders. -/
theorem insertionSort_congr {α : Type} {r : α → α → Prop} [DecidableRel r] (ht : ∀ a b, r a b ∨ r b a)
    (htr : ∀ a b c, r a b → r b c → r a c) {l l' : List α} (hp : l.Perm l')
    (ha : ∀ a ∈ l, ∀ b ∈ l, r a b → r b a → a = b) : l.insertionSort r = l'.insertionSort r := by
  haveI : Std.Total r := ⟨ht⟩
  haveI : IsTrans α r := ⟨htr⟩
  refine List.Perm.eq_of_pairwise (le := r) ?_ (List.pairwise_insertionSort r l) (List.pairwise_insertionSort r l') ?_
  · intro a b h1 h2
    exact ha a ((List.perm_insertionSort r l).mem_iff.1 h1) b (hp.mem_iff.2 ((List.perm_insertionSort r l').mem_iff.1 h2))
  · exact (List.perm_insertionSort r l).trans (hp.trans (List.perm_insertionSort r l').symm)

theorem eq_of_nodup_map {α β : Type} {f : α → β} {l : List α} (h : (l.map f).Nodup) {a b : α} (ha : a ∈ l) (hb : b ∈ l)
    (e : f a = f b) : a = b := List.inj_on_of_nodup_map h ha hb e

/-! ### Music records -/

theorem sortLe_slip (a b : MusicPerformance) : a.sortLe b = true ↔
    Then (· < ·) (·.year) (Then (· < ·) (·.term) (Then (fun a b : String => a < b) (·.name) (fun a b => a.id ≤ b.id))) a b := by
  simp [MusicPerformance.sortLe, Then]

theorem sortSlips_congr {l l' : List MusicPerformance} (hp : l.Perm l') (hn : (l.map (·.id)).Nodup) :
    sortSlips l = sortSlips l' := by
  unfold sortSlips
  refine insertionSort_congr ?_ ?_ hp ?_
  · intro a b
    rw [sortLe_slip, sortLe_slip]
    exact Then.total strict_int (Then.total strict_int (Then.total strict_string (fun a b => String.le_total a.id b.id))) a b
  · intro a b c
    rw [sortLe_slip, sortLe_slip, sortLe_slip]
    exact Then.trans strict_int (Then.trans strict_int (Then.trans strict_string (fun a b c (h1 : a.id ≤ b.id) (h2 : b.id ≤ c.id) => String.le_trans h1 h2))) a b c
  · intro a ha b hb h1 h2
    rw [sortLe_slip] at h1 h2
    obtain ⟨_, h1, h2⟩ := Then.both strict_int h1 h2
    obtain ⟨_, h1, h2⟩ := Then.both strict_int h1 h2
    obtain ⟨_, h1, h2⟩ := Then.both strict_string h1 h2
    exact eq_of_nodup_map hn ha hb (String.le_antisymm h1 h2)

/-- what `mapE` does when there is but one error -/
theorem mapE_cases {α β : Type} {f : α → Except Err β} {e : Err} (hf : ∀ a x, f a = .error x → x = e) :
    ∀ l : List α, (mapE f l = .error e ∧ ∃ a ∈ l, f a = .error e) ∨
      (∃ r, mapE f l = .ok r ∧ List.Forall₂ (fun a b => f a = .ok b) l r)
  | [] => .inr ⟨[], rfl, .nil⟩
  | a :: l => by
    rcases h : f a with x | b
    · have := hf a x h; subst this
      exact .inl ⟨by simp [mapE, h, bind, Except.bind], a, by simp, h⟩
    · rcases mapE_cases hf l with ⟨h1, a', ha', h2⟩ | ⟨r, h1, h2⟩
      · exact .inl ⟨by simp [mapE, h, h1, bind, Except.bind], a', by simp [ha'], h2⟩
      · exact .inr ⟨b :: r, by simp [mapE, h, h1, bind, Except.bind], .cons h h2⟩

theorem forall₂_fun_perm {α β : Type} {f : α → Except Err β} {l l' : List α} (hp : l.Perm l') :
    ∀ {r r' : List β}, List.Forall₂ (fun a b => f a = .ok b) l r → List.Forall₂ (fun a b => f a = .ok b) l' r' → r.Perm r' := by
  induction hp with
  | nil => intro r r' h h'; cases h; cases h'; exact .nil
  | cons a _ ih =>
    intro r r' h h'
    cases h with
    | cons h1 h2 => cases h' with
      | cons h1' h2' =>
        rw [h1] at h1'; cases h1'
        exact (ih h2 h2').cons _
  | swap a b l =>
    intro r r' h h'
    cases h with
    | cons h1 h2 => cases h2 with
      | cons h2 h3 => cases h' with
        | cons h1' h2' => cases h2' with
          | cons h2' h3' =>
            rw [h1] at h2'; rw [h2] at h1'; cases h1'; cases h2'
            have : ∀ {l : List α} {r r' : List β}, List.Forall₂ (fun a b => f a = .ok b) l r →
                List.Forall₂ (fun a b => f a = .ok b) l r' → r = r' := by
              intro l r r' h
              induction h generalizing r' with
              | nil => intro h'; cases h'; rfl
              | cons h _ ih => intro h'; cases h' with
                | cons h' h2' => rw [h] at h'; cases h'; rw [ih h2']
            rw [this h3 h3']
            exact .swap _ _ _
  | @trans l1 l2 l3 hp1 _ ih1 ih2 =>
    intro r r' h h'
    have : ∃ r2, List.Forall₂ (fun a b => f a = .ok b) l2 r2 := by
      have hall : ∀ a ∈ l2, ∃ b, f a = .ok b := by
        intro a ha
        have ha1 := hp1.mem_iff.2 ha
        clear ih1 ih2 hp1 h'
        induction h with
        | nil => cases ha1
        | cons h _ ih => rcases List.mem_cons.1 ha1 with rfl | ha1
                         · exact ⟨_, h⟩
                         · exact ih ha1
      clear ih1 ih2 hp1 h h'
      rename_i hp2
      clear hp2
      induction l2 with
      | nil => exact ⟨[], .nil⟩
      | cons a l ih =>
        obtain ⟨b, hb⟩ := hall a (by simp)
        obtain ⟨r, hr⟩ := ih (fun a ha => hall a (List.mem_cons_of_mem _ ha))
        exact ⟨b :: r, .cons hb hr⟩
    obtain ⟨r2, h2⟩ := this
    exact (ih1 h h2).trans (ih2 h2 h')

theorem slipStatus_error {s : String} {x : Err} (h : slipStatus s = .error x) : x = .keyError := by
  unfold slipStatus at h
  split at h
  · cases h
  · split at h
    · cases h
    · split at h
      · cases h
      · exact (Except.error.inj h).symm

theorem loadPerformance_error (r : RawSlip) (x : Err) (h : loadPerformance r = .error x) : x = .keyError := by
  unfold loadPerformance at h
  rcases h1 : slipStatus r.status with e | s
  · rw [h1] at h
    simp only [bind, Except.bind] at h
    cases h
    exact slipStatus_error h1
  · rw [h1] at h
    simp [bind, Except.bind] at h

theorem loadPerformance_id {r : RawSlip} {p : MusicPerformance} (h : loadPerformance r = .ok p) : p.id = r.id := by
  unfold loadPerformance at h
  rw [ld_bind_ok] at h
  obtain ⟨s, _, h⟩ := h
  cases h; rfl

/-- the performances, sorted, or the error -/
theorem performances_congr {l l' : List RawSlip} (hp : l.Perm l') (hn : (l.map (·.id)).Nodup) :
    (mapE loadPerformance l).map sortSlips = (mapE loadPerformance l').map sortSlips := by
  rcases mapE_cases loadPerformance_error l with ⟨h1, a, ha, h2⟩ | ⟨r, h1, h2⟩
  · rcases mapE_cases loadPerformance_error l' with ⟨h1', _⟩ | ⟨r', h1', h2'⟩
    · rw [h1, h1']
    · exfalso
      have ha' := hp.mem_iff.1 ha
      clear h1' hp
      induction h2' with
      | nil => cases ha'
      | cons h _ ih => rcases List.mem_cons.1 ha' with rfl | ha'
                       · rw [h2] at h; cases h
                       · exact ih ha'
  · rcases mapE_cases loadPerformance_error l' with ⟨h1', a, ha, h2'⟩ | ⟨r', h1', h2'⟩
    · exfalso
      have ha' := hp.mem_iff.2 ha
      clear h1 hp hn
      induction h2 with
      | nil => cases ha'
      | cons h _ ih => rcases List.mem_cons.1 ha' with rfl | ha'
                       · rw [h2'] at h; cases h
                       · exact ih ha'
    · rw [h1, h1']
      simp only [Except.map]
      congr 1
      refine sortSlips_congr (forall₂_fun_perm hp h2 h2') ?_
      have : r.map (·.id) = l.map (·.id) := by
        clear h1 hp hn
        induction h2 with
        | nil => rfl
        | cons h _ ih => simp [loadPerformance_id h, ih]
      rw [this]; exact hn

/-! ### Courses -/

theorem loadCourse_clbid (current : Option String) (ov : List Override) (table : CreditTable) (r : Row) :
    (loadCourse current ov table r).clbid = r.clbid := rfl

theorem transcriptLoop_nodup {load : Row → Course} (hl : ∀ r, (load r).clbid = r.clbid) (f : Bool) :
    ∀ (rows : List Row) (seen : List String), (rows.map (·.clbid)).Nodup → (∀ r ∈ rows, r.clbid ∉ seen) →
      transcriptLoop load f rows seen = .ok ((rows.filter (rowKept f)).map load)
  | [], _, _, _ => rfl
  | r :: rows, seen, hn, hs => by
    rw [List.map_cons, List.nodup_cons] at hn
    have ih := transcriptLoop_nodup hl f rows (seen ++ [r.clbid]) hn.2 (by
      intro r' hr' hm
      rcases List.mem_append.1 hm with hm | hm
      · exact hs r' (List.mem_cons_of_mem _ hr') hm
      · simp only [List.mem_singleton] at hm
        exact hn.1 (hm ▸ List.mem_map_of_mem hr'))
    unfold transcriptLoop
    have : ¬ seen.contains (load r).clbid = true := by
      rw [hl]; simpa using hs r (by simp)
    dsimp only
    rw [if_neg this, hl, ih]
    by_cases hk : rowKept f r = true
    · simp [hk]
    · simp [hk]

theorem loadStudentCourses_congr {current : Option String} {ov : List Override} {table : CreditTable} {rows rows' : List Row}
    (hp : rows.Perm rows') (hn : (rows.map (·.clbid)).Nodup) :
    loadStudentCourses current ov table rows = loadStudentCourses current ov table rows' := by
  have hn' : (rows'.map (·.clbid)).Nodup := (hp.map _).nodup_iff.1 hn
  have h1 := fun f => transcriptLoop_nodup (loadCourse_clbid current ov table) f rows [] hn (by simp)
  have h2 := fun f => transcriptLoop_nodup (loadCourse_clbid current ov table) f rows' [] hn' (by simp)
  have h3 : ∀ f, sortCourses ((rows.filter (rowKept f)).map (loadCourse current ov table))
      = sortCourses ((rows'.filter (rowKept f)).map (loadCourse current ov table)) := by
    intro f
    unfold sortCourses
    refine insertionSort_congr Course.sortLe_total Course.sortLe_trans ((hp.filter _).map _) ?_
    intro a ha b hb h4 h5
    refine eq_of_nodup_map (f := (·.clbid)) ?_ ha hb (Course.sortLe_antisymm_clbid a b h4 h5)
    rw [List.map_map]
    have : ((·.clbid) ∘ loadCourse current ov table) = (fun r : Row => r.clbid) := rfl
    rw [this]
    exact hn.sublist (List.filter_sublist.map _)
  unfold loadStudentCourses loadTranscript
  rw [h1, h1, h2, h2]
  simp only [h3]

/-! ### Templates -/

theorem template_fields_inj {a b : TemplateCourse} (h : a.fields = b.fields) : a = b := by
  cases a; cases b
  simp only [TemplateCourse.fields, List.cons.injEq, and_true] at h
  obtain ⟨rfl, rfl, rfl, rfl, rfl, rfl, rfl, rfl, rfl⟩ := h
  rfl

theorem loadTemplates_congr {l l' : List (String × List String)} (tr : List Course)
    (h : ∀ k s, (∃ ls, (k, ls) ∈ l ∧ s ∈ ls) ↔ (∃ ls, (k, ls) ∈ l' ∧ s ∈ ls)) :
    loadTemplates l tr = loadTemplates l' tr := by
  unfold loadTemplates
  refine insertionSort_congr ?_ ?_ ?_ ?_
  · intro a b
    simp only [templateLe, decide_eq_true_eq]
    exact List.le_total _ _
  · intro a b c
    simp only [templateLe, decide_eq_true_eq]
    exact fun h1 h2 => List.le_trans h1 h2
  · rw [List.perm_ext_iff_of_nodup (List.nodup_dedup _) (List.nodup_dedup _)]
    rintro ⟨k, t⟩
    simp only [List.mem_dedup, List.mem_flatMap, List.mem_filterMap, Option.map_eq_some_iff, Prod.mk.injEq, Prod.exists]
    constructor
    · rintro ⟨k', ls, h1, s, h2, t', h3, rfl, rfl⟩
      obtain ⟨ls', h4, h5⟩ := (h k' s).1 ⟨ls, h1, h2⟩
      exact ⟨k', ls', h4, s, h5, t', h3, rfl, rfl⟩
    · rintro ⟨k', ls, h1, s, h2, t', h3, rfl, rfl⟩
      obtain ⟨ls', h4, h5⟩ := (h k' s).2 ⟨ls, h1, h2⟩
      exact ⟨k', ls', h4, s, h5, t', h3, rfl, rfl⟩
  · intro a _ b _ h1 h2
    simp only [templateLe, decide_eq_true_eq] at h1 h2
    have := List.le_antisymm h1 h2
    simp only [List.cons.injEq] at this
    exact Prod.ext this.1 (template_fields_inj this.2)

/-! ### The student -/

/-- The two files of a student have the same records in different orders: the class ids and the ids of music records are
distinct, and under each name of a template there are the same labels. -/
structure SameRecords (a b : RawStudent) : Prop where
  rows : a.rows.Perm b.rows
  clbids : (a.rows.map (·.clbid)).Nodup
  performances : a.performances.Perm b.performances
  performanceIds : (a.performances.map (·.id)).Nodup
  attendances : a.attendances.Perm b.attendances
  attendanceIds : (a.attendances.map (·.id)).Nodup
  templates : ∀ k s, (∃ ls, (k, ls) ∈ a.templates ∧ s ∈ ls) ↔ (∃ ls, (k, ls) ∈ b.templates ∧ s ∈ ls)
  areas : a.areas = b.areas
  currentTerm : a.currentTerm = b.currentTerm
  proficiencies : a.proficiencies = b.proficiencies
  ppm : a.ppm = b.ppm
  matriculation : a.matriculation = b.matriculation
  curriculum : a.curriculum = b.curriculum
  exceptions : a.exceptions = b.exceptions

theorem load_congr {a b : RawStudent} (h : SameRecords a b) (code : String) (ov : List Override) (table : CreditTable) :
    a.load code ov table = b.load code ov table := by
  have h1 := loadStudentCourses_congr (current := a.currentTerm) (ov := ov) (table := table) h.rows h.clbids
  have h2 := performances_congr h.performances h.performanceIds
  have h3 : sortSlips (a.attendances.map loadAttendance) = sortSlips (b.attendances.map loadAttendance) := by
    refine sortSlips_congr (h.attendances.map _) ?_
    rw [List.map_map]
    exact h.attendanceIds
  have h4 := fun tr => loadTemplates_congr tr h.templates
  unfold RawStudent.load
  rw [h1, h.areas, h.currentTerm, h.proficiencies, h.matriculation, h.curriculum, h.ppm, h3]
  simp only [h4]
  congr 1
  funext areas
  congr 1
  funext cs
  revert h2
  cases mapE loadPerformance a.performances <;> cases mapE loadPerformance b.performances <;> intro h2 <;>
    simp_all [Except.map, bind, Except.bind]

/-- **C79** The order in which courses, performances, attendances and template labels are written in the student's file, and
whether a label is written twice, has no influence: the audit and the table of grades are the same. -/
theorem C79_order_of_records (o : Orders) (args : Args) (a b : RawStudent) (spec : Dict) (h : SameRecords a b) :
    runFiles o args a spec = runFiles o args b spec ∧ runGpa a spec = runGpa b spec := by
  have h1 : prepareStudent a spec = prepareStudent b spec := by
    unfold prepareStudent
    simp only [load_congr h, h.exceptions]
  unfold runFiles runGpa
  rw [h1]
  exact ⟨rfl, rfl⟩

open EntryText in
/-- Non-trivial case: the courses written backwards. -/
example : SameRecords student { student with rows := rows.reverse } ∧ rows.reverse ≠ rows
    ∧ statuses student (area [] twoCs) = some [.done] ∧ statuses { student with rows := rows.reverse } (area [] twoCs) = some [.done] :=
  ⟨⟨(List.reverse_perm _).symm, by decide, .refl _, by decide, .refl _, by decide, fun _ _ => Iff.rfl, rfl, rfl, rfl, rfl, rfl, rfl, rfl⟩,
    by decide, by decide +kernel, by decide +kernel⟩

end Dp
