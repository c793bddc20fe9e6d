import Verif.Model.Transcript
import Verif.Props.LimitLemmas
import Mathlib.Algebra.Order.Floor.Ring
import Mathlib.Data.Rat.Floor
import Mathlib.Tactic.FieldSimp
import Mathlib.Tactic.Positivity

/-
Loading a transcript (C30, C32, C33) and the grade point average (C31).
-/
namespace Dp

/-! ### C30: the loaded transcript -/

/-- A row that counts: not audited, not repeated, with a grade that gives credit or is
still to come. -/
def Row.Usable (r : Row) : Prop :=
  r.gradeOption ≠ .audit ∧ r.transcriptCode ∉ [.repeatedLater, .repeatInProgress] ∧
  r.gradeCode ∉ [.N, .U, .AU, .UA, .WF, .WP, .W]

instance (r : Row) : Decidable r.Usable := by unfold Row.Usable; infer_instance

theorem rowKept_iff (f : Bool) (r : Row) :
    rowKept f r = true ↔ r.Usable ∧ (f = true ∨ r.gradeCode ≠ .F) := by
  unfold rowKept Row.Usable
  cases r.gradeOption <;> cases r.transcriptCode <;> cases r.gradeCode <;> cases f <;>
    simp [GradeCode.skipped]

/-- a course without its class id -/
def Course.anon (c : Course) : Course := { c with clbid := "" }

theorem transcriptLoop_spec (load : Row → Course) (f : Bool) :
    ∀ (rows : List Row) (seen : List String) (cs : List Course), transcriptLoop load f rows seen = .ok cs →
      (cs.map (·.clbid)).Nodup ∧ (∀ c ∈ cs, c.clbid ∉ seen) ∧
      cs.map Course.anon = ((rows.filter (rowKept f)).map load).map Course.anon := by
  intro rows
  induction rows with
  | nil =>
    intro seen cs h
    obtain rfl := Except.ok.inj h
    simp
  | cons r rows ih =>
    intro seen cs h
    simp only [transcriptLoop] at h
    have key : ∀ (c : Course) (cs' : List Course), c.clbid ∉ seen → c.anon = (load r).anon →
        transcriptLoop load f rows (seen ++ [c.clbid]) = .ok cs' →
        cs = (if rowKept f r then c :: cs' else cs') →
        (cs.map (·.clbid)).Nodup ∧ (∀ c ∈ cs, c.clbid ∉ seen) ∧
        cs.map Course.anon = (((r :: rows).filter (rowKept f)).map load).map Course.anon := by
      intro c cs' hc ha hrec hcs
      obtain ⟨h1, h2, h3⟩ := ih _ _ hrec
      have h2' : ∀ d ∈ cs', d.clbid ∉ seen ∧ d.clbid ≠ c.clbid := by
        intro d hd
        have := h2 d hd
        simp only [List.mem_append, List.mem_singleton, not_or] at this
        exact this
      by_cases hk : rowKept f r = true
      · simp only [hk, if_true] at hcs
        subst hcs
        refine ⟨?_, ?_, ?_⟩
        · simp only [List.map_cons, List.nodup_cons, h1, and_true, List.mem_map, not_exists, not_and]
          exact fun d hd => (h2' d hd).2
        · intro d hd
          rcases List.mem_cons.mp hd with rfl | hd
          · exact hc
          · exact (h2' d hd).1
        · simp [hk, h3, ha]
      · simp only [hk, if_false, Bool.false_eq_true] at hcs
        subst hcs
        exact ⟨h1, fun d hd => (h2' d hd).1, by simp [hk, h3]⟩
    split at h
    · split at h
      · exact absurd h (by simp)
      split at h
      · exact absurd h (by simp)
      rename_i hn
      split at h
      · exact absurd h (by simp)
      rename_i cs' hrec
      exact key { load r with clbid := (load r).clbid ++ ":" ++ (load r).schedid } cs' (by simpa using hn) rfl hrec
        (Except.ok.inj h).symm
    · rename_i hn
      split at h
      · exact absurd h (by simp)
      rename_i cs' hrec
      exact key (load r) cs' (by simpa using hn) rfl hrec (Except.ok.inj h).symm

/-- including the failed courses or not, the same rows get the same class ids -/
theorem transcriptLoop_failed (load : Row → Course) (hg : ∀ r, (load r).gradeCode = r.gradeCode) :
    ∀ (rows : List Row) (seen : List String) (cs : List Course), transcriptLoop load true rows seen = .ok cs →
      transcriptLoop load false rows seen = .ok (cs.filter (fun c => c.gradeCode ≠ .F)) := by
  intro rows
  induction rows with
  | nil =>
    intro seen cs h
    obtain rfl := Except.ok.inj h
    rfl
  | cons r rows ih =>
    intro seen cs h
    simp only [transcriptLoop] at h ⊢
    have hk : ∀ (c : Course) (cs' : List Course), c.gradeCode = r.gradeCode →
        (if rowKept true r then c :: cs' else cs').filter (fun c => c.gradeCode ≠ .F) =
        if rowKept false r then c :: cs'.filter (fun c => c.gradeCode ≠ .F)
        else cs'.filter (fun c => c.gradeCode ≠ .F) := by
      intro c cs' hc
      by_cases hf : r.gradeCode = .F
      · have hkf : rowKept false r = false := by
          rw [Bool.eq_false_iff]; intro hh; exact ((rowKept_iff _ _).mp hh).2.elim (by simp) (fun h => h hf)
        simp only [hkf]
        split <;> simp [hc, hf]
      · have : rowKept true r = rowKept false r := by
          rw [Bool.eq_iff_iff, rowKept_iff, rowKept_iff]; simp [hf]
        rw [this]
        split
        · simp [hc, hf]
        · rfl
    split at h
    · rename_i hc
      rw [if_pos hc]
      split at h
      · exact absurd h (by simp)
      rename_i h1
      rw [if_neg h1]
      split at h
      · exact absurd h (by simp)
      rename_i h2
      rw [if_neg h2]
      split at h
      · exact absurd h (by simp)
      rename_i cs' hrec
      rw [ih _ _ hrec]
      simp only [Except.ok.injEq] at h ⊢
      subst h
      exact (hk _ _ (by simp [hg])).symm
    · rename_i hc
      rw [if_neg hc]
      split at h
      · exact absurd h (by simp)
      rename_i cs' hrec
      rw [ih _ _ hrec]
      simp only [Except.ok.injEq] at h ⊢
      subst h
      exact (hk _ _ (hg r)).symm

theorem loadStudent_ok {current : Option String} {ov : List Override} {table : CreditTable} {rows : List Row}
    {courses withFailed : List Course} (h : loadStudentCourses current ov table rows = .ok (courses, withFailed)) :
    ∃ cs, loadTranscript current ov table true rows = .ok cs ∧ withFailed = sortCourses cs ∧
      courses = sortCourses (cs.filter (fun c => c.gradeCode ≠ .F)) := by
  unfold loadStudentCourses at h
  split at h
  · exact absurd h (by simp)
  rename_i a ha
  split at h
  · exact absurd h (by simp)
  rename_i b hb
  obtain ⟨rfl, rfl⟩ := Prod.mk.inj (Except.ok.inj h)
  refine ⟨b, hb, rfl, ?_⟩
  have := transcriptLoop_failed (loadCourse current ov table) (fun _ => rfl) rows [] b hb
  rw [loadTranscript, this] at ha
  rw [Except.ok.inj ha]

/-- **C30.** When a student is loaded, no two courses have the same class id. -/
theorem C30_unique_class_ids (current : Option String) (ov : List Override) (table : CreditTable)
    (rows : List Row) (courses withFailed : List Course)
    (h : loadStudentCourses current ov table rows = .ok (courses, withFailed)) :
    (courses.map (·.clbid)).Nodup ∧ (withFailed.map (·.clbid)).Nodup := by
  obtain ⟨cs, hcs, rfl, rfl⟩ := loadStudent_ok h
  obtain ⟨h1, _, _⟩ := transcriptLoop_spec _ true rows [] cs hcs
  constructor
  · refine ((sortCourses_perm _).map _).nodup_iff.mpr ?_
    exact h1.sublist (List.filter_sublist.map _)
  · exact ((sortCourses_perm _).map _).nodup_iff.mpr h1

/-- **C30.** The list without failed courses is exactly the list with failed courses
without those graded F (the same courses under the same class ids). -/
theorem C30_failed_only_in_failed_list (current : Option String) (ov : List Override) (table : CreditTable)
    (rows : List Row) (courses withFailed : List Course)
    (h : loadStudentCourses current ov table rows = .ok (courses, withFailed)) :
    courses.Perm (withFailed.filter (fun c => c.gradeCode ≠ .F)) ∧ ∀ c ∈ courses, c.gradeCode ≠ .F := by
  obtain ⟨cs, hcs, rfl, rfl⟩ := loadStudent_ok h
  have hp : (sortCourses (cs.filter (fun c => c.gradeCode ≠ .F))).Perm
      ((sortCourses cs).filter (fun c => c.gradeCode ≠ .F)) :=
    (sortCourses_perm _).trans ((sortCourses_perm cs).filter _).symm
  refine ⟨hp, fun c hc => ?_⟩
  have := hp.subset hc
  simpa using (List.mem_filter.mp this).2

/-- **C30.** Every usable row of the input is present, and nothing else: apart from class
ids, the loaded courses are those of the usable rows (with repetitions). -/
theorem C30_every_usable_record_present (current : Option String) (ov : List Override) (table : CreditTable)
    (rows : List Row) (courses withFailed : List Course)
    (h : loadStudentCourses current ov table rows = .ok (courses, withFailed)) :
    (withFailed.map Course.anon).Perm
      (((rows.filter (fun r => decide r.Usable)).map (loadCourse current ov table)).map Course.anon) := by
  obtain ⟨cs, hcs, rfl, rfl⟩ := loadStudent_ok h
  obtain ⟨_, _, h3⟩ := transcriptLoop_spec _ true rows [] cs hcs
  refine ((sortCourses_perm _).map _).trans ?_
  rw [h3]
  have : rowKept true = fun r => decide r.Usable := by
    funext r
    rw [Bool.eq_iff_iff, rowKept_iff]
    simp
  rw [this]

theorem split_at_colon : ∀ (a b a' b' : List Char), ':' ∉ a → ':' ∉ a' → a ++ ':' :: b = a' ++ ':' :: b' →
    a' = a ∧ b' = b := by
  intro a
  induction a with
  | nil =>
    intro b a' b' _ h' h
    cases a' with
    | nil => simpa [eq_comm] using h
    | cons x a' =>
      simp only [List.nil_append, List.cons_append, List.cons.injEq] at h
      exact absurd (h.1 ▸ List.mem_cons_self) h'
  | cons y a ih =>
    intro b a' b' hn h' h
    cases a' with
    | nil =>
      simp only [List.nil_append, List.cons_append, List.cons.injEq] at h
      exact absurd (h.1 ▸ List.mem_cons_self) hn
    | cons x a' =>
      simp only [List.cons_append, List.cons.injEq] at h
      obtain ⟨rfl, h⟩ := h
      obtain ⟨rfl, rfl⟩ := ih b a' b' (fun hh => hn (List.mem_cons_of_mem _ hh)) (fun hh => h' (List.mem_cons_of_mem _ hh)) h
      exact ⟨rfl, rfl⟩

theorem transcriptLoop_first (load : Row → Course) (hload : ∀ r, (load r).clbid = r.clbid) (f : Bool) :
    ∀ (pre : List Row) (r : Row) (post : List Row) (seen : List String) (cs : List Course),
      transcriptLoop load f (pre ++ r :: post) seen = .ok cs → rowKept f r = true →
      r.clbid ∉ seen → (∀ p ∈ pre, p.clbid ≠ r.clbid ∧ p.clbid ++ ":" ++ (load p).schedid ≠ r.clbid) → load r ∈ cs := by
  intro pre
  induction pre with
  | nil =>
    intro r post seen cs h hk hseen _
    simp only [List.nil_append, transcriptLoop, hload, List.contains_eq_mem, hseen, decide_false,
      Bool.false_eq_true, if_false, hk, if_true] at h
    split at h
    · exact absurd h (by simp)
    obtain rfl := Except.ok.inj h
    exact List.mem_cons_self
  | cons p pre ih =>
    intro r post seen cs h hk hseen hpre
    simp only [List.cons_append, transcriptLoop] at h
    have hp := hpre p List.mem_cons_self
    have hrest := fun q hq => hpre q (List.mem_cons_of_mem _ hq)
    split at h
    · split at h
      · exact absurd h (by simp)
      split at h
      · exact absurd h (by simp)
      split at h
      · exact absurd h (by simp)
      rename_i cs' hrec
      have := ih r post _ cs' hrec hk (by simp [hseen, hload]; exact fun h => hp.2 (by simpa using h.symm)) hrest
      obtain rfl := Except.ok.inj h
      split
      · exact List.mem_cons_of_mem _ this
      · exact this
    · split at h
      · exact absurd h (by simp)
      rename_i cs' hrec
      have := ih r post _ cs' hrec hk (by simp [hseen, hload]; exact fun h => hp.1 h.symm) hrest
      obtain rfl := Except.ok.inj h
      split
      · exact List.mem_cons_of_mem _ this
      · exact this

/-- **C30.** The first usable row of a class keeps its class id. -/
theorem C30_first_row_keeps_its_id (current : Option String) (ov : List Override) (table : CreditTable)
    (pre : List Row) (r : Row) (post : List Row) (courses withFailed : List Course)
    (h : loadStudentCourses current ov table (pre ++ r :: post) = .ok (courses, withFailed))
    (hr : r.Usable) (hpre : ∀ p ∈ pre, p.clbid ≠ r.clbid ∧ p.clbid ++ ":" ++ p.schedid.getD "None" ≠ r.clbid) :
    loadCourse current ov table r ∈ withFailed := by
  obtain ⟨cs, hcs, rfl, rfl⟩ := loadStudent_ok h
  exact mem_sortCourses.mpr (transcriptLoop_first _ (fun _ => rfl) true pre r post [] cs hcs
    ((rowKept_iff _ _).mpr ⟨hr, Or.inl rfl⟩) (by simp) hpre)

theorem transcriptLoop_loads (load : Row → Course) (hload : ∀ r, (load r).clbid = r.clbid)
    (hs : ∀ r, (load r).schedid = r.schedid.getD "None") (f : Bool) :
    ∀ (rows : List Row) (done : List Row) (seen : List String),
      (∀ r ∈ done ++ rows, ':' ∉ r.clbid.toList) →
      ((done ++ rows).map (fun r => (r.clbid, r.schedid.getD "None"))).Nodup →
      (∀ s ∈ seen, ∃ r ∈ done, s = r.clbid ∨ s = r.clbid ++ ":" ++ r.schedid.getD "None") →
      ∃ cs, transcriptLoop load f rows seen = .ok cs := by
  intro rows
  induction rows with
  | nil => intro _ _ _ _ _; exact ⟨[], rfl⟩
  | cons r rows ih =>
    intro done seen h1 h2 h3
    have e : done ++ r :: rows = (done ++ [r]) ++ rows := by simp
    have hnew : ∀ s, (s = r.clbid ∨ s = r.clbid ++ ":" ++ r.schedid.getD "None") →
        ∃ cs, transcriptLoop load f rows (seen ++ [s]) = .ok cs := by
      intro s hs'
      refine ih (done ++ [r]) _ (by rw [← e]; exact h1) (by rw [← e]; exact h2) ?_
      intro q hq
      rcases List.mem_append.mp hq with hq | hq
      · obtain ⟨p, hp, hpq⟩ := h3 q hq
        exact ⟨p, List.mem_append_left _ hp, hpq⟩
      · rw [List.mem_singleton.mp hq]
        exact ⟨r, by simp, hs'⟩
    simp only [transcriptLoop, hload, hs]
    split
    · have hne : ¬ r.clbid = r.clbid ++ ":" ++ r.schedid.getD "None" := by
        intro h
        have := congrArg (fun s : String => s.toList.length) h
        simp at this
      rw [if_neg hne]
      have hnin : seen.contains (r.clbid ++ ":" ++ r.schedid.getD "None") = false := by
        rw [Bool.eq_false_iff]
        intro hc
        obtain ⟨p, hp, hpe⟩ := h3 _ (by simpa using hc)
        have hpc := h1 p (List.mem_append_left _ hp)
        have hrc := h1 r (by simp)
        rcases hpe with hpe | hpe
        · refine hpc ?_
          rw [← hpe]
          simp
        · have hpe' := congrArg String.toList hpe
          simp only [String.toList_append] at hpe'
          have hcol : (":" : String).toList = [':'] := rfl
          rw [hcol, List.append_assoc, List.append_assoc, List.singleton_append, List.singleton_append] at hpe'
          obtain ⟨ha, hb⟩ := split_at_colon _ _ _ _ hrc hpc hpe'
          have hpr : (p.clbid, p.schedid.getD "None") = (r.clbid, r.schedid.getD "None") := by
            rw [String.toList_inj.mp ha, String.toList_inj.mp hb]
          have := List.nodup_append.mp (by simpa using h2)
          exact this.2.2 _ (List.mem_map.mpr ⟨p, hp, rfl⟩) _ List.mem_cons_self hpr
      rw [hnin]
      obtain ⟨cs, hcs⟩ := hnew _ (Or.inr rfl)
      simp only [hcs]
      exact ⟨_, rfl⟩
    · obtain ⟨cs, hcs⟩ := hnew _ (Or.inl rfl)
      simp only [hcs]
      exact ⟨_, rfl⟩

/-- **C30.** Loading succeeds whenever class ids contain no colon and no two rows agree in
both class id and schedule id. -/
theorem C30_loads (current : Option String) (ov : List Override) (table : CreditTable) (rows : List Row)
    (h1 : ∀ r ∈ rows, ':' ∉ r.clbid.toList)
    (h2 : (rows.map (fun r => (r.clbid, r.schedid.getD "None"))).Nodup) :
    ∃ p, loadStudentCourses current ov table rows = .ok p := by
  obtain ⟨cs, hcs⟩ := transcriptLoop_loads (loadCourse current ov table) (fun _ => rfl) (fun _ => rfl) true rows [] []
    h1 h2 (by simp)
  have hf := transcriptLoop_failed (loadCourse current ov table) (fun _ => rfl) rows [] cs hcs
  simp only [loadStudentCourses, loadTranscript, hf, hcs]
  exact ⟨_, rfl⟩

/-- two enrolments in one class: both are loaded, under different class ids -/
example :
    let rows : List Row := [{ clbid := "1", schedid := some "a" }, { clbid := "1", schedid := some "b" }]
    (loadStudentCourses none [] [] rows).toOption.map (fun p => p.1.map (·.clbid)) = some ["1", "1:b"] := by
  decide +kernel

/-! ### C32: the flags of courses in progress -/

theorem year_digits (y : Nat) (h1 : 1000 ≤ y) (h2 : y ≤ 9999) :
    (toString y).toList = [(y / 1000).digitChar, (y / 100 % 10).digitChar, (y / 10 % 10).digitChar,
      (y % 10).digitChar] := by
  have h : (toString y).toList = Nat.toDigits 10 y := by
    show (Nat.repr y).toList = _
    rw [Nat.toList_repr]
  rw [h, Nat.toDigits_of_base_le (by omega) (by omega), Nat.toDigits_of_base_le (by omega) (by omega),
    Nat.toDigits_of_base_le (by omega) (by omega), Nat.toDigits_of_lt_base (by omega)]
  simp only [Nat.div_div_eq_div_mul, List.cons_append, List.nil_append, Nat.reduceMul]

theorem digitChar_lt : ∀ a < 10, ∀ b < 10, (a.digitChar < b.digitChar ↔ a < b) ∧ (a.digitChar = b.digitChar ↔ a = b) := by
  decide

theorem yearterm_lt (y y' : Nat) (t t' : String) (h1 : 1000 ≤ y) (h2 : y ≤ 9999) (h1' : 1000 ≤ y') (h2' : y' ≤ 9999) :
    toString y ++ t < toString y' ++ t' ↔ y < y' ∨ (y = y' ∧ t < t') := by
  have h : (toString y ++ t < toString y' ++ t') ↔ (toString y ++ t).toList < (toString y' ++ t').toList := Iff.rfl
  have ht : (t < t') ↔ t.toList < t'.toList := Iff.rfl
  rw [h, ht, String.toList_append, String.toList_append, year_digits y h1 h2, year_digits y' h1' h2']
  simp only [List.cons_append, List.nil_append, List.cons_lt_cons_iff]
  have d3 := digitChar_lt (y / 1000) (by omega) (y' / 1000) (by omega)
  have d2 := digitChar_lt (y / 100 % 10) (by omega) (y' / 100 % 10) (by omega)
  have d1 := digitChar_lt (y / 10 % 10) (by omega) (y' / 10 % 10) (by omega)
  have d0 := digitChar_lt (y % 10) (by omega) (y' % 10) (by omega)
  rw [d3.1, d3.2, d2.1, d2.2, d1.1, d1.2, d0.1, d0.2]
  constructor
  · rintro (h | ⟨e3, h | ⟨e2, h | ⟨e1, h | ⟨e0, h⟩⟩⟩⟩)
    · exact Or.inl (by omega)
    · exact Or.inl (by omega)
    · exact Or.inl (by omega)
    · exact Or.inl (by omega)
    · exact Or.inr ⟨by omega, h⟩
  · rintro (h | ⟨rfl, hl⟩)
    · by_cases e3 : y / 1000 = y' / 1000
      · refine Or.inr ⟨e3, ?_⟩
        by_cases e2 : y / 100 % 10 = y' / 100 % 10
        · refine Or.inr ⟨e2, ?_⟩
          by_cases e1 : y / 10 % 10 = y' / 10 % 10
          · exact Or.inr ⟨e1, Or.inl (by omega)⟩
          · exact Or.inl (by omega)
        · exact Or.inl (by omega)
      · exact Or.inl (by omega)
    · simpa using hl

/-- A term, as a year and the number of the term in that year, is after another one. -/
def After (year : Nat) (term : String) (year' : Nat) (term' : String) : Prop :=
  year' < year ∨ (year = year' ∧ term' < term)

/-- **C32.** With a current term (of a four-digit year), a course graded 'in progress' or
'incomplete' is flagged 'this term' exactly when its term is not after the current one,
and 'future' exactly when it is; any other course gets neither flag. -/
theorem C32_progress_flags (r : Row) (year : Nat) (term : String) (ov : List Override) (table : CreditTable)
    (h1 : 1000 ≤ r.year) (h2 : r.year ≤ 9999) (h1' : 1000 ≤ year) (h2' : year ≤ 9999) :
    let c := loadCourse (some (toString year ++ term)) ov table r
    (c.isInProgressThisTerm = true ↔ (r.gradeCode = .IP ∨ r.gradeCode = .I) ∧ ¬ After r.year r.term year term) ∧
    (c.isInProgressInFuture = true ↔ (r.gradeCode = .IP ∨ r.gradeCode = .I) ∧ After r.year r.term year term) := by
  have hne : toString year ++ term ≠ "" := by
    intro h
    have := congrArg String.toList h
    rw [String.toList_append, year_digits year h1' h2'] at this
    exact absurd this (by simp)
  have hafter : toString year ++ term < r.yearterm ↔ After r.year r.term year term := by
    unfold Row.yearterm After
    rw [yearterm_lt year r.year term r.term h1' h2' h1 h2]
    constructor
    · rintro (h | ⟨rfl, h⟩)
      · exact Or.inl h
      · exact Or.inr ⟨rfl, h⟩
    · rintro (h | ⟨h, h'⟩)
      · exact Or.inl h
      · exact Or.inr ⟨h.symm, h'⟩
  have hle : r.yearterm ≤ toString year ++ term ↔ ¬ After r.year r.term year term := by
    rw [← hafter]; exact Iff.rfl
  generalize toString year ++ term = now at hne hafter hle
  simp only [loadCourse, progressFlags, hne, ne_eq, not_false_eq_true, true_and, hafter, hle]
  by_cases hg : r.gradeCode = .IP ∨ r.gradeCode = .I
  · by_cases ha : After r.year r.term year term
    · simp [hg, ha, hafter, hle]
    · simp [hg, ha, hle]
  · simp [hg]

/-- **C32.** A course never has both flags, and without a current term it has neither. -/
theorem C32_at_most_one_flag (current : Option String) (r : Row) (ov : List Override) (table : CreditTable) :
    let c := loadCourse current ov table r
    ¬ (c.isInProgressThisTerm = true ∧ c.isInProgressInFuture = true) ∧
    (current = none ∨ current = some "" → c.isInProgressThisTerm = false ∧ c.isInProgressInFuture = false) := by
  simp only [loadCourse, progressFlags]
  constructor
  · cases current with
    | none => simp
    | some now =>
      dsimp only
      split
      · split
        · simp
        · split <;> simp
      · simp
  · rintro (rfl | rfl) <;> simp

/-- in progress in the interim of 2020 with the fall of 2019 current: future -/
example : let r : Row := { clbid := "1", gradeCode := .IP, year := 2019, term := "2" }
    (loadCourse (some "20191") [] [] r).isInProgressInFuture = true ∧ r.year ≤ 9999 ∧
      After 2019 "2" 2019 "1" := ⟨by decide +kernel, by decide, Or.inr ⟨rfl, by decide⟩⟩

/-! ### C33: overrides -/

/-- an override of the credits of the class -/
def Override.isCredits (clbid : String) : Override → Bool
  | .credits c _ => c == clbid
  | _ => false

/-- an override of the subject of the class -/
def Override.isSubject (clbid : String) : Override → Bool
  | .subject c _ => c == clbid
  | _ => false

theorem credits_fold (clbid : String) (l : List Override) (init : Option Rat)
    (h : ∀ o ∈ l, o.isCredits clbid = false) :
    l.foldl (creditsStep clbid) init = init := by
  induction l generalizing init with
  | nil => rfl
  | cons o l ih =>
    have ho := h o List.mem_cons_self
    rw [List.foldl_cons, ih _ (fun p hp => h p (List.mem_cons_of_mem _ hp))]
    cases o with
    | credits c r => simp only [Override.isCredits] at ho; simp [creditsStep, ho]
    | subject c s => rfl

theorem subject_fold (clbid : String) (l : List Override) (init : Option String)
    (h : ∀ o ∈ l, o.isSubject clbid = false) :
    l.foldl (subjectStep clbid) init = init := by
  induction l generalizing init with
  | nil => rfl
  | cons o l ih =>
    have ho := h o List.mem_cons_self
    rw [List.foldl_cons, ih _ (fun p hp => h p (List.mem_cons_of_mem _ hp))]
    cases o with
    | subject c r => simp only [Override.isSubject] at ho; simp [subjectStep, ho]
    | credits c s => rfl

/-- **C33.** Of the credit overrides of a class the last one listed decides, whatever the
area's table of credits by course name says. -/
theorem C33_last_credit_override_wins (current : Option String) (table : CreditTable) (r : Row)
    (pre post : List Override) (q : Rat) (hpost : ∀ o ∈ post, o.isCredits r.clbid = false) :
    (loadCourse current (pre ++ .credits r.clbid q :: post) table r).credits = q := by
  simp only [loadCourse, rowCredits, creditsOverride, List.foldl_append, List.foldl_cons]
  rw [credits_fold _ _ _ hpost]
  simp [creditsStep]

/-- **C33.** Without a credit override of its class, a course gets the credits its name
has in the area's table, if it is listed there. -/
theorem C33_credits_by_name (current : Option String) (table : CreditTable) (r : Row) (ov : List Override)
    (q : Rat) (hov : ∀ o ∈ ov, o.isCredits r.clbid = false) (hnd : (table.map (·.1)).Nodup)
    (hq : ("name=" ++ r.name, q) ∈ table) :
    (loadCourse current ov table r).credits = q := by
  simp only [loadCourse, rowCredits, creditsOverride]
  rw [credits_fold _ _ _ hov]
  have : table.lookup ("name=" ++ r.name) = some q := by
    clear hov
    induction table with
    | nil => exact absurd hq (by simp)
    | cons e t ih =>
      obtain ⟨k, v⟩ := e
      rcases List.mem_cons.mp hq with h | h
      · obtain ⟨rfl, rfl⟩ := Prod.mk.inj h
        simp
      · have hk : ("name=" ++ r.name) ≠ k := by
          rintro rfl
          exact (List.nodup_cons.mp hnd).1 (List.mem_map.mpr ⟨_, h, rfl⟩)
        rw [List.lookup_cons, beq_false_of_ne hk]
        exact ih (List.nodup_cons.mp hnd).2 h
  rw [this]

/-- **C33.** Of the subject overrides of a class the last one listed decides; the
course's identity is formed with it. -/
theorem C33_last_subject_override_wins (current : Option String) (table : CreditTable) (r : Row)
    (pre post : List Override) (s : String) (hpost : ∀ o ∈ post, o.isSubject r.clbid = false) :
    let c := loadCourse current (pre ++ .subject r.clbid s :: post) table r
    c.subject = s ∧ c.identity = s ++ " " ++ r.number ++ r.subType.suffix := by
  simp only [loadCourse, rowSubject, subjectOverride, List.foldl_append, List.foldl_cons]
  rw [subject_fold _ _ _ hpost]
  simp [subjectStep]

/-- **C33.** A course that no override names, and whose name is not in the area's table,
is as recorded: the same course as without any overrides, with the recorded credits and
subject. -/
theorem C33_others_unchanged (current : Option String) (table : CreditTable) (r : Row) (ov : List Override)
    (hov : ∀ o ∈ ov, o.isCredits r.clbid = false ∧ o.isSubject r.clbid = false)
    (htable : ∀ e ∈ table, e.1 ≠ "name=" ++ r.name) :
    loadCourse current ov table r = loadCourse current [] [] r ∧
    (loadCourse current ov table r).credits = r.credits ∧ (loadCourse current ov table r).subject = r.subject := by
  have hl : table.lookup ("name=" ++ r.name) = none := by
    rw [List.lookup_eq_none_iff]
    intro e he
    simpa using fun h => htable e he h.symm
  have hc : rowCredits ov table r = r.credits := by
    simp only [rowCredits, creditsOverride]
    rw [credits_fold _ _ _ (fun o ho => (hov o ho).1), hl]
  have hs : rowSubject ov r = r.subject := by
    simp only [rowSubject, subjectOverride]
    rw [subject_fold _ _ _ (fun o ho => (hov o ho).2)]
  refine ⟨?_, hc, hs⟩
  simp only [loadCourse, hc, hs]
  rfl

/-- two credit overrides and a table entry: the last override decides -/
example : (loadCourse none [.credits "7" 0, .subject "7" "MATH", .credits "7" (1/2)] [("name=Choir", 2)]
    { clbid := "7", name := "Choir", subject := "MUSIC", number := "1" }).credits = 1/2 :=
  C33_last_credit_override_wins none _ { clbid := "7", name := "Choir", subject := "MUSIC", number := "1" }
    [.credits "7" 0, .subject "7" "MATH"] [] (1/2) (by simp)

/-! ### C31: the grade point average -/

/-- points and credits of the courses that count for the GPA -/
def gpaPointsOf (cs : List Course) : Rat := ((cs.filter (·.isInGpa)).map (·.gpaPoints)).sum
def gpaCreditsOf (cs : List Course) : Rat := ((cs.filter (·.isInGpa)).map (·.credits)).sum

/-- **C31.** The GPA depends only on the courses that count for it, in any order. -/
theorem C31_order_does_not_matter (cs ds : List Course)
    (h : (cs.filter (·.isInGpa)).Perm (ds.filter (·.isInGpa))) : gradePointAverage cs = gradePointAverage ds := by
  unfold gradePointAverage gpaItems
  rw [perm_sum_rat (h.map (·.gpaPoints)), perm_sum_rat (h.map (·.credits))]

theorem truncInt_of_nonneg {q : Rat} (h : 0 ≤ q) : truncInt q = ⌊q⌋ := by
  unfold truncInt
  rw [Rat.floor_def', Int.tdiv_eq_ediv_of_nonneg (Rat.num_nonneg.mpr h)]

theorem truncate2_spec {q : Rat} (h : 0 ≤ q) :
    (∃ n : Int, truncate2 q * 100 = n) ∧ truncate2 q ≤ q ∧ q < truncate2 q + 1 / 100 ∧ 0 ≤ truncate2 q := by
  unfold truncate2
  rw [truncInt_of_nonneg (by linarith)]
  have h1 := Int.floor_le (q * 100)
  have h2 := Int.lt_floor_add_one (q * 100)
  have h3 : (0 : Int) ≤ ⌊q * 100⌋ := Int.floor_nonneg.mpr (by linarith)
  have h3' : (0 : Rat) ≤ (⌊q * 100⌋ : Int) := by exact_mod_cast h3
  refine ⟨⟨⌊q * 100⌋, by field_simp⟩, by linarith, by linarith, by linarith⟩

/-- **C31.** The GPA is 0 if the courses carry no credits. -/
theorem C31_no_credits (cs : List Course) (h : gpaCreditsOf cs = 0) : gradePointAverage cs = 0 := by
  unfold gradePointAverage gpaItems
  unfold gpaCreditsOf at h
  simp [h]

/-- **C31.** Otherwise it is the quotient of the points by the credits, cut to two
decimals: a whole number of hundredths, at most the quotient, and less than a hundredth
below it. -/
theorem C31_cut_to_two_decimals (cs : List Course) (h : gpaCreditsOf cs ≠ 0)
    (hpos : 0 ≤ gpaPointsOf cs / gpaCreditsOf cs) :
    (∃ n : Int, gradePointAverage cs * 100 = n) ∧ gradePointAverage cs ≤ gpaPointsOf cs / gpaCreditsOf cs ∧
    gpaPointsOf cs / gpaCreditsOf cs < gradePointAverage cs + 1 / 100 := by
  have : gradePointAverage cs = truncate2 (gpaPointsOf cs / gpaCreditsOf cs) := by
    unfold gradePointAverage gpaItems
    unfold gpaCreditsOf at h
    simp only [h, if_false]
    rfl
  rw [this]
  obtain ⟨h1, h2, h3, _⟩ := truncate2_spec hpos
  exact ⟨h1, h2, h3⟩

theorem weighted_le (cs : List Course) (M : Rat) (hcr : ∀ c ∈ cs, 0 ≤ c.credits)
    (hpt : ∀ c ∈ cs, c.gpaPoints ≤ c.gradePoints * c.credits) (hM : ∀ c ∈ cs, c.gradePoints ≤ M) :
    (cs.map (·.gpaPoints)).sum ≤ M * (cs.map (·.credits)).sum := by
  induction cs with
  | nil => simp
  | cons c cs ih =>
    have := ih (fun d hd => hcr d (List.mem_cons_of_mem _ hd)) (fun d hd => hpt d (List.mem_cons_of_mem _ hd))
      (fun d hd => hM d (List.mem_cons_of_mem _ hd))
    have h1 := hpt c List.mem_cons_self
    have h2 := mul_le_mul_of_nonneg_right (hM c List.mem_cons_self) (hcr c List.mem_cons_self)
    simp only [List.map_cons, List.sum_cons]
    linarith

theorem weighted_ge (cs : List Course) (m : Rat) (hcr : ∀ c ∈ cs, 0 ≤ c.credits)
    (hpt : ∀ c ∈ cs, c.gpaPoints = c.gradePoints * c.credits) (hm : ∀ c ∈ cs, m ≤ c.gradePoints) :
    m * (cs.map (·.credits)).sum ≤ (cs.map (·.gpaPoints)).sum := by
  induction cs with
  | nil => simp
  | cons c cs ih =>
    have := ih (fun d hd => hcr d (List.mem_cons_of_mem _ hd)) (fun d hd => hpt d (List.mem_cons_of_mem _ hd))
      (fun d hd => hm d (List.mem_cons_of_mem _ hd))
    have h1 := hpt c List.mem_cons_self
    have h2 := mul_le_mul_of_nonneg_right (hm c List.mem_cons_self) (hcr c List.mem_cons_self)
    simp only [List.map_cons, List.sum_cons]
    linarith

theorem sum_credits_nonneg (cs : List Course) (h : ∀ c ∈ cs, 0 ≤ c.credits) : 0 ≤ (cs.map (·.credits)).sum := by
  induction cs with
  | nil => simp
  | cons c cs ih =>
    have := ih (fun d hd => h d (List.mem_cons_of_mem _ hd))
    have := h c List.mem_cons_self
    simp only [List.map_cons, List.sum_cons]
    linarith

theorem sum_points_nonneg (cs : List Course) (h : ∀ c ∈ cs, 0 ≤ c.gpaPoints) : 0 ≤ (cs.map (·.gpaPoints)).sum := by
  induction cs with
  | nil => simp
  | cons c cs ih =>
    have := ih (fun d hd => h d (List.mem_cons_of_mem _ hd))
    have := h c List.mem_cons_self
    simp only [List.map_cons, List.sum_cons]
    linarith

/-- a row with nonnegative credits and grade points, after overrides -/
def Row.NonNeg (ov : List Override) (table : CreditTable) (r : Row) : Prop :=
  0 ≤ rowCredits ov table r ∧ 0 ≤ r.gradePoints

/-- **C31.** The GPA of loaded courses is never above the greatest grade among those that
count. -/
theorem C31_at_most_greatest_grade (current : Option String) (ov : List Override) (table : CreditTable)
    (rows : List Row) (hrows : ∀ r ∈ rows, r.NonNeg ov table) (M : Rat)
    (hM : ∀ r ∈ rows, r.flagGpa = true → r.gradePoints ≤ M) (h0 : 0 ≤ M) :
    gradePointAverage (rows.map (loadCourse current ov table)) ≤ M := by
  generalize hcs : (rows.map (loadCourse current ov table)).filter (·.isInGpa) = cs
  have hmem : ∀ c ∈ cs, ∃ r ∈ rows, loadCourse current ov table r = c ∧ r.flagGpa = true := by
    intro c hc
    rw [← hcs] at hc
    obtain ⟨hc, hg⟩ := List.mem_filter.mp hc
    obtain ⟨r, hr, rfl⟩ := List.mem_map.mp hc
    exact ⟨r, hr, rfl, hg⟩
  have hcr : ∀ c ∈ cs, 0 ≤ c.credits := by
    intro c hc
    obtain ⟨r, hr, rfl, _⟩ := hmem c hc
    exact (hrows r hr).1
  have hpt : ∀ c ∈ cs, c.gpaPoints ≤ c.gradePoints * c.credits ∧ 0 ≤ c.gpaPoints := by
    intro c hc
    obtain ⟨r, hr, rfl, _⟩ := hmem c hc
    have := truncate2_spec (mul_nonneg (hrows r hr).2 (hrows r hr).1)
    exact ⟨this.2.1, this.2.2.2⟩
  have hMc : ∀ c ∈ cs, c.gradePoints ≤ M := by
    intro c hc
    obtain ⟨r, hr, rfl, hg⟩ := hmem c hc
    exact hM r hr hg
  have hC : gpaCreditsOf (rows.map (loadCourse current ov table)) = (cs.map (·.credits)).sum := by
    unfold gpaCreditsOf; rw [hcs]
  have hP : gpaPointsOf (rows.map (loadCourse current ov table)) = (cs.map (·.gpaPoints)).sum := by
    unfold gpaPointsOf; rw [hcs]
  by_cases hz : gpaCreditsOf (rows.map (loadCourse current ov table)) = 0
  · rw [C31_no_credits _ hz]; exact h0
  · have hpos : 0 < (cs.map (·.credits)).sum := lt_of_le_of_ne (sum_credits_nonneg cs hcr) (by rw [← hC]; exact Ne.symm hz)
    have hq : 0 ≤ gpaPointsOf (rows.map (loadCourse current ov table)) /
        gpaCreditsOf (rows.map (loadCourse current ov table)) := by
      rw [hC, hP]
      exact div_nonneg (sum_points_nonneg cs (fun c hc => (hpt c hc).2)) (le_of_lt hpos)
    refine le_trans (C31_cut_to_two_decimals _ hz hq).2.1 ?_
    rw [hC, hP, div_le_iff₀ hpos]
    exact weighted_le cs M hcr (fun c hc => (hpt c hc).1) hMc

/-- **C31**, the lower bound: the GPA is at least any number of whole hundredths that is
not above a counting grade -- provided no course's own points had to be cut (they are, for
quarter courses; then this is false, see `C31_lower_bound_refuted`). -/
theorem C31_at_least_least_grade_partial (cs : List Course) (m : Rat) (hm0 : 0 ≤ m) (n : Int) (hn : m * 100 = n)
    (hcr : ∀ c ∈ cs, c.isInGpa = true → 0 ≤ c.credits)
    (hpt : ∀ c ∈ cs, c.isInGpa = true → c.gpaPoints = c.gradePoints * c.credits)
    (hm : ∀ c ∈ cs, c.isInGpa = true → m ≤ c.gradePoints) (hz : gpaCreditsOf cs ≠ 0) :
    m ≤ gradePointAverage cs := by
  have hf : ∀ c ∈ cs.filter (·.isInGpa), c ∈ cs ∧ c.isInGpa = true := fun c hc => List.mem_filter.mp hc
  have hpos : 0 < gpaCreditsOf cs :=
    lt_of_le_of_ne (sum_credits_nonneg _ (fun c hc => hcr c (hf c hc).1 (hf c hc).2)) (Ne.symm hz)
  have hge : m * gpaCreditsOf cs ≤ gpaPointsOf cs :=
    weighted_ge _ m (fun c hc => hcr c (hf c hc).1 (hf c hc).2) (fun c hc => hpt c (hf c hc).1 (hf c hc).2)
      (fun c hc => hm c (hf c hc).1 (hf c hc).2)
  have hq : m ≤ gpaPointsOf cs / gpaCreditsOf cs := (le_div_iff₀ hpos).mpr hge
  obtain ⟨⟨k, hk⟩, _, h3⟩ := C31_cut_to_two_decimals cs hz (le_trans hm0 hq)
  have hlt : (n : Rat) < (k : Rat) + 1 := by rw [← hn, ← hk]; linarith
  have : n ≤ k := by
    have : n < k + 1 := by exact_mod_cast hlt
    omega
  have : (n : Rat) ≤ (k : Rat) := by exact_mod_cast this
  rw [← hn, ← hk] at this
  linarith

/-- One quarter course with an A-: its 0.925 points are cut to 0.92, so the GPA is 3.68
although the only grade is 3.70. -/
theorem C31_lower_bound_refuted :
    let row : Row := { clbid := "1", gradePoints := 37 / 10, credits := 1 / 4, gradeCode := .Aminus }
    row.NonNeg [] [] ∧ gradePointAverage [loadCourse none [] [] row] = 368 / 100 ∧
      gradePointAverage [loadCourse none [] [] row] < row.gradePoints := by
  refine ⟨⟨?_, ?_⟩, ?_, ?_⟩ <;> decide +kernel

/-- an A- and a B of one credit each: 3.35 -/
example : gradePointAverage [{ clbid := "1", gradePoints := 37 / 10, gpaPoints := 37 / 10 }, { clbid := "2" }] = 335 / 100 := by
  decide +kernel

end Dp
