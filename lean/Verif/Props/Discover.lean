import Verif.Model.Discover
import Verif.Props.LoadRun

/-
The index of courses and attributes that areas refer to.
-/
namespace Dp

/-! ### The tables -/

/-- the tables refuse a row only if they have it -/
def OnlyRepeats {α : Type} (conflict : List α → α → Bool) : Prop := ∀ t r, conflict t r = true → r ∈ t

theorem mem_insertRefs {conflict : List CourseRef → CourseRef → Bool} (hc : OnlyRepeats conflict) :
    ∀ (refs table : List CourseRef) (r : CourseRef), r ∈ insertRefs conflict table refs ↔ r ∈ table ∨ r ∈ refs := by
  intro refs
  induction refs with
  | nil => intro table r; simp [insertRefs]
  | cons x xs ih =>
    intro table r
    simp only [insertRefs]
    rw [ih]
    split
    · rename_i h
      have := hc _ _ h
      constructor
      · rintro (h' | h') <;> simp [h']
      · rintro (h' | h')
        · exact .inl h'
        · rcases List.mem_cons.1 h' with rfl | h'
          · exact .inl this
          · exact .inr h'
    · simp only [List.mem_append, List.mem_cons, List.not_mem_nil, or_false, or_assoc]

theorem mem_deleteRefs (refs : List CourseRef) : ∀ (fetched table : List CourseRef) (r : CourseRef),
    r ∈ deleteRefs refs table fetched ↔ r ∈ table ∧ ∀ row ∈ fetched, row ∉ refs → row.deletes r = false := by
  intro fetched
  induction fetched with
  | nil => intro table r; simp [deleteRefs]
  | cons x xs ih =>
    intro table r
    simp only [deleteRefs]
    rw [ih]
    split
    · rename_i h
      have hx : x ∈ refs := by simpa using h
      constructor
      · rintro ⟨h1, h2⟩
        exact ⟨h1, fun row hrow hn => by
          rcases List.mem_cons.1 hrow with rfl | hrow
          · exact absurd hx hn
          · exact h2 row hrow hn⟩
      · rintro ⟨h1, h2⟩
        exact ⟨h1, fun row hrow hn => h2 row (List.mem_cons_of_mem _ hrow) hn⟩
    · rename_i h
      have hx : x ∉ refs := by simpa using h
      simp only [List.mem_filter, Bool.not_eq_eq_eq_not, Bool.not_true]
      constructor
      · rintro ⟨⟨h1, h3⟩, h2⟩
        exact ⟨h1, fun row hrow hn => by
          rcases List.mem_cons.1 hrow with rfl | hrow
          · exact h3
          · exact h2 row hrow hn⟩
      · rintro ⟨h1, h2⟩
        exact ⟨⟨h1, h2 x (List.mem_cons_self) hx⟩, fun row hrow hn => h2 row (List.mem_cons_of_mem _ hrow) hn⟩

/-- a row as this program writes it: the course is a text, empty where the crsid is given -/
def CourseRef.Own (r : CourseRef) : Prop := ∃ c, r.course = some c

/-- what two rows have in common that one `DELETE` removes both -/
def CourseRef.Beside (a b : CourseRef) : Prop := a.code = b.code ∧ a.course = b.course

theorem deletes_own {a b : CourseRef} (ha : a.Own) : a.deletes b = true ↔ b.Beside a := by
  obtain ⟨c, hc⟩ := ha
  unfold CourseRef.deletes CourseRef.Beside
  rw [hc]
  simp

/-- **C98**, exactly: after a run on a table that only this program has written, a row is in the table if and only if
the run has found it and the table did not have a row beside it, of the same area and the same course text, that the
run has not found. -/
theorem C98_table_after_a_run (conflict : List CourseRef → CourseRef → Bool) (hc : OnlyRepeats conflict)
    (refs table : List CourseRef) (hrefs : ∀ r ∈ refs, r.Own) (htable : ∀ r ∈ table, r.Own) (r : CourseRef) :
    r ∈ syncCourses conflict refs table ↔
      r ∈ refs ∧ ∀ row ∈ table, row ∉ refs → ¬ r.Beside row := by
  unfold syncCourses
  simp only [mem_deleteRefs, mem_insertRefs hc]
  constructor
  · rintro ⟨h1, h2⟩
    have hr : r ∈ refs := by
      by_contra hn
      have := h2 r h1 hn
      have hown : r.Own := h1.elim (htable r) (hrefs r)
      rw [← Bool.not_eq_true] at this
      exact this ((deletes_own hown).2 ⟨rfl, rfl⟩)
    refine ⟨hr, fun row hrow hn hb => ?_⟩
    have := h2 row (.inl hrow) hn
    rw [(deletes_own (htable row hrow)).2 hb] at this
    cases this
  · rintro ⟨h1, h2⟩
    refine ⟨.inr h1, fun row hrow hn => ?_⟩
    rcases hrow with hrow | hrow
    · rw [← Bool.not_eq_true]
      intro h
      exact h2 row hrow hn ((deletes_own (htable row hrow)).1 h)
    · exact absurd hrow hn

theorem courseRef_own (code course : String) : (courseRef code course).Own := by
  unfold courseRef
  split <;> exact ⟨_, rfl⟩

theorem courseRefs_own {hidden : Path → Bool} {code : String} {a : Area} : ∀ r ∈ a.courseRefs hidden code, r.Own := by
  intro r hr
  obtain ⟨s, -, rfl⟩ := List.mem_map.1 hr
  exact courseRef_own _ _

/-- what `main` has found in its files is what is found in one of them, where its code has neither dash nor dot -/
theorem mem_discoverFiles {hidden : String → Path → Bool} : ∀ {files : List (String × String × Dict)}
    {cs : List CourseRef} {bs : List BucketRef}, discoverFiles hidden files = .ok (cs, bs) →
    (∀ r, r ∈ cs ↔ ∃ f ∈ files, ∃ a, '-' ∉ f.2.1.toList ∧ '.' ∉ f.2.1.toList ∧ discoverArea f.2.2 = .ok a ∧
      r ∈ a.courseRefs (hidden f.2.1) f.2.1) ∧
    (∀ b, b ∈ bs ↔ ∃ f ∈ files, ∃ a, '-' ∉ f.2.1.toList ∧ '.' ∉ f.2.1.toList ∧ discoverArea f.2.2 = .ok a ∧
      b ∈ a.bucketRefs f.1 f.2.1) := by
  intro files
  induction files with
  | nil =>
    intro cs bs h
    simp only [discoverFiles, Except.ok.injEq, Prod.mk.injEq] at h
    obtain ⟨rfl, rfl⟩ := h
    simp
  | cons f fs ih =>
    obtain ⟨catalog, code, spec⟩ := f
    intro cs bs h
    unfold discoverFiles at h
    split at h
    · rename_i hcode
      obtain ⟨h1, h2⟩ := ih h
      have hno : ¬ ('-' ∉ code.toList ∧ '.' ∉ code.toList) := by
        simp only [Bool.or_eq_true, List.contains_eq_mem, decide_eq_true_eq] at hcode
        rintro ⟨ha, hb⟩
        exact hcode.elim ha hb
      constructor
      · intro r
        rw [h1]
        constructor
        · rintro ⟨f, hf, rest⟩; exact ⟨f, List.mem_cons_of_mem _ hf, rest⟩
        · rintro ⟨f, hf, a, ha, hb, rest⟩
          rcases List.mem_cons.1 hf with rfl | hf
          · exact absurd ⟨ha, hb⟩ hno
          · exact ⟨f, hf, a, ha, hb, rest⟩
      · intro r
        rw [h2]
        constructor
        · rintro ⟨f, hf, rest⟩; exact ⟨f, List.mem_cons_of_mem _ hf, rest⟩
        · rintro ⟨f, hf, a, ha, hb, rest⟩
          rcases List.mem_cons.1 hf with rfl | hf
          · exact absurd ⟨ha, hb⟩ hno
          · exact ⟨f, hf, a, ha, hb, rest⟩
    · rename_i hcode
      have hcode' : '-' ∉ code.toList ∧ '.' ∉ code.toList := by
        simp only [Bool.or_eq_true, List.contains_eq_mem, decide_eq_true_eq, not_or] at hcode
        exact hcode
      split at h
      · cases h
      rename_i a ha
      split at h
      · cases h
      rename_i cs' bs' hrest
      simp only [Except.ok.injEq, Prod.mk.injEq] at h
      obtain ⟨rfl, rfl⟩ := h
      obtain ⟨h1, h2⟩ := ih hrest
      constructor
      · intro r
        rw [List.mem_append, h1]
        constructor
        · rintro (hr | ⟨f, hf, rest⟩)
          · exact ⟨_, List.mem_cons_self, a, hcode'.1, hcode'.2, ha, hr⟩
          · exact ⟨f, List.mem_cons_of_mem _ hf, rest⟩
        · rintro ⟨f, hf, a', h3, h4, h5, h6⟩
          rcases List.mem_cons.1 hf with rfl | hf
          · simp only [ha, Except.ok.injEq] at h5
            subst h5
            exact .inl h6
          · exact .inr ⟨f, hf, a', h3, h4, h5, h6⟩
      · intro r
        rw [List.mem_append, h2]
        constructor
        · rintro (hr | ⟨f, hf, rest⟩)
          · exact ⟨_, List.mem_cons_self, a, hcode'.1, hcode'.2, ha, hr⟩
          · exact ⟨f, List.mem_cons_of_mem _ hf, rest⟩
        · rintro ⟨f, hf, a', h3, h4, h5, h6⟩
          rcases List.mem_cons.1 hf with rfl | hf
          · simp only [ha, Except.ok.injEq] at h5
            subst h5
            exact .inl h6
          · exact .inr ⟨f, hf, a', h3, h4, h5, h6⟩

theorem discoverFiles_own {hidden : String → Path → Bool} {files : List (String × String × Dict)}
    {cs : List CourseRef} {bs : List BucketRef} (h : discoverFiles hidden files = .ok (cs, bs)) : ∀ r ∈ cs, r.Own := by
  intro r hr
  obtain ⟨f, -, a, -, -, -, h⟩ := ((mem_discoverFiles h).1 r).1 hr
  exact courseRefs_own r h

/-- what was written by earlier runs is written by this program -/
theorem syncCourses_own {conflict : List CourseRef → CourseRef → Bool} (hc : OnlyRepeats conflict)
    {refs table : List CourseRef} (hrefs : ∀ r ∈ refs, r.Own) (htable : ∀ r ∈ table, r.Own) :
    ∀ r ∈ syncCourses conflict refs table, r.Own :=
  fun r hr => hrefs r ((C98_table_after_a_run conflict hc refs table hrefs htable r).1 hr).1

theorem syncAll_append (conflict : List CourseRef → CourseRef → Bool) : ∀ (l1 l2 : List (List CourseRef))
    (t : List CourseRef), syncAll conflict (l1 ++ l2) t = syncAll conflict l2 (syncAll conflict l1 t) := by
  intro l1
  induction l1 with
  | nil => intro l2 t; rfl
  | cons r rs ih => intro l2 t; exact ih l2 _

theorem syncAll_own {conflict : List CourseRef → CourseRef → Bool} (hc : OnlyRepeats conflict) :
    ∀ (runs : List (List CourseRef)) (t : List CourseRef), (∀ refs ∈ runs, ∀ r ∈ refs, r.Own) → (∀ r ∈ t, r.Own) →
      ∀ r ∈ syncAll conflict runs t, r.Own := by
  intro runs
  induction runs with
  | nil => intro t _ ht; exact ht
  | cons x xs ih =>
    intro t h ht
    exact ih _ (fun refs hr => h refs (List.mem_cons_of_mem _ hr)) (syncCourses_own hc (h x List.mem_cons_self) ht)

/-- **C98**: after any number of runs on an empty table, whatever files each of them was given, the table has nothing
but what the last run has found in its files. -/
theorem C98_nothing_else (conflict : List CourseRef → CourseRef → Bool) (hc : OnlyRepeats conflict)
    (hidden : String → Path → Bool) (earlier : List (List (String × String × Dict))) (runs : List (List CourseRef))
    (hruns : List.Forall₂ (fun files refs => ∃ bs, discoverFiles hidden files = .ok (refs, bs)) earlier runs)
    (files : List (String × String × Dict)) (refs : List CourseRef) (bs : List BucketRef)
    (hlast : discoverFiles hidden files = .ok (refs, bs)) (r : CourseRef)
    (hr : r ∈ syncAll conflict (runs ++ [refs]) []) : r ∈ refs := by
  rw [syncAll_append] at hr
  have hown : ∀ refs ∈ runs, ∀ r ∈ refs, r.Own := by
    intro refs hrefs
    clear hr
    induction hruns with
    | nil => cases hrefs
    | cons h _ ih =>
      rcases List.mem_cons.1 hrefs with rfl | hrefs
      · obtain ⟨_, h⟩ := h; exact discoverFiles_own h
      · exact ih hrefs
  exact ((C98_table_after_a_run conflict hc refs _ (discoverFiles_own hlast)
    (syncAll_own hc runs [] hown (by simp)) r).1 hr).1

/-- two rows of one area whose course text is the same are the same, unless they stand for crsids -/
theorem beside_named {code s : String} {b : CourseRef} (hb : ∃ c s', b = courseRef c s') (hs : isDigits s = false) (hne : s ≠ "")
    (h : (courseRef code s).Beside b) : b = courseRef code s := by
  obtain ⟨c, s', rfl⟩ := hb
  unfold courseRef CourseRef.Beside at *
  rw [hs] at h ⊢
  simp only [Bool.false_eq_true, if_false] at h ⊢
  split at h
  · simp only [Option.some.injEq] at h
    exact absurd h.2 hne
  · rename_i h'
    simp only [Option.some.injEq] at h
    obtain ⟨rfl, rfl⟩ := h
    rw [if_neg h']

theorem discoverFiles_refs {hidden : String → Path → Bool} {files : List (String × String × Dict)}
    {cs : List CourseRef} {bs : List BucketRef} (h : discoverFiles hidden files = .ok (cs, bs)) :
    ∀ r ∈ cs, ∃ c s, r = courseRef c s := by
  intro r hr
  obtain ⟨f, -, a, -, -, -, h⟩ := ((mem_discoverFiles h).1 r).1 hr
  obtain ⟨s, -, rfl⟩ := List.mem_map.1 h
  exact ⟨_, s, rfl⟩

theorem syncAll_refs {conflict : List CourseRef → CourseRef → Bool} (hc : OnlyRepeats conflict)
    (P : CourseRef → Prop) : ∀ (runs : List (List CourseRef)) (t : List CourseRef),
    (∀ refs ∈ runs, ∀ r ∈ refs, r.Own ∧ P r) → (∀ r ∈ t, r.Own ∧ P r) → ∀ r ∈ syncAll conflict runs t, P r := by
  intro runs
  induction runs with
  | nil => intro t _ ht r hr; exact (ht r hr).2
  | cons x xs ih =>
    intro t h ht
    have hx := h x List.mem_cons_self
    refine ih _ (fun refs hr => h refs (List.mem_cons_of_mem _ hr)) (fun r hr => ?_)
    have := ((C98_table_after_a_run conflict hc x t (fun r hr => (hx r hr).1) (fun r hr => (ht r hr).1) r).1 hr).1
    exact hx r this

/-- **C98** (partial): after any number of runs on an empty table, a course that the last run has found by its name is
in the table; and so is one found by its crsid, if every row by crsid that an earlier run has found for the area is found
by the last one too.  Missing: areas that have dropped a crsid, for which it is false (`C98_dropped_crsid_refuted`). -/
theorem C98_everything_found_partial (conflict : List CourseRef → CourseRef → Bool) (hc : OnlyRepeats conflict)
    (hidden : String → Path → Bool) (earlier : List (List (String × String × Dict))) (runs : List (List CourseRef))
    (hruns : List.Forall₂ (fun files refs => ∃ bs, discoverFiles hidden files = .ok (refs, bs)) earlier runs)
    (files : List (String × String × Dict)) (refs : List CourseRef) (bs : List BucketRef)
    (hlast : discoverFiles hidden files = .ok (refs, bs)) (code s : String) (hr : courseRef code s ∈ refs)
    (hs : (isDigits s = false ∧ s ≠ "") ∨
      ∀ old ∈ runs, ∀ row ∈ old, row.code = code → row.course = some "" → row ∈ refs) :
    courseRef code s ∈ syncAll conflict (runs ++ [refs]) [] := by
  rw [syncAll_append]
  have hall : ∀ old ∈ runs, ∀ r ∈ old, r.Own ∧ ∃ c s, r = courseRef c s := by
    intro old hold
    clear hs
    induction hruns with
    | nil => cases hold
    | cons h _ ih =>
      rcases List.mem_cons.1 hold with rfl | hold
      · obtain ⟨_, h⟩ := h; exact fun r hr => ⟨discoverFiles_own h r hr, discoverFiles_refs h r hr⟩
      · exact ih hold
  have hown : ∀ r ∈ syncAll conflict runs [], r.Own :=
    syncAll_own hc runs [] (fun old hold r hr => (hall old hold r hr).1) (by simp)
  show _ ∈ syncCourses conflict refs (syncAll conflict runs [])
  rw [C98_table_after_a_run conflict hc refs _ (discoverFiles_own hlast) hown]
  refine ⟨hr, fun row hrow hn hb => hn ?_⟩
  have hshape := syncAll_refs hc (fun r => ∃ c s, r = courseRef c s) runs [] hall (by simp) row hrow
  have hnamed : isDigits s = false ∧ s ≠ "" → row ∈ refs := fun hs => by
    rw [beside_named hshape hs.1 hs.2 hb]
    exact hr
  rcases hs with hs | hs
  · exact hnamed hs
  · by_cases hd : isDigits s = false ∧ s ≠ ""
    · exact hnamed hd
    · have hex : ∃ old ∈ runs, row ∈ old := by
        have := syncAll_refs hc (fun r => r.Own ∧ ∃ old ∈ runs, r ∈ old) runs []
          (fun old hold r hr => ⟨(hall old hold r hr).1, (hall old hold r hr).1, old, hold, hr⟩) (by simp) row hrow
        exact this.2
      obtain ⟨old, hold, hmem⟩ := hex
      refine hs old hold row hmem ?_ ?_
      · rw [← hb.1]; unfold courseRef; split <;> rfl
      · rw [← hb.2]
        unfold courseRef
        split
        · rfl
        · rename_i h
          have : s = "" := by
            by_contra hne
            exact hd ⟨by simpa using h, hne⟩
          rw [this]

/-- the attributes: the same for the table of attributes, and without exception -/
theorem mem_insertBuckets {conflict : List BucketRef → BucketRef → Bool} (hc : OnlyRepeats conflict) :
    ∀ (refs table : List BucketRef) (r : BucketRef), r ∈ insertBuckets conflict table refs ↔ r ∈ table ∨ r ∈ refs := by
  intro refs
  induction refs with
  | nil => intro table r; simp [insertBuckets]
  | cons x xs ih =>
    intro table r
    simp only [insertBuckets]
    rw [ih]
    split
    · rename_i h
      have := hc _ _ h
      constructor
      · rintro (h' | h') <;> simp [h']
      · rintro (h' | h')
        · exact .inl h'
        · rcases List.mem_cons.1 h' with rfl | h'
          · exact .inl this
          · exact .inr h'
    · simp only [List.mem_append, List.mem_cons, List.not_mem_nil, or_false, or_assoc]

theorem mem_deleteBuckets (refs : List BucketRef) : ∀ (fetched table : List BucketRef) (r : BucketRef),
    r ∈ deleteBuckets refs table fetched ↔ r ∈ table ∧ (r ∈ fetched → r ∈ refs) := by
  intro fetched
  induction fetched with
  | nil => intro table r; simp [deleteBuckets]
  | cons x xs ih =>
    intro table r
    have hsame : (r.code == x.code && r.catalog == x.catalog && r.bucket == x.bucket) = decide (r = x) := by
      cases r; cases x
      rw [Bool.eq_iff_iff]
      simp [and_assoc]
    simp only [deleteBuckets]
    rw [ih]
    split
    · rename_i h
      have hx : x ∈ refs := by simpa using h
      constructor
      · rintro ⟨h1, h2⟩
        exact ⟨h1, fun h => (List.mem_cons.1 h).elim (fun h => h ▸ hx) h2⟩
      · rintro ⟨h1, h2⟩
        exact ⟨h1, fun h => h2 (List.mem_cons_of_mem _ h)⟩
    · rename_i h
      have hx : x ∉ refs := by simpa using h
      simp only [List.mem_filter]
      rw [hsame]
      constructor
      · rintro ⟨⟨h1, h3⟩, h2⟩
        have h3 : r ≠ x := by simpa using h3
        exact ⟨h1, fun h => (List.mem_cons.1 h).elim (fun h => absurd h h3) h2⟩
      · rintro ⟨h1, h2⟩
        have h3 : r ≠ x := fun h => hx (h ▸ h2 (h ▸ List.mem_cons_self))
        exact ⟨⟨h1, by simpa using h3⟩, fun h => h2 (List.mem_cons_of_mem _ h)⟩

/-- **C98** for attributes: after a run the table of attributes has exactly what the run has found in its files,
whatever it had before. -/
theorem C98_attributes (conflict : List BucketRef → BucketRef → Bool) (hc : OnlyRepeats conflict)
    (hidden : String → Path → Bool) (files : List (String × String × Dict)) (refs : List CourseRef) (bs : List BucketRef)
    (hlast : discoverFiles hidden files = .ok (refs, bs)) (table : List BucketRef) (b : BucketRef) :
    b ∈ syncBuckets conflict bs table ↔ ∃ f ∈ files, ∃ a, '-' ∉ f.2.1.toList ∧ '.' ∉ f.2.1.toList ∧
      discoverArea f.2.2 = .ok a ∧ b.code = f.2.1 ∧ b.catalog = f.1 ∧ b.bucket ∈ a.buckets := by
  unfold syncBuckets
  simp only [mem_deleteBuckets, mem_insertBuckets hc]
  have : ((b ∈ table ∨ b ∈ bs) ∧ (b ∈ table ∨ b ∈ bs → b ∈ bs)) ↔ b ∈ bs := by tauto
  rw [this, (mem_discoverFiles hlast).2]
  constructor
  · rintro ⟨f, hf, a, h1, h2, h3, h4⟩
    obtain ⟨k, hk, rfl⟩ := List.mem_map.1 h4
    exact ⟨f, hf, a, h1, h2, h3, rfl, rfl, hk⟩
  · rintro ⟨f, hf, a, h1, h2, h3, h4, h5, h6⟩
    exact ⟨f, hf, a, h1, h2, h3, List.mem_map.2 ⟨b.bucket, h6, by cases b; simp_all⟩⟩

/-- an area that asks for two classes by their numbers, and what is left of it after a revision -/
def numberedArea (ids : List String) : Dict :=
  [("name", .str "Physics"), ("type", .str "concentration"), ("code", .str "500"),
   ("result", .map [("all", .list (.map [("course", .str "PHYS 130")] :: ids.map (fun i => .map [("crsid", .str i)])))])]

/-- **C98**, refuted for crsids: after the area has dropped one of its two crsids, the run that finds the other one
deletes both, and the table lacks a course that the area asks for. -/
theorem C98_dropped_crsid_refuted : ∃ (first second : Dict) (refs refs' : List CourseRef),
    discoverFiles (fun _ _ => false) [("2019-20", "500", first)] = .ok (refs, []) ∧
    discoverFiles (fun _ _ => false) [("2019-20", "500", second)] = .ok (refs', []) ∧
    courseRef "500" "0000002" ∈ refs' ∧
    courseRef "500" "0000002" ∉ syncAll (fun t r => t.contains r) [refs, refs'] [] := by
  refine ⟨numberedArea ["0000001", "0000002"], numberedArea ["0000002"],
    [courseRef "500" "PHYS 130", courseRef "500" "0000001", courseRef "500" "0000002"],
    [courseRef "500" "PHYS 130", courseRef "500" "0000002"], ?_, ?_, ?_, ?_⟩
  · decide +kernel
  · decide +kernel
  · decide +kernel
  · decide +kernel

/-- A third run puts it back: the history of a table, run by run. -/
example : (let run (ids : List String) := ([courseRef "500" "PHYS 130"] ++ ids.map (courseRef "500"))
    (syncAll (fun t r => t.contains r) [run ["0000001", "0000002"]] [],
     syncAll (fun t r => t.contains r) [run ["0000001", "0000002"], run ["0000002"]] [],
     syncAll (fun t r => t.contains r) [run ["0000001", "0000002"], run ["0000002"], run ["0000002"]] [])) =
    ([⟨"500", some "PHYS 130", none⟩, ⟨"500", some "", some "0000001"⟩, ⟨"500", some "", some "0000002"⟩],
     [⟨"500", some "PHYS 130", none⟩],
     [⟨"500", some "PHYS 130", none⟩, ⟨"500", some "", some "0000002"⟩]) := by
  decide +kernel

/-- The hypotheses of C98 hold of this history; the constraint of the table is that of a primary key. -/
example : OnlyRepeats (fun (t : List CourseRef) r => t.contains r) := by
  intro t r h
  simpa using h

end Dp
