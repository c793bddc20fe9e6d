import Verif.Props.BatchRun

/-
The index of students, and a batch that reads it.
-/
namespace Dp

/-- each file is named after its student, and no two have the same name -/
structure WellNamed (dir : List (String × IndexFile)) : Prop where
  named : ∀ f ∈ dir, f.1 = f.2.stnum
  once : (dir.map (·.1)).Nodup

/-- what the files say: a row for each area of each student -/
def DirSays (dir : List (String × IndexFile)) (r : IndexRow) (n : Nat) : Prop :=
  n = (dir.map (fun f => (f.2.areas.filter (fun a => r = ⟨f.2.stnum, a.1, a.2.1, a.2.2⟩)).length)).sum

/-- the rows of the files -/
def dirRows (dir : List (String × IndexFile)) : List IndexRow := dir.flatMap (fun f => f.2.rows)

theorem mem_dirRows {dir : List (String × IndexFile)} {r : IndexRow} (h : r ∈ dirRows dir) :
    ∃ f ∈ dir, r ∈ f.2.rows ∧ r.stnum = f.2.stnum := by
  obtain ⟨f, hf, hr⟩ := List.mem_flatMap.1 h
  obtain ⟨a, -, rfl⟩ := List.mem_map.1 hr
  exact ⟨f, hf, hr, rfl⟩

theorem count_dirRows (dir : List (String × IndexFile)) (r : IndexRow) : DirSays dir r ((dirRows dir).count r) := by
  unfold DirSays dirRows
  rw [List.count_flatMap]
  congr 1
  apply List.map_congr_left
  intro f _
  simp only [Function.comp]
  unfold IndexFile.rows
  rw [List.count_eq_countP, List.countP_map, List.countP_eq_length_filter]
  congr 1
  apply List.filter_congr
  intro a _
  rw [Bool.eq_iff_iff, Function.comp, beq_iff_eq, decide_eq_true_eq]
  exact eq_comm

theorem named_inj {dir : List (String × IndexFile)} (h : (dir.map (·.1)).Nodup) {f g : String × IndexFile} (hf : f ∈ dir)
    (hg : g ∈ dir) (e : f.1 = g.1) : f = g := by
  exact List.inj_on_of_nodup_map h hf hg e

/-- a run on files of which those indexed before are unchanged -/
theorem indexRun_perm {table : List IndexRow} {d d' : List (String × IndexFile)} (ht : table.Perm (dirRows d)) (hd : WellNamed d)
    (hd' : WellNamed d') (hsub : ∀ f ∈ d, f ∈ d') : (indexRun table d').Perm (dirRows d') := by
  have hknown : ∀ f ∈ d', (table.map (·.stnum)).contains f.1 = true ↔ f ∈ d ∧ f.2.areas ≠ [] := by
    intro f hf
    rw [List.contains_iff_mem, List.mem_map]
    constructor
    · rintro ⟨r, hr, he⟩
      obtain ⟨g, hg, hrg, hs⟩ := mem_dirRows (ht.mem_iff.1 hr)
      have : g = f := named_inj hd'.once (hsub g hg) hf (by rw [hd.named g hg, ← hs, he])
      subst this
      refine ⟨hg, ?_⟩
      intro hnil
      unfold IndexFile.rows at hrg
      rw [hnil] at hrg
      cases hrg
    · rintro ⟨h1, h2⟩
      obtain ⟨a, ha⟩ := List.exists_mem_of_ne_nil _ h2
      refine ⟨⟨f.2.stnum, a.1, a.2.1, a.2.2⟩, ht.mem_iff.2 (List.mem_flatMap.2 ⟨f, h1, List.mem_map.2 ⟨a, ha, rfl⟩⟩), ?_⟩
      exact (hd'.named f hf).symm
  have hnd : d.Nodup := hd.once.of_map _
  have hnd' : d'.Nodup := hd'.once.of_map _
  -- the files known are those of the earlier ones that have rows
  have h1 : (d'.filter (fun f => (table.map (·.stnum)).contains f.1)).Perm (d.filter (fun f => decide (f.2.areas ≠ []))) := by
    rw [List.perm_ext_iff_of_nodup (hnd'.filter _) (hnd.filter _)]
    intro f
    rw [List.mem_filter, List.mem_filter, decide_eq_true_eq]
    constructor
    · rintro ⟨hf, h⟩
      exact (hknown f hf).1 h
    · rintro ⟨hf, h⟩
      exact ⟨hsub f hf, (hknown f (hsub f hf)).2 ⟨hf, h⟩⟩
  have h2 : dirRows (d.filter (fun f => decide (f.2.areas ≠ []))) = dirRows d := by
    unfold dirRows
    clear hd ht hsub hknown hnd h1
    induction d with
    | nil => rfl
    | cons f d ih =>
      by_cases hf : f.2.areas ≠ []
      · rw [List.filter_cons_of_pos (by simpa using hf), List.flatMap_cons, List.flatMap_cons, ih]
      · rw [List.filter_cons_of_neg (by simpa using hf), List.flatMap_cons, ih]
        have : f.2.rows = [] := by
          unfold IndexFile.rows
          rw [not_not.1 hf]
          rfl
        rw [this, List.nil_append]
  unfold indexRun toIndex
  refine List.Perm.trans (ht.append_right _) ?_
  rw [← h2]
  refine List.Perm.trans ((h1.symm.flatMap_right _).append_right _) ?_
  rw [← List.flatMap_append]
  exact (List.filter_append_perm _ _).flatMap_right _

/-- the files as they are at each run: those there are stay as they are, and others come -/
inductive Grows : List (List (String × IndexFile)) → List (String × IndexFile) → Prop
  | one {d : List (String × IndexFile)} : WellNamed d → Grows [d] d
  | more {ds : List (List (String × IndexFile))} {d d' : List (String × IndexFile)} : Grows ds d → WellNamed d' → (∀ f ∈ d, f ∈ d') →
      Grows (ds ++ [d']) d'

theorem indexRuns_concat (table : List IndexRow) (ds : List (List (String × IndexFile))) (d : List (String × IndexFile)) :
    indexRuns table (ds ++ [d]) = indexRun (indexRuns table ds) d := by
  induction ds generalizing table with
  | nil => rfl
  | cons e ds ih => exact ih _

theorem grows_perm {ds : List (List (String × IndexFile))} {d : List (String × IndexFile)} (h : Grows ds d) :
    WellNamed d ∧ (indexRuns [] ds).Perm (dirRows d) := by
  induction h with
  | one hd => exact ⟨hd, indexRun_perm (d := []) (.refl _) ⟨by simp, by simp⟩ hd (by simp)⟩
  | more _ hd' hsub ih =>
    refine ⟨hd', ?_⟩
    rw [indexRuns_concat]
    exact indexRun_perm ih.2 ih.1 hd' hsub

/-- **C102, partial.** After any number of runs, between which files are added but none is changed, the index has each area of each
student as often as the files have it.  Missing: a file that is changed (`C102_changed_file_refuted`), and a file that is not named
after its student (`C102_other_name_refuted`). -/
theorem C102_index_is_current_partial {ds : List (List (String × IndexFile))} {d : List (String × IndexFile)} (h : Grows ds d)
    (r : IndexRow) : DirSays d r ((indexRuns [] ds).count r) := by
  rw [(grows_perm h).2.count_eq]
  exact count_dirRows d r

/-- A file that is changed after it was indexed: the student has given up an area for another one, and the index still lists the
area given up, and not the other. -/
theorem C102_changed_file_refuted :
    indexRuns [] [[("100", ⟨"100", [("2018", "741", [])]⟩)], [("100", ⟨"100", [("2018", "140", [])]⟩)]] = [⟨"100", "2018", "741", []⟩] := by
  decide

/-- A file that is not named after its student is indexed again on every run. -/
theorem C102_other_name_refuted : indexRuns [] (List.replicate 3 [("copy", ⟨"100", [("2018", "741", [])]⟩)]) =
    List.replicate 3 ⟨"100", "2018", "741", []⟩ := by
  decide

/-! ### A batch that reads the index -/

/-- the year that the batch reads from a label is that of the catalog -/
theorem C102_catalog_of_the_index {catalog : String} (h : '-' ∉ catalog.toList) :
    catalogNumber (indexLabel catalog) = parseInt catalog.toList := by
  unfold catalogNumber indexLabel
  congr 1
  rw [String.toList_append, String.toList_append, List.append_assoc, List.takeWhile_append_of_pos]
  · simp
  · intro c hc
    simp only [bne_iff_ne, ne_eq]
    rintro rfl
    exact h hc

theorem progress_line {n : Nat} (hn : n ≠ 0) : ∃ line ∈ indexProgress n, ∀ {τ : Type} (o : Orders) (fs : BatchFiles)
    (render : List String → AreaResult → Except Err τ) (t : τ), ¬ Reported o fs render line t := by
  unfold indexProgress
  rw [if_neg hn]
  refine ⟨_, List.mem_singleton.2 rfl, ?_⟩
  rintro τ o fs render t ⟨msgs, r, i, k, ⟨s, c, d, y, f, raw, he, h1, -⟩, -⟩
  have hlen := congrArg List.length he
  obtain ⟨m, rfl⟩ := Nat.exists_eq_succ_of_ne_zero hn
  cases m with
  | zero =>
    have : (["indexing", "0/1", "items"] : List String) = [s, c, d] := he
    cases this
    rw [show catalogNumber "0/1" = none from by decide] at h1
    cases h1
  | succ m =>
    rw [List.length_flatMap, List.range_succ, List.map_append, List.sum_append, List.range_succ_eq_map, List.map_cons, List.sum_cons] at hlen
    have hlast : ([m + 1].map (fun i => (if i % 100 = 0 then ["indexing", toString i ++ "/" ++ toString (m + 1 + 1), "items"]
      else if i + 1 = m + 1 + 1 then ["indexing", toString (i + 1) ++ "/" ++ toString (m + 1 + 1), "items"] else []).length)).sum = 3 := by
      simp only [List.map_cons, List.map_nil, List.sum_cons, List.sum_nil]
      split <;> simp
    simp only [Nat.succ_eq_add_one] at hlen
    rw [hlast] at hlen
    simp at hlen

/-- What a run of the index prints cannot be read by a batch if the run had any file to index: a batch that reads it does not end
well, whatever the files are. -/
theorem C102_first_run_refuted {τ : Type} (o : Orders) (fs : BatchFiles) (render : List String → AreaResult → Except Err τ) (n : Nat)
    (query : IndexRow → Bool) (table : List IndexRow) (dir : List (String × IndexFile)) (h : toIndex table dir ≠ []) :
    (batchProgram o fs render n (indexOutput query table dir)).2 ≠ .code 0 := by
  intro hz
  obtain ⟨-, -, hall⟩ := (C101_exit_code_zero o fs render n _).1 hz
  obtain ⟨line, hl, hno⟩ := progress_line (n := (toIndex table dir).length) (by simpa using h)
  obtain ⟨t, ht⟩ := hall line (List.mem_append_left _ hl)
  exact hno o fs render t ht

/-- **C102, partial.** A batch that reads what a run of the index prints, and ends well, reports one audit for each area of each
student that is asked for, in the catalog that the file gives for it.  Missing: as for `C102_index_is_current_partial`, and the
first run (`C102_first_run_refuted`). -/
theorem C102_batch_of_the_index_partial {τ : Type} (o : Orders) (fs : BatchFiles) (render : List String → AreaResult → Except Err τ)
    (query : IndexRow → Bool) {ds : List (List (String × IndexFile))} {d : List (String × IndexFile)} (h : Grows ds d)
    (hz : (batchProgram o fs render 1 (indexOutput query (indexRuns [] ds) d)).2 = .code 0)
    {f : String × IndexFile} (hf : f ∈ d) {catalog code : String} {rest : List String} (ha : (catalog, code, rest) ∈ f.2.areas)
    (hq : query ⟨f.2.stnum, catalog, code, rest⟩ = true) (hc : '-' ∉ catalog.toList) :
    ∃ year folder raw r i k t, parseInt catalog.toList = some year ∧ findArea fs.areas year code = some folder ∧
      fs.students f.2.stnum = some raw ∧ (runFiles o {} raw (fs.text folder code)).items.getLast? = some (.result r i k k) ∧
      render [f.2.stnum, indexLabel catalog, code] r = .ok t ∧
      ((batchProgram o fs render 1 (indexOutput query (indexRuns [] ds) d)).1.filter
        (fun out => out.1 = [f.2.stnum, indexLabel catalog, code])).map (·.2) = [t] := by
  have hrow : (⟨f.2.stnum, catalog, code, rest⟩ : IndexRow) ∈ indexRun (indexRuns [] ds) d := by
    obtain ⟨hd, hp⟩ := grows_perm h
    refine (indexRun_perm hp hd hd (fun _ h => h)).mem_iff.2 ?_
    exact List.mem_flatMap.2 ⟨f, hf, List.mem_map.2 ⟨_, ha, rfl⟩⟩
  have hl : [f.2.stnum, indexLabel catalog, code] ∈ indexOutput query (indexRuns [] ds) d := by
    refine List.mem_append_right _ (List.mem_map.2 ⟨_, List.mem_filter.2 ⟨hrow, hq⟩, rfl⟩)
  obtain ⟨t, ⟨msgs, r, i, k, ⟨s, c, e, y, fo, raw, he, h1, h2, h3, rfl⟩, -, h4, h5⟩, h6⟩ :=
    C101_each_line_is_reported_partial o fs render 1 _ hz _ hl
  cases he
  rw [C102_catalog_of_the_index hc] at h1
  exact ⟨y, fo, raw, r, i, k, t, h1, h2, h3, h4, h5, h6⟩

/-! ### A non-trivial case -/

namespace IndexCase
def first : List (String × IndexFile) := [("100", ⟨"100", [("2018", "741", ["Major"]), ("2018", "140", ["Degree"])]⟩)]
def second : List (String × IndexFile) := ("200", ⟨"200", [("2019", "741", ["Major"])]⟩) :: first
def majors (r : IndexRow) : Bool := r.rest == ["Major"]
end IndexCase

open IndexCase BatchCase in
/-- the hypotheses of `C102_index_is_current_partial` and `C102_batch_of_the_index_partial`: two runs, then a third one -/
example : Grows [first, second] second ∧
    batchProgram .insertion files render 1 (indexOutput majors (indexRuns [] [first, second]) second) =
      ([(["100", "2018-19", "741"], true), (["200", "2019-20", "741"], false)], .code 0) := by
  refine ⟨?_, by decide +kernel⟩
  exact .more (ds := [first]) (.one ⟨by decide, by decide⟩) ⟨by decide, by decide⟩ (by decide)

open IndexCase BatchCase in
/-- the first run, read by a batch: the audits are reported, and then the line about the progress raises -/
example : toIndex [] second ≠ [] ∧ batchProgram .insertion files render 1 (indexOutput majors [] second) =
    ([(["100", "2018-19", "741"], true), (["200", "2019-20", "741"], false)], .raised .valueError) := by
  refine ⟨?_, ?_⟩ <;> decide +kernel

end Dp
