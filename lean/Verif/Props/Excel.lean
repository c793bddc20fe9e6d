import Verif.Model.Excel
import Verif.Props.Csv

/-
C118: the sheet for Excel.
-/
namespace Dp

/-- the row of a student has the cell `v` for the heading `k` (perhaps among others): the five first columns, and those of the result -/
def HasExcelCell (S : Shows) (header : String → String) (stnum : String) (r : AreaResult) (k : String) (v : SheetCell) : Prop :=
  (k = "Student" ∧ v = some stnum) ∨ (k = "GPA" ∧ v = some (S.number r.gpa)) ∨ (k = "Status" ∧ v = some r.status.text) ∨
  (k = "Classification" ∧ v = some "???") ∨ (k = "Ant. Grad. Date" ∧ v = some "May 2000") ∨
  ∃ ks k', Column header r.result ks k' v ∧ k = headingText ks k'

theorem AreaResult.excel_cells {S : Shows} {header : String → String} {stnum : String} {r : AreaResult} {cols : List (String × SheetCell)}
    (h : r.excel S header stnum = .ok cols) (k : String) (v : SheetCell) : (k, v) ∈ cols ↔ HasExcelCell S header stnum r k v := by
  unfold AreaResult.excel at h
  split at h
  · cases h
  · rename_i cs hcs
    cases h
    rw [List.mem_append, Node.csv_columns S header r.result cs hcs k v]
    simp [HasExcelCell, or_assoc]

theorem excelDicts_inv {S : Shows} {header : String → String} : ∀ {rs : List (String × AreaResult)} {rows : List (List (String × SheetCell))},
    excelDicts S header rs = .ok rows → List.Forall₂ (fun s row => ∃ cols, s.2.excel S header s.1 = .ok cols ∧ row = csvDict cols) rs rows
  | [], _, h => by simp only [excelDicts] at h; cases h; exact .nil
  | s :: rs, _, h => by
    rw [excelDicts] at h
    split at h
    · cases h
    · rename_i cols hcols
      split at h
      · cases h
      · rename_i rows hrows
        cases h
        exact .cons ⟨cols, hcols, rfl⟩ (excelDicts_inv hrows)

/-- The cell shows the value, but for the names of two states, which are written in another way. -/
def ExcelShows (v : SheetCell) (c : SheetCell × ExcelStyle) : Prop :=
  (∀ t, v = some t → ¬ "pending-current:".toList <+: t.toList ∧ ¬ "needs-more-items:".toList <+: t.toList) → c.1 = v

theorem excelStyle_shows (t : String) : ExcelShows (some t) (some (excelStyle t).2, (excelStyle t).1) := by
  intro h
  obtain ⟨h1, h2⟩ := h t rfl
  have e1 : ("pending-current:".toList.isPrefixOf t.toList) = false := by
    rw [Bool.eq_false_iff, ne_eq, List.isPrefixOf_iff_prefix]; exact h1
  have e2 : ("needs-more-items:".toList.isPrefixOf t.toList) = false := by
    rw [Bool.eq_false_iff, ne_eq, List.isPrefixOf_iff_prefix]; exact h2
  unfold excelStyle
  simp only [e1, e2]
  split
  · rfl
  · simp only [Bool.false_eq_true, if_false]
    split
    · rfl
    · split
      · split <;> rfl
      · rfl

theorem excelCells_shows : ∀ (i : Nat) (row : List (String × SheetCell)) (cells : List (SheetCell × ExcelStyle)),
    excelCells i row = .ok cells → List.Forall₂ (fun c x => ExcelShows c.2 x) row cells
  | _, [], cells, h => by rw [excelCells] at h; cases h; exact .nil
  | i, c :: rest, cells, h => by
    rw [excelCells] at h
    split at h
    · cases h
    · rename_i x hx
      split at h
      · cases h
      · rename_i xs hxs
        cases h
        refine .cons ?_ (excelCells_shows (i + 1) rest xs hxs)
        split at hx
        · cases hx; intro _; rfl
        · split at hx
          · cases hx
          · rename_i t ht
            cases hx
            rw [ht]
            exact excelStyle_shows t

theorem excelRows_inv : ∀ (rows : List (List (String × SheetCell))) (table : List (List (SheetCell × ExcelStyle))),
    excelRows rows = .ok table → List.Forall₂ (fun row cells => List.Forall₂ (fun c x => ExcelShows c.2 x) row cells) rows table
  | [], table, h => by rw [excelRows] at h; cases h; exact .nil
  | row :: rows, table, h => by
    rw [excelRows] at h
    split at h
    · cases h
    · rename_i x hx
      split at h
      · cases h
      · rename_i xs hxs
        cases h
        exact .cons (excelCells_shows 0 row x hx) (excelRows_inv rows xs hxs)

/-- **C118, partial.** In a sheet that is written, the headings are those of the first student, each once; the rows are those of the
students, in order; and the cells of a row, from the first column on, are those of the student's own headings, each once.  For the first
student, and each with the same number and result, these are the headings of the sheet.
Missing: that for the others a cell is below its own heading (`C118_wrong_column_refuted`). -/
theorem C118_rows_partial (S : Shows) (header : String → String) (s0 : String × AreaResult) (rest : List (String × AreaResult))
    (keys : List String) (table : List (List (SheetCell × ExcelStyle))) (h : excelify S header (s0 :: rest) = .ok (keys, table)) :
    keys.Nodup ∧ (∀ k, k ∈ keys ↔ ∃ v, HasExcelCell S header s0.1 s0.2 k v) ∧
    List.Forall₂ (fun s row => ∃ ks : List String, ks.Nodup ∧ (∀ k, k ∈ ks ↔ ∃ v, HasExcelCell S header s.1 s.2 k v) ∧
        List.Forall₂ (fun k c => ∃ v, HasExcelCell S header s.1 s.2 k v ∧ ExcelShows v c) ks row ∧ (s = s0 → ks = keys))
      (s0 :: rest) table := by
  unfold excelify at h
  split at h
  · cases h
  · cases h
  · rename_i first rows hd
    split at h
    · cases h
    · rename_i t ht
      cases h
      have hf := excelDicts_inv hd
      have hr := excelRows_inv _ _ ht
      have hown : ∀ (s : String × AreaResult) (cols : List (String × SheetCell)), s.2.excel S header s.1 = .ok cols →
          ((csvDict cols).map (·.1)).Nodup ∧ (∀ k, k ∈ (csvDict cols).map (·.1) ↔ ∃ v, HasExcelCell S header s.1 s.2 k v) := by
        intro s cols hc
        refine ⟨(csvDict_says cols).1, fun k => ?_⟩
        rw [(csvDict_says cols).2.1]
        exact exists_congr fun v => AreaResult.excel_cells hc k v
      have hfirst : ∃ c0, s0.2.excel S header s0.1 = .ok c0 ∧ first = csvDict c0 := by
        cases hf with
        | cons h0 _ => exact h0
      obtain ⟨c0, hc0, rfl⟩ := hfirst
      refine ⟨(hown s0 c0 hc0).1, (hown s0 c0 hc0).2, ?_⟩
      have hcomb : ∀ (ss : List (String × AreaResult)) (rs : List (List (String × SheetCell))) (ts : List (List (SheetCell × ExcelStyle))),
          List.Forall₂ (fun s row => ∃ cols, s.2.excel S header s.1 = .ok cols ∧ row = csvDict cols) ss rs →
          List.Forall₂ (fun row cells => List.Forall₂ (fun c x => ExcelShows c.2 x) row cells) rs ts →
          List.Forall₂ (fun s row => ∃ ks : List String, ks.Nodup ∧ (∀ k, k ∈ ks ↔ ∃ v, HasExcelCell S header s.1 s.2 k v) ∧
            List.Forall₂ (fun k c => ∃ v, HasExcelCell S header s.1 s.2 k v ∧ ExcelShows v c) ks row ∧
            (s = s0 → ks = (csvDict c0).map (·.1))) ss ts := by
        intro ss
        induction ss with
        | nil =>
          intro rs ts h1 h2
          cases h1
          cases h2
          exact .nil
        | cons s ss ih =>
          intro rs ts h1 h2
          cases h1 with
          | cons ha hb =>
            cases h2 with
            | cons hx hy =>
              refine .cons ?_ (ih _ _ hb hy)
              obtain ⟨cols, hc, rfl⟩ := ha
              refine ⟨(csvDict cols).map (·.1), (hown s cols hc).1, (hown s cols hc).2, ?_, ?_⟩
              · rw [List.forall₂_map_left_iff]
                have hmem : ∀ c ∈ csvDict cols, HasExcelCell S header s.1 s.2 c.1 c.2 := by
                  intro c hm
                  obtain ⟨pre, post, e, _⟩ := ((csvDict_says cols).2.2 c.1 c.2).1 hm
                  rw [← AreaResult.excel_cells hc, e]
                  simp
                revert hmem hx
                generalize csvDict cols = l
                intro hx hmem
                induction hx with
                | nil => exact .nil
                | cons hc' _ ih' =>
                  exact .cons ⟨_, hmem _ List.mem_cons_self, hc'⟩ (ih' (fun c hm => hmem c (List.mem_cons_of_mem _ hm)))
              · rintro rfl
                rw [hc] at hc0
                cases hc0
                rfl
      exact hcomb _ _ _ hf hr

/-- **C118, the styles.** A cell after the fifth is in the style of what is done exactly if it begins with `done:`, or has a text and no colon;
in that of what is in progress, in part or failed exactly if it begins with the name of the status. -/
theorem C118_styles (t : String) :
    ((excelStyle t).1 = .done ↔ "done:".toList <+: t.toList ∨ (t ≠ "" ∧ ':' ∉ t.toList)) ∧
    ((excelStyle t).1 = .pending ↔ "pending-current:".toList <+: t.toList) ∧
    ((excelStyle t).1 = .partly ↔ "needs-more-items:".toList <+: t.toList) ∧
    ((excelStyle t).1 = .failed ↔ "failed-invariant:".toList <+: t.toList) := by
  have hcolon : ∀ p : List Char, ':' ∈ p → p <+: t.toList → ':' ∈ t.toList := fun p hp h => h.subset hp
  have c1 := hcolon "done:".toList (by decide)
  have c2 := hcolon "pending-current:".toList (by decide)
  have c3 := hcolon "needs-more-items:".toList (by decide)
  have c4 := hcolon "failed-invariant:".toList (by decide)
  have hhead : ∀ (p q : List Char) (a b : Char), p.head? = some a → q.head? = some b → a ≠ b → p <+: t.toList → ¬ q <+: t.toList := by
    rintro p q a b hp hq hab ⟨x, hx⟩ ⟨y, hy⟩
    cases p with
    | nil => cases hp
    | cons p0 p => cases q with
      | nil => cases hq
      | cons q0 q =>
        simp only [List.head?_cons, Option.some.injEq] at hp hq
        subst hp hq
        rw [← hx] at hy
        injection hy with h1 _
        exact hab h1.symm
  have d12 := hhead "done:".toList "pending-current:".toList 'd' 'p' rfl rfl (by decide)
  have d13 := hhead "done:".toList "needs-more-items:".toList 'd' 'n' rfl rfl (by decide)
  have d14 := hhead "done:".toList "failed-invariant:".toList 'd' 'f' rfl rfl (by decide)
  have d23 := hhead "pending-current:".toList "needs-more-items:".toList 'p' 'n' rfl rfl (by decide)
  have d24 := hhead "pending-current:".toList "failed-invariant:".toList 'p' 'f' rfl rfl (by decide)
  have d34 := hhead "needs-more-items:".toList "failed-invariant:".toList 'n' 'f' rfl rfl (by decide)
  unfold excelStyle
  simp only [List.isPrefixOf_iff_prefix, ne_eq, Bool.not_eq_true', List.contains_eq_mem, decide_eq_false_iff_not, String.isEmpty_iff]
  by_cases h1 : "done:".toList <+: t.toList
  · simp only [h1, d12 h1, d13 h1, d14 h1, if_true, true_or, reduceCtorEq]
    trivial
  · by_cases h2 : "pending-current:".toList <+: t.toList
    · simp only [h1, h2, c2 h2, d23 h2, d24 h2, if_true, if_false, reduceCtorEq, not_true, and_false, or_false]
      trivial
    · by_cases h3 : "needs-more-items:".toList <+: t.toList
      · simp only [h1, h2, h3, c3 h3, d34 h3, if_true, if_false, reduceCtorEq, not_true, and_false, or_false]
        trivial
      · by_cases h4 : "failed-invariant:".toList <+: t.toList
        · simp only [h1, h2, h3, h4, c4 h4, if_true, if_false, reduceCtorEq, not_true, and_false, or_false]
          trivial
        · by_cases h5 : ':' ∈ t.toList
          · simp only [h1, h2, h3, h4, h5, if_false, reduceCtorEq, not_true, and_false, or_false]
            trivial
          · by_cases h6 : t = ""
            · simp only [h1, h2, h3, h4, h5, h6, if_true, if_false, reduceCtorEq, not_true, not_false_eq_true, false_and, or_false]
              trivial
            · simp only [h1, h2, h3, h4, h5, h6, if_true, if_false, reduceCtorEq, not_false_eq_true, and_true, or_true]

/-- a case of `C118_styles`: a course in progress, and a course alone -/
example : excelStyle "pending-current: CSCI 121" = (.pending, "in-progress: CSCI 121") ∧ excelStyle "CSCI 121" = (.done, "CSCI 121") := by
  decide +kernel

theorem excelDicts_ok {S : Shows} {header : String → String} : ∀ {rs : List (String × AreaResult)},
    (∀ s ∈ rs, ∃ cols, s.2.excel S header s.1 = .ok cols) → ∃ rows, excelDicts S header rs = .ok rows
  | [], _ => ⟨[], rfl⟩
  | s :: rs, h => by
    obtain ⟨cols, hc⟩ := h s List.mem_cons_self
    obtain ⟨rows, hr⟩ := excelDicts_ok (fun s' hs' => h s' (List.mem_cons_of_mem _ hs'))
    exact ⟨csvDict cols :: rows, by rw [excelDicts, hc]; dsimp only; rw [hr]⟩

theorem excelCells_ok : ∀ (i : Nat) (row : List (String × SheetCell)), (∀ c ∈ row, c.2 ≠ none) → ∃ cells, excelCells i row = .ok cells
  | _, [], _ => ⟨[], by rw [excelCells]⟩
  | i, c :: rest, h => by
    obtain ⟨cells, hc⟩ := excelCells_ok (i + 1) rest (fun c' hc' => h c' (List.mem_cons_of_mem _ hc'))
    rw [excelCells]
    by_cases hi : i < 5
    · simp only [if_pos hi, hc]
      exact ⟨_, rfl⟩
    · cases hv : c.2 with
      | none => exact absurd hv (h c List.mem_cons_self)
      | some t =>
        simp only [if_neg hi, hc]
        exact ⟨_, rfl⟩

theorem excelRows_ok : ∀ (rows : List (List (String × SheetCell))), (∀ row ∈ rows, ∀ c ∈ row, c.2 ≠ none) → ∃ table, excelRows rows = .ok table
  | [], _ => ⟨[], by rw [excelRows]⟩
  | row :: rows, h => by
    obtain ⟨cells, hc⟩ := excelCells_ok 0 row (h row List.mem_cons_self)
    obtain ⟨table, ht⟩ := excelRows_ok rows (fun r hr => h r (List.mem_cons_of_mem _ hr))
    exact ⟨cells :: table, by rw [excelRows, hc]; dsimp only; rw [ht]⟩

/-- **C118, partial.** A sheet for Excel can be made of the results of some students if there is one, the sheet looks at no conditional rule,
no query with assertions and no requirement without a result, and every cell has a value; whatever headings the results have.
Missing: other results; for a course that is not given by its name it raises (`C118_unnamed_course_refuted`). -/
theorem C118_sheet_is_written_partial (S : Shows) (header : String → String) (rs : List (String × AreaResult)) (hne : rs ≠ [])
    (hw : ∀ s ∈ rs, ∀ m, InSheet s.2.result m → ¬ Unwritable m)
    (hv : ∀ s ∈ rs, ∀ k v, HasExcelCell S header s.1 s.2 k v → v ≠ none) : ∃ t, excelify S header rs = .ok t := by
  have hcols : ∀ s ∈ rs, ∃ cols, s.2.excel S header s.1 = .ok cols := by
    intro s hs
    obtain ⟨cols, hc⟩ := (AreaResult.csv_iff S header s.2).2 (hw s hs)
    unfold AreaResult.csv at hc
    unfold AreaResult.excel
    split at hc
    · cases hc
    · rename_i cs hcs
      rw [hcs]
      exact ⟨_, rfl⟩
  obtain ⟨rows, hrows⟩ := excelDicts_ok hcols
  have hf := excelDicts_inv hrows
  have hval : ∀ row ∈ rows, ∀ c ∈ row, c.2 ≠ none := by
    clear hrows hne hcols
    induction hf with
    | nil => simp
    | @cons s row rs' rows' h0 _ ih =>
      intro row' hrow'
      rcases List.mem_cons.1 hrow' with rfl | hm
      · obtain ⟨cols, hc, rfl⟩ := h0
        intro c hm
        obtain ⟨pre, post, e, _⟩ := ((csvDict_says cols).2.2 c.1 c.2).1 hm
        refine hv s List.mem_cons_self c.1 c.2 ?_
        rw [← AreaResult.excel_cells hc, e]
        simp
      · exact ih (fun s' hs' => hw s' (List.mem_cons_of_mem _ hs')) (fun s' hs' => hv s' (List.mem_cons_of_mem _ hs')) row' hm
  obtain ⟨table, ht⟩ := excelRows_ok rows hval
  unfold excelify
  rw [hrows]
  cases rows with
  | nil => cases hf; exact absurd rfl hne
  | cons first rest =>
    dsimp only
    rw [ht]
    exact ⟨_, rfl⟩

open SheetFiles EntryText

/-- an area with a requirement of a course that is given by its AP name -/
def apCore : Dict := area [("requirements", .map [("Core", .map [("result", .map [("ap", .str "Calculus AB")])])])]
  (.map [("requirement", .str "Core")])

instance : DecidableEq (List (List (SheetCell × ExcelStyle))) := inferInstance

instance : DecidableEq (List String × List (List (SheetCell × ExcelStyle))) := inferInstance

/-- the sheet of two students -/
def excelOfTwo (a b : Option AreaResult) : Option (Except Err (List String × List (List (SheetCell × ExcelStyle)))) := match a, b with
  | some a, some b => some (excelify plainShows id [("101", a), ("102", b)])
  | _, _ => none

/-- **C118 is refuted**: two students of an area that wants two courses, one with both and one with the second of them.  The sheet has the second
student's course below the heading of the first course, in the style of what is done; below its own heading there is nothing. -/
theorem C118_wrong_column_refuted : ∃ a b, last full both = some a ∧ last other both = some b ∧
    excelify plainShows id [("101", a), ("102", b)] =
      .ok (["Student", "GPA", "Status", "Classification", "Ant. Grad. Date", "CSCI 121", "MATH 220"],
      [[(some "101", .plain), (some "_", .plain), (some "done", .plain), (some "???", .plain), (some "May 2000", .plain),
        (some "CSCI 121", .done), (some "MATH 220", .done)],
       [(some "102", .plain), (some "_", .plain), (some "needs-more-items", .plain), (some "???", .plain),
        (some "May 2000", .plain), (some "MATH 220", .done)]]) := by
  have h1 : excelOfTwo (last full both) (last other both) =
      some (.ok (["Student", "GPA", "Status", "Classification", "Ant. Grad. Date", "CSCI 121", "MATH 220"],
      [[(some "101", .plain), (some "_", .plain), (some "done", .plain), (some "???", .plain), (some "May 2000", .plain),
        (some "CSCI 121", .done), (some "MATH 220", .done)],
       [(some "102", .plain), (some "_", .plain), (some "needs-more-items", .plain), (some "???", .plain),
        (some "May 2000", .plain), (some "MATH 220", .done)]])) := by decide +kernel
  cases ha : last full both with
  | none => rw [ha] at h1; cases h1
  | some a => cases hb : last other both with
    | none => rw [ha, hb] at h1; cases h1
    | some b =>
      rw [ha, hb] at h1
      exact ⟨a, b, rfl, rfl, Option.some.inj h1⟩

/-- **C118 is refuted for the styles**: a course that the student has not taken is in the style of what is done. -/
theorem C118_style_refuted : ∃ r, last half core = some r ∧ ¬ Passes r.status ∧
    excelify plainShows id [("101", r)] =
      .ok (["Student", "GPA", "Status", "Classification", "Ant. Grad. Date", "Core"],
      [[(some "101", .plain), (some "_", .plain), (some "empty", .plain), (some "???", .plain), (some "May 2000", .plain),
        (some "MATH 220", .done)]]) := by
  have h1 : (last half core).map (fun r => (r.status, excelify plainShows id [("101", r)])) =
      some (.empty, .ok (["Student", "GPA", "Status", "Classification", "Ant. Grad. Date", "Core"],
      [[(some "101", .plain), (some "_", .plain), (some "empty", .plain), (some "???", .plain), (some "May 2000", .plain),
        (some "MATH 220", .done)]])) := by decide +kernel
  cases hr : last half core with
  | none => rw [hr] at h1; cases h1
  | some r =>
    rw [hr] at h1
    have h2 := Option.some.inj h1
    rw [Prod.mk.injEq] at h2
    exact ⟨r, rfl, by rw [h2.1]; simp [Passes], h2.2⟩

/-- **C118 is refuted for the courses without a name**: in an area that wants a course by its AP name, no sheet for Excel can be written with
the student's result, although the other sheet can be. -/
theorem C118_unnamed_course_refuted : ∃ r, last full apCore = some r ∧ excelify plainShows id [("101", r)] = .error .other ∧
    csvify plainShows id [r] = .ok (["Student", "GPA", "Status", "Classification", "Ant. Grad. Date", "Core"],
      [[some "000000", some "_", some "empty", some "???", some "May 2000", none]]) := by
  have h1 : (last full apCore).map (fun r => excelify plainShows id [("101", r)]) = some (.error .other) := by decide +kernel
  have h2 : (last full apCore).map (fun r => csvify plainShows id [r]) =
      some (.ok (["Student", "GPA", "Status", "Classification", "Ant. Grad. Date", "Core"],
      [[some "000000", some "_", some "empty", some "???", some "May 2000", none]])) := by decide +kernel
  cases hr : last full apCore with
  | none => rw [hr] at h1; cases h1
  | some r =>
    rw [hr] at h1 h2
    exact ⟨r, rfl, Option.some.inj h1, Option.some.inj h2⟩

/-- a case that `C118_rows_partial` describes: two students of one area -/
example : ∃ a b t, last full both = some a ∧ last other both = some b ∧ excelify plainShows id [("101", a), ("102", b)] = .ok t := by
  obtain ⟨a, b, h1, h2, h3⟩ := C118_wrong_column_refuted
  exact ⟨a, b, _, h1, h2, h3⟩

/-- a case that meets the hypotheses of `C118_sheet_is_written_partial`: the student with both courses -/
example : ∃ r, last full both = some r ∧ (∀ m, InSheet r.result m → ¬ Unwritable m) ∧
    ∀ k v, HasExcelCell plainShows id "101" r k v → v ≠ none := by
  have h1 : (last full both).map (fun r => r.excel plainShows id "101") =
      some (.ok [("Student", some "101"), ("GPA", some "_"), ("Status", some "done"), ("Classification", some "???"),
        ("Ant. Grad. Date", some "May 2000"), ("CSCI 121", some "CSCI 121"), ("MATH 220", some "MATH 220")]) := by decide +kernel
  cases hr : last full both with
  | none => rw [hr] at h1; cases h1
  | some r =>
    rw [hr] at h1
    have h2 : r.excel plainShows id "101" = _ := Option.some.inj h1
    refine ⟨r, rfl, ?_, ?_⟩
    · rw [← AreaResult.csv_iff plainShows id r]
      unfold AreaResult.excel at h2
      split at h2
      · cases h2
      · rename_i cs hcs
        exact ⟨_, by unfold AreaResult.csv; rw [hcs]⟩
    · intro k v hkv
      rw [← AreaResult.excel_cells h2] at hkv
      simp only [List.mem_cons, Prod.mk.injEq, List.not_mem_nil, or_false] at hkv
      rcases hkv with h | h | h | h | h | h | h <;> (rw [h.2]; simp)

end Dp
