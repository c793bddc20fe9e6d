import Verif.Model.WhatIf
import Verif.Props.Files
import Verif.Props.LoadPaths
import Verif.Props.Stored

/-
C112: with which area file an item of the queue is audited, and what becomes of a what-if audit.
-/
namespace Dp

theorem workerYear_catalog (n : Nat) : workerYear (catalogYears n) = .ok (n : Int) := by
  have hd : ∀ c ∈ Nat.toDigits 10 n, c.isDigit := fun c hc => Nat.isDigit_of_mem_toDigits (by decide) (by decide) hc
  have : (catalogYears n).toList.takeWhile (· ≠ '-') = Nat.toDigits 10 n := by
    unfold catalogYears
    simp only [String.toList_append, toString_year]
    rw [List.append_assoc, List.takeWhile_append_of_pos]
    · simp
    · intro c hc
      have := hd c hc
      simp only [ne_eq, decide_not, Bool.not_eq_true', decide_eq_false_iff_not]
      rintro rfl
      simp [Char.isDigit] at this
  unfold workerYear intOf
  rw [this, String.toList_ofList, parseInt_repr]

/-- the area file in `folder` is the newest one of the code that is not of a later year than `year` -/
def NewestFor (files : List (String × String)) (code : String) (year : Nat) (folder : String) : Prop :=
  (folder, code) ∈ files ∧ ∃ y, IsFolderOf folder y ∧ y ≤ year ∧ ∀ f y', (f, code) ∈ files → IsFolderOf f y' → y' ≤ year → y' ≤ y

theorem NewestFor.unique {files : List (String × String)} {code : String} {year : Nat} {f g : String} (hf : NewestFor files code year f)
    (hg : NewestFor files code year g) : f = g := by
  obtain ⟨h1, y, h2, h3, h4⟩ := hf
  obtain ⟨k1, z, k2, k3, k4⟩ := hg
  have : y = z := Nat.le_antisymm (k4 f y h1 h2 h3) (h4 g z k1 k2 k3)
  rw [h2.2.2, k2.2.2, this]

/-- **C112** A worker that takes an item of a catalog audits the student of the item with the newest area file of the code that is not of a
later catalog, and has the result of this audit to store; it reports the area as missing exactly if all its files are of later catalogs. -/
theorem C112_newest_file (o : Orders) (W : Writes) (dump : Json → String) (described : Bool) (files : List (String × String))
    (load : String → String → Except Err Dict) (input : Except Err RawStudent) (q : QueueRow) (hf : YearFolders files) (year : Nat)
    (hq : IsFolderOf q.catalog year) :
    (workerAct o W dump described files load input q = .areaMissing ↔ ∀ f y, (f, q.code) ∈ files → IsFolderOf f y → year < y) ∧
    ∀ text, workerAct o W dump described files load input q = .result text ↔
      ∃ folder spec raw stored, NewestFor files q.code year folder ∧ load folder q.code = .ok spec ∧ input = .ok raw ∧
        serverAudit o W described raw spec = some stored ∧ text = dump stored.result := by
  have hy : workerYear q.catalog = .ok (year : Int) := by rw [hq.2.2]; exact workerYear_catalog year
  have hnone := C43_nothing_found hf hq.1 hq.2.1 q.code
  unfold workerAct
  rw [hy]
  dsimp only
  cases ha : findArea files year q.code with
  | none =>
    refine ⟨by simpa using hnone.1 ha, fun text => ⟨fun h => (by cases h), ?_⟩⟩
    rintro ⟨folder, -, -, -, ⟨hm, y, hfy, hle, -⟩, -⟩
    have := hnone.1 ha folder y hm hfy
    omega
  | some folder =>
    have hnew : NewestFor files q.code year folder := C43_greatest_year hf hq.1 hq.2.1 ha
    dsimp only
    refine ⟨⟨fun h => ?_, fun h => ?_⟩, fun text => ⟨fun h => ?_, ?_⟩⟩
    · exfalso
      repeat' split at h
      all_goals cases h
    · obtain ⟨hm, y, hfy, hle, -⟩ := hnew
      have := h folder y hm hfy
      omega
    · split at h
      · cases h
      · rename_i spec hs
        split at h
        · cases h
        · rename_i _ raw
          split at h
          · cases h
          · rename_i stored hst
            cases h
            exact ⟨folder, spec, raw, stored, hnew, hs, rfl, hst, rfl⟩
    · rintro ⟨folder', spec, raw, stored, hn, hl, rfl, hst, rfl⟩
      rw [hn.unique hnew] at hl
      rw [hl]
      dsimp only
      rw [hst]

/-- **C112** Asking for a what-if audit adds one item to the queue, of the student in the file and the year and code given, which the workers read
as this year; the items that were there stay.  If the file has no student number, the queue does not change.
Missing: that the results of the student stay as they are, which `C112_whatif_replaces_active_refuted` shows to be false. -/
theorem C112_whatif_is_queued_partial (stnum : Except Err String) (year : Nat) (h1 : 1000 ≤ year) (h2 : year ≤ 9998) (code : String) (id : Nat) (ts : Int)
    (linkOnly : Bool) (queue : List QueueRow) :
    (∀ s, stnum = .ok s → (whatIf stnum year code id ts linkOnly queue).2 = none ∧
      ∃ q, (whatIf stnum year code id ts linkOnly queue).1 = queue ++ [q] ∧ q.student = s ∧ q.code = code ∧ IsFolderOf q.catalog year ∧
        workerYear q.catalog = .ok (year : Int) ∧ q.expires = none ∧ ∀ q' : QueueRow, q'.priority < 100 → q.before q' = true ∧ q'.before q = false) ∧
    ∀ e, stnum = .error e → whatIf stnum year code id ts linkOnly queue = (queue, some e) := by
  refine ⟨?_, ?_⟩
  · rintro s rfl
    refine ⟨rfl, _, rfl, rfl, rfl, ⟨h1, h2, rfl⟩, workerYear_catalog year, rfl, fun q' hq' => ⟨?_, ?_⟩⟩
    · unfold QueueRow.before
      simp [hq']
    · unfold QueueRow.before
      have h3 : ¬ (100 : Int) < q'.priority := by omega
      have h4 : ¬ (100 : Int) = q'.priority := by omega
      simp [h3, h4]
  · rintro e rfl
    rfl

/-- **C112** No worker takes an item of lower priority, such as those of a batch, while a what-if audit can be taken. -/
theorem C112_whatif_goes_first (s s' : Sys) (i id : Nat) (w : Worker) (q : QueueRow) (hq : q ∈ s.available) (hp : q.priority = 100)
    (hw : s.workers[i]? = some w) (h : s.step (.worker i (.take (some id))) = some s') :
    ∃ q' tx, q' ∈ s.available ∧ q'.id = id ∧ w.tx = some tx ∧ s' = s.set i { phase := .working q', tx := some { tx with taken := tx.taken ++ [q'] } } ∧
      (100 < q'.priority ∨ (q'.priority = 100 ∧ q'.ts ≤ q.ts)) := by
  unfold Sys.step at h
  dsimp only at h
  rw [hw] at h
  dsimp only at h
  rw [stepWorker] at h
  split at h
  · rename_i tx hph htx
    dsimp only at h
    split at h
    · cases h
    · rename_i q' hfind
      split at h
      · rename_i hall
        cases h
        have hb := List.all_eq_true.1 hall q hq
        refine ⟨q', tx, List.mem_of_find?_eq_some hfind, by simpa using List.find?_some hfind, htx, rfl, ?_⟩
        unfold QueueRow.before at hb
        simp only [Bool.or_eq_true, decide_eq_true_eq, Bool.and_eq_true] at hb
        omega
      · cases h
  · cases h

/-- **C112**, of a what-if audit, if the database has `false` as the default of the column that the statement leaves out: its result is stored as
the active one, and the result that was active is so no longer. -/
theorem C112_whatif_replaces_active_refuted (stnum code : String) (year : Int) (id id' : Nat) (ts now : Int) (text : String) (queue : List QueueRow)
    (rows : List ResultRow) : ∃ q, (whatIf (.ok stnum) year code id ts false queue).1 = queue ++ [q] ∧
      (∀ r ∈ storeResult q text id' now rows, r.student = stnum → r.code = code → r.active = true → r.id = id' ∧ r.result = text) ∧
      ∃ r ∈ storeResult q text id' now rows, r.id = id' ∧ r.result = text ∧ r.active = true := by
  refine ⟨_, rfl, ?_, ?_⟩
  · intro r hr hs hc ha
    unfold storeResult stmtsFor at hr
    simp only [Bool.false_eq_true, if_false, List.foldl_cons, List.foldl_nil, runStmt] at hr
    rw [List.mem_append] at hr
    rcases hr with hr | hr
    · obtain ⟨r', -, rfl⟩ := List.mem_map.1 hr
      exfalso
      revert hs hc ha
      split
      · intro _ _ ha; cases ha
      · rename_i hno
        intro hs hc ha
        exact hno (by unfold isActiveOf; simp [hs, hc, ha])
    · rw [List.mem_singleton] at hr
      subst hr
      exact ⟨rfl, rfl⟩
  · unfold storeResult stmtsFor
    simp only [Bool.false_eq_true, if_false, List.foldl_cons, List.foldl_nil]
    rw [runStmt]
    exact ⟨_, List.mem_append_right _ List.mem_cons_self, rfl, rfl, rfl⟩

open EntryText in
/-- a case of C112: a what-if audit of 2020 is done with the area file of 2019, before an item of a batch, and not with that of 2021 -/
example :
    let files := [("2018-19", "741"), ("2019-20", "741"), ("2021-22", "741")]
    let load : String → String → Except Err Dict := fun f _ => if f = "2019-20" then .ok PlainFiles.spec else .error .other
    (whatIf (.ok "1") 2020 "741" 7 3 false [⟨6, 1, 0, "2", "2018-19", "741", none, false⟩]).1.map (fun q => (q.student, q.catalog, q.priority)) =
      [("2", "2018-19", 1), ("1", "2020-21", 100)] ∧
    workerAct .insertion plainWrites (fun _ => "{}") true files load (.ok PlainFiles.raw) ⟨7, 100, 3, "1", "2020-21", "741", none, false⟩ = .result "{}" ∧
    workerAct .insertion plainWrites (fun _ => "{}") true files load (.ok PlainFiles.raw) ⟨7, 100, 3, "1", "2017-18", "741", none, false⟩ = .areaMissing ∧
    workerAct .insertion plainWrites (fun _ => "{}") true files load (.ok PlainFiles.raw) ⟨7, 100, 3, "1", "x", "741", none, false⟩ = .noResult := by
  refine ⟨?_, ?_, ?_, ?_⟩ <;> decide +kernel

/-- the hypotheses of `C112_newest_file` for these files -/
example : YearFolders [("2018-19", "741"), ("2019-20", "741"), ("2021-22", "741")] ∧ IsFolderOf "2020-21" 2020 := by
  refine ⟨?_, by decide, by decide, by decide +kernel⟩
  intro f hf
  simp only [List.mem_cons, List.not_mem_nil, or_false] at hf
  rcases hf with rfl | rfl | rfl
  · exact ⟨2018, by decide, by decide, by decide +kernel⟩
  · exact ⟨2019, by decide, by decide, by decide +kernel⟩
  · exact ⟨2021, by decide, by decide, by decide +kernel⟩

/-- the hypotheses of `C112_whatif_goes_first`: a worker takes the what-if item although the other one is older -/
example :
    let db : Db := { queue := [⟨6, 1, 0, "2", "2018-19", "741", none, false⟩, ⟨7, 100, 3, "1", "2020-21", "741", none, false⟩] }
    ∃ s', Sys.step { db := db, workers := [{ phase := .fetch, tx := some {} }] } (.worker 0 (.take (some 7))) = some s' :=
  ⟨_, rfl⟩

end Dp
