import Verif.Model.ReportBatch
import Verif.Props.ReportSummary

/-!
# C116: What is stored by the nightly reports
-/

namespace Dp

/-- The stored report of a kind and an area: the content of the row with these keys. -/
def rpStoredReport (table : List RpReportRow) (kind area : String) : Option RpContent :=
  (table.find? (fun r => decide (r.kind = kind) && decide (r.area = area))).map RpReportRow.content

/-- The hash maps lose nothing: each gives what is in it, in some order. -/
def RpRun.Lawful (run : RpRun) : Prop :=
  (∀ code l, (run.reportOrder code l).Perm l) ∧ ∀ code l, (run.summaryOrder code l).Perm l

/-- The area has an active result. -/
def RpHasActive (db : List RpStored) (code : String) : Prop :=
  ∃ r ∈ db, r.isActive = true ∧ r.areaCode = code

/-- All audits of the area can be shown. -/
def RpReadable (run : RpRun) (code : String) : Prop :=
  rpFetch (run.results code) code ≠ none

/-- Both reports of the area are stored as they are for the results of this run. -/
def RpIsFresh (run : RpRun) (code : String) (table : List RpReportRow) : Prop :=
  ∃ records, rpFetch (run.results code) code = some records ∧
    (∃ order doc, order.Perm (rpGroups records) ∧ rpReport order = some doc ∧
      rpStoredReport table "report" code = some (.report doc)) ∧
    (∃ order, order.Perm (rpCatalogGroups records) ∧
      rpStoredReport table "summary" code = some (.summary (rpSummary records order)))

theorem rpStoredReport_record (row : RpReportRow) (kind area : String) :
    ∀ table, rpStoredReport (rpRecordReport row table) kind area =
      if kind = row.kind ∧ area = row.area then some row.content
      else rpStoredReport table kind area
  | [] => by
    unfold rpRecordReport rpStoredReport
    by_cases h : kind = row.kind ∧ area = row.area
    · obtain ⟨rfl, rfl⟩ := h; simp
    · have e : (decide (row.kind = kind) && decide (row.area = area)) = false := by
        simpa using fun e1 e2 => h ⟨e1.symm, e2.symm⟩
      simp [h, List.find?, e]
  | r :: rest => by
    have ih := rpStoredReport_record row kind area rest
    unfold rpRecordReport
    by_cases h : r.kind = row.kind ∧ r.area = row.area
    · rw [if_pos h]
      unfold rpStoredReport
      by_cases h' : kind = row.kind ∧ area = row.area
      · obtain ⟨rfl, rfl⟩ := h'; simp [h]
      · have : ¬ (row.kind = kind ∧ row.area = area) := fun e => h' ⟨e.1.symm, e.2.symm⟩
        simp [h, h', this]
    · rw [if_neg h]
      unfold rpStoredReport at ih ⊢
      rw [List.find?_cons, List.find?_cons]
      by_cases h2 : r.kind = kind ∧ r.area = area
      · obtain ⟨rfl, rfl⟩ := h2
        simp [h]
      · have e : (decide (r.kind = kind) && decide (r.area = area)) = false := by
          simpa using h2
        rw [e]
        exact ih

theorem rpRecordReport_keys (row : RpReportRow) : ∀ table : List RpReportRow,
    (table.map (fun r => (r.kind, r.area))).Nodup →
    ((rpRecordReport row table).map (fun r => (r.kind, r.area))).Nodup ∧
      ∀ k ∈ (rpRecordReport row table).map (fun r => (r.kind, r.area)),
        k ∈ table.map (fun r => (r.kind, r.area)) ∨ k = (row.kind, row.area)
  | [], _ => by simp [rpRecordReport]
  | r :: rest, h => by
    rw [List.map_cons, List.nodup_cons] at h
    obtain ⟨ih1, ih2⟩ := rpRecordReport_keys row rest h.2
    unfold rpRecordReport
    by_cases e : r.kind = row.kind ∧ r.area = row.area
    · rw [if_pos e, List.map_cons, List.nodup_cons]
      exact ⟨h, fun k hk => Or.inl hk⟩
    · rw [if_neg e, List.map_cons, List.nodup_cons]
      refine ⟨⟨fun hk => ?_, ih1⟩, fun k hk => ?_⟩
      · rcases ih2 _ hk with hk | hk
        · exact h.1 hk
        · exact e (by simpa using hk)
      · rcases List.mem_cons.mp hk with rfl | hk
        · exact Or.inl (by simp)
        · rcases ih2 k hk with hk | hk
          · exact Or.inl (List.mem_cons_of_mem _ hk)
          · exact Or.inr hk

theorem rpStoreAll_unique : ∀ (rows table : List RpReportRow),
    (table.map (fun r => (r.kind, r.area))).Nodup →
    ((rpStoreAll rows table).map (fun r => (r.kind, r.area))).Nodup
  | [], _, h => h
  | r :: rows, table, h => rpStoreAll_unique rows _ (rpRecordReport_keys r table h).1

theorem rpStoreAll_other (kind area : String) : ∀ (rows table : List RpReportRow),
    (kind, area) ∉ rows.map (fun r => (r.kind, r.area)) →
    rpStoredReport (rpStoreAll rows table) kind area = rpStoredReport table kind area
  | [], _, _ => rfl
  | r :: rows, table, h => by
    rw [List.map_cons, List.mem_cons, not_or] at h
    show rpStoredReport (rpStoreAll rows (rpRecordReport r table)) kind area = _
    rw [rpStoreAll_other kind area rows _ h.2, rpStoredReport_record, if_neg]
    intro e
    exact h.1 (by rw [e.1, e.2])

theorem rpStoreAll_mem (row : RpReportRow) : ∀ (rows table : List RpReportRow),
    (rows.map (fun r => (r.kind, r.area))).Nodup → row ∈ rows →
    rpStoredReport (rpStoreAll rows table) row.kind row.area = some row.content
  | [], _, _, h => absurd h (by simp)
  | r :: rows, table, hn, h => by
    rw [List.map_cons, List.nodup_cons] at hn
    show rpStoredReport (rpStoreAll rows (rpRecordReport r table)) _ _ = _
    rcases List.mem_cons.mp h with rfl | h
    · rw [rpStoreAll_other _ _ rows _ hn.1, rpStoredReport_record, if_pos ⟨rfl, rfl⟩]
    · exact rpStoreAll_mem row rows _ hn.2 h

/-- The two rows of an area. -/
def rpRowsOfArea (run : RpRun) (code : String) : List RpReportRow :=
  match rpFetch (run.results code) code with
  | none => []
  | some records =>
    match rpReport (run.reportOrder code (rpGroups records)) with
    | none => []
    | some doc =>
      [⟨"report", code, .report doc⟩,
       ⟨"summary", code, .summary (rpSummary records
         (run.summaryOrder code (rpCatalogGroups records)))⟩]

/-- The areas that come before the first that is not readable. -/
def rpReached (run : RpRun) (codes : List String) : List String :=
  codes.takeWhile (fun c => (rpFetch (run.results c) c).isSome)

theorem rpReached_some (run : RpRun) : ∀ codes, ∀ c ∈ rpReached run codes,
    (rpFetch (run.results c) c).isSome = true
  | [], c, h => absurd h (by simp [rpReached])
  | a :: codes, c, h => by
    unfold rpReached at h
    rw [List.takeWhile_cons] at h
    split at h
    · rename_i ha
      rcases List.mem_cons.mp h with rfl | h
      · exact ha
      · exact rpReached_some run codes c h
    · cases h

theorem rpReached_all (run : RpRun) : ∀ codes : List String,
    (∀ c ∈ codes, (rpFetch (run.results c) c).isSome = true) → rpReached run codes = codes
  | [], _ => rfl
  | a :: codes, h => by
    unfold rpReached
    rw [List.takeWhile_cons, if_pos (h a (by simp))]
    congr 1
    exact rpReached_all run codes (fun c hc => h c (by simp [hc]))

theorem rpBatchAreas_eq (run : RpRun) (hl : run.Lawful) : ∀ codes,
    rpBatchAreas run codes = ((rpReached run codes).flatMap (rpRowsOfArea run),
      codes.all (fun c => (rpFetch (run.results c) c).isSome))
  | [] => rfl
  | c :: codes => by
    rw [rpBatchAreas, rpReached, List.takeWhile_cons, List.all_cons]
    cases hf : rpFetch (run.results c) c with
    | none => rfl
    | some records =>
      obtain ⟨doc, hd, -⟩ := C113_every_student_has_one_row (run.results c) c records hf
        (run.reportOrder c (rpGroups records)) (hl.1 _ _)
      have ih := rpBatchAreas_eq run hl codes
      simp only [rpBatchKinds, rpRunReport, hd, Option.map_some, RpKind.name, ih,
        Option.isSome_some, if_true, Bool.true_and, List.flatMap_cons, rpReached, rpRowsOfArea, hf]

theorem rpCodes_mem (db : List RpStored) (code : String) :
    code ∈ rpCodes db ↔ RpHasActive db code := by
  unfold rpCodes RpHasActive
  rw [List.mem_insertionSort, rpUnique_mem, List.mem_map]
  constructor
  · rintro ⟨r, hr, rfl⟩
    rw [List.mem_filter] at hr
    exact ⟨r, hr.1, hr.2, rfl⟩
  · rintro ⟨r, hr, ha, rfl⟩
    exact ⟨r, List.mem_filter.mpr ⟨hr, ha⟩, rfl⟩

theorem rpCodes_nodup (db : List RpStored) : (rpCodes db).Nodup :=
  (List.perm_insertionSort _ _).nodup_iff.mpr (rpUnique_nodup _)

theorem rpCodes_sorted (db : List RpStored) : (rpCodes db).Pairwise rpCodeLe := by
  have h1 : Std.Total rpCodeLe := ⟨fun a b => rpLe_total _ _⟩
  have h2 : IsTrans String rpCodeLe := ⟨fun a b c h h' => rpLe_trans _ _ _ h h'⟩
  exact List.pairwise_insertionSort rpCodeLe _

theorem rp_take_flatMap {α β : Type} (f : α → List β) : ∀ (l : List α) (n : Nat),
    ∃ done rest part, l = done ++ rest ∧ (l.flatMap f).take n = done.flatMap f ++ part ∧
      (part = [] ∨ ∃ c rest', rest = c :: rest' ∧ part <+: f c)
  | [], n => ⟨[], [], [], rfl, by simp, Or.inl rfl⟩
  | a :: l, n => by
    by_cases h : (f a).length ≤ n
    · obtain ⟨done, rest, part, h1, h2, h3⟩ := rp_take_flatMap f l (n - (f a).length)
      refine ⟨a :: done, rest, part, by rw [h1]; rfl, ?_, h3⟩
      rw [List.flatMap_cons, List.take_append, List.take_of_length_le h, h2, List.flatMap_cons,
        List.append_assoc]
    · refine ⟨[], a :: l, (f a).take n, rfl, ?_, Or.inr ⟨a, l, rfl, List.take_prefix _ _⟩⟩
      rw [List.flatMap_cons, List.take_append_of_le_length (by omega)]
      rfl

theorem rpRowsOfArea_area (run : RpRun) (code : String) : ∀ r ∈ rpRowsOfArea run code,
    r.area = code := by
  unfold rpRowsOfArea
  split
  · simp
  · split
    · simp
    · simp

theorem rpRowsOfArea_nodup (run : RpRun) (code : String) :
    ((rpRowsOfArea run code).map (fun r => (r.kind, r.area))).Nodup := by
  unfold rpRowsOfArea
  split
  · simp
  · split
    · simp
    · simp

theorem rpRowsOfAreas_nodup (run : RpRun) : ∀ codes : List String, codes.Nodup →
    ((codes.flatMap (rpRowsOfArea run)).map (fun r => (r.kind, r.area))).Nodup
  | [], _ => by simp
  | c :: codes, h => by
    rw [List.nodup_cons] at h
    rw [List.flatMap_cons, List.map_append, List.nodup_append]
    refine ⟨rpRowsOfArea_nodup run c, rpRowsOfAreas_nodup run codes h.2, ?_⟩
    intro a ha b hb e
    rw [List.mem_map] at ha hb
    obtain ⟨x, hx, rfl⟩ := ha
    obtain ⟨y, hy, rfl⟩ := hb
    obtain ⟨c', hc', hy⟩ := List.mem_flatMap.mp hy
    have e1 := rpRowsOfArea_area run c x hx
    have e2 := rpRowsOfArea_area run c' y hy
    simp only [Prod.mk.injEq] at e
    rw [e1, e2] at e
    exact h.1 (e.2 ▸ hc')

/-- The stored reports of the area are those of before. -/
def RpAsBefore (before after : List RpReportRow) (code : String) : Prop :=
  ∀ kind, rpStoredReport after kind code = rpStoredReport before kind code

/-- The code comes before the other, by their characters. -/
def RpEarlier (a b : String) : Prop := ¬ rpCodeLe b a

theorem rpRowsOfArea_readable (run : RpRun) (hl : run.Lawful) (code : String)
    (records : List RpRecord) (hf : rpFetch (run.results code) code = some records) :
    ∃ doc, rpReport (run.reportOrder code (rpGroups records)) = some doc ∧
      rpRowsOfArea run code = [⟨"report", code, .report doc⟩,
       ⟨"summary", code, .summary (rpSummary records
         (run.summaryOrder code (rpCatalogGroups records)))⟩] := by
  obtain ⟨doc, hd, -⟩ := C113_every_student_has_one_row (run.results code) code records hf
    (run.reportOrder code (rpGroups records)) (hl.1 _ _)
  refine ⟨doc, hd, ?_⟩
  simp only [rpRowsOfArea, hf, hd]

theorem rpStoreAll_fresh (run : RpRun) (hl : run.Lawful) (rows table : List RpReportRow)
    (hn : (rows.map (fun r => (r.kind, r.area))).Nodup) (code : String)
    (hr : RpReadable run code) (hsub : ∀ r ∈ rpRowsOfArea run code, r ∈ rows) :
    RpIsFresh run code (rpStoreAll rows table) := by
  cases hf : rpFetch (run.results code) code with
  | none => exact absurd hf hr
  | some records =>
    obtain ⟨doc, hd, e⟩ := rpRowsOfArea_readable run hl code records hf
    rw [e] at hsub
    refine ⟨records, hf, ⟨_, doc, hl.1 code _, hd, ?_⟩, ⟨_, hl.2 code _, ?_⟩⟩
    · exact rpStoreAll_mem ⟨"report", code, .report doc⟩ rows table hn (hsub _ (by simp))
    · exact rpStoreAll_mem ⟨"summary", code, .summary _⟩ rows table hn (hsub _ (by simp))

/-- **C116.** For every day (every table of results, also one that changes while the reports are
made, every order of the hash maps), every table of reports, and whether the program was killed at
some point or not: the reports of an area are as before, or both are made anew from the results of
the day, or just the first is and the summary is as before; if the reports of an area have changed,
then those of all areas before it, with an active result, are made anew; areas without an active
result, an area with an audit that cannot be shown, and all areas after it, are as before; and there
is at most one report of each kind for an area. -/
theorem C116_after_any_run (d : RpDay) (hl : d.run.Lawful) (table : List RpReportRow) :
    (∀ code, RpAsBefore table (rpDay table d) code ∨ RpIsFresh d.run code (rpDay table d) ∨
      ∃ records order doc, rpFetch (d.run.results code) code = some records ∧
        order.Perm (rpGroups records) ∧ rpReport order = some doc ∧
        rpStoredReport (rpDay table d) "report" code = some (.report doc) ∧
        ∀ kind, kind ≠ "report" →
          rpStoredReport (rpDay table d) kind code = rpStoredReport table kind code) ∧
    (∀ code code', ¬ RpAsBefore table (rpDay table d) code → RpHasActive d.db code' →
      RpEarlier code' code → RpIsFresh d.run code' (rpDay table d)) ∧
    (∀ code, ¬ RpHasActive d.db code → RpAsBefore table (rpDay table d) code) ∧
    (∀ bad, RpHasActive d.db bad → ¬ RpReadable d.run bad → ∀ code, code = bad ∨
      RpEarlier bad code → RpAsBefore table (rpDay table d) code) ∧
    ((table.map (fun r => (r.kind, r.area))).Nodup →
      ((rpDay table d).map (fun r => (r.kind, r.area))).Nodup) := by
  obtain ⟨n, hn⟩ : ∃ n, rpDay table d =
      rpStoreAll (((rpReached d.run (rpCodes d.db)).flatMap (rpRowsOfArea d.run)).take n)
        table := by
    unfold rpDay rpBatch
    rw [rpBatchAreas_eq d.run hl]
    cases d.killed with
    | none => exact ⟨_, by rw [List.take_length]⟩
    | some n => exact ⟨n, rfl⟩
  obtain ⟨done, rest, part, h1, h2, h3⟩ := rp_take_flatMap (rpRowsOfArea d.run)
    (rpReached d.run (rpCodes d.db)) n
  have hnd : (rpReached d.run (rpCodes d.db)).Nodup :=
    (rpCodes_nodup d.db).sublist (List.takeWhile_sublist _)
  have hkeys : ((done.flatMap (rpRowsOfArea d.run) ++ part).map
      (fun r => (r.kind, r.area))).Nodup := by
    rw [← h2]
    exact (rpRowsOfAreas_nodup d.run _ hnd).sublist ((List.take_sublist _ _).map _)
  rw [h2] at hn
  rw [hn]
  have hmem : ∀ c ∈ done ++ rest, c ∈ rpCodes d.db ∧ RpReadable d.run c := by
    intro c hc
    rw [← h1] at hc
    refine ⟨(List.takeWhile_sublist _).subset hc, ?_⟩
    have := rpReached_some d.run (rpCodes d.db) c hc
    intro e
    rw [e] at this
    cases this
  have hpart : ∀ r ∈ part, ∃ c rest', rest = c :: rest' ∧ r.area = c := by
    intro r hr
    rcases h3 with rfl | ⟨c, rest', e, hp⟩
    · cases hr
    · exact ⟨c, rest', e, rpRowsOfArea_area d.run c r (hp.subset hr)⟩
  have hfresh : ∀ c ∈ done, RpIsFresh d.run c
      (rpStoreAll (done.flatMap (rpRowsOfArea d.run) ++ part) table) := by
    intro c hc
    refine rpStoreAll_fresh d.run hl _ table hkeys c (hmem c (by simp [hc])).2 ?_
    intro r hr
    exact List.mem_append_left _ (List.mem_flatMap.mpr ⟨c, hc, hr⟩)
  have hother : ∀ c, c ∉ done → (∀ rest', rest ≠ c :: rest') → RpAsBefore table
      (rpStoreAll (done.flatMap (rpRowsOfArea d.run) ++ part) table) c := by
    intro c hc hc' kind
    refine rpStoreAll_other kind c _ table ?_
    intro hk
    rw [List.mem_map] at hk
    obtain ⟨r, hr, e⟩ := hk
    simp only [Prod.mk.injEq] at e
    rcases List.mem_append.mp hr with hr | hr
    · obtain ⟨c2, hc2, hr⟩ := List.mem_flatMap.mp hr
      rw [← e.2, rpRowsOfArea_area d.run c2 r hr] at hc
      exact hc hc2
    · obtain ⟨c2, rest', e2, e3⟩ := hpart r hr
      rw [← e.2, e3] at hc'
      exact hc' rest' e2
  have hsorted : (done ++ rest).Pairwise rpCodeLe := by
    rw [← h1]
    exact (rpCodes_sorted d.db).sublist (List.takeWhile_sublist _)
  obtain ⟨tail, htail, hbad⟩ : ∃ tail, rpCodes d.db = (done ++ rest) ++ tail ∧
      ∀ bad, bad ∈ rpCodes d.db → ¬ RpReadable d.run bad → bad ∈ tail := by
    refine ⟨(rpCodes d.db).dropWhile (fun c => (rpFetch (d.run.results c) c).isSome), ?_, ?_⟩
    · rw [← h1]
      exact List.takeWhile_append_dropWhile.symm
    · intro bad hb hr
      rw [← List.takeWhile_append_dropWhile
        (p := fun c => (rpFetch (d.run.results c) c).isSome) (l := rpCodes d.db)] at hb
      rcases List.mem_append.mp hb with hb | hb
      · exact absurd (hmem bad (h1 ▸ hb)).2 hr
      · exact hb
  have hall := rpCodes_sorted d.db
  rw [htail, List.pairwise_append] at hall
  refine ⟨?_, ?_, ?_, ?_, ?_⟩
  · intro c
    by_cases hc : c ∈ done
    · exact Or.inr (Or.inl (hfresh c hc))
    · by_cases hc' : ∃ rest', rest = c :: rest'
      · obtain ⟨rest', e⟩ := hc'
        have hread := (hmem c (by simp [e])).2
        cases hf : rpFetch (d.run.results c) c with
        | none => exact absurd hf hread
        | some records =>
          obtain ⟨doc, hd, er⟩ := rpRowsOfArea_readable d.run hl c records hf
          rcases h3 with rfl | ⟨c2, rest2, e2, hp⟩
          · refine Or.inl (fun kind => rpStoreAll_other kind c _ table ?_)
            rw [List.append_nil]
            intro hk
            rw [List.mem_map] at hk
            obtain ⟨r, hr, e⟩ := hk
            simp only [Prod.mk.injEq] at e
            obtain ⟨c2, hc2, hr⟩ := List.mem_flatMap.mp hr
            rw [← e.2, rpRowsOfArea_area d.run c2 r hr] at hc
            exact hc hc2
          · rw [e] at e2
            cases e2
            rw [er] at hp
            have hdone : ∀ kind, (kind, c) ∉ (done.flatMap (rpRowsOfArea d.run)).map
                (fun r => (r.kind, r.area)) := by
              intro kind hk
              rw [List.mem_map] at hk
              obtain ⟨r, hr, e⟩ := hk
              simp only [Prod.mk.injEq] at e
              obtain ⟨c2, hc2, hr⟩ := List.mem_flatMap.mp hr
              rw [← e.2, rpRowsOfArea_area d.run c2 r hr] at hc
              exact hc hc2
            cases part with
            | nil =>
              refine Or.inl (fun kind => rpStoreAll_other kind c _ table ?_)
              rw [List.append_nil]
              exact hdone kind
            | cons r1 part =>
              rw [List.cons_prefix_cons] at hp
              obtain ⟨rfl, hp⟩ := hp
              cases part with
              | nil =>
                refine Or.inr (Or.inr ⟨records, _, doc, rfl, hl.1 c _, hd, ?_, ?_⟩)
                · exact rpStoreAll_mem ⟨"report", c, .report doc⟩ _ table hkeys (by simp)
                · intro kind hk
                  refine rpStoreAll_other kind c _ table ?_
                  rw [List.map_append, List.mem_append, not_or]
                  exact ⟨hdone kind, by simp [hk]⟩
              | cons r2 part =>
                rw [List.cons_prefix_cons] at hp
                obtain ⟨rfl, -⟩ := hp
                refine Or.inr (Or.inl (rpStoreAll_fresh d.run hl _ table hkeys c hread ?_))
                intro r hr
                rw [er] at hr
                simp only [List.mem_cons, List.not_mem_nil, or_false] at hr
                rcases hr with rfl | rfl <;> simp
      · exact Or.inl (hother c hc (fun rest' e => hc' ⟨rest', e⟩))
  · intro c c' hc ha he
    have hc1 : c ∈ done ∨ ∃ rest', rest = c :: rest' := by
      by_contra hcon
      rw [not_or] at hcon
      exact hc (hother c hcon.1 (fun rest' e => hcon.2 ⟨rest', e⟩))
    have hc2 : c' ∈ (done ++ rest) ++ tail := by
      rw [← htail]
      exact (rpCodes_mem d.db c').mpr ha
    have hcd : c ∈ done ++ rest := by
      rcases hc1 with h | ⟨rest', e⟩
      · simp [h]
      · simp [e]
    rcases List.mem_append.mp hc2 with h | h
    · rcases List.mem_append.mp h with h | h
      · exact hfresh c' h
      · rw [List.pairwise_append] at hsorted
        rcases hc1 with h' | ⟨rest', e⟩
        · exact absurd (hsorted.2.2 c h' c' h) he
        · rw [e] at h
          rcases List.mem_cons.mp h with rfl | h
          · exact absurd (rpLe_refl _) he
          · have := hsorted.2.1
            rw [e, List.pairwise_cons] at this
            exact absurd (this.1 c' h) he
    · exact absurd (hall.2.2 c hcd c' h) he
  · intro c hc
    refine hother c (fun h => hc ?_) (fun rest' e => hc ?_)
    · exact (rpCodes_mem d.db c).mp (hmem c (by simp [h])).1
    · exact (rpCodes_mem d.db c).mp (hmem c (by simp [e])).1
  · intro bad ha hb c hc
    have hbt := hbad bad ((rpCodes_mem d.db bad).mpr ha) hb
    have hcn : c ∉ done ++ rest := by
      intro h
      rcases hc with rfl | hc
      · exact hb (hmem c h).2
      · exact hc (hall.2.2 c h bad hbt)
    rw [List.mem_append, not_or] at hcn
    exact hother c hcn.1 (fun rest' e => hcn.2 (by simp [e]))
  · exact rpStoreAll_unique _ table

/-- **C116.** For every history of days, whatever happened on them, every table of reports and every
lawful last day on which the program was not killed and all audits could be shown: the program ends
without an error, both reports of every area with an active result are those of the results of this
day, and the reports of the other areas are as on the day before.

Missing: one audit that cannot be shown keeps all later areas from having reports
(`C116_one_bad_area_refuted`), and the report of an area without students stays as it was when it had
some (`C116_stale_refuted`). -/
theorem C116_good_day_partial (days : List RpDay) (d : RpDay) (hl : d.run.Lawful)
    (hk : d.killed = none) (hr : ∀ code, RpHasActive d.db code → RpReadable d.run code)
    (table : List RpReportRow) :
    (rpBatch d.db d.run).2 = true ∧
    (∀ code, RpHasActive d.db code → RpIsFresh d.run code (rpWorker (days ++ [d]) table)) ∧
    (∀ code, ¬ RpHasActive d.db code →
      RpAsBefore (rpWorker days table) (rpWorker (days ++ [d]) table) code) := by
  have hw : rpWorker (days ++ [d]) table = rpDay (rpWorker days table) d := by
    unfold rpWorker
    rw [List.foldl_append]
    rfl
  have hgood : ∀ c ∈ rpCodes d.db, (rpFetch (d.run.results c) c).isSome = true := by
    intro c hc
    have := hr c ((rpCodes_mem d.db c).mp hc)
    cases hf : rpFetch (d.run.results c) c with
    | none => exact absurd hf this
    | some _ => rfl
  refine ⟨?_, ?_, ?_⟩
  · unfold rpBatch
    rw [rpBatchAreas_eq d.run hl]
    exact List.all_eq_true.mpr hgood
  · intro code ha
    rw [hw]
    unfold rpDay rpBatch
    rw [rpBatchAreas_eq d.run hl, hk]
    have : rpReached d.run (rpCodes d.db) = rpCodes d.db := by
      exact rpReached_all d.run _ hgood
    rw [this]
    refine rpStoreAll_fresh d.run hl _ _ (rpRowsOfAreas_nodup d.run _ (rpCodes_nodup d.db)) code
      (hr code ha) ?_
    intro r h
    exact List.mem_flatMap.mpr ⟨code, (rpCodes_mem d.db code).mpr ha, h⟩
  · intro code ha
    rw [hw]
    exact (C116_after_any_run d hl (rpWorker days table)).2.2.1 code ha

/-! ### Examples and refutations -/

/-- A run that meets the results as they are, with hash maps that keep the order. -/
def rpQuiet (db : List RpStored) : RpRun := ⟨fun _ => db, fun _ l => l, fun _ l => l⟩

/-- The hypotheses hold of the students of the core, in two areas: all four reports are stored, or
three if the program was killed then. -/
example : (rpQuiet rpCoreDb).Lawful ∧ RpHasActive rpCoreDb "140" ∧
    (∀ code, RpHasActive rpCoreDb code → RpReadable (rpQuiet rpCoreDb) code) ∧
    (rpDay [] ⟨rpCoreDb, rpQuiet rpCoreDb, none⟩).map (fun r => (r.kind, r.area)) =
      [("report", "140"), ("summary", "140"), ("report", "150"), ("summary", "150")] ∧
    (rpDay [] ⟨rpCoreDb, rpQuiet rpCoreDb, some 3⟩).map (fun r => (r.kind, r.area)) =
      [("report", "140"), ("summary", "140"), ("report", "150")] := by
  have h : rpCodes rpCoreDb = ["140", "150"] := by decide +kernel
  refine ⟨⟨fun _ l => List.Perm.refl l, fun _ l => List.Perm.refl l⟩, ?_, ?_, ?_, ?_⟩
  · rw [← rpCodes_mem, h]; simp
  · intro code hc
    rw [← rpCodes_mem, h] at hc
    simp only [List.mem_cons, List.not_mem_nil, or_false] at hc
    unfold RpReadable
    rcases hc with rfl | rfl <;> decide +kernel
  · decide +kernel
  · decide +kernel

/-- An audit of a major with a course of another institution, which has a name only
(`dp/rule/course.py:82` allows it). -/
def rpAbroad : RpArea :=
  { status := .needsMoreItems
    result := .count 2 [
      .course { claims := [], status := .empty, course := none, ap := none, crsid := none },
      rpCourseItem "CSCI 121" ["10"] .done] .needsMoreItems }

/-- Ann's major has a course of another institution; Bob's major comes later in the order of the
codes. -/
def rpAbroadDb : List RpStored :=
  [⟨"130", true, 3, rpAnn, rpAbroad⟩, ⟨"140", true, 3, rpBob, rpCore ["20"] [] .needsMoreItems⟩]

/-- The title of a course that has a name only is looked for in vain, which ends the program: Bob's
major, which is fine, has no reports after any number of days. -/
theorem C116_one_bad_area_refuted :
    RpHasActive rpAbroadDb "140" ∧ RpReadable (rpQuiet rpAbroadDb) "140" ∧
    (rpBatch rpAbroadDb (rpQuiet rpAbroadDb)).2 = false ∧
    ∀ n, rpStoredReport
      (rpWorker (List.replicate n ⟨rpAbroadDb, rpQuiet rpAbroadDb, none⟩) []) "report" "140" =
        none := by
  have h : rpCodes rpAbroadDb = ["130", "140"] := by decide +kernel
  refine ⟨?_, ?_, ?_, ?_⟩
  · rw [← rpCodes_mem, h]; simp
  · unfold RpReadable
    decide +kernel
  · decide +kernel
  · intro n
    have hd : rpDay [] ⟨rpAbroadDb, rpQuiet rpAbroadDb, none⟩ = [] := by decide +kernel
    have : rpWorker (List.replicate n ⟨rpAbroadDb, rpQuiet rpAbroadDb, none⟩) [] = [] := by
      induction n with
      | zero => rfl
      | succ n ih =>
        unfold rpWorker at ih ⊢
        rw [List.replicate_succ, List.foldl_cons, hd]
        exact ih
    rw [this]
    rfl

/-- Ann and Bob have left the major, so that it has no students; its report still has both. -/
theorem C116_stale_refuted :
    ∃ doc, rpStoredReport (rpWorker [⟨rpCoreDb, rpQuiet rpCoreDb, none⟩,
        ⟨rpCoreDb.map (fun r => { r with isActive := false }),
          rpQuiet (rpCoreDb.map (fun r => { r with isActive := false })), none⟩] [])
        "report" "140" = some (.report doc) ∧
      (doc.flatMap RpHtml.rows).length = 2 := by
  exact ⟨_, rfl, by decide +kernel⟩

end Dp
