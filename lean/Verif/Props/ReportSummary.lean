import Verif.Props.Report

/-!
# C114: the numbers in the summary of an area
-/

namespace Dp

/-! ### Specification -/

/-- The first part of the student's audit with this title. -/
def rpFirst (title : String) (r : RpStored) : Option RpRec :=
  ((rpAreaRow r.student r.area).getD []).find? (fun c => decide (c.title = title))

/-- The student has a part with this title. -/
def RpHas (title : String) (r : RpStored) : Bool := (rpFirst title r).isSome

/-- The student has a part with this title, and the first such part is not shown as passing. -/
def RpLacks (title : String) (r : RpStored) : Bool :=
  match rpFirst title r with
  | some c => !decide (c.status = .done ∨ c.status = .waived ∨ c.status = .pendingCurrent)
  | none => false

/-- "`n` of `m`": of the `m` students who have a part with this title, `n` still need it. -/
def rpNeeds (title : String) (group : List RpStored) : Nat × Nat :=
  (group.countP (RpLacks title), group.countP (RpHas title))

/-- The students of a class. -/
def rpOfClass (k : RpClass) (group : List RpStored) : List RpStored :=
  group.filter (fun r => decide (r.student.classification = k))

/-! ### Counting -/

/-- The counter of a title after all students. -/
def rpCountOf (title : String) (group : List RpRecord) (c : RpCounter) : RpCounter :=
  group.foldl (fun k r =>
    match r.cellByTitle title with
    | some c => k.insert r.student.classification c.status.isPassing
    | none => k) c

theorem rpModify_map (title : String) (f : RpCounter → RpCounter) (g : String → RpCounter) :
    ∀ ks : List String, ks.Nodup →
      rpModify title f (ks.map (fun k => (k, g k))) =
        ks.map (fun k => (k, if k = title then f (g k) else g k))
  | [], _ => rfl
  | k :: ks, hn => by
    rw [List.nodup_cons] at hn
    by_cases h : k = title
    · subst h
      simp only [List.map_cons, rpModify, if_true]
      congr 1
      refine List.map_congr_left (fun k' hk' => ?_)
      rw [if_neg]
      intro h
      exact hn.1 (h ▸ hk')
    · simp only [List.map_cons, rpModify, if_neg h]
      rw [rpModify_map title f g ks hn.2]

theorem rpCountTitle_map (title : String) (ks : List String) (hn : ks.Nodup) :
    ∀ (group : List RpRecord) (g : String → RpCounter),
      rpCountTitle group (ks.map (fun k => (k, g k))) title =
        ks.map (fun k => (k, if k = title then rpCountOf title group (g k) else g k))
  | [], g => by simp [rpCountTitle, rpCountOf]
  | r :: group, g => by
    have ih := fun g => rpCountTitle_map title ks hn group g
    unfold rpCountTitle rpCountOf at ih ⊢
    rw [List.foldl_cons]
    cases hc : r.cellByTitle title with
    | none =>
      dsimp only
      rw [ih g]
      simp [hc]
    | some c =>
      dsimp only
      rw [rpModify_map title _ g ks hn, ih]
      refine List.map_congr_left (fun k _ => ?_)
      by_cases h : k = title
      · simp [h, hc]
      · simp [h]

theorem rpCounters_loop (group : List RpRecord) (ks : List String) (hn : ks.Nodup) :
    ∀ (ts : List String) (g : String → RpCounter), ts.Nodup →
      ts.foldl (rpCountTitle group) (ks.map (fun k => (k, g k))) =
        ks.map (fun k => (k, if k ∈ ts then rpCountOf k group (g k) else g k))
  | [], g, _ => by simp
  | t :: ts, g, ht => by
    rw [List.nodup_cons] at ht
    rw [List.foldl_cons, rpCountTitle_map t ks hn group g, rpCounters_loop group ks hn ts _ ht.2]
    refine List.map_congr_left (fun k _ => ?_)
    by_cases h : k = t
    · subst h
      simp [ht.1]
    · simp [h]

theorem rpCounters_eq (titles : List String) (hn : titles.Nodup) (group : List RpRecord) :
    rpCounters titles group = (titles.filter (fun t => !rpIsMeta t)).map
      (fun t => (t, rpCountOf t group RpCounter.empty)) := by
  unfold rpCounters
  rw [rpCounters_loop group _ (hn.filter _) titles (fun _ => RpCounter.empty) hn]
  refine List.map_congr_left (fun k hk => ?_)
  rw [if_pos (List.mem_filter.mp hk).1]

/-- What a record adds to the counter of a title. -/
def rpMark (title : String) (p : RpClass → Bool) (r : RpRecord) : Option Bool :=
  if p r.student.classification then (r.cellByTitle title).map (fun c => c.status.isPassing)
  else none

theorem rpCountOf_lists (title : String) : ∀ (group : List RpRecord) (c : RpCounter),
    (rpCountOf title group c).all = c.all ++ group.filterMap (rpMark title (fun _ => true)) ∧
    (rpCountOf title group c).sr =
      c.sr ++ group.filterMap (rpMark title (fun k => decide (k = .sr))) ∧
    (rpCountOf title group c).jr =
      c.jr ++ group.filterMap (rpMark title (fun k => decide (k = .jr))) ∧
    (rpCountOf title group c).so =
      c.so ++ group.filterMap (rpMark title (fun k => decide (k = .so))) ∧
    (rpCountOf title group c).fy =
      c.fy ++ group.filterMap (rpMark title (fun k => decide (k = .fy)))
  | [], c => by simp [rpCountOf]
  | r :: group, c => by
    have ih := fun c => rpCountOf_lists title group c
    unfold rpCountOf at ih ⊢
    rw [List.foldl_cons]
    cases hc : r.cellByTitle title with
    | none =>
      dsimp only
      obtain ⟨h1, h2, h3, h4, h5⟩ := ih c
      rw [h1, h2, h3, h4, h5]
      simp [rpMark, hc]
    | some cell =>
      dsimp only
      obtain ⟨h1, h2, h3, h4, h5⟩ := ih (c.insert r.student.classification cell.status.isPassing)
      rw [h1, h2, h3, h4, h5]
      unfold RpCounter.insert
      cases hk : r.student.classification <;> simp [rpMark, hc, hk]

theorem rp_filterMap_length {α β : Type} (f : α → Option β) : ∀ l : List α,
    (l.filterMap f).length = l.countP (fun a => (f a).isSome)
  | [] => rfl
  | a :: l => by
    cases h : f a <;> simp [h, rp_filterMap_length f l]

theorem rp_filterMap_true {α : Type} (f : α → Option Bool) : ∀ l : List α,
    (l.filterMap f).length - ((l.filterMap f).filter id).length =
      l.countP (fun a => decide (f a = some false))
  | [] => rfl
  | a :: l => by
    have ih := rp_filterMap_true f l
    have hle : ((l.filterMap f).filter id).length ≤ (l.filterMap f).length :=
      List.length_filter_le _ _
    cases h : f a with
    | none => simpa [h] using ih
    | some b =>
      cases b with
      | true => simp [h]; simpa using ih
      | false =>
        simp only [List.filterMap_cons, h, List.filter_cons, List.length_cons, List.countP_cons]
        simp only [id, Bool.false_eq_true, if_false, decide_true, if_true]
        omega

/-! ### From records to stored results -/

theorem rp_countP_made (db : List RpStored) (code : String) (records : List RpRecord)
    (hf : rpFetch db code = some records) (P : RpRecord → Bool) (Q : RpStored → Bool)
    (h : ∀ st r, rpRecord st.student st.area = some r → P r = Q st) :
    records.countP P = (db.filter (RpActive code)).countP Q := by
  obtain ⟨made, hperm, hmade, -⟩ := rpFetch_eq db code records hf
  rw [← hperm.countP_eq]
  have hm := rp_mapM_map _ P Q h _ _ hmade
  have h1 : made.countP P = (made.map P).countP id := by rw [List.countP_map]; rfl
  have h2 : (db.filter (RpActive code)).countP Q = ((db.filter (RpActive code)).map Q).countP id := by
    rw [List.countP_map]; rfl
  rw [h1, h2, hm]

theorem rpFirst_made (title : String) (st : RpStored) (r : RpRecord)
    (h : rpRecord st.student st.area = some r) : r.cellByTitle title = rpFirst title st := by
  unfold rpFirst RpRecord.cellByTitle
  rw [(rpRecord_eq _ _ _ h).1]
  rfl

theorem rpLacks_made (title : String) (st : RpStored) (r : RpRecord)
    (h : rpRecord st.student st.area = some r) :
    decide ((r.cellByTitle title).map (fun c => c.status.isPassing) = some false) =
      RpLacks title st := by
  rw [rpFirst_made title st r h]
  unfold RpLacks
  cases rpFirst title st with
  | none => rfl
  | some c => cases hs : c.status <;> simp [hs, RpStatus.isPassing]

/-- The students of these catalogs. -/
def rpOfCatalogs (catalogs : List String) (group : List RpStored) : List RpStored :=
  group.filter (fun r => decide (r.student.catalog ∈ catalogs))

theorem rpFormat_needs (db : List RpStored) (code : String) (records : List RpRecord)
    (hf : rpFetch db code = some records) (title : String) (p : RpClass → Bool)
    (catalogs : List String) :
    rpFormat ((records.filter (fun r => catalogs.any (fun c => decide (c = r.student.catalog)))
      ).filterMap (rpMark title p)) =
      rpNeeds title ((rpOfCatalogs catalogs (db.filter (RpActive code))).filter
        (fun r => p r.student.classification)) := by
  have hcat : ∀ s : RpStudent, catalogs.any (fun c => decide (c = s.catalog)) =
      decide (s.catalog ∈ catalogs) := by
    intro s
    rw [Bool.eq_iff_iff]
    simp
  unfold rpFormat rpNeeds rpOfCatalogs
  rw [rp_filterMap_true, rp_filterMap_length]
  generalize hact : db.filter (RpActive code) = act
  simp only [List.countP_filter]
  rw [← hact]
  refine Prod.ext ?_ ?_
  · refine rp_countP_made db code records hf _ _ (fun st r h => ?_)
    rw [hcat, (rpRecord_eq _ _ _ h).2.1, ← rpLacks_made title st r h]
    unfold rpMark
    rw [(rpRecord_eq _ _ _ h).2.1]
    cases p st.student.classification <;> simp
  · refine rp_countP_made db code records hf _ _ (fun st r h => ?_)
    rw [hcat, (rpRecord_eq _ _ _ h).2.1]
    unfold rpMark RpHas
    rw [(rpRecord_eq _ _ _ h).2.1, rpFirst_made title st r h]
    cases p st.student.classification <;> simp

theorem rp_mapM_of {α β : Type} (f : α → Option β) :
    ∀ (l : List α) (bs : List β), l.mapM f = some bs → ∀ a ∈ l, ∃ b ∈ bs, f a = some b
  | [], _, _, _, h => by simp at h
  | a :: l, bs, hm, a', ha => by
    rw [List.mapM_cons] at hm
    cases hf : f a with
    | none => simp [hf] at hm
    | some b =>
      cases hl : l.mapM f with
      | none => simp [hf, hl] at hm
      | some cs =>
        simp [hf, hl] at hm
        subst hm
        rcases List.mem_cons.mp ha with e | e
        · exact ⟨b, by simp, by rw [e, hf]⟩
        · obtain ⟨b', hb', h'⟩ := rp_mapM_of f l cs hl a' e
          exact ⟨b', by simp [hb'], h'⟩

theorem rpFetch_of (db : List RpStored) (code : String) (records : List RpRecord)
    (hf : rpFetch db code = some records) (st : RpStored) (h : st ∈ db)
    (ha : RpActive code st = true) :
    ∃ r ∈ records, rpRecord st.student st.area = some r := by
  obtain ⟨made, hpm, hmade, -⟩ := rpFetch_eq db code records hf
  obtain ⟨r, hr, he⟩ := rp_mapM_of _ _ _ hmade st (List.mem_filter.mpr ⟨h, ha⟩)
  exact ⟨r, hpm.mem_iff.mp hr, he⟩

theorem rpTitles_made (st : RpStored) (r : RpRecord)
    (h : rpRecord st.student st.area = some r) :
    r.titles.map Prod.fst = (rpShown st).map RpRec.title := by
  obtain ⟨h1, -, -, h4⟩ := rpRecord_eq _ _ _ h
  rw [h4, List.map_map]
  unfold rpShown
  rw [h1]
  rfl

/-! ### Groups of catalogs -/

theorem rpCatalogGroups_mem (records : List RpRecord) (g : List String × List String)
    (h : g ∈ rpCatalogGroups records) :
    (∃ r ∈ records, (rpByTitles r).1 = g.1) ∧
      ∀ c, c ∈ g.2 ↔ ∃ r ∈ records, rpByTitles r = (g.1, c) := by
  unfold rpCatalogGroups rpGroupMap at h
  simp only [List.mem_map, rpUnique_mem] at h
  obtain ⟨k, ⟨p, ⟨r, hr, rfl⟩, rfl⟩, rfl⟩ := h
  refine ⟨⟨r, hr, rfl⟩, fun c => ?_⟩
  simp only [List.mem_map, List.mem_filter, rpUnique_mem]
  constructor
  · rintro ⟨q, ⟨⟨r', hr', rfl⟩, he⟩, rfl⟩
    exact ⟨r', hr', Prod.ext (by simpa using he) rfl⟩
  · rintro ⟨r', hr', he⟩
    exact ⟨_, ⟨⟨r', hr', rfl⟩, by rw [he]; simp⟩, by rw [he]⟩

theorem rpCatalogGroups_of (records : List RpRecord) (r : RpRecord) (hr : r ∈ records) :
    ∃ g ∈ rpCatalogGroups records, g.1 = (rpByTitles r).1 := by
  unfold rpCatalogGroups rpGroupMap
  refine ⟨_, List.mem_map_of_mem (a := (rpByTitles r).1) ?_, rfl⟩
  rw [rpUnique_mem, List.mem_map]
  exact ⟨rpByTitles r, by rw [rpUnique_mem]; exact List.mem_map_of_mem hr, rfl⟩

theorem rpCatalogGroups_keys (records : List RpRecord) :
    ((rpCatalogGroups records).map Prod.fst).Nodup := by
  unfold rpCatalogGroups rpGroupMap
  rw [List.map_map]
  have : ((Prod.fst : List String × List String → List String) ∘ fun k =>
      (k, ((rpUnique (records.map rpByTitles)).filter (fun p => decide (p.1 = k))).map Prod.snd)) =
      id := rfl
  rw [this, List.map_id]
  exact rpUnique_nodup _

theorem rpSummaryTable_rows (records : List RpRecord) (g : List String × List String)
    (h : g ∈ rpCatalogGroups records) :
    (rpSummaryTable records g).rows = (g.1.filter (fun t => !rpIsMeta t)).map (fun t =>
      rpSummaryRow (t, rpCountOf t (records.filter
        (fun r => g.2.any (fun c => decide (c = r.student.catalog)))) RpCounter.empty)) := by
  obtain ⟨⟨r, -, hr⟩, -⟩ := rpCatalogGroups_mem records g h
  have hn : g.1.Nodup := by rw [← hr]; exact rpUnique_nodup _
  unfold rpSummaryTable
  dsimp only
  rw [rpCounters_eq g.1 hn, List.map_map]
  rfl

/-- **C114.** For every table of results, every area and every order of the hash map: each table of
the summary is about the catalogs in its caption, and in the row of a title it has, of the students
with an active result and one of these catalogs, how many still need the part with this title and
how many have such a part: of all, and of each of the four classes. Each part of each student's
audit, apart from the number, name and class of the student and the parts of emphases, has a row in
a table with the student's catalog.

Missing: a student can be counted in several tables (`C114_counted_twice_refuted`), and a student
who has done a part can be counted as still needing it (`C115_done_is_shown_as_needed_refuted`). -/
theorem C114_summary_counts_partial (db : List RpStored) (code : String)
    (records : List RpRecord) (hf : rpFetch db code = some records)
    (order : List (List String × List String)) (hp : order.Perm (rpCatalogGroups records)) :
    ∃ tables : List (List String × RpSummaryTable),
      rpSummary records order = tables.map Prod.snd ∧
      (∀ t ∈ tables, t.2.caption = "Catalog: " ++ String.intercalate ", " t.1 ∧ t.1 ≠ [] ∧
        ∀ row ∈ t.2.rows,
          let group := rpOfCatalogs t.1 (db.filter (RpActive code))
          row.overall = rpNeeds row.title group ∧
          row.sr = rpNeeds row.title (rpOfClass .sr group) ∧
          row.jr = rpNeeds row.title (rpOfClass .jr group) ∧
          row.so = rpNeeds row.title (rpOfClass .so group) ∧
          row.fy = rpNeeds row.title (rpOfClass .fy group)) ∧
      (∀ r ∈ db, RpActive code r = true → ∀ c ∈ rpShown r,
        c.title ∉ ["student id", "name", "classification", "class year"] →
        ∃ t ∈ tables, r.student.catalog ∈ t.1 ∧ ∃ row ∈ t.2.rows, row.title = c.title) := by
  have hperm : (order.insertionSort rpCatalogsLe).Perm (rpCatalogGroups records) :=
    (List.perm_insertionSort _ _).trans hp
  refine ⟨(order.insertionSort rpCatalogsLe).map (fun g => (g.2, rpSummaryTable records g)),
    ?_, ?_, ?_⟩
  · rw [List.map_map]; rfl
  · intro t ht
    rw [List.mem_map] at ht
    obtain ⟨g, hg, rfl⟩ := ht
    have hg' := hperm.mem_iff.mp hg
    obtain ⟨⟨r, hr, hrk⟩, hcs⟩ := rpCatalogGroups_mem records g hg'
    refine ⟨rfl, ?_, ?_⟩
    · intro hnil
      have := (hcs r.student.catalog).mpr ⟨r, hr, Prod.ext hrk rfl⟩
      dsimp only at hnil
      simp [hnil] at this
    · intro row hrow
      dsimp only at hrow
      rw [rpSummaryTable_rows records g hg', List.mem_map] at hrow
      obtain ⟨title, -, rfl⟩ := hrow
      obtain ⟨h1, h2, h3, h4, h5⟩ := rpCountOf_lists title (records.filter
        (fun r => g.2.any (fun c => decide (c = r.student.catalog)))) RpCounter.empty
      dsimp only [rpSummaryRow]
      rw [h1, h2, h3, h4, h5]
      simp only [RpCounter.empty, List.nil_append]
      rw [rpFormat_needs db code records hf, rpFormat_needs db code records hf,
        rpFormat_needs db code records hf, rpFormat_needs db code records hf,
        rpFormat_needs db code records hf]
      refine ⟨by rw [List.filter_true], rfl, rfl, rfl, rfl⟩
  · intro st hst hact c hc hmeta
    obtain ⟨r, hr, hmade⟩ := rpFetch_of db code records hf st hst hact
    obtain ⟨g, hg, hgk⟩ := rpCatalogGroups_of records r hr
    obtain ⟨-, hcs⟩ := rpCatalogGroups_mem records g hg
    refine ⟨(g.2, rpSummaryTable records g),
      List.mem_map.mpr ⟨g, hperm.mem_iff.mpr hg, rfl⟩, ?_, ?_⟩
    · rw [← (rpRecord_eq _ _ _ hmade).2.1]
      exact (hcs _).mpr ⟨r, hr, Prod.ext hgk.symm rfl⟩
    · dsimp only
      rw [rpSummaryTable_rows records g hg]
      refine ⟨_, List.mem_map_of_mem (a := c.title) ?_, rfl⟩
      rw [List.mem_filter, hgk]
      refine ⟨?_, ?_⟩
      · unfold rpByTitles
        rw [rpUnique_mem, rpTitles_made st r hmade]
        exact List.mem_map_of_mem hc
      · simp only [List.mem_cons, List.not_mem_nil, or_false, not_or] at hmeta
        simp [rpIsMeta, hmeta]

/-! ### Every student once -/

/-- The different titles of the parts of a student's audit. -/
def rpTitlesOf (r : RpStored) : List String := rpUnique ((rpShown r).map RpRec.title)

/-- The rows of a title in all tables of a summary. -/
def rpRowsOf (title : String) (summary : List RpSummaryTable) : List RpSummaryRow :=
  (summary.flatMap RpSummaryTable.rows).filter (fun row => decide (row.title = title))

theorem rp_filter_one {β : Type} (t : String) (f : String → β) (title : β → String)
    (hf : ∀ s, title (f s) = s) : ∀ ks : List String, ks.Nodup →
    (ks.map f).filter (fun b => decide (title b = t)) = if t ∈ ks then [f t] else []
  | [], _ => rfl
  | k :: ks, hn => by
    rw [List.nodup_cons] at hn
    rw [List.map_cons, List.filter_cons, hf, rp_filter_one t f title hf ks hn.2]
    by_cases h : k = t
    · subst h; simp [hn.1]
    · have h' : ¬ t = k := fun e => h e.symm
      simp [h, h']

/-- **C114.** If students with the same catalog have the same titles in their audits, then every
student is counted once: the numbers of students in all rows of a title, in all tables together, add
up to the number of students who have a part with this title, and the numbers of those who need it
to the number of those who need it. -/
theorem C114_every_student_counted_once_partial (db : List RpStored) (code : String)
    (records : List RpRecord) (hf : rpFetch db code = some records)
    (order : List (List String × List String)) (hp : order.Perm (rpCatalogGroups records))
    (hsame : ∀ a ∈ db, ∀ b ∈ db, RpActive code a = true → RpActive code b = true →
      a.student.catalog = b.student.catalog → rpTitlesOf a = rpTitlesOf b)
    (title : String) (hmeta : title ∉ ["student id", "name", "classification", "class year"])
    (hemph : rpStarts "Emphasis:" title = false) :
    ((rpRowsOf title (rpSummary records order)).map (fun row => row.overall.2)).sum =
      (db.filter (RpActive code)).countP (RpHas title) ∧
    ((rpRowsOf title (rpSummary records order)).map (fun row => row.overall.1)).sum =
      (db.filter (RpActive code)).countP (RpLacks title) := by
  have hperm : (order.insertionSort rpCatalogsLe).Perm (rpCatalogGroups records) :=
    (List.perm_insertionSort _ _).trans hp
  have hmeta' : rpIsMeta title = false := by
    simp only [List.mem_cons, List.not_mem_nil, or_false, not_or] at hmeta
    simp [rpIsMeta, hmeta]
  -- every record comes from a stored result
  have hback : ∀ r ∈ records, ∃ st ∈ db, RpActive code st = true ∧
      rpRecord st.student st.area = some r := by
    intro r hr
    obtain ⟨made, hpm, hmade, -⟩ := rpFetch_eq db code records hf
    obtain ⟨st, h, hst⟩ := rp_mapM_mem _ _ _ hmade r (hpm.mem_iff.mpr hr)
    exact ⟨st, (List.mem_filter.mp h).1, (List.mem_filter.mp h).2, hst⟩
  -- the catalogs of a group are those of the students with its titles
  have hcat : ∀ g ∈ rpCatalogGroups records, ∀ r ∈ records,
      (g.2.any (fun c => decide (c = r.student.catalog)) = true ↔ (rpByTitles r).1 = g.1) := by
    intro g hg r hr
    obtain ⟨-, hcs⟩ := rpCatalogGroups_mem records g hg
    have : g.2.any (fun c => decide (c = r.student.catalog)) = true ↔ r.student.catalog ∈ g.2 := by
      simp
    rw [this, hcs]
    constructor
    · rintro ⟨r', hr', he⟩
      obtain ⟨st, h1, h2, h3⟩ := hback r hr
      obtain ⟨st', h1', h2', h3'⟩ := hback r' hr'
      have e1 : r'.student.catalog = r.student.catalog := congrArg Prod.snd he
      have e2 : (rpByTitles r').1 = g.1 := congrArg Prod.fst he
      rw [← e2]
      unfold rpByTitles
      rw [rpTitles_made st r h3, rpTitles_made st' r' h3']
      refine hsame st h1 st' h1' h2 h2' ?_
      rw [← (rpRecord_eq _ _ _ h3).2.1, ← (rpRecord_eq _ _ _ h3').2.1, e1]
    · intro he
      exact ⟨r, hr, Prod.ext he rfl⟩
  -- a record has a cell with the title exactly if this is one of its titles
  have hhas : ∀ r ∈ records, (r.cellByTitle title).isSome = true ↔ title ∈ (rpByTitles r).1 := by
    intro r hr
    obtain ⟨st, h1, h2, h3⟩ := hback r hr
    unfold rpByTitles
    rw [rpUnique_mem, (rpRecord_eq _ _ _ h3).2.2.2, List.map_map]
    unfold RpRecord.cellByTitle
    rw [List.find?_isSome]
    simp only [List.mem_map, List.mem_filter, Function.comp_apply]
    constructor
    · rintro ⟨c, hc, he⟩
      have he : c.title = title := by simpa using he
      refine ⟨c, ⟨hc, ?_⟩, he⟩
      unfold RpRec.isEmphasis
      rw [he, hemph]
      rfl
    · rintro ⟨c, ⟨hc, -⟩, he⟩
      exact ⟨c, hc, by simpa [RpRec.key] using he⟩
  -- the numbers of a group
  have hnum : ∀ (sel : Nat × Nat → Nat) (P : RpRecord → Bool),
      (∀ group : List RpRecord,
        sel (rpFormat (group.filterMap (rpMark title (fun _ => true)))) = group.countP P) →
      (∀ r ∈ records, P r = true → title ∈ (rpByTitles r).1) →
      ((rpRowsOf title (rpSummary records order)).map (fun row => sel row.overall)).sum =
        records.countP P := by
    intro sel P hsel hP
    have hgroup : ∀ g ∈ rpCatalogGroups records,
        (((rpSummaryTable records g).rows.filter (fun row => decide (row.title = title))).map
          (fun row => sel row.overall)).sum =
        (records.filter (fun r => decide ((rpByTitles r).1 = g.1))).countP P := by
      intro g hg
      obtain ⟨⟨r, -, hr⟩, -⟩ := rpCatalogGroups_mem records g hg
      have hn : g.1.Nodup := by rw [← hr]; exact rpUnique_nodup _
      have hfilter : records.filter (fun r => g.2.any (fun c => decide (c = r.student.catalog))) =
          records.filter (fun r => decide ((rpByTitles r).1 = g.1)) := by
        refine List.filter_congr (fun r hr => ?_)
        rw [Bool.eq_iff_iff, hcat g hg r hr, decide_eq_true_eq]
      rw [rpSummaryTable_rows records g hg, hfilter,
        rp_filter_one title _ RpSummaryRow.title (fun _ => rfl) _ (hn.filter _)]
      by_cases ht : title ∈ g.1
      · rw [if_pos (List.mem_filter.mpr ⟨ht, by rw [hmeta']; rfl⟩)]
        simp only [List.map_cons, List.map_nil, List.sum_cons, List.sum_nil, Nat.add_zero,
          rpSummaryRow]
        rw [(rpCountOf_lists title _ _).1]
        simp only [RpCounter.empty, List.nil_append]
        exact hsel _
      · rw [if_neg (fun h => ht (List.mem_filter.mp h).1)]
        symm
        simp only [List.map_nil, List.sum_nil]
        rw [List.countP_eq_zero]
        intro r hr hPr
        rw [List.mem_filter] at hr
        have := hP r hr.1 hPr
        rw [of_decide_eq_true hr.2] at this
        exact ht this
    unfold rpRowsOf rpSummary
    rw [List.flatMap_map, List.flatMap_def, List.filter_flatten, List.map_flatten, List.sum_flatten]
    simp only [List.map_map, Function.comp_def]
    rw [List.Perm.sum_nat (hperm.map _)]
    rw [List.map_congr_left hgroup]
    have hpart := rp_partition (fun r => (rpByTitles r).1) ((rpCatalogGroups records).map Prod.fst)
      records (rpCatalogGroups_keys records) (by
        intro r hr
        obtain ⟨g, hg, he⟩ := rpCatalogGroups_of records r hr
        exact List.mem_map.mpr ⟨g, hg, he⟩)
    rw [← hpart.countP_eq, List.countP_flatten, List.map_map, List.map_map]
    rfl
  constructor
  · rw [hnum Prod.snd (fun r => (r.cellByTitle title).isSome) ?_ (fun r hr h => (hhas r hr).mp h)]
    · exact rp_countP_made db code records hf _ _ (fun st r h => by
        rw [rpFirst_made title st r h]; rfl)
    · intro group
      show (group.filterMap (rpMark title (fun _ => true))).length = _
      rw [rp_filterMap_length]
      congr 1
      funext r
      simp [rpMark]
  · rw [hnum Prod.fst (fun r => decide ((r.cellByTitle title).map
      (fun c => c.status.isPassing) = some false)) ?_ ?_]
    · exact rp_countP_made db code records hf _ _ (fun st r h => rpLacks_made title st r h)
    · intro group
      show (group.filterMap (rpMark title (fun _ => true))).length -
        ((group.filterMap (rpMark title (fun _ => true))).filter id).length = _
      rw [rp_filterMap_true]
      congr 1
    · intro r hr h
      refine (hhas r hr).mp ?_
      cases hc : r.cellByTitle title with
      | none => simp [hc] at h
      | some c => rfl

/-! ### Examples and refutations -/

/-- The hypotheses hold of a small table. Bob needs both parts of the core, Ann none: "1 of 2", and
of the juniors "1 of 1". -/
example : ∃ records, rpFetch rpCoreDb "140" = some records ∧
    (∀ a ∈ rpCoreDb, ∀ b ∈ rpCoreDb, RpActive "140" a = true → RpActive "140" b = true →
      a.student.catalog = b.student.catalog → rpTitlesOf a = rpTitlesOf b) ∧
    (rpSummary records (rpCatalogGroups records)).map
        (fun t => t.rows.map (fun r => (r.title, r.overall, r.sr, r.jr))) =
      [[("Core → #1 -> CSCI 121", (1, 2), (0, 1), (1, 1)),
        ("Core → #2 -> CSCI 251", (1, 2), (0, 1), (1, 1))]] := by
  refine ⟨_, rfl, ?_, ?_⟩ <;> decide +kernel

/-- An audit of a major with a core, and a course for those who have declared another area. -/
def rpWithCondition (declared : Bool) (a b : List String) (st : RpStatus) : RpArea :=
  let core : RpStatus := if a.isEmpty || b.isEmpty then .needsMoreItems else .done
  { status := st
    result := .count 2 [
      .requirement "Core" ["$", "%Core"]
        (some (.count 2 [
          rpCourseItem "CSCI 121" a (if a.isEmpty then .empty else .done),
          rpCourseItem "CSCI 251" b (if b.isEmpty then .empty else .done)] core)) core,
      .requirement "Other" ["$", "%Other"]
        (some (.conditional (.expr "Some(HasDeclaredAreaCode)" "Some(\"130\")" (some declared))
          (rpCourseItem "CSCI 252" [] .empty) none .empty)) .empty] st }

/-- Ann has declared the other area, Bob has not. The title of the condition has its result in it,
so the summary has two tables for the one catalog; each of them counts both students, so that for
the core four students are counted, where there are two. -/
theorem C114_counted_twice_refuted :
    ∃ records, rpFetch
        [⟨"140", true, 3, rpAnn, rpWithCondition true ["10"] ["11"] .needsMoreItems⟩,
         ⟨"140", true, 3, rpBob, rpWithCondition false ["20"] [] .needsMoreItems⟩] "140" =
        some records ∧ records.length = 2 ∧
      (rpSummary records (rpCatalogGroups records)).map RpSummaryTable.caption =
        ["Catalog: 2018-19", "Catalog: 2018-19"] ∧
      ((rpRowsOf "Core → #1 -> CSCI 121" (rpSummary records (rpCatalogGroups records))).map
        (fun row => row.overall)) = [(1, 2), (1, 2)] := by
  refine ⟨_, rfl, ?_, ?_, ?_⟩ <;> decide +kernel

end Dp
