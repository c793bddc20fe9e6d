import Verif.Model.Fetch
import Verif.Props.Testbed
import Verif.Props.Results

/-
C110, C111: what the testbed has from the server, and what it shows of single audits.
-/
namespace Dp

/-! ### Fetching -/

/-- the user asks for the run `n` -/
def AsksRun (a : FetchArgs) (typed : Except Err Int) (n : Int) : Prop :=
  a.latest = false ∧ ((a.run = some n ∧ n ≠ 0) ∨ ((a.run = none ∨ a.run = some 0) ∧ typed = .ok n))

/-- the row has a result, and is active if the latest ones are asked for, and else of the run asked for -/
def Wanted (a : FetchArgs) (typed : Except Err Int) (r : FetchRow) : Prop :=
  r.hasResult = true ∧ ((a.latest = true ∧ r.row.active = true) ∨ AsksRun a typed r.run)

theorem fetchSelect_wanted {a : FetchArgs} {typed : Except Err Int} {sel : Option Int} (h : fetchSelect a typed = .ok sel) (r : FetchRow) :
    r.wanted sel = true ↔ Wanted a typed r := by
  unfold fetchSelect at h
  unfold FetchRow.wanted Wanted AsksRun
  cases hl : a.latest with
  | true => rw [hl] at h; cases h; simp
  | false =>
    rw [hl] at h
    simp only [Bool.false_eq_true, if_false] at h
    cases ha : a.run with
    | none =>
      rw [ha] at h
      cases typed with
      | error e => cases h
      | ok n =>
        cases h
        simp only [Bool.and_eq_true, beq_iff_eq, Bool.false_eq_true, false_and, false_or, true_and, Except.ok.injEq, reduceCtorEq, or_false]
        exact and_congr_right (fun _ => eq_comm)
    | some m =>
      rw [ha] at h
      dsimp only at h
      by_cases hm : m = 0
      · rw [if_pos hm] at h
        cases typed with
        | error e => cases h
        | ok n =>
          cases h
          subst hm
          simp only [Bool.and_eq_true, beq_iff_eq, Bool.false_eq_true, false_and, false_or, true_and, Option.some.injEq, Except.ok.injEq,
            reduceCtorEq, false_or]
          constructor
          · rintro ⟨h1, h2⟩; exact ⟨h1, .inr h2.symm⟩
          · rintro ⟨h1, ⟨h2, h3⟩ | h2⟩
            · exact absurd h2.symm h3
            · exact ⟨h1, h2.symm⟩
      · rw [if_neg hm] at h
        cases h
        simp only [Bool.and_eq_true, beq_iff_eq, Bool.false_eq_true, false_and, false_or, true_and, Option.some.injEq,
            reduceCtorEq, false_or]
        constructor
        · rintro ⟨h1, h2⟩; exact ⟨h1, .inl ⟨h2.symm, h2 ▸ hm⟩⟩
        · rintro ⟨h1, ⟨h2, h3⟩ | ⟨h2, h3⟩⟩
          · exact ⟨h1, h2.symm⟩
          · exact absurd h2 hm

theorem fetchSelect_error {a : FetchArgs} {typed : Except Err Int} {e : Err} (h : fetchSelect a typed = .error e) :
    a.latest = false ∧ (a.run = none ∨ a.run = some 0) ∧ typed = .error e := by
  unfold fetchSelect at h
  split at h
  · cases h
  · rename_i hl
    split at h
    · rename_i n hn
      split at h
      · rename_i h0
        cases typed with
        | ok _ => cases h
        | error _ => cases h; exact ⟨by simpa using hl, .inr (by rw [hn, h0]), rfl⟩
      · cases h
    · rename_i hn
      cases typed with
      | ok _ => cases h
      | error _ => cases h; exact ⟨by simpa using hl, .inl hn, rfl⟩

theorem insertFetched_ok : ∀ {rs : List FetchRow} {table out : List (TbKey × Rat × RawStudent)}, insertFetched table rs = .ok out →
    out = table ++ rs.map (fun r => (r.key, r.duration, r.raw)) ∧ (∀ r ∈ rs, r.whole = true) ∧ (rs.map (·.key)).Nodup ∧
      ∀ r ∈ rs, r.key ∉ table.map (·.1)
  | [], table, out, h => by cases h; simp
  | r :: rs, table, out, h => by
    unfold insertFetched at h
    split at h
    · rename_i hc
      simp only [Bool.and_eq_true, Bool.not_eq_true', List.any_eq_false, decide_eq_true_eq] at hc
      obtain ⟨h1, h2, h3, h4⟩ := insertFetched_ok h
      have hr : r.key ∉ table.map (·.1) := by
        intro hm
        obtain ⟨t, ht, he⟩ := List.mem_map.1 hm
        exact hc.2 t ht he
      refine ⟨by rw [h1]; simp, ?_, ?_, ?_⟩
      · intro x hx
        rcases List.mem_cons.1 hx with rfl | hx
        exacts [hc.1, h2 x hx]
      · rw [List.map_cons, List.nodup_cons]
        refine ⟨fun hm => ?_, h3⟩
        obtain ⟨x, hx, he⟩ := List.mem_map.1 hm
        exact h4 x hx (by rw [he]; simp)
      · intro x hx
        rcases List.mem_cons.1 hx with rfl | hx
        · exact hr
        · exact fun hm => h4 x hx (by rw [List.map_append, List.mem_append]; exact .inl hm)
    · cases h

theorem insertFetched_ends : ∀ {rs : List FetchRow} {table : List (TbKey × Rat × RawStudent)}, (∀ r ∈ rs, r.whole = true) →
    (rs.map (·.key)).Nodup → (∀ r ∈ rs, r.key ∉ table.map (·.1)) → ∃ out, insertFetched table rs = .ok out
  | [], table, _, _, _ => ⟨table, rfl⟩
  | r :: rs, table, hw, hn, ht => by
    rw [List.map_cons, List.nodup_cons] at hn
    unfold insertFetched
    rw [if_pos]
    · refine insertFetched_ends (fun x hx => hw x (List.mem_cons_of_mem _ hx)) hn.2 (fun x hx hm => ?_)
      rw [List.map_append, List.mem_append] at hm
      rcases hm with hm | hm
      · exact ht x (List.mem_cons_of_mem _ hx) hm
      · simp only [List.map_cons, List.map_nil, List.mem_singleton] at hm
        exact hn.1 (hm ▸ List.mem_map_of_mem hx)
    · simp only [Bool.and_eq_true, Bool.not_eq_true', List.any_eq_false, decide_eq_true_eq]
      exact ⟨hw r List.mem_cons_self, fun t h e => ht r List.mem_cons_self (e ▸ List.mem_map_of_mem h)⟩

/-- **C110** A fetch that ends without an exception leaves in the testbed the audits asked for, and, unless they were to be cleared, those that
were there; no audit is there twice, and the other tables are as before. -/
theorem C110_fetched_is_what_was_asked_partial (a : FetchArgs) (typed : Except Err Int) (killed : Bool) (srv : List FetchRow) (db db' : TbDb)
    (hu : db.Unique) (h : fetchAudits a typed killed srv db = (db', none)) :
    db'.Unique ∧ db'.baseline = db.baseline ∧ db'.branch = db.branch ∧
      ∀ k secs raw, (k, secs, raw) ∈ db'.server ↔ (a.clear = false ∧ (k, secs, raw) ∈ db.server) ∨
        ∃ r ∈ srv, Wanted a typed r ∧ r.row.student = k.stnum ∧ r.row.catalog = k.catalog ∧ r.row.code = k.code ∧ r.duration = secs ∧ r.raw = raw := by
  unfold fetchAudits at h
  cases hsel : fetchSelect a typed with
  | error e => rw [hsel] at h; cases h
  | ok sel =>
    rw [hsel] at h
    dsimp only at h
    split at h
    · cases h
    · rename_i table hins
      split at h
      · cases h
      · obtain ⟨h1, -, h3, h4⟩ := insertFetched_ok hins
        have hdb := (Prod.mk.inj h).1
        subst hdb
        have hold : ((if a.clear = true then { db with server := [] } else db : TbDb).server.map (·.1)).Nodup := by
          split
          · simp
          · exact hu.server
        have hb : (if a.clear = true then { db with server := [] } else db : TbDb).baseline = db.baseline := by split <;> rfl
        have hbr : (if a.clear = true then { db with server := [] } else db : TbDb).branch = db.branch := by split <;> rfl
        refine ⟨⟨?_, ?_, ?_⟩, hb, hbr, fun k secs raw => ?_⟩
        · dsimp only
          rw [h1, List.map_append, List.nodup_append]
          refine ⟨hold, by simpa [List.map_map, Function.comp_def] using h3, ?_⟩
          rintro x hx y hy rfl
          rw [List.map_map] at hy
          obtain ⟨r, hr, rfl⟩ := List.mem_map.1 hy
          exact h4 r hr hx
        · dsimp only; rw [hb]; exact hu.baseline
        · dsimp only; rw [hbr]; exact hu.branch
        · dsimp only
          rw [h1, List.mem_append]
          refine or_congr ?_ ?_
          · cases hc : a.clear <;> simp
          · simp only [List.mem_map, List.mem_filter, Prod.mk.injEq]
            constructor
            · rintro ⟨r, ⟨hr, hw⟩, rfl, rfl, rfl⟩
              exact ⟨r, hr, (fetchSelect_wanted hsel r).1 hw, rfl, rfl, rfl, rfl, rfl⟩
            · rintro ⟨r, hr, hw, e1, e2, e3, e4, e5⟩
              exact ⟨r, ⟨hr, (fetchSelect_wanted hsel r).2 hw⟩, by unfold FetchRow.key; rw [e1, e2, e3], e4, e5⟩

/-- **C110**, when a fetch ends without an exception: if it is not killed, the user gives a number if asked for one, and the audits asked for are
whole, no two with the same key, and, unless the table is to be cleared, none with a key that is there. -/
theorem C110_fetch_ends (a : FetchArgs) (typed : Except Err Int) (killed : Bool) (srv : List FetchRow) (db : TbDb) :
    (fetchAudits a typed killed srv db).2 = none ↔ killed = false ∧ (a.latest = true ∨ ∃ n, AsksRun a typed n) ∧
      (∀ r ∈ srv, Wanted a typed r → r.whole = true ∧ (a.clear = false → r.key ∉ db.server.map (·.1))) ∧
      srv.Pairwise (fun r r' => Wanted a typed r → Wanted a typed r' → r.key ≠ r'.key) := by
  have hask : ∀ sel, fetchSelect a typed = .ok sel → a.latest = true ∨ ∃ n, AsksRun a typed n := by
    intro sel h
    by_contra hno
    rw [not_or] at hno
    unfold fetchSelect at h
    rw [if_neg hno.1] at h
    have hl : a.latest = false := by simpa using hno.1
    cases ha : a.run with
    | none =>
      rw [ha] at h
      cases typed with
      | error e => cases h
      | ok n => exact hno.2 ⟨n, hl, .inr ⟨.inl ha, rfl⟩⟩
    | some m =>
      rw [ha] at h
      dsimp only at h
      split at h
      · rename_i h0
        cases typed with
        | error e => cases h
        | ok n => exact hno.2 ⟨n, hl, .inr ⟨.inr (by rw [ha, h0]), rfl⟩⟩
      · rename_i h0
        exact hno.2 ⟨m, hl, .inl ⟨ha, h0⟩⟩
  have hpair : ∀ sel, fetchSelect a typed = .ok sel → (((srv.filter (fun r => r.wanted sel)).map (·.key)).Nodup ↔
      srv.Pairwise (fun r r' => Wanted a typed r → Wanted a typed r' → r.key ≠ r'.key)) := by
    intro sel hsel
    unfold List.Nodup
    rw [List.pairwise_map, List.pairwise_filter]
    simp only [fetchSelect_wanted hsel]
  have hserver : (if a.clear = true then { db with server := [] } else db : TbDb).server = if a.clear = true then [] else db.server := by
    split <;> rfl
  unfold fetchAudits
  cases hsel : fetchSelect a typed with
  | error e =>
    obtain ⟨h1, h2, h3⟩ := fetchSelect_error hsel
    refine ⟨fun h => (by cases h), ?_⟩
    rintro ⟨-, h | ⟨n, -, ⟨h, h0⟩ | ⟨-, h⟩⟩, -⟩
    · rw [h1] at h; cases h
    · rcases h2 with h2 | h2
      · rw [h2] at h; cases h
      · rw [h2] at h; cases h; exact absurd rfl h0
    · rw [h3] at h; cases h
  | ok sel =>
    dsimp only
    constructor
    · intro h
      split at h
      · cases h
      · rename_i table hins
        obtain ⟨-, h2, h3, h4⟩ := insertFetched_ok hins
        split at h
        · cases h
        · rename_i hk
          refine ⟨by simpa using hk, hask sel hsel, fun r hr hw => ?_, (hpair sel hsel).1 h3⟩
          have hm : r ∈ srv.filter (fun r => r.wanted sel) := List.mem_filter.2 ⟨hr, (fetchSelect_wanted hsel r).2 hw⟩
          refine ⟨h2 r hm, fun hc => ?_⟩
          have := h4 r hm
          rw [hserver, hc] at this
          simpa using this
    · rintro ⟨hk, -, hw, hp⟩
      obtain ⟨out, ho⟩ := insertFetched_ends (rs := srv.filter (fun r => r.wanted sel))
        (table := (if a.clear = true then { db with server := [] } else db : TbDb).server)
        (fun r hr => (hw r (List.mem_filter.1 hr).1 ((fetchSelect_wanted hsel r).1 (List.mem_filter.1 hr).2)).1)
        ((hpair sel hsel).2 hp)
        (fun r hr => by
          rw [hserver]
          cases hc : a.clear with
          | true => simp
          | false =>
            simp only [Bool.false_eq_true, if_false]
            exact (hw r (List.mem_filter.1 hr).1 ((fetchSelect_wanted hsel r).1 (List.mem_filter.1 hr).2)).2 hc)
      rw [ho]
      dsimp only
      rw [hk]
      rfl

/-- **C110**, for the active results of the server: after any history of audits and clearings there, `fetch --latest --clear` ends without an
exception, if no column is NULL, and there is at most one audit of a student and area code afterwards, of whatever catalog. -/
theorem C110_latest_of_any_history (es : List ResultEvent) (srv : List FetchRow) (typed : Except Err Int) (db : TbDb)
    (hs : srv.map (·.row) = es.foldl ResultEvent.apply []) (hw : ∀ r ∈ srv, r.whole = true) :
    (fetchAudits { latest := true, clear := true } typed false srv db).2 = none ∧
      ∀ x ∈ (fetchAudits { latest := true, clear := true } typed false srv db).1.server,
        ∀ y ∈ (fetchAudits { latest := true, clear := true } typed false srv db).1.server, x.1.stnum = y.1.stnum → x.1.code = y.1.code →
          x.1.catalog = y.1.catalog := by
  have hord := orderly_nil.history es
  rw [← hs] at hord
  constructor
  · rw [C110_fetch_ends]
    refine ⟨rfl, .inl rfl, fun r hr _ => ⟨hw r hr, by simp⟩, ?_⟩
    have := List.pairwise_map.1 hord.1
    refine this.imp_of_mem ?_
    rintro r r' hr hr' hf hwr hwr' hkey
    have ha : r.row.active = true := by
      rcases hwr.2 with h | h
      · exact h.2
      · cases h.1
    have ha' : r'.row.active = true := by
      rcases hwr'.2 with h | h
      · exact h.2
      · cases h.1
    unfold FetchRow.key at hkey
    simp only [TbKey.mk.injEq] at hkey
    have hl := (hf ⟨hkey.1, hkey.2.2⟩).2 ha
    rw [hord.2 r'.row (List.mem_map_of_mem hr') ha'] at hl
    simp at hl
  · have hm : ∀ x ∈ (fetchAudits { latest := true, clear := true } typed false srv db).1.server, ∃ r ∈ srv, r.row.active = true ∧
        x.1 = r.key := by
      intro x hx
      unfold fetchAudits fetchSelect at hx
      simp only [if_true] at hx
      split at hx
      · simp at hx
      · rename_i table hins
        obtain ⟨h1, -⟩ := insertFetched_ok hins
        simp only [Bool.false_eq_true, if_false] at hx
        rw [h1, List.nil_append] at hx
        obtain ⟨r, hr, rfl⟩ := List.mem_map.1 hx
        rw [List.mem_filter] at hr
        exact ⟨r, hr.1, by simpa [FetchRow.wanted] using (Bool.and_eq_true _ _ ▸ hr.2).2, rfl⟩
    intro x hx y hy h1 h2
    obtain ⟨r, hr, ha, e⟩ := hm x hx
    obtain ⟨r', hr', ha', e'⟩ := hm y hy
    rw [e, e'] at h1 h2 ⊢
    have := hord.one_active (List.mem_map_of_mem hr) (List.mem_map_of_mem hr') ⟨h1, h2⟩ ha ha'
    unfold FetchRow.key
    rw [this]

/-- **C110**, for a fetch that fails, or is killed: nothing is added; without `--clear` nothing has changed. -/
theorem C110_failed_fetch (a : FetchArgs) (typed : Except Err Int) (killed : Bool) (srv : List FetchRow) (db db' : TbDb) (e : Err)
    (h : fetchAudits a typed killed srv db = (db', some e)) :
    db' = db ∨ (a.clear = true ∧ db'.server = [] ∧ db'.baseline = db.baseline ∧ db'.branch = db.branch) := by
  have key : ∀ d : TbDb, d = (if a.clear = true then { db with server := [] } else db) →
      d = db ∨ (a.clear = true ∧ d.server = [] ∧ d.baseline = db.baseline ∧ d.branch = db.branch) := by
    rintro d rfl
    split
    · rename_i hc; exact .inr ⟨hc, rfl, rfl, rfl⟩
    · exact .inl rfl
  unfold fetchAudits at h
  split at h
  · cases h; exact .inl rfl
  · dsimp only at h
    generalize (if a.clear = true then { db with server := [] } else db : TbDb) = d at h key
    split at h
    · obtain ⟨rfl, -⟩ := Prod.mk.inj h
      exact key _ rfl
    · split at h
      · obtain ⟨rfl, -⟩ := Prod.mk.inj h
        exact key _ rfl
      · cases h

/-- **C110**, refuted for a fetch with `--clear` that is killed: what was there is gone, whatever was to be fetched. -/
theorem C110_killed_clear_refuted (latest : Bool) (n : Int) (typed : Except Err Int) (srv : List FetchRow) (db : TbDb) (h : latest = true ∨ n ≠ 0) :
    (fetchAudits { latest := latest, run := some n, clear := true } typed true srv db).1.server = [] ∧
    (fetchAudits { latest := latest, run := some n, clear := true } typed true srv db).2 ≠ none := by
  unfold fetchAudits fetchSelect
  rcases h with rfl | h
  · simp only [if_true]
    split <;> exact ⟨rfl, by simp⟩
  · cases latest <;> simp only [if_true, Bool.false_eq_true, if_false, if_neg h] <;> split <;> exact ⟨rfl, by simp⟩

/-- **C110**, refuted for fetching again: after a fetch that ends well, the same fetch without `--clear` raises, if there was anything to
fetch. -/
theorem C110_again_refuted (a : FetchArgs) (typed : Except Err Int) (killed killed' : Bool) (srv : List FetchRow) (db db' : TbDb)
    (hu : db.Unique) (h : fetchAudits a typed killed srv db = (db', none)) (r : FetchRow) (hr : r ∈ srv) (hw : Wanted a typed r) :
    (fetchAudits { a with clear := false } typed killed' srv db').2 ≠ none := by
  intro hn
  obtain ⟨-, -, h3, -⟩ := (C110_fetch_ends _ _ _ _ _).1 hn
  obtain ⟨-, -, -, hs⟩ := C110_fetched_is_what_was_asked_partial a typed killed srv db db' hu h
  refine (h3 r hr hw).2 rfl ?_
  exact List.mem_map.2 ⟨(r.key, r.duration, r.raw), (hs _ _ _).2 (.inr ⟨r, hr, hw, rfl, rfl, rfl, rfl, rfl⟩), rfl⟩

/-! ### Looking up single audits -/

/-- **C111** `query` lists exactly the audits with the student, catalog and area code that are given, each once. -/
theorem C111_query (db : TbDb) (hu : db.Unique) (stnum catalog code : Option String) :
    (queryAudits db stnum catalog code).Nodup ∧
    ∀ k, k ∈ queryAudits db stnum catalog code ↔ (∃ secs raw, (k, secs, raw) ∈ db.server) ∧ (∀ s, stnum = some s → k.stnum = s) ∧
      (∀ c, catalog = some c → k.catalog = c) ∧ ∀ c, code = some c → k.code = c := by
  unfold queryAudits
  refine ⟨hu.server.sublist List.filter_sublist, fun k => ?_⟩
  simp only [List.mem_filter, List.mem_map, Bool.and_eq_true, Option.all_eq_true, beq_iff_eq]
  constructor
  · rintro ⟨⟨⟨k', secs, raw⟩, hm, rfl⟩, ⟨h1, h2⟩, h3⟩
    exact ⟨⟨secs, raw, hm⟩, h1, h2, h3⟩
  · rintro ⟨⟨secs, raw, hm⟩, h1, h2, h3⟩
    exact ⟨⟨⟨k, secs, raw⟩, hm, rfl⟩, ⟨h1, h2⟩, h3⟩

/-- **C111** `extract` writes the file of the audit asked for, if the student has no other audit with the same area code. -/
theorem C111_extract_partial (db : TbDb) (order : List (TbKey × Rat × RawStudent) → List (TbKey × Rat × RawStudent))
    (ho : ∀ l, (order l).Perm l) (k : TbKey) (hone : ∀ r ∈ db.server, r.1.stnum = k.stnum → r.1.code = k.code → r.1 = k) (hu : db.Unique)
    (raw : RawStudent) : extractStudent order db k = some raw ↔ ∃ secs, (k, secs, raw) ∈ db.server := by
  have hf : ∀ x, x ∈ order (db.server.filter (fun r => r.1.stnum == k.stnum && r.1.code == k.code)) ↔ x ∈ db.server ∧ x.1 = k := by
    intro x
    rw [(ho _).mem_iff, List.mem_filter]
    simp only [Bool.and_eq_true, beq_iff_eq]
    constructor
    · rintro ⟨hm, h1, h2⟩; exact ⟨hm, hone x hm h1 h2⟩
    · rintro ⟨hm, rfl⟩; exact ⟨hm, rfl, rfl⟩
  unfold extractStudent
  cases hl : order (db.server.filter (fun r => r.1.stnum == k.stnum && r.1.code == k.code)) with
  | nil =>
    simp only [List.head?_nil, Option.map_none, reduceCtorEq, false_iff, not_exists]
    intro secs hm
    have := (hf (k, secs, raw)).2 ⟨hm, rfl⟩
    rw [hl] at this
    cases this
  | cons x l =>
    obtain ⟨hx, hxk⟩ := (hf x).1 (by rw [hl]; exact List.mem_cons_self)
    simp only [List.head?_cons, Option.map_some, Option.some.injEq]
    constructor
    · rintro rfl
      exact ⟨x.2.1, by rw [← hxk]; exact hx⟩
    · rintro ⟨secs, hm⟩
      have h1 := (find_server hu.server).2 ⟨secs, hm⟩
      have h2 := (find_server (k := k) (raw := x.2.2) hu.server).2 ⟨x.2.1, by rw [← hxk]; exact hx⟩
      exact Option.some.inj (h2.symm.trans h1)

/-- **C111** What `run` shows of an audit is what a run of a branch stores of it: for each audit asked for there, a result is shown if and only
if this result is stored. -/
theorem C111_run_shows_what_is_stored (r : TbRun) (copy : Bool) (b : String) (min : Rat) (filter : Option String) (db db' : TbDb)
    (hu : db.Unique) (ho : ∀ l, (r.order l).Perm l) (h : runTestbed r copy (some b) min filter db = (db', none)) (k : TbKey)
    (hk : Asked db (some b) min filter k) (text : String) :
    runOne r db k = .ok text ↔ ∃ row, (b, k, row) ∈ db'.branch ∧ row.result = text := by
  obtain ⟨-, -, -, hb⟩ := C105_branch_is_what_was_audited_partial r copy b min filter db db' hu ho h
  have : (∃ row, (b, k, row) ∈ db'.branch ∧ row.result = text) ↔ ∃ row, r.Gives db (some b) k row ∧ row.result = text := by
    constructor
    · rintro ⟨row, hm, e⟩
      rw [hb, if_pos rfl] at hm
      exact ⟨row, hm.2, e⟩
    · rintro ⟨row, hm, e⟩
      exact ⟨row, by rw [hb, if_pos rfl]; exact ⟨hk, hm⟩, e⟩
  rw [this]
  unfold runOne
  constructor
  · intro hr
    split at hr
    · cases hr
    · split at hr
      · cases hr
      · cases hr
      · rename_i spec harea
        split at hr
        · cases hr
        · cases hr
        · rename_i row hrow
          refine ⟨row, gives_iff hu.server |>.1 ?_, Except.ok.inj hr⟩
          unfold TbRun.spec?
          rw [harea]
          exact ⟨rfl, hrow⟩
  · rintro ⟨row, hg, rfl⟩
    obtain ⟨h1, h2⟩ := (gives_iff hu.server).2 hg
    obtain ⟨secs, raw, spec, hm, harea, -⟩ := hg
    have hfind : (db.server.find? (fun s => s.1 = k)).isSome = true := by
      have := (find_server hu.server).2 ⟨secs, hm⟩
      cases hf : db.server.find? (fun s => s.1 = k) with
      | none => rw [hf] at this; cases this
      | some _ => rfl
    unfold TbRun.spec? at h2
    rw [harea] at h2
    obtain ⟨s, hs⟩ := Option.isSome_iff_exists.1 hfind
    rw [hs, harea]
    dsimp only
    rw [show r.audit db false k spec = .ok (some row) from h2]

open TestbedText in
/-- **C111**, refuted for `extract`, if the student has the area in two catalogs: the file of the other audit is written, and also if the
catalog asked for is none the student has. -/
theorem C111_extract_refuted :
    let d : TbDb := { server := [(k1, 1, taker), (⟨"1", "2019-20", "741"⟩, 1, other)] }
    d.Unique ∧
    (extractStudent id d ⟨"1", "2019-20", "741"⟩).map (fun s => s.rows.map (·.number)) = some ["121"] ∧
    other.rows.map (·.number) = ["251"] ∧
    (extractStudent id d ⟨"1", "2001-02", "741"⟩).isSome = true ∧ queryAudits d (some "1") (some "2001-02") none = [] := by
  refine ⟨⟨?_, ?_, ?_⟩, ?_, ?_, ?_, ?_⟩ <;> decide +kernel

namespace FetchText
open TestbedText
/-- three audits on the server: an older one, its successor, and one of another student that raised -/
def srv : List FetchRow :=
  [{ row := ⟨0, "1", "2018-19", "741", "a", 1, none, false, false, 1, 0⟩, run := 7, duration := 1, raw := other },
   { row := ⟨1, "1", "2018-19", "741", "b", 2, none, false, true, 2, 1⟩, run := 8, duration := 2, raw := taker },
   { row := ⟨2, "2", "2018-19", "741", "", 3, none, false, true, 1, 2⟩, run := 8, duration := 1, raw := other, hasResult := false }]
/-- keys and durations -/
def shown (d : TbDb × Option Err) : List (String × Rat) × Bool := (d.1.server.map (fun r => (r.1.stnum, r.2.1)), d.2.isNone)
end FetchText

open TestbedText FetchText in
/-- cases of C110: the latest, a run, one that is typed, and fetching again with and without `--clear` -/
example : db.Unique ∧ shown (fetchAudits { latest := true, clear := true } (.error .valueError) false srv db) = ([("1", 2)], true) ∧
    shown (fetchAudits { run := some 7, clear := true } (.error .valueError) false srv db) = ([("1", 1)], true) ∧
    shown (fetchAudits { run := some 0, clear := true } (.ok 7) false srv db) = ([("1", 1)], true) ∧
    shown (fetchAudits { run := some 7 } (.error .valueError) false srv {}) = ([("1", 1)], true) ∧
    shown (fetchAudits { run := some 7 } (.error .valueError) false srv db) = ([("1", 1), ("2", 2), ("1", 40)], false) ∧
    shown (fetchAudits { run := some 7, clear := true } (.error .valueError) true srv db) = ([], false) := by
  refine ⟨⟨?_, ?_, ?_⟩, ?_, ?_, ?_, ?_, ?_, ?_⟩ <;> decide +kernel

open FetchText in
/-- the hypotheses of `C110_latest_of_any_history`: the server's table is that of a history -/
example : (srv.take 2).map (·.row) = [ResultEvent.stored ⟨0, 1, 0, "1", "2018-19", "741", none, false⟩ "a" 0 1,
    .stored ⟨1, 1, 0, "1", "2018-19", "741", none, false⟩ "b" 1 2].foldl ResultEvent.apply [] ∧ ∀ r ∈ srv.take 2, r.whole = true := by
  decide

open TestbedText in
/-- the hypotheses of C111: `run` shows the result of an audit of the branch, and raises for one that is not there -/
example : let db1 := (runTestbed (run (need "CSCI 121")) false none 30 none db).1
    (runTestbed (run (need "CSCI 251")) false (some "new") 30 none db1).2 = none ∧ runOne (run (need "CSCI 251")) db1 k1 = .ok "{}" ∧
    runOne (run (need "CSCI 251")) db1 ⟨"9", "2018-19", "741"⟩ = .error .typeError ∧
    queryAudits db1 none none (some "741") = [k1, k2] ∧ (extractStudent List.reverse db1 k2).map (fun s => s.rows.map (·.number)) = some ["251"] := by
  refine ⟨?_, ?_, ?_, ?_, ?_⟩ <;> decide +kernel

end Dp
