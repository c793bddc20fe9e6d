import Verif.Model.Testbed
import Verif.Props.BatchRun

/-
C105, C106: what a run of the testbed stores, and what the comparison of two runs shows.
-/
namespace Dp

/-! ### One audit -/

theorem testbedMessages_plain {write : AreaResult → Except Err String} {late : Nat → Bool} {secs : Rat} {tail : Option Err}
    {before : List (Msg AreaResult)} (h : ∀ m ∈ before, m.isEstimate = true ∨ m.isProgress = true) (rest : List (Msg AreaResult)) :
    ∀ i, ((∃ j < before.length, late (i + j) = true) ∧ testbedMessages write late secs tail i (before ++ rest) = .error .other) ∨
      ((∀ j < before.length, late (i + j) = false) ∧
        testbedMessages write late secs tail i (before ++ rest) = testbedMessages write late secs tail (i + before.length) rest) := by
  induction before with
  | nil => intro i; right; simp
  | cons m before ih =>
    intro i
    have step : testbedMessages write late secs tail i (m :: before ++ rest) =
        if late i then .error .other else testbedMessages write late secs tail (i + 1) (before ++ rest) := by
      have hm := h m List.mem_cons_self
      cases m with
      | estimate n => rw [List.cons_append, testbedMessages]; intros; simp_all
      | progress _ _ _ _ => rw [List.cons_append, testbedMessages]; intros; simp_all
      | noAudits => rcases hm with hm | hm <;> cases hm
      | result _ _ _ _ => rcases hm with hm | hm <;> cases hm
    rw [step]
    cases hl : late i with
    | true => left; exact ⟨⟨0, by simp, by simpa using hl⟩, by simp⟩
    | false =>
      simp only [Bool.false_eq_true, if_false, List.length_cons]
      rcases ih (fun m hm => h m (List.mem_cons_of_mem _ hm)) (i + 1) with ⟨⟨j, hj, hlj⟩, he⟩ | ⟨hn, he⟩
      · left
        exact ⟨⟨j + 1, by omega, by rw [← hlj]; congr 1; omega⟩, he⟩
      · right
        refine ⟨fun j hj => ?_, by rw [he]; congr 1; omega⟩
        cases j with
        | zero => simpa using hl
        | succ j =>
          have := hn j (by omega)
          rw [← this]; congr 1; omega

/-- The audit of the two files ends with a result, all messages before it in time, that can be written, and `row` is what is to be stored of
it. -/
def AuditedAs (o : Orders) (write : AreaResult → Except Err String) (late : Nat → Bool) (secs : Rat) (raw : RawStudent) (spec : Dict)
    (row : TbRow) : Prop :=
  ∃ before r i n, runFiles o {} raw spec = ⟨before ++ [.result r i n n], none⟩ ∧ (∀ j < before.length, late j = false) ∧
    write r = .ok row.result ∧ r.rank = .ok (row.rank, row.maxRank) ∧ row.gpa = r.gpa ∧ row.ok = r.ok ∧ row.status = r.status ∧
    row.iterations = n ∧ row.duration = secs

theorem estimate_of_messages {o : Orders} {raw : RawStudent} {spec : Dict} (h : (runFiles o {} raw spec).items ≠ []) :
    ∃ n, testbedEstimate o raw spec = .ok (some n) := by
  unfold testbedEstimate
  unfold runFiles at h ⊢
  cases hp : prepareStudent raw spec with
  | error e => rw [hp] at h; exact absurd rfl h
  | ok p =>
    rw [hp] at h
    dsimp only at h ⊢
    cases ha : loadArea p.loaded.constants p.loaded.templates p.loaded.student p.exceptions false spec with
    | error e => rw [ha] at h; exact absurd rfl h
    | ok a =>
      rw [ha] at h
      dsimp only at h ⊢
      unfold auditArea at h ⊢
      unfold runAudit at h ⊢
      cases he : a.estimate o p.loaded.student p.exceptions with
      | error e => rw [he] at h; exact absurd rfl h
      | ok n => exact ⟨n, rfl⟩

theorem testbedAudit_some {o : Orders} {write : AreaResult → Except Err String} {late : Nat → Bool} {secs : Rat} {raw : RawStudent}
    {spec : Dict} {row : TbRow} :
    testbedAudit o write late secs (some raw) spec = .ok (some row) ↔ AuditedAs o write late secs raw spec row := by
  have fwd : ∀ items err, runFiles o {} raw spec = ⟨items, err⟩ → items ≠ [] →
      testbedAudit o write late secs (some raw) spec = testbedMessages write late secs err 0 items := by
    intro items err hr hne
    obtain ⟨n, hn⟩ := estimate_of_messages (o := o) (raw := raw) (spec := spec) (by rw [hr]; exact hne)
    unfold testbedAudit
    dsimp only
    rw [hn, hr]
  constructor
  · intro h
    rcases messages_cases o {} ⟨rfl, rfl, rfl⟩ rfl raw spec with ⟨e, he, hall⟩ | ⟨he, before, final, hitems, hall, hfin⟩
    · exfalso
      unfold testbedAudit at h
      dsimp only at h
      split at h
      · cases h
      · cases h
      · rw [he] at h
        have := testbedMessages_plain (write := write) (late := late) (secs := secs) (tail := some e) hall [] 0
        rw [List.append_nil] at this
        rcases this with ⟨_, h1⟩ | ⟨_, h1⟩
        · rw [h1] at h; cases h
        · rw [h1, testbedMessages] at h; cases h
    · have hr : runFiles o {} raw spec = ⟨before ++ [final], none⟩ := by
        cases hrun : runFiles o {} raw spec with
        | mk items err => rw [hrun] at he hitems; cases he; cases hitems; rfl
      rw [fwd _ _ hr (by simp)] at h
      rcases testbedMessages_plain (write := write) (late := late) (secs := secs) (tail := none) hall [final] 0 with ⟨_, h1⟩ | ⟨hl, h1⟩
      · rw [h1] at h; cases h
      · rw [h1] at h
        rcases hfin with rfl | ⟨r, i, n, rfl⟩
        · rw [testbedMessages] at h
          · split at h
            · cases h
            · rw [testbedMessages] at h; cases h
          · intros; simp_all
        · rw [testbedMessages] at h
          cases hw : write r with
          | error e => rw [hw] at h; cases h
          | ok t =>
            rw [hw] at h
            dsimp only at h
            cases hk : r.rank with
            | error e => rw [hk] at h; cases h
            | ok rk =>
              obtain ⟨rk, mx⟩ := rk
              rw [hk] at h
              dsimp only at h
              cases h
              exact ⟨before, r, some i, n, hr, by simpa using hl, hw, hk, rfl, rfl, rfl, rfl, rfl⟩
  · rintro ⟨before, r, i, n, hr, hl, hw, hk, h1, h2, h3, h4, h5⟩
    have hall : ∀ m ∈ before, m.isEstimate = true ∨ m.isProgress = true := by
      rcases messages_cases o {} ⟨rfl, rfl, rfl⟩ rfl raw spec with ⟨e, he, _⟩ | ⟨_, before', final, hitems, hall, _⟩
      · rw [hr] at he; cases he
      · rw [hr] at hitems
        have hitems : before ++ [.result r i n n] = before' ++ [final] := hitems
        have := (List.append_inj' hitems rfl).1
        rw [this]; exact hall
    rw [fwd _ _ hr (by simp)]
    rcases testbedMessages_plain (write := write) (late := late) (secs := secs) (tail := none) hall [.result r i n n] 0 with
      ⟨⟨j, hj, hlj⟩, _⟩ | ⟨_, h'⟩
    · rw [Nat.zero_add, hl j hj] at hlj; cases hlj
    · rw [h', testbedMessages, hw]
      dsimp only
      rw [hk]
      dsimp only
      cases row
      simp_all

/-- an audit of the testbed is without a result, and without an exception, exactly if no audit was completed -/
theorem testbedAudit_none {o : Orders} {write : AreaResult → Except Err String} {secs : Rat} {raw : RawStudent} {spec : Dict}
    {before : List (Msg AreaResult)} (h : runFiles o {} raw spec = ⟨before ++ [.noAudits], none⟩) :
    testbedAudit o write (fun _ => false) secs (some raw) spec = .ok none := by
  obtain ⟨n, hn⟩ := estimate_of_messages (o := o) (raw := raw) (spec := spec) (by rw [h]; simp)
  have hall : ∀ m ∈ before, m.isEstimate = true ∨ m.isProgress = true := by
    rcases messages_cases o {} ⟨rfl, rfl, rfl⟩ rfl raw spec with ⟨e, he, _⟩ | ⟨_, before', final, hitems, hall, _⟩
    · rw [h] at he; cases he
    · rw [h] at hitems
      have hitems : before ++ [.noAudits] = before' ++ [final] := hitems
      rw [(List.append_inj' hitems rfl).1]; exact hall
  unfold testbedAudit
  dsimp only
  rw [hn, h]
  dsimp only
  rcases testbedMessages_plain (write := write) (late := fun _ => false) (secs := secs) (tail := none) hall [.noAudits] 0 with
    ⟨⟨j, _, hj⟩, _⟩ | ⟨_, h'⟩
  · cases hj
  · rw [h', testbedMessages]
    · simp [testbedMessages]
    · intros; simp_all

theorem testbedAudit_nothing {o : Orders} {write : AreaResult → Except Err String} {late : Nat → Bool} {secs : Rat} {raw : RawStudent}
    {spec : Dict} (h : testbedAudit o write late secs (some raw) spec = .ok none) :
    ∃ before, runFiles o {} raw spec = ⟨before ++ [.noAudits], none⟩ := by
  unfold testbedAudit at h
  dsimp only at h
  split at h
  · cases h
  · cases h
  rcases messages_cases o {} ⟨rfl, rfl, rfl⟩ rfl raw spec with ⟨e, he, hall⟩ | ⟨he, before, final, hitems, hall, hfin⟩
  · rw [he] at h
    have := testbedMessages_plain (write := write) (late := late) (secs := secs) (tail := some e) hall [] 0
    rw [List.append_nil] at this
    rcases this with ⟨_, h1⟩ | ⟨_, h1⟩
    · rw [h1] at h; cases h
    · rw [h1, testbedMessages] at h; cases h
  · have hr : runFiles o {} raw spec = ⟨before ++ [final], none⟩ := by
      cases hrun : runFiles o {} raw spec with
      | mk items err => rw [hrun] at he hitems; cases he; cases hitems; rfl
    rcases hfin with rfl | ⟨r, i, n, rfl⟩
    · exact ⟨before, hr⟩
    · exfalso
      rw [hr] at h
      dsimp only at h
      rcases testbedMessages_plain (write := write) (late := late) (secs := secs) (tail := none) hall [.result r (some i) n n] 0 with
        ⟨_, h1⟩ | ⟨hl, h1⟩
      · rw [h1] at h; cases h
      · rw [h1, testbedMessages] at h
        split at h
        · cases h
        · split at h <;> cases h

/-! ### A run -/

/-- no key twice, as the unique indices have it -/
structure TbDb.Unique (db : TbDb) : Prop where
  server : (db.server.map (·.1)).Nodup
  baseline : (db.baseline.map (·.1)).Nodup
  branch : (db.branch.map (fun r => (r.1, r.2.1))).Nodup

theorem storeAudits_ok {audit : TbKey → Except Err (Option TbRow)} {ks : List TbKey} (hn : ks.Nodup) :
    ∀ {table out}, (∀ k ∈ ks, k ∉ table.map (·.1)) → storeAudits audit table ks = .ok out →
      ∃ rows, out = table ++ rows ∧ (rows.map (·.1)).Sublist ks ∧ (∀ k row, (k, row) ∈ rows ↔ k ∈ ks ∧ audit k = .ok (some row)) ∧
        ∀ k ∈ ks, audit k ≠ .ok none := by
  induction ks with
  | nil => intro table out _ h; cases h; exact ⟨[], by simp, by simp, by simp, by simp⟩
  | cons k ks ih =>
    intro table out hnew h
    rw [List.nodup_cons] at hn
    unfold storeAudits at h
    cases hk : audit k with
    | error e =>
      rw [hk] at h
      obtain ⟨rows, h1, h2, h3, h4⟩ := ih hn.2 (fun k' hk' => hnew k' (List.mem_cons_of_mem _ hk')) h
      refine ⟨rows, h1, h2.trans (List.sublist_cons_self _ _), fun k' row => ?_, fun k' hk' => ?_⟩
      · rw [h3]
        constructor
        · rintro ⟨a, b⟩; exact ⟨List.mem_cons_of_mem _ a, b⟩
        · rintro ⟨a, b⟩
          rcases List.mem_cons.1 a with rfl | a
          · rw [hk] at b; cases b
          · exact ⟨a, b⟩
      · rcases List.mem_cons.1 hk' with rfl | a
        · rw [hk]; simp
        · exact h4 k' a
    | ok o =>
      rw [hk] at h
      cases o with
      | none => cases h
      | some row =>
        dsimp only at h
        have hno : table.any (fun t => decide (t.1 = k)) = false := by
          rw [List.any_eq_false]
          intro t ht
          have := hnew k List.mem_cons_self
          simp only [decide_eq_true_eq]
          rintro rfl
          exact this (List.mem_map_of_mem ht)
        rw [hno] at h
        simp only [Bool.false_eq_true, if_false] at h
        obtain ⟨rows, h1, h2, h3, h4⟩ := ih hn.2 (by
          intro k' hk' hmem
          rw [List.map_append, List.mem_append] at hmem
          rcases hmem with hmem | hmem
          · exact hnew k' (List.mem_cons_of_mem _ hk') hmem
          · simp only [List.map_cons, List.map_nil, List.mem_singleton] at hmem
            subst hmem
            exact hn.1 hk') h
        refine ⟨(k, row) :: rows, by rw [h1]; simp, by simpa using h2.cons_cons k, fun k' row' => ?_, fun k' hk' => ?_⟩
        · rw [List.mem_cons, h3]
          constructor
          · rintro (e | ⟨a, b⟩)
            · cases e; exact ⟨List.mem_cons_self, hk⟩
            · exact ⟨List.mem_cons_of_mem _ a, b⟩
          · rintro ⟨a, b⟩
            rcases List.mem_cons.1 a with rfl | a
            · rw [hk] at b; cases b; exact .inl rfl
            · exact .inr ⟨a, b⟩
        · rcases List.mem_cons.1 hk' with rfl | a
          · rw [hk]; simp
          · exact h4 k' a

/-- the audits a run is asked for: those recorded as shorter than a time, on the server for the baseline and in the baseline for a branch,
and of one area code if one is given -/
def Asked (db : TbDb) (target : Option String) (min : Rat) (filter : Option String) (k : TbKey) : Prop :=
  (∀ c, filter = some c → k.code = c) ∧
    match target with
    | none => ∃ secs raw, (k, secs, raw) ∈ db.server ∧ secs < min
    | some _ => ∃ row, (k, row) ∈ db.baseline ∧ row.duration < min

/-- The audit of the student's file on the server and of the area file has `row` to be stored. -/
def TbRun.Gives (r : TbRun) (db : TbDb) (target : Option String) (k : TbKey) (row : TbRow) : Prop :=
  ∃ secs raw spec, (k, secs, raw) ∈ db.server ∧ r.area k.catalog k.code = .ok (some spec) ∧
    AuditedAs r.o r.write (fun i => target.isNone && r.late k i) (r.secs k) raw spec row

theorem find_server {l : List (TbKey × Rat × RawStudent)} (hn : (l.map (·.1)).Nodup) {k : TbKey} {raw : RawStudent} :
    (l.find? (fun s => s.1 = k)).map (·.2.2) = some raw ↔ ∃ secs, (k, secs, raw) ∈ l := by
  induction l with
  | nil => simp
  | cons s l ih =>
    obtain ⟨k', secs', raw'⟩ := s
    simp only [List.map_cons, List.nodup_cons] at hn
    by_cases hk : k' = k
    · subst hk
      simp only [List.find?_cons, decide_true, Option.map_some, Option.some.injEq, List.mem_cons, Prod.mk.injEq, true_and]
      constructor
      · rintro rfl; exact ⟨secs', .inl ⟨rfl, rfl⟩⟩
      · rintro ⟨secs, ⟨_, h⟩ | h⟩
        · exact h.symm
        · exact absurd (List.mem_map_of_mem (f := (·.1)) h) hn.1
    · have hk' : ¬ k = k' := fun h => hk h.symm
      simp [List.find?_cons, hk, hk', ih hn.2]

theorem gives_iff {r : TbRun} {db : TbDb} (hu : (db.server.map (·.1)).Nodup) {target : Option String} {k : TbKey} {row : TbRow} :
    ((r.spec? k).isSome = true ∧ r.audit db target.isNone k ((r.spec? k).getD []) = .ok (some row)) ↔ r.Gives db target k row := by
  unfold TbRun.audit TbRun.Gives TbRun.spec?
  constructor
  · rintro ⟨hs, ha⟩
    cases harea : r.area k.catalog k.code with
    | error e => rw [harea] at hs; cases hs
    | ok d =>
      rw [harea] at hs ha
      cases d with
      | none => cases hs
      | some spec =>
        cases hf : (db.server.find? (fun s => s.1 = k)).map (·.2.2) with
        | none => rw [hf] at ha; cases ha
        | some raw =>
          rw [hf] at ha
          obtain ⟨secs, hm⟩ := (find_server hu).1 hf
          exact ⟨secs, raw, spec, hm, rfl, testbedAudit_some.1 ha⟩
  · rintro ⟨secs, raw, spec, hm, harea, ha⟩
    rw [harea, (find_server hu).2 ⟨secs, hm⟩]
    exact ⟨rfl, testbedAudit_some.2 ha⟩

theorem select_mem {min : Rat} {filter : Option String} {l : List (TbKey × Rat)} {k : TbKey} :
    k ∈ selectAudits min filter l ↔ (∀ c, filter = some c → k.code = c) ∧ ∃ secs, (k, secs) ∈ l ∧ secs < min := by
  unfold selectAudits
  simp only [List.mem_map, List.mem_filter, Bool.and_eq_true, decide_eq_true_eq, Option.all_eq_true, beq_iff_eq]
  constructor
  · rintro ⟨⟨k', s⟩, ⟨hm, hs, hf⟩, rfl⟩
    exact ⟨hf, s, hm, hs⟩
  · rintro ⟨hf, s, hm, hs⟩
    exact ⟨⟨k, s⟩, ⟨hm, hs, hf⟩, rfl⟩

theorem select_nodup {min : Rat} {filter : Option String} {l : List (TbKey × Rat)} (h : (l.map (·.1)).Nodup) :
    (selectAudits min filter l).Nodup := by
  unfold selectAudits
  exact h.sublist (List.Sublist.map _ List.filter_sublist)

theorem recorded_nodup {db : TbDb} (hu : db.Unique) (target : Option String) : (((db.cleared target).recorded target).map (·.1)).Nodup := by
  cases target with
  | none => simpa [TbDb.recorded, TbDb.cleared, List.map_map, Function.comp_def] using hu.server
  | some b => simpa [TbDb.recorded, TbDb.cleared, List.map_map, Function.comp_def] using hu.baseline

theorem selected_asked {db : TbDb} {target : Option String} {min : Rat} {filter : Option String} :
    ∀ k, k ∈ selectAudits min filter ((db.cleared target).recorded target) ↔ Asked db target min filter k := by
  intro k
  rw [select_mem]
  unfold Asked
  cases target with
  | none =>
    simp only [TbDb.recorded, TbDb.cleared, List.mem_map]
    constructor
    · rintro ⟨hf, secs, ⟨⟨k', s, raw⟩, hm, he⟩, hs⟩
      cases he
      exact ⟨hf, _, raw, hm, hs⟩
    · rintro ⟨hf, secs, raw, hm, hs⟩
      exact ⟨hf, secs, ⟨_, hm, rfl⟩, hs⟩
  | some b =>
    simp only [TbDb.recorded, TbDb.cleared, List.mem_map]
    constructor
    · rintro ⟨hf, secs, ⟨⟨k', row⟩, hm, he⟩, hs⟩
      cases he
      exact ⟨hf, row, hm, hs⟩
    · rintro ⟨hf, row, hm, hs⟩
      exact ⟨hf, row.duration, ⟨_, hm, rfl⟩, hs⟩

/-- what a run does when it ends without an exception -/
theorem runTestbed_ok {r : TbRun} {copy : Bool} {target : Option String} {min : Rat} {filter : Option String} {db db' : TbDb}
    (hu : db.Unique) (ho : ∀ l, (r.order l).Perm l) (h : runTestbed r copy target min filter db = (db', none)) :
    ∃ rows, db' = (db.cleared target).stored rows target ∧ (rows.map (·.1)).Nodup ∧
      (∀ k row, (k, row) ∈ rows ↔ Asked db target min filter k ∧ r.Gives db target k row) ∧
      ∀ k, Asked db target min filter k → ∀ spec, r.area k.catalog k.code = .ok (some spec) →
        r.audit (db.cleared target) target.isNone k spec ≠ .ok none := by
  unfold runTestbed at h
  split at h
  · cases h
  dsimp only at h
  split at h
  · cases h
  split at h
  · cases h
  split at h
  · cases h
  rename_i rows hrows
  split at h
  · cases h
  cases h
  have hserver : (db.cleared target).server = db.server := by cases target <;> rfl
  have hrec := recorded_nodup hu target
  have hasked := selected_asked (db := db) (target := target) (min := min) (filter := filter)
  have hnd := (select_nodup (min := min) (filter := filter) hrec).filter (fun k => (r.spec? k).isSome)
  have hp := ho ((selectAudits min filter ((db.cleared target).recorded target)).filter (fun k => (r.spec? k).isSome))
  obtain ⟨rows', h1, h2, h3, h4⟩ := storeAudits_ok (hp.nodup_iff.2 hnd) (by simp) hrows
  rw [List.nil_append] at h1
  subst h1
  refine ⟨_, rfl, (hp.nodup_iff.2 hnd).sublist h2, fun k row => ?_, fun k hk spec hspec => ?_⟩
  · rw [h3, hp.mem_iff, List.mem_filter, hasked, and_assoc]
    have := gives_iff (r := r) (db := db.cleared target) (by rw [hserver]; exact hu.server) (target := target) (k := k) (row := row)
    rw [this]
    unfold TbRun.Gives
    rw [hserver]
  · have hs : r.spec? k = some spec := by unfold TbRun.spec?; rw [hspec]
    have := h4 k (by rw [hp.mem_iff, List.mem_filter, hasked]; exact ⟨hk, by rw [hs]; rfl⟩)
    rwa [hs] at this

/-- **C105** A run of the testbed for the baseline that ends without an exception leaves in the baseline one row for each audit asked for that
ends with a result in time, of this result, and nothing else; the other tables are as before. -/
theorem C105_baseline_is_what_was_audited_partial (r : TbRun) (copy : Bool) (min : Rat) (filter : Option String) (db db' : TbDb)
    (hu : db.Unique) (ho : ∀ l, (r.order l).Perm l) (h : runTestbed r copy none min filter db = (db', none)) :
    db'.server = db.server ∧ db'.branch = db.branch ∧ (db'.baseline.map (·.1)).Nodup ∧
      ∀ k row, (k, row) ∈ db'.baseline ↔ Asked db none min filter k ∧ r.Gives db none k row := by
  obtain ⟨rows, rfl, h1, h2, -⟩ := runTestbed_ok hu ho h
  exact ⟨rfl, rfl, by simpa [TbDb.stored, TbDb.cleared] using h1, by simpa [TbDb.stored, TbDb.cleared] using h2⟩

/-- **C105**, for a branch: its rows are those of the audits asked for that end with a result; rows of other branches stay. -/
theorem C105_branch_is_what_was_audited_partial (r : TbRun) (copy : Bool) (b : String) (min : Rat) (filter : Option String) (db db' : TbDb)
    (hu : db.Unique) (ho : ∀ l, (r.order l).Perm l) (h : runTestbed r copy (some b) min filter db = (db', none)) :
    db'.server = db.server ∧ db'.baseline = db.baseline ∧ (db'.branch.map (fun r => (r.1, r.2.1))).Nodup ∧
      ∀ b' k row, (b', k, row) ∈ db'.branch ↔ if b' = b then Asked db (some b) min filter k ∧ r.Gives db (some b) k row
        else (b', k, row) ∈ db.branch := by
  obtain ⟨rows, rfl, h1, h2, -⟩ := runTestbed_ok hu ho h
  refine ⟨rfl, rfl, ?_, fun b' k row => ?_⟩
  · simp only [TbDb.stored, TbDb.cleared, List.map_append, List.map_map]
    rw [List.nodup_append]
    refine ⟨hu.branch.sublist (List.Sublist.map _ List.filter_sublist), ?_, ?_⟩
    · have : ((fun r : String × TbKey × TbRow => (r.1, r.2.1)) ∘ fun r : TbKey × TbRow => (b, r.1, r.2)) = (fun k => (b, k)) ∘ (·.1) := rfl
      rw [this, ← List.map_map]
      exact h1.map (fun x y h => (Prod.mk.inj h).2)
    · intro x hx y hy
      obtain ⟨z, hz, rfl⟩ := List.mem_map.1 hx
      obtain ⟨w, hw, rfl⟩ := List.mem_map.1 hy
      have := (List.mem_filter.1 hz).2
      simp only [bne_iff_ne, ne_eq] at this
      intro he
      exact this (Prod.mk.inj he).1
  · simp only [TbDb.stored, TbDb.cleared, List.mem_append, List.mem_filter, bne_iff_ne, ne_eq, List.mem_map, Prod.mk.injEq]
    constructor
    · rintro (⟨hm, hne⟩ | ⟨⟨k', row'⟩, hm, rfl, rfl, rfl⟩)
      · rw [if_neg hne]; exact hm
      · rw [if_pos rfl]; exact (h2 _ _).1 hm
    · split
      · rename_i he
        subst he
        intro hh
        exact .inr ⟨(k, row), (h2 k row).2 hh, rfl, rfl, rfl⟩
      · rename_i hne
        exact fun hm => .inl ⟨hm, hne⟩

theorem storeAudits_ends {audit : TbKey → Except Err (Option TbRow)} {ks : List TbKey} (hn : ks.Nodup) (h : ∀ k ∈ ks, audit k ≠ .ok none) :
    ∀ {table}, (∀ k ∈ ks, k ∉ table.map (·.1)) → ∃ out, storeAudits audit table ks = .ok out := by
  induction ks with
  | nil => intro table _; exact ⟨_, rfl⟩
  | cons k ks ih =>
    intro table hnew
    rw [List.nodup_cons] at hn
    have ih : ∀ {table}, (∀ k ∈ ks, k ∉ table.map (·.1)) → ∃ out, storeAudits audit table ks = .ok out :=
      ih hn.2 (fun k' hk' => h k' (List.mem_cons_of_mem _ hk'))
    unfold storeAudits
    cases hk : audit k with
    | error e => exact ih (fun k' hk' => hnew k' (List.mem_cons_of_mem _ hk'))
    | ok o =>
      cases o with
      | none => exact absurd hk (h k List.mem_cons_self)
      | some row =>
        dsimp only
        have hno : table.any (fun t => decide (t.1 = k)) = false := by
          rw [List.any_eq_false]
          intro t ht
          have := hnew k List.mem_cons_self
          simp only [decide_eq_true_eq]
          rintro rfl
          exact this (List.mem_map_of_mem ht)
        rw [hno]
        refine ih fun k' hk' hmem => ?_
        rw [List.map_append, List.mem_append] at hmem
        rcases hmem with hmem | hmem
        · exact hnew k' (List.mem_cons_of_mem _ hk') hmem
        · simp only [List.map_cons, List.map_nil, List.mem_singleton] at hmem
          subst hmem
          exact hn.1 hk'

/-- **C105**, when a run does not fail: whatever exceptions the audits raise and however many are late, a run that is not killed ends without
an exception, if there is something from the server, the area files there are can be parsed, and no audit ends with neither a result nor an
exception. -/
theorem C105_run_ends (r : TbRun) (copy : Bool) (target : Option String) (min : Rat) (filter : Option String) (db : TbDb)
    (hu : db.Unique) (ho : ∀ l, (r.order l).Perm l) (hs : db.server ≠ []) (hcopy : target = none → copy = false) (hkill : r.killed = false)
    (harea : ∀ k, Asked db target min filter k → ∃ d, r.area k.catalog k.code = .ok d)
    (hres : ∀ k secs raw spec, Asked db target min filter k → (k, secs, raw) ∈ db.server → r.area k.catalog k.code = .ok (some spec) →
      ∀ before, runFiles r.o {} raw spec ≠ ⟨before ++ [.noAudits], none⟩) :
    (runTestbed r copy target min filter db).2 = none := by
  have hserver : (db.cleared target).server = db.server := by cases target <;> rfl
  have hasked := selected_asked (db := db) (target := target) (min := min) (filter := filter)
  unfold runTestbed
  rw [if_neg (by simpa using hs)]
  dsimp only
  rw [if_neg (by cases target <;> simp_all)]
  have hm : ∃ ds, mapE (fun k : TbKey => r.area k.catalog k.code) (selectAudits min filter ((db.cleared target).recorded target)) = .ok ds := by
    have : ∀ l : List TbKey, (∀ k ∈ l, ∃ d, r.area k.catalog k.code = .ok d) → ∃ ds, mapE (fun k : TbKey => r.area k.catalog k.code) l = .ok ds := by
      intro l
      induction l with
      | nil => intro _; exact ⟨[], rfl⟩
      | cons k l ih =>
        intro h
        obtain ⟨d, hd⟩ := h k List.mem_cons_self
        obtain ⟨ds, hds⟩ := ih (fun k' hk' => h k' (List.mem_cons_of_mem _ hk'))
        refine ⟨d :: ds, ?_⟩
        unfold mapE
        rw [hd, hds]; rfl
    exact this _ (fun k hk => harea k ((hasked k).1 hk))
  obtain ⟨ds, hds⟩ := hm
  rw [hds]
  dsimp only
  have hnd := (select_nodup (min := min) (filter := filter) (recorded_nodup hu target)).filter (fun k => (r.spec? k).isSome)
  have hp := ho ((selectAudits min filter ((db.cleared target).recorded target)).filter (fun k => (r.spec? k).isSome))
  obtain ⟨out, hout⟩ := storeAudits_ends (audit := fun k => r.audit (db.cleared target) target.isNone k ((r.spec? k).getD []))
    (hp.nodup_iff.2 hnd) (fun k hk hno => by
      rw [hp.mem_iff, List.mem_filter, hasked] at hk
      obtain ⟨hk, hsome⟩ := hk
      obtain ⟨d, hd⟩ := harea k hk
      have hspec : r.spec? k = d := by unfold TbRun.spec?; rw [hd]
      rw [hspec] at hsome hno
      obtain ⟨spec, rfl⟩ := Option.isSome_iff_exists.1 hsome
      unfold TbRun.audit at hno
      rw [hserver] at hno
      cases hf : (db.server.find? (fun s => s.1 = k)).map (·.2.2) with
      | none => rw [hf] at hno; cases hno
      | some raw =>
        rw [hf] at hno
        obtain ⟨secs, hmem⟩ := (find_server hu.server).1 hf
        obtain ⟨before, hb⟩ := testbedAudit_nothing hno
        exact hres k secs raw spec hk hmem hd before hb) (table := []) (by simp)
  rw [hout]
  dsimp only
  rw [hkill]
  rfl

/-- **C105**, for runs that fail: a run that raises, or is killed before its end, has stored nothing; what was stored before for its target may
be gone, everything else is as before. -/
theorem C105_all_or_nothing (r : TbRun) (copy : Bool) (target : Option String) (min : Rat) (filter : Option String) (db db' : TbDb) (e : Err)
    (h : runTestbed r copy target min filter db = (db', some e)) : db' = db ∨
      (db'.server = db.server ∧ match target with
        | none => db'.baseline = [] ∧ db'.branch = db.branch
        | some b => db'.baseline = db.baseline ∧ ∀ b' k row, (b', k, row) ∈ db'.branch ↔ b' ≠ b ∧ (b', k, row) ∈ db.branch) := by
  have key : ∀ d : TbDb, d = db.cleared target → (d.server = db.server ∧ match target with
        | none => d.baseline = [] ∧ d.branch = db.branch
        | some b => d.baseline = db.baseline ∧ ∀ b' k row, (b', k, row) ∈ d.branch ↔ b' ≠ b ∧ (b', k, row) ∈ db.branch) := by
    rintro d rfl
    cases target with
    | none => exact ⟨rfl, rfl, rfl⟩
    | some b => exact ⟨rfl, rfl, fun b' k row => by simp [TbDb.cleared, and_comm]⟩
  unfold runTestbed at h
  dsimp only at h
  repeat' split at h
  all_goals first
    | (cases h; exact .inl rfl)
    | (cases h; exact .inr (key _ rfl))
    | cases h

/-- **C105**, refuted for runs with an audit that ends without a result and without an exception: the run raises, and no audit is stored,
however many have ended well. -/
theorem C105_one_audit_loses_all_refuted (r : TbRun) (copy : Bool) (b : String) (min : Rat) (filter : Option String) (db : TbDb)
    (hu : db.Unique) (ho : ∀ l, (r.order l).Perm l) (k : TbKey) (hk : Asked db (some b) min filter k) (secs : Rat) (raw : RawStudent) (spec : Dict)
    (hs : (k, secs, raw) ∈ db.server) (ha : r.area k.catalog k.code = .ok (some spec)) (before : List (Msg AreaResult))
    (hr : runFiles r.o {} raw spec = ⟨before ++ [.noAudits], none⟩) :
    (runTestbed r copy (some b) min filter db).2 ≠ none := by
  intro h
  obtain ⟨rows, -, -, -, h4⟩ := runTestbed_ok (db' := (runTestbed r copy (some b) min filter db).1) hu ho (Prod.ext rfl h)
  refine h4 k hk spec ha ?_
  unfold TbRun.audit
  have : ((db.cleared (some b)).server.find? (fun s => s.1 = k)).map (·.2.2) = some raw := (find_server hu.server).2 ⟨secs, hs⟩
  rw [this]
  exact testbedAudit_none hr

/-- **C105**, refuted for `--copy`: the baseline is emptied, and nothing is copied. -/
theorem C105_copy_refuted (r : TbRun) (min : Rat) (filter : Option String) (db : TbDb) (hs : db.server ≠ []) :
    (runTestbed r true none min filter db).1.baseline = [] ∧ (runTestbed r true none min filter db).2 ≠ none := by
  unfold runTestbed
  rw [if_neg (by simpa using hs)]
  exact ⟨rfl, by simp⟩

/-! ### Comparing two runs -/

/-- the outcomes that a comparison looks at are not the same -/
def Differ (b r : TbRow) : Prop := b.ok ≠ r.ok ∨ b.gpa ≠ r.gpa ∨ b.rank ≠ r.rank ∨ b.maxRank ≠ r.maxRank

theorem differs_iff {b r : TbRow} : b.differs r = true ↔ Differ b r := by
  unfold TbRow.differs Differ
  simp [or_assoc]

/-- the columns a mode asks about -/
def CompareMode.Asks : CompareMode → TbRow → TbRow → Prop
  | .data, b, r => Differ b r
  | .ok, b, r => b.ok ≠ r.ok
  | .gpa, b, r => b.gpa ≠ r.gpa

theorem asks_iff {m : CompareMode} {b r : TbRow} : (b.differs r = true ∧ m.asks b r = true) ↔ m.Asks b r := by
  rw [differs_iff]
  unfold CompareMode.asks CompareMode.Asks
  cases m with
  | data => simp
  | ok => simp only [bne_iff_ne]; exact ⟨fun h => h.2, fun h => ⟨.inl h, h⟩⟩
  | gpa => simp only [bne_iff_ne]; exact ⟨fun h => h.2, fun h => ⟨.inr (.inl h), h⟩⟩

/-- the words of a key -/
def TbKey.words (k : TbKey) : List String := [k.stnum, k.catalog, k.code]

theorem compare_mem {db : TbDb} {run : String} {mode : CompareMode} {out : List (TbKey × TbRow × TbRow)}
    (h : compareRuns db run mode = .ok out) (k : TbKey) (b r : TbRow) :
    (k, b, r) ∈ out ↔ (k, b) ∈ db.baseline ∧ (run, k, r) ∈ db.branch ∧ mode.Asks b r := by
  unfold compareRuns at h
  split at h
  · cases h
  cases h
  rw [(List.perm_insertionSort _ _).mem_iff, List.mem_flatMap]
  simp only [List.mem_map, List.mem_filter, Bool.and_eq_true, decide_eq_true_eq, beq_iff_eq, Prod.mk.injEq]
  constructor
  · rintro ⟨⟨k', b'⟩, hb, ⟨run', k'', r'⟩, ⟨hr, ⟨⟨h1, h2⟩, h3⟩, h4⟩, rfl, rfl, rfl⟩
    simp only at h1 h2 h3 h4
    subst h1 h3
    exact ⟨hb, hr, asks_iff.1 ⟨h2, h4⟩⟩
  · rintro ⟨hb, hr, ha⟩
    obtain ⟨h2, h4⟩ := asks_iff.2 ha
    exact ⟨(k, b), hb, (run, k, r), ⟨hr, ⟨⟨rfl, h2⟩, rfl⟩, h4⟩, rfl, rfl, rfl⟩

/-- **C106** The comparison shows, in the order of students, catalogs and codes, just the audits that have a row both in the baseline and in
the branch, with different outcomes. -/
theorem C106_compare_lists (db : TbDb) (run : String) (mode : CompareMode) (out : List (TbKey × TbRow × TbRow))
    (h : compareRuns db run mode = .ok out) :
    (∀ k b r, (k, b, r) ∈ out ↔ (k, b) ∈ db.baseline ∧ (run, k, r) ∈ db.branch ∧ mode.Asks b r) ∧
      out.Pairwise (fun x y => wordsLe x.1.words y.1.words = true) := by
  refine ⟨compare_mem h, ?_⟩
  unfold compareRuns at h
  split at h
  · cases h
  cases h
  have ht : Std.Total (fun x y : TbKey × TbRow × TbRow => wordsLe x.1.words y.1.words = true) := ⟨fun _ _ => wordsLe_total _ _⟩
  have hr : IsTrans _ (fun x y : TbKey × TbRow × TbRow => wordsLe x.1.words y.1.words = true) := ⟨fun _ _ _ h1 h2 => wordsLe_trans _ _ _ h1 h2⟩
  exact List.pairwise_insertionSort (fun x y : TbKey × TbRow × TbRow => wordsLe x.1.words y.1.words = true) _

theorem compare_ok {db : TbDb} {run : String} {k : TbKey} {row : TbRow} (h : (run, k, row) ∈ db.branch) (mode : CompareMode) :
    ∃ out, compareRuns db run mode = .ok out := by
  unfold compareRuns
  rw [if_neg]
  · exact ⟨_, rfl⟩
  · simp only [List.isEmpty_iff, List.filter_eq_nil_iff, beq_iff_eq, not_forall]
    exact ⟨_, h, by simp⟩

/-- **C106**, from the files on: after a run for the baseline and one for a branch, with whatever programs and area files, the comparison shows
an audit if and only if both runs were asked for it, both end with a result, and the outcomes differ. -/
theorem C106_changes_of_two_runs_partial (r r' : TbRun) (copy copy' : Bool) (b : String) (min min' : Rat) (filter filter' : Option String)
    (db db' db'' : TbDb) (hu : db.Unique) (ho : ∀ l, (r.order l).Perm l) (ho' : ∀ l, (r'.order l).Perm l)
    (h : runTestbed r copy none min filter db = (db', none)) (h' : runTestbed r' copy' (some b) min' filter' db' = (db'', none))
    (out : List (TbKey × TbRow × TbRow)) (hc : compareRuns db'' b .data = .ok out) (k : TbKey) :
    (∃ row row', (k, row, row') ∈ out) ↔ ∃ row row', Asked db none min filter k ∧ r.Gives db none k row ∧
      Asked db' (some b) min' filter' k ∧ r'.Gives db (some b) k row' ∧ Differ row row' := by
  obtain ⟨hs, hbr, hn, hrows⟩ := C105_baseline_is_what_was_audited_partial r copy min filter db db' hu ho h
  have hu' : db'.Unique := ⟨by rw [hs]; exact hu.server, hn, by rw [hbr]; exact hu.branch⟩
  obtain ⟨hs', hb', -, hrows'⟩ := C105_branch_is_what_was_audited_partial r' copy' b min' filter' db' db'' hu' ho' h'
  have hg : ∀ k row, r'.Gives db' (some b) k row ↔ r'.Gives db (some b) k row := by
    intro k row; unfold TbRun.Gives; rw [hs]
  refine exists_congr fun row => exists_congr fun row' => ?_
  rw [compare_mem hc, hb', hrows, hrows', if_pos rfl, hg]
  unfold CompareMode.Asks
  tauto

theorem AuditedAs.same {o : Orders} {write : AreaResult → Except Err String} {late late' : Nat → Bool} {secs secs' : Rat} {raw : RawStudent}
    {spec : Dict} {row row' : TbRow} (h : AuditedAs o write late secs raw spec row) (h' : AuditedAs o write late' secs' raw spec row') :
    ¬ Differ row row' := by
  obtain ⟨before, r, i, n, hr, -, -, hk, h1, h2, -⟩ := h
  obtain ⟨before', r', i', n', hr', -, -, hk', h1', h2', -⟩ := h'
  rw [hr] at hr'
  have := List.append_inj' (congrArg Gen.items hr') rfl
  have he := this.2
  simp only [List.cons.injEq, Msg.result.injEq, and_true] at he
  obtain ⟨rfl, -⟩ := he
  rw [hk] at hk'
  obtain ⟨h3, h4⟩ := Prod.mk.inj (Except.ok.inj hk')
  unfold Differ
  simp [h1, h1', h2, h2', h3, h4]

/-- **C106**, for a branch that changes nothing: the same program on the same area files has no changes to show. -/
theorem C106_no_change_no_rows (r r' : TbRun) (copy copy' : Bool) (b : String) (min min' : Rat) (filter filter' : Option String)
    (db db' db'' : TbDb) (hu : db.Unique) (ho : ∀ l, (r.order l).Perm l) (ho' : ∀ l, (r'.order l).Perm l)
    (hsame : r'.o = r.o ∧ r'.write = r.write ∧ r'.area = r.area)
    (h : runTestbed r copy none min filter db = (db', none)) (h' : runTestbed r' copy' (some b) min' filter' db' = (db'', none))
    (mode : CompareMode) (out : List (TbKey × TbRow × TbRow)) (hc : compareRuns db'' b mode = .ok out) : out = [] := by
  rw [List.eq_nil_iff_forall_not_mem]
  rintro ⟨k, row, row'⟩ hm
  have hm := (compare_mem hc k row row').1 hm
  have hd : Differ row row' := by
    have := asks_iff.2 hm.2.2
    exact differs_iff.1 this.1
  obtain ⟨out', hc'⟩ := compare_ok hm.2.1 .data
  obtain ⟨hs, hbr, hn, hrows⟩ := C105_baseline_is_what_was_audited_partial r copy min filter db db' hu ho h
  have hu' : db'.Unique := ⟨by rw [hs]; exact hu.server, hn, by rw [hbr]; exact hu.branch⟩
  obtain ⟨hs', hb', -, hrows'⟩ := C105_branch_is_what_was_audited_partial r' copy' b min' filter' db' db'' hu' ho' h'
  rw [hb', hrows, hrows', if_pos rfl] at hm
  obtain ⟨secs, raw, spec, h1, h2, h3⟩ := hm.1.2
  obtain ⟨secs', raw', spec', h1', h2', h3'⟩ := hm.2.1.2
  rw [hs] at h1'
  rw [hsame.2.2, h2] at h2'
  cases h2'
  have : raw = raw' := by
    have e1 := (find_server hu.server).2 ⟨secs, h1⟩
    have e2 := (find_server hu.server).2 ⟨secs', h1'⟩
    rw [e1] at e2
    exact Option.some.inj e2
  subst this
  rw [hsame.1, hsame.2.1] at h3'
  exact h3.same h3' hd

/-! ### Cases -/

namespace TestbedText
open EntryText
/-- one course is required -/
def need (course : String) : Dict := area [] (.map [("course", .str course)])
/-- a student who took CSCI 121 -/
def taker : RawStudent := { rows := [{ clbid := "1", subject := "CSCI", number := "121", year := 2018, gradePoints := 4, gradeCode := .A }] }
/-- a student who took CSCI 251 -/
def other : RawStudent := { rows := [{ clbid := "2", subject := "CSCI", number := "251", year := 2019, gradePoints := 2, gradeCode := .C }] }
def k1 : TbKey := ⟨"1", "2018-19", "741"⟩
def k2 : TbKey := ⟨"2", "2018-19", "741"⟩
def k3 : TbKey := ⟨"1", "2018-19", "742"⟩
/-- three audits of two students, and rows of an old run -/
def db : TbDb :=
  { server := [(k1, 1, taker), (k2, 2, other), (k3, 40, taker)]
    branch := [("old", k1, ⟨1, 1, 4, true, 1, 1, .done, ""⟩), ("new", k1, ⟨1, 1, 0, false, 0, 1, .empty, ""⟩)] }
/-- a program with an area file; the audits end in the opposite order -/
def run (spec : Dict) : TbRun :=
  { o := .insertion, write := fun _ => .ok "{}", area := fun _ _ => .ok (some spec), secs := fun _ => 3, order := List.reverse }
/-- whether the student took a course that nobody did, with nothing to do otherwise -/
def nothing : Dict := area [] (.map [("$if", .map [("has-course", .str "CSCI 999")]), ("$then", .map [("course", .str "CSCI 121")])])
/-- the baseline, then a run of the branch `new` with another area file, for audits below 30 seconds; what is compared -/
def compared (spec : Dict) (r : TbRun) (mode : CompareMode) : Except Err (List (TbKey × TbRow × TbRow)) :=
  compareRuns (runTestbed r false (some "new") 30 none (runTestbed (run spec) false none 30 none db).1).1 "new" mode
/-- keys shown, or nothing if there is an exception -/
def keys (x : Except Err (List (TbKey × TbRow × TbRow))) : Option (List String) :=
  match x with
  | .ok l => some (l.map (·.1.stnum))
  | .error _ => none
end TestbedText

open TestbedText in
/-- the hypotheses of C105 and of C106, in a case where both students' audits change -/
example : db.Unique ∧ (∀ l, ((run (need "CSCI 121")).order l).Perm l) ∧
    (runTestbed (run (need "CSCI 121")) false none 30 none db).2 = none ∧
    (runTestbed (run (need "CSCI 121")) false none 30 none db).1.baseline =
      [(k2, ⟨1, 3, 0, false, 0, 1, .empty, "{}"⟩), (k1, ⟨1, 3, 4, true, 1, 1, .done, "{}"⟩)] ∧
    (runTestbed (run (need "CSCI 251")) false (some "new") 30 none (runTestbed (run (need "CSCI 121")) false none 30 none db).1).2 = none ∧
    keys (compared (need "CSCI 121") (run (need "CSCI 251")) .data) = some ["1", "2"] ∧
    keys (compared (need "CSCI 121") (run (need "CSCI 121")) .data) = some [] := by
  refine ⟨⟨?_, ?_, ?_⟩, fun l => List.reverse_perm l, ?_, ?_, ?_, ?_, ?_⟩ <;> decide +kernel

open TestbedText in
/-- the hypotheses of `C105_run_ends`: the audits of both students end with a result, though one is never in time, and that of an area that
cannot be loaded raises -/
example : let r := { run (need "CSCI 251") with area := fun _ c => .ok (some (if c = "742" then [] else need "CSCI 121")), late := fun k _ => k.stnum == "2" }
    (∀ raw ∈ [taker, other], ((runFiles r.o {} raw (need "CSCI 121")).items.getLast?.any (fun m => match m with
      | .result _ _ _ _ => true
      | _ => false)) = true) ∧
    (runFiles r.o {} taker []).err.isSome = true ∧ (runTestbed r false none 50 none db).2 = none ∧
    (runTestbed r false none 50 none db).1.baseline.map (·.1) = [k1] := by
  refine ⟨?_, ?_, ?_, ?_⟩ <;> decide +kernel

open TestbedText in
/-- the hypotheses of `C105_all_or_nothing`: a run that is killed -/
example : (runTestbed { run (need "CSCI 121") with killed := true } false (some "old") 30 none db).2 = some .other ∧
    (runTestbed { run (need "CSCI 121") with killed := true } false (some "old") 30 none db).1.branch.map (·.1) = ["new"] := by
  decide +kernel

open TestbedText in
/-- the hypotheses of `C105_one_audit_loses_all_refuted`: the audit of the other student has a result, and is lost too -/
example : (runFiles .insertion {} taker nothing).err = none ∧ ((runFiles .insertion {} taker nothing).items.getLast?.any (fun m => match m with
      | .noAudits => true
      | _ => false)) = true ∧
    (let r := { run (need "CSCI 251") with area := fun _ c => .ok (some (if c = "742" then nothing else need "CSCI 251")) }
     (runTestbed r false none 30 none db).1.baseline.length = 2 ∧ (runTestbed r false none 30 none db).2 = none ∧
     (runTestbed r false none 50 none db).1.baseline.length = 0 ∧ (runTestbed r false none 50 none db).2 = some .assertion) := by
  refine ⟨?_, ?_, ?_, ?_, ?_, ?_⟩ <;> decide +kernel

open TestbedText in
/-- **C106**, refuted for audits that no longer end: the area of the branch cannot be loaded for one student's code, so the audit that was
complete in the baseline is not in the branch, and is not among the changes. -/
theorem C106_failing_audit_refuted :
    let r := { run (need "CSCI 251") with area := fun _ c => .ok (some (if c = "742" then [] else need "CSCI 121")) }
    let db1 := (runTestbed (run (need "CSCI 121")) false none 50 none db).1
    let db2 := (runTestbed r false (some "new") 50 none db1).1
    (runTestbed r false (some "new") 50 none db1).2 = none ∧ (db1.baseline.any (fun b => decide (b.1 = k3) && b.2.ok)) = true ∧
      (db2.branch.any (fun b => decide (b.2.1 = k3))) = false ∧ keys (compareRuns db2 "new" .data) = some [] := by
  refine ⟨?_, ?_, ?_, ?_⟩ <;> decide +kernel

end Dp
