import Verif.Props.Queue
import Mathlib.Data.List.Perm.Subperm

/-
Filling the queue (C42).
-/
namespace Dp

/-! ### Specification -/

/-- the student and area of an item -/
def itemKey (item : String × String × String) : String × String := (item.1, item.2.2)

/-- The item is one of the student's: their number, a code of one of their areas that is not
an emphasis. -/
def IsItemOf (st : Fetched) (item : String × String × String) : Prop :=
  item.1 = st.stnum ∧ ∃ a ∈ st.areas, a.kind ≠ "emphasis" ∧ a.code = item.2.2

/-- the item may be queued: it is not in the queue, not blocked, and of the wanted area -/
def MayBeQueued (queued blocked : List (String × String)) (filter : Option String)
    (item : String × String × String) : Prop :=
  itemKey item ∉ queued ∧ itemKey item ∉ blocked ∧ ∀ code, filter = some code → item.2.2 = code

/-- the fields of the student that have to be years are years -/
def Fetched.YearsOk (st : Fetched) : Prop :=
  (∃ y, st.catalog = .year y) ∧ ∀ a ∈ st.areas, a.catalog = none ∨ ∃ y, a.catalog = some (.year y)

/-- the programs of all students -/
def batchTasks (order : List String → List String) (queued blocked : List (String × String)) (filter : Option String)
    (students : List Fetched) : List (List BAct) :=
  students.map (queueActs order queued blocked filter)

/-! ### Expanding a student -/

theorem queueable_iff (queued blocked : List (String × String)) (filter : Option String)
    (item : String × String × String) :
    queueable queued blocked filter item = true ↔ MayBeQueued queued blocked filter item := by
  unfold queueable MayBeQueued itemKey
  cases filter with
  | none => simp
  | some c =>
    simp [and_assoc]
    intro _ _
    exact eq_comm

theorem expandLoop_items (st : Fetched) (year : Int) (codes : List String) :
    ((expandLoop st year codes).1.map (·.2.2)).Sublist codes ∧
    (∀ item ∈ (expandLoop st year codes).1, item.1 = st.stnum) ∧
    ((expandLoop st year codes).2 = true → (expandLoop st year codes).1.map (·.2.2) = codes) := by
  induction codes with
  | nil => simp [expandLoop]
  | cons c cs ih =>
    obtain ⟨h1, h2, h3⟩ := ih
    unfold expandLoop
    split
    · simp
    · refine ⟨?_, ?_, ?_⟩
      · simpa using h1
      · intro item hi
        rcases List.mem_cons.mp hi with rfl | hi
        · rfl
        · exact h2 item hi
      · intro h
        simp only [List.map_cons, List.cons.injEq, true_and]
        exact h3 h

theorem Fetched.codes_mem (st : Fetched) (code : String) :
    code ∈ st.codes ↔ ∃ a ∈ st.areas, a.kind ≠ "emphasis" ∧ a.code = code := by
  unfold Fetched.codes
  rw [List.mem_dedup, List.mem_map]
  constructor
  · rintro ⟨a, ha, rfl⟩
    obtain ⟨h1, h2⟩ := List.mem_filter.mp ha
    exact ⟨a, h1, by simpa using h2, rfl⟩
  · rintro ⟨a, ha, hk, rfl⟩
    exact ⟨a, List.mem_filter.mpr ⟨ha, by simpa using hk⟩, rfl⟩

/-- the items a student gives: each of theirs, and each area once -/
theorem expandStudent_items {order : List String → List String} (horder : ∀ l, (order l).Perm l) (st : Fetched) :
    (∀ item ∈ (expandStudent order st).1, IsItemOf st item) ∧ ((expandStudent order st).1.map itemKey).Nodup := by
  have key : ∀ year, (∀ item ∈ (expandLoop st year (order st.codes)).1, IsItemOf st item) ∧
      ((expandLoop st year (order st.codes)).1.map itemKey).Nodup := by
    intro year
    obtain ⟨h1, h2, -⟩ := expandLoop_items st year (order st.codes)
    constructor
    · intro item hi
      refine ⟨h2 item hi, ?_⟩
      rw [← Fetched.codes_mem]
      exact (horder _).subset (h1.subset (List.mem_map_of_mem hi))
    · have hn : ((expandLoop st year (order st.codes)).1.map (·.2.2)).Nodup :=
        ((horder _).nodup_iff.mpr (List.nodup_dedup _)).sublist h1
      have e : (expandLoop st year (order st.codes)).1.map (·.2.2) =
          ((expandLoop st year (order st.codes)).1.map itemKey).map (·.2) := by
        rw [List.map_map]; rfl
      rw [e] at hn
      exact List.Nodup.of_map _ hn
  unfold expandStudent
  cases st.catalog with
  | year y => exact key y
  | text => simp
  | other => simp

theorem yearOf_some {st : Fetched} (h : st.YearsOk) (year : Int) (code : String) : ∃ y, st.yearOf year code = some y := by
  unfold Fetched.yearOf Fetched.area?
  cases hf : st.areas.reverse.find? (fun a => a.code == code) with
  | none => exact ⟨year, rfl⟩
  | some a =>
    have ha : a ∈ st.areas := by simpa using List.mem_of_find?_eq_some hf
    rcases h.2 a ha with e | ⟨y, e⟩
    · exact ⟨year, by simp [e]⟩
    · exact ⟨y, by simp [e]⟩

/-- **C42** (what is fetched).  A student whose catalogs are years gives exactly one item for
every code of an area of theirs that is not an emphasis. -/
theorem C42_items {order : List String → List String} (horder : ∀ l, (order l).Perm l) {st : Fetched} (h : st.YearsOk) :
    (expandStudent order st).2 = true ∧ ((expandStudent order st).1.map itemKey).Nodup ∧
    ∀ code, (∃ a ∈ st.areas, a.kind ≠ "emphasis" ∧ a.code = code) ↔
      ∃ item ∈ (expandStudent order st).1, itemKey item = (st.stnum, code) := by
  obtain ⟨⟨year, hy⟩, hareas⟩ := h
  have hok : ∀ codes, (expandLoop st year codes).2 = true := by
    intro codes
    induction codes with
    | nil => rfl
    | cons c cs ih =>
      obtain ⟨y, e⟩ := yearOf_some ⟨⟨year, hy⟩, hareas⟩ year c
      simp only [expandLoop, e]; exact ih
  have he : expandStudent order st = expandLoop st year (order st.codes) := by simp only [expandStudent, hy]
  refine ⟨by rw [he]; exact hok _, (expandStudent_items horder st).2, ?_⟩
  intro code
  rw [← Fetched.codes_mem, he]
  obtain ⟨h1, h2, h3⟩ := expandLoop_items st year (order st.codes)
  have h4 := h3 (hok _)
  constructor
  · intro hc
    have : code ∈ (expandLoop st year (order st.codes)).1.map (·.2.2) := by
      rw [h4]; exact (horder _).symm.subset hc
    obtain ⟨item, hi, rfl⟩ := List.mem_map.mp this
    exact ⟨item, hi, by simp [itemKey, h2 item hi]⟩
  · rintro ⟨item, hi, hk⟩
    have : item.2.2 ∈ order st.codes := by rw [← h4]; exact List.mem_map_of_mem hi
    simp only [itemKey, Prod.mk.injEq] at hk
    rw [← hk.2]
    exact (horder _).subset this

/-! ### The items of programs -/

/-- the items a program inserts -/
def insertsOf (acts : List BAct) : List (String × String × String) :=
  acts.filterMap (fun | .insert item => some item | .commit => none)

theorem mem_insertsOf {acts : List BAct} {item : String × String × String} :
    item ∈ insertsOf acts ↔ BAct.insert item ∈ acts := by
  unfold insertsOf
  rw [List.mem_filterMap]
  constructor
  · rintro ⟨a, ha, h⟩
    cases a with
    | insert x => simp at h; subst h; exact ha
    | commit => simp at h
  · intro h; exact ⟨_, h, rfl⟩

theorem insertsOf_queueActs (order : List String → List String) (queued blocked : List (String × String))
    (filter : Option String) (st : Fetched) :
    insertsOf (queueActs order queued blocked filter st) =
      (expandStudent order st).1.filter (queueable queued blocked filter) := by
  have key : ∀ l : List (String × String × String), insertsOf (l.map .insert) = l := by
    intro l
    induction l with
    | nil => rfl
    | cons a l ih => unfold insertsOf at ih ⊢; simp [ih]
  unfold queueActs
  simp only
  have h2 : ∀ a b, insertsOf (a ++ b) = insertsOf a ++ insertsOf b := fun a b => List.filterMap_append
  rw [h2, key]
  split <;> simp [insertsOf]

/-- all items: committed, about to be, or still to be inserted -/
def BatchDb.all (b : BatchDb) (tasks : List (List BAct)) : List (String × String × String) :=
  b.committed ++ b.pending ++ tasks.flatMap insertsOf

theorem flatMap_set_subperm {tasks : List (List BAct)} {i : Nat} {acts acts' : List BAct}
    (hi : tasks[i]? = some acts) : ∃ rest, (tasks.flatMap insertsOf).Perm (insertsOf acts ++ rest) ∧
      ((tasks.set i acts').flatMap insertsOf).Perm (insertsOf acts' ++ rest) := by
  obtain ⟨l1, l2, e, -, hs⟩ := split_at hi
  refine ⟨l1.flatMap insertsOf ++ l2.flatMap insertsOf, ?_, ?_⟩
  · rw [e, List.flatMap_append, List.flatMap_cons, ← List.append_assoc, ← List.append_assoc]
    exact List.Perm.append_right _ List.perm_append_comm
  · rw [hs, List.flatMap_append, List.flatMap_cons, ← List.append_assoc, ← List.append_assoc]
    exact List.Perm.append_right _ List.perm_append_comm

/-- a step never makes an item of nothing -/
theorem act_subperm (b : BatchDb) {tasks : List (List BAct)} {i : Nat} {a : BAct} {left : List BAct} (fails : Bool)
    (hi : tasks[i]? = some (a :: left)) :
    ((b.act fails a).1.all (tasks.set i (if (b.act fails a).2 then left else []))).Subperm (b.all tasks) := by
  obtain ⟨rest, h1, h2⟩ := flatMap_set_subperm (acts' := if (b.act fails a).2 then left else []) hi
  unfold BatchDb.all
  refine (List.Perm.append_left _ h2).subperm.trans (List.Subperm.trans ?_ (List.Perm.append_left _ h1.symm).subperm)
  cases a with
  | insert item =>
    have hins : insertsOf (.insert item :: left) = item :: insertsOf left := rfl
    rw [hins]
    have drop : (b.committed ++ b.pending ++ (insertsOf [] ++ rest)).Subperm
        (b.committed ++ b.pending ++ (item :: insertsOf left ++ rest)) :=
      List.Sublist.subperm (List.Sublist.append_left (List.Sublist.append_right (List.nil_sublist _) _) _)
    cases hab : b.aborted with
    | true => simpa only [BatchDb.act, hab, if_true, Bool.false_eq_true, if_false] using drop
    | false =>
      cases fails with
      | true => simpa only [BatchDb.act, hab, if_true, Bool.false_eq_true, if_false] using drop
      | false =>
        simp only [BatchDb.act, hab, Bool.false_eq_true, if_false, if_true]
        refine List.Perm.subperm ?_
        have : b.committed ++ (b.pending ++ [item]) ++ (insertsOf left ++ rest) =
            b.committed ++ b.pending ++ (item :: insertsOf left ++ rest) := by simp
        rw [this]
  | commit =>
    have hins : insertsOf (.commit :: left) = insertsOf left := rfl
    rw [hins]
    cases hab : b.aborted with
    | true =>
      simp only [BatchDb.act, hab, if_true, List.append_nil]
      exact List.Sublist.subperm (List.Sublist.append_right (List.sublist_append_left _ _) _)
    | false =>
      simp only [BatchDb.act, hab, Bool.false_eq_true, if_false, if_true, List.append_nil]
      exact List.Subperm.refl _

theorem runBatch_subperm (b : BatchDb) (tasks : List (List BAct)) (turns : List BTurn) :
    ((runBatch b tasks turns).1.all (runBatch b tasks turns).2).Subperm (b.all tasks) := by
  induction turns generalizing b tasks with
  | nil => exact List.Subperm.refl _
  | cons t turns ih =>
    cases t with
    | other item => exact ih _ _
    | thread i fails =>
      unfold runBatch
      split
      · rename_i a left hi
        exact (ih _ _).trans (act_subperm b fails hi)
      · exact ih _ _

/-! ### C42 -/

/-- **C42** (never).  Whatever the order of the threads and whatever the database refuses,
the batch queues only items of its students, and none that was in the queue or blocked when
it started. -/
theorem C42_only_allowed_partial {order : List String → List String} (horder : ∀ l, (order l).Perm l)
    (queued blocked : List (String × String)) (filter : Option String) (students : List Fetched) (turns : List BTurn)
    {item : String × String × String}
    (h : item ∈ (runBatch {} (batchTasks order queued blocked filter students) turns).1.committed) :
    MayBeQueued queued blocked filter item ∧ ∃ st ∈ students, IsItemOf st item := by
  have hsub := runBatch_subperm {} (batchTasks order queued blocked filter students) turns
  have hm := hsub.subset (show item ∈ BatchDb.all _ _ by unfold BatchDb.all; simp [h])
  simp only [BatchDb.all, List.nil_append, List.mem_flatMap, batchTasks, List.mem_map] at hm
  obtain ⟨acts, ⟨st, hst, rfl⟩, hi⟩ := hm
  rw [insertsOf_queueActs] at hi
  obtain ⟨h1, h2⟩ := List.mem_filter.mp hi
  exact ⟨(queueable_iff _ _ _ _).mp h2, st, hst, (expandStudent_items horder st).1 item h1⟩

/-- the items of students with different numbers are different -/
theorem tasks_nodup {order : List String → List String} (horder : ∀ l, (order l).Perm l)
    (queued blocked : List (String × String)) (filter : Option String) (students : List Fetched)
    (hnum : (students.map (·.stnum)).Nodup) :
    (((batchTasks order queued blocked filter students).flatMap insertsOf).map itemKey).Nodup := by
  unfold batchTasks
  induction students with
  | nil => simp
  | cons st sts ih =>
    rw [List.map_cons, List.nodup_cons] at hnum
    simp only [List.map_cons, List.flatMap_cons, List.map_append]
    rw [List.nodup_append]
    refine ⟨?_, ih hnum.2, ?_⟩
    · rw [insertsOf_queueActs]
      exact (expandStudent_items horder st).2.sublist (List.filter_sublist.map _)
    · rintro k hk k' hk' rfl
      obtain ⟨item, hi, rfl⟩ := List.mem_map.mp hk
      rw [insertsOf_queueActs] at hi
      have h1 := ((expandStudent_items horder st).1 item (List.mem_filter.mp hi).1).1
      obtain ⟨item', hi', he⟩ := List.mem_map.mp hk'
      obtain ⟨acts, hacts, hi'⟩ := List.mem_flatMap.mp hi'
      obtain ⟨st', hst', rfl⟩ := List.mem_map.mp hacts
      rw [insertsOf_queueActs] at hi'
      have h2 := ((expandStudent_items horder st').1 item' (List.mem_filter.mp hi').1).1
      simp only [itemKey, Prod.mk.injEq] at he
      exact hnum.1 (List.mem_map.mpr ⟨st', hst', by rw [← h2, he.1, h1]⟩)

/-- **C42** (once).  Whatever the order of the threads and whatever the database refuses, the
batch queues no student and area twice. -/
theorem C42_at_most_once {order : List String → List String} (horder : ∀ l, (order l).Perm l)
    (queued blocked : List (String × String)) (filter : Option String) (students : List Fetched)
    (hnum : (students.map (·.stnum)).Nodup) (turns : List BTurn) :
    ((runBatch {} (batchTasks order queued blocked filter students) turns).1.committed.map itemKey).Nodup := by
  have hsub := runBatch_subperm {} (batchTasks order queued blocked filter students) turns
  have hn := tasks_nodup horder queued blocked filter students hnum
  obtain ⟨l, hl, hs⟩ := hsub
  have h1 : (l.map itemKey).Nodup := by
    refine List.Nodup.sublist (hs.map _) ?_
    simpa [BatchDb.all] using hn
  have h2 := (hl.map itemKey).nodup_iff.mp h1
  refine h2.sublist (List.Sublist.map _ ?_)
  unfold BatchDb.all
  rw [List.append_assoc]
  exact List.sublist_append_left _ _

/-- where a program that does not raise is -/
def Progress (b : BatchDb) (acts left : List BAct) : Prop :=
  ∃ before, acts = before ++ left ∧ (∀ item, .insert item ∈ before → item ∈ b.committed ++ b.pending) ∧
    (.commit ∈ before → ∀ item, .insert item ∈ before → item ∈ b.committed)

/-- without refusals every program goes on, and keeps what it has inserted -/
theorem runBatch_progress (turns : List BTurn) (hfails : ∀ i, .thread i true ∉ turns) {b : BatchDb} (hb : b.aborted = false)
    {tasks : List (List BAct)} {i : Nat} {acts left : List BAct} (hi : tasks[i]? = some left)
    (hlast : ∃ pre, acts = pre ++ [.commit] ∧ BAct.commit ∉ pre) (hp : Progress b acts left) :
    ∃ left', (runBatch b tasks turns).2[i]? = some left' ∧ Progress (runBatch b tasks turns).1 acts left' := by
  induction turns generalizing b tasks left with
  | nil => exact ⟨left, hi, hp⟩
  | cons t turns ih =>
    have hf' : ∀ i, .thread i true ∉ turns := fun i hc => hfails i (List.mem_cons_of_mem _ hc)
    cases t with
    | other item => exact ih hf' (b := { b with others := b.others ++ [item] }) hb hi hp
    | thread j fails =>
      have hff : fails = false := by
        cases fails with
        | false => rfl
        | true => exact absurd List.mem_cons_self (hfails j)
      subst hff
      unfold runBatch
      split
      · rename_i a rest hj
        have hb' : (b.act false a).1.aborted = false := by
          cases a <;> simp [BatchDb.act, hb]
        have hok : (b.act false a).2 = true := by
          cases a <;> simp [BatchDb.act, hb]
        rw [hok]
        simp only [if_true]
        obtain ⟨before, e, h1, h2⟩ := hp
        by_cases hij : j = i
        · subst hij
          rw [hi] at hj
          cases hj
          obtain ⟨hlt, -⟩ := List.getElem?_eq_some_iff.mp hi
          refine ih hf' hb' (left := rest) (by simp [hlt]) ⟨before ++ [a], by simp [e], ?_, ?_⟩
          · intro item hm
            rcases List.mem_append.mp hm with hm | hm
            · have := h1 item hm
              cases a <;> simp only [BatchDb.act, hb, Bool.false_eq_true, if_false] <;> simp at this ⊢ <;> tauto
            · simp at hm; subst hm
              simp [BatchDb.act, hb]
          · intro hc item hm
            cases a with
            | commit =>
              have hm' : BAct.insert item ∈ before := by
                rcases List.mem_append.mp hm with hm | hm
                · exact hm
                · simp at hm
              have := h1 item hm'
              simpa [BatchDb.act, hb] using this
            | insert x =>
              -- a commit before an insertion: not in these programs
              exfalso
              have hc' : BAct.commit ∈ before := by
                rcases List.mem_append.mp hc with hc | hc
                · exact hc
                · simp at hc
              obtain ⟨pre, ep, hn⟩ := hlast
              rw [ep] at e
              have hlen : before.length < (pre ++ [BAct.commit]).length := by
                rw [e]; simp
              have hpre : before <+: pre := by
                have hb1 : before <+: pre ++ [BAct.commit] := ⟨_, e.symm⟩
                have hb2 : pre <+: pre ++ [BAct.commit] := List.prefix_append _ _
                refine List.prefix_of_prefix_length_le hb1 hb2 ?_
                simp at hlen; omega
              exact hn (hpre.subset hc')
        · have hi' : (tasks.set j rest)[i]? = some left := by
            rw [List.getElem?_set_ne hij]; exact hi
          refine ih hf' hb' hi' ⟨before, e, ?_, ?_⟩
          · intro item hm
            have := h1 item hm
            cases a <;> simp only [BatchDb.act, hb, Bool.false_eq_true, if_false] <;> simp at this ⊢ <;> tauto
          · intro hc item hm
            have := h2 hc item hm
            cases a <;> simp only [BatchDb.act, hb, Bool.false_eq_true, if_false]
            · exact this
            · exact List.mem_append_left _ this
      · exact ih hf' hb hi hp

/-- **C42** (every other).  When every thread has finished and the database has refused
nothing, every item of a student whose catalogs are years is in the queue, unless it was
queued, blocked or filtered out: whatever the order of the threads, and whatever goes wrong
with other students. -/
theorem C42_all_queued_partial {order : List String → List String} (horder : ∀ l, (order l).Perm l)
    (queued blocked : List (String × String)) (filter : Option String) (students : List Fetched) (turns : List BTurn)
    (hfails : ∀ i, .thread i true ∉ turns)
    (hdone : ∀ left ∈ (runBatch {} (batchTasks order queued blocked filter students) turns).2, left = [])
    {st : Fetched} (hst : st ∈ students) (hyears : st.YearsOk) {a : DeclaredArea} (ha : a ∈ st.areas)
    (hkind : a.kind ≠ "emphasis") (hq : (st.stnum, a.code) ∉ queued) (hb : (st.stnum, a.code) ∉ blocked)
    (hf : ∀ code, filter = some code → a.code = code) :
    (st.stnum, a.code) ∈
      (runBatch {} (batchTasks order queued blocked filter students) turns).1.committed.map itemKey := by
  obtain ⟨hok, -, hitems⟩ := C42_items horder hyears
  obtain ⟨item, hi, hk⟩ := (hitems a.code).mp ⟨a, ha, hkind, rfl⟩
  obtain ⟨i, hidx⟩ := List.mem_iff_getElem?.mp hst
  have htask : (batchTasks order queued blocked filter students)[i]? = some (queueActs order queued blocked filter st) := by
    unfold batchTasks; rw [List.getElem?_map, hidx]; rfl
  have hlast : ∃ pre, queueActs order queued blocked filter st = pre ++ [.commit] ∧ BAct.commit ∉ pre := by
    refine ⟨((expandStudent order st).1.filter (queueable queued blocked filter)).map .insert, ?_, by simp⟩
    unfold queueActs; simp [hok]
  obtain ⟨left, hl, before, e, h1, h2⟩ := runBatch_progress turns hfails (b := {}) rfl htask hlast
    ⟨[], rfl, by simp, by simp⟩
  have hnil := hdone left (List.mem_of_getElem? hl)
  subst hnil
  rw [List.append_nil] at e
  have hmem : BAct.insert item ∈ before := by
    rw [← e, ← mem_insertsOf, insertsOf_queueActs]
    refine List.mem_filter.mpr ⟨hi, (queueable_iff _ _ _ _).mpr ?_⟩
    have hcode : item.2.2 = a.code := by simp only [itemKey, Prod.mk.injEq] at hk; exact hk.2
    unfold MayBeQueued
    rw [hk, hcode]
    exact ⟨hq, hb, hf⟩
  have hcom : BAct.commit ∈ before := by
    obtain ⟨pre, ep, -⟩ := hlast
    rw [← e, ep]; simp
  exact List.mem_map.mpr ⟨item, h2 hcom item hmem, hk⟩

/-! ### What does not hold -/

def studentA : Fetched := ⟨"1", .year 2018, [⟨"math", "major", none⟩, ⟨"m-stat", "emphasis", none⟩]⟩
def studentB : Fetched := ⟨"2", .year 2018, [⟨"art", "major", some (.year 2019)⟩]⟩

/-- **C42** (what does not hold): when the database refuses an item of one student, items of
other students are lost, although their `fetch_and_queue` ends normally: all threads share
one transaction. -/
theorem C42_refusal_refuted :
    ∃ turns : List BTurn,
      (runBatch {} (batchTasks id [] [] none [studentA, studentB]) turns).2 = [[], []] ∧
      (∀ i, .thread i true ∈ turns → i = 0) ∧
      (runBatch {} (batchTasks id [] [] none [studentA, studentB]) turns).1.committed = [] :=
  ⟨[.thread 1 false, .thread 0 true, .thread 1 false], by decide +kernel, by simp, by decide +kernel⟩

/-- **C42** (what does not hold): an item that another program queues while the batch runs is
queued again. -/
theorem C42_queued_meanwhile_refuted :
    ∃ turns : List BTurn, (∀ i, .thread i true ∉ turns) ∧
      ∃ item, item ∈ (runBatch {} (batchTasks id [] [] none [studentA]) turns).1.others ∧
        item ∈ (runBatch {} (batchTasks id [] [] none [studentA]) turns).1.committed :=
  ⟨[.other ("1", "2018-19", "math"), .thread 0 false, .thread 0 false], by simp, ("1", "2018-19", "math"),
    by decide +kernel, by decide +kernel⟩

/-- the case of `C42_all_queued_partial`: two students, their calls interleaved; the emphasis is not queued -/
example : (runBatch {} (batchTasks id [] [("3", "art")] none [studentA, studentB])
    [.thread 1 false, .thread 0 false, .thread 0 false, .thread 1 false]) =
    ({ committed := [("2", "2019-20", "art"), ("1", "2018-19", "math")] }, [[], []]) := by decide +kernel

example : (expandStudent id studentA).1 = [("1", "2018-19", "math")] := by decide +kernel

end Dp
