import Verif.Props.Results

/-
Stored results when several workers run (C40): at most one is active as long as no two workers
have items of one student and area at a time; otherwise two may be.
-/
namespace Dp

/-! ### Specification -/

/-- no two workers have items of one student and area at this moment -/
def Sys.Separate (s : Sys) : Prop :=
  ∀ i j q q', s.Holds i q → s.Holds j q' → q.student = q'.student → q.code = q'.code → i = j

/-- the stored results when the workers are started: in order, every one with its own id -/
structure Sys.GoodResults (s : Sys) : Prop where
  orderly : Orderly s.db.results
  ids : (s.db.results.map (·.id)).Nodup
  below : ∀ r ∈ s.db.results, r.id < s.nextResult

/-! ### Rows of one student and area -/

def ResultRow.key (r : ResultRow) : String × String := (r.student, r.code)
def QueueRow.key (q : QueueRow) : String × String := (q.student, q.code)

theorem sameStudentArea_iff (r r' : ResultRow) : SameStudentArea r r' ↔ r.key = r'.key := by
  unfold SameStudentArea ResultRow.key; rw [Prod.mk.injEq]

theorem orderly_of_keys {rs : List ResultRow} (h : ∀ k, Orderly (rs.filter (fun r => r.key == k))) : Orderly rs := by
  constructor
  · have h1 : ∀ k, (rs.filter (fun r => r.key == k)).Pairwise Follows := fun k => (h k).1
    clear h
    induction rs with
    | nil => exact List.Pairwise.nil
    | cons a rs ih =>
      refine List.pairwise_cons.mpr ⟨?_, ih fun k => (h1 k).sublist ?_⟩
      · intro b hb hs
        have := h1 a.key
        simp only [List.filter_cons, beq_self_eq_true, if_true] at this
        refine (List.pairwise_cons.mp this).1 b (List.mem_filter.mpr ⟨hb, ?_⟩) hs
        simpa using ((sameStudentArea_iff a b).mp hs).symm
      · exact List.Sublist.filter _ (List.sublist_cons_self _ _)
  · intro r hr
    exact (h r.key).2 r (List.mem_filter.mpr ⟨hr, by simp⟩)

/-- the part of `Tx.view` that works row by row -/
def Tx.off (tx : Tx) (r : ResultRow) : ResultRow :=
  if tx.deactivated.contains r.id then { r with active := false } else r

def Tx.core (tx : Tx) (l : List ResultRow) : List ResultRow :=
  (l.filter (fun r => !tx.deleted.contains r.id)).map tx.off

theorem Tx.view_eq (tx : Tx) (rs : List ResultRow) : tx.view rs = tx.core (rs ++ tx.inserted) := rfl

theorem Tx.off_key (tx : Tx) (r : ResultRow) : (tx.off r).key = r.key := by unfold Tx.off; split <;> rfl
theorem Tx.off_id (tx : Tx) (r : ResultRow) : (tx.off r).id = r.id := by unfold Tx.off; split <;> rfl

theorem Tx.core_filter (tx : Tx) (l : List ResultRow) (k : String × String) :
    (tx.core l).filter (fun r => r.key == k) = tx.core (l.filter (fun r => r.key == k)) := by
  unfold Tx.core
  rw [List.filter_map, List.filter_filter, List.filter_filter]
  congr 1
  refine List.filter_congr fun r _ => ?_
  simp only [Function.comp, Tx.off_key]
  rw [Bool.and_comm]

theorem Tx.core_id {tx : Tx} {l : List ResultRow} (h : ∀ r ∈ l, r.id ∉ tx.deleted ++ tx.deactivated) : tx.core l = l := by
  unfold Tx.core
  have h1 : l.filter (fun r => !tx.deleted.contains r.id) = l := by
    rw [List.filter_eq_self]
    intro r hr
    have := h r hr
    simp only [List.mem_append, not_or] at this
    simpa using this.1
  rw [h1]
  conv => rhs; rw [← List.map_id l]
  refine List.map_congr_left fun r hr => ?_
  have := h r hr
  simp only [List.mem_append, not_or] at this
  simp [Tx.off, this.2]

theorem Tx.mem_core {tx : Tx} {l : List ResultRow} {r : ResultRow} (h : r ∈ tx.core l) :
    ∃ r0 ∈ l, r0.id = r.id ∧ r0.key = r.key := by
  unfold Tx.core at h
  obtain ⟨r0, hr0, rfl⟩ := List.mem_map.mp h
  exact ⟨r0, (List.mem_filter.mp hr0).1, (Tx.off_id _ _).symm, (Tx.off_key _ _).symm⟩

theorem Tx.core_ids (tx : Tx) (l : List ResultRow) : ((tx.core l).map (·.id)).Sublist (l.map (·.id)) := by
  unfold Tx.core
  rw [List.map_map]
  have : ((fun r : ResultRow => r.id) ∘ tx.off) = fun r => r.id := by
    funext r; exact Tx.off_id _ _
  rw [this]
  exact List.Sublist.map _ List.filter_sublist

theorem Tx.core_sublist (tx : Tx) {l l' : List ResultRow} (h : l'.Sublist l) : (tx.core l').Sublist (tx.core l) :=
  (h.filter _).map _

/-! ### The invariant -/

def Worker.pending (w : Worker) : List ResultRow := w.tx.toList.flatMap (·.inserted)

@[simp] theorem Worker.pending_none (p : Phase) : Worker.pending ⟨p, none⟩ = [] := rfl
@[simp] theorem Worker.pending_some (p : Phase) (tx : Tx) : Worker.pending ⟨p, some tx⟩ = tx.inserted := by
  simp [Worker.pending]

/-- all rows, stored or about to be -/
def Sys.allRows (s : Sys) : List ResultRow := s.db.results ++ s.workers.flatMap Worker.pending

/-- the transaction changes nothing but results of the student and area of `q`, and would
leave the table in order -/
structure Tx.For (s : Sys) (tx : Tx) (q : QueueRow) : Prop where
  below : ∀ id ∈ tx.deleted ++ tx.deactivated, id < s.nextResult
  only : ∀ id ∈ tx.deleted ++ tx.deactivated, ∀ r ∈ s.allRows, r.id = id → r.key = q.key
  inserted : ∀ r ∈ tx.inserted, r.key = q.key
  orderly : Orderly (tx.view s.db.results)

def Tx.Clean (tx : Tx) : Prop := tx.deleted = [] ∧ tx.deactivated = [] ∧ tx.inserted = []

theorem Tx.Clean.view {tx : Tx} (h : tx.Clean) (rs : List ResultRow) : tx.view rs = rs := by
  rw [Tx.view_eq, h.2.2, List.append_nil]
  exact Tx.core_id (by simp [h.1, h.2.1])

theorem Tx.Clean.for {tx : Tx} (h : tx.Clean) {s : Sys} (ho : Orderly s.db.results) (q : QueueRow) : tx.For s q :=
  ⟨by simp [h.1, h.2.1], by simp [h.1, h.2.1], by simp [h.2.2], by rw [h.view]; exact ho⟩

/-- no result of the student and area of `q` is active -/
def NoneActive (q : QueueRow) (rs : List ResultRow) : Prop := ∀ r ∈ rs, r.key = q.key → r.active = false

def Worker.Tidy (s : Sys) (w : Worker) : Prop :=
  match w.phase with
  | .storing q _ left => ∀ tx, w.tx = some tx → q ∈ tx.taken ∧ tx.For s q ∧
      (left = [.deleteSame, .deactivate, .insert] ∨ left = [.deactivate, .insert] ∨
        left = [.insert] ∧ (q.linkOnly = false → NoneActive q (tx.view s.db.results)))
  | .finish => ∀ tx, w.tx = some tx → ∃ q ∈ tx.taken, tx.For s q
  | .working q => ∀ tx, w.tx = some tx → q ∈ tx.taken ∧ tx.Clean
  | _ => ∀ tx, w.tx = some tx → tx.Clean

structure Sys.Tidy (s : Sys) : Prop where
  orderly : Orderly s.db.results
  ids : (s.allRows.map (·.id)).Nodup
  below : ∀ r ∈ s.allRows, r.id < s.nextResult
  workers : ∀ w ∈ s.workers, w.Tidy s

/-- `For` carries over when no old row of another student or area gets an id the transaction
has changed -/
theorem Tx.For.mono {s s' : Sys} {tx : Tx} {q : QueueRow} (h : tx.For s q) (hn : s.nextResult ≤ s'.nextResult)
    (hrows : ∀ r ∈ s'.allRows, (∃ r0 ∈ s.allRows, r0.id = r.id ∧ r0.key = r.key) ∨ s.nextResult ≤ r.id)
    (ho : Orderly (tx.view s'.db.results)) : tx.For s' q := by
  refine ⟨fun id hid => Nat.lt_of_lt_of_le (h.below id hid) hn, ?_, h.inserted, ho⟩
  intro id hid r hr he
  rcases hrows r hr with ⟨r0, hr0, h1, h2⟩ | h1
  · rw [← h2]; exact h.only id hid r0 hr0 (h1.trans he)
  · have := h.below id hid; omega

/-- the same for a worker when the table does not change -/
theorem Worker.Tidy.mono {s s' : Sys} {w : Worker} (h : w.Tidy s) (hdb : s'.db.results = s.db.results)
    (hn : s.nextResult ≤ s'.nextResult)
    (hrows : ∀ r ∈ s'.allRows, (∃ r0 ∈ s.allRows, r0.id = r.id ∧ r0.key = r.key) ∨ s.nextResult ≤ r.id) :
    w.Tidy s' := by
  obtain ⟨p, tx⟩ := w
  cases p with
  | storing q text left =>
    intro tx htx
    obtain ⟨h0, h1, h2⟩ := h tx htx
    refine ⟨h0, h1.mono hn hrows (by rw [hdb]; exact h1.orderly), ?_⟩
    rw [hdb]; exact h2
  | finish =>
    intro tx htx
    obtain ⟨q, hq, h1⟩ := h tx htx
    exact ⟨q, hq, h1.mono hn hrows (by rw [hdb]; exact h1.orderly)⟩
  | working q => exact h
  | start => exact h
  | fetch => exact h
  | leave => exact h
  | waiting => exact h
  | dead => exact h

/-- rows of other students and areas look the same through a transaction -/
theorem Tx.For.other {s : Sys} {tx : Tx} {q : QueueRow} (h : tx.For s q) {k : String × String} (hk : k ≠ q.key) :
    (tx.view s.db.results).filter (fun r => r.key == k) = s.db.results.filter (fun r => r.key == k) := by
  rw [Tx.view_eq, Tx.core_filter, List.filter_append]
  have h1 : tx.inserted.filter (fun r => r.key == k) = [] := by
    rw [List.filter_eq_nil_iff]
    intro r hr hc
    rw [h.inserted r hr] at hc
    exact hk (by simpa using (beq_iff_eq.mp hc).symm)
  rw [h1, List.append_nil]
  refine Tx.core_id ?_
  intro r hr hc
  obtain ⟨hr1, hr2⟩ := List.mem_filter.mp hr
  have := h.only r.id hc r (List.mem_append_left _ hr1) rfl
  rw [this] at hr2
  exact hk (by simpa using (beq_iff_eq.mp hr2).symm)

/-- replacing a worker: the rows -/
theorem Sys.allRows_set {s : Sys} {i : Nat} {w : Worker} (hi : s.workers[i]? = some w) :
    ∃ rest, s.allRows.Perm (s.db.results ++ w.pending ++ rest) ∧
      ∀ w', (s.set i w').allRows.Perm (s.db.results ++ w'.pending ++ rest) := by
  obtain ⟨l1, l2, e, -, hs⟩ := split_at hi
  refine ⟨l1.flatMap Worker.pending ++ l2.flatMap Worker.pending, ?_, fun w' => ?_⟩
  · unfold Sys.allRows
    rw [e, List.flatMap_append, List.flatMap_cons, List.append_assoc]
    refine List.Perm.append_left _ ?_
    rw [← List.append_assoc, ← List.append_assoc]
    exact List.Perm.append_right _ List.perm_append_comm
  · unfold Sys.allRows
    simp only [Sys.set, hs, List.flatMap_append, List.flatMap_cons]
    rw [List.append_assoc]
    refine List.Perm.append_left _ ?_
    rw [← List.append_assoc, ← List.append_assoc]
    exact List.Perm.append_right _ List.perm_append_comm

/-- a worker changes without touching the results -/
theorem Sys.Tidy.set {s : Sys} (h : s.Tidy) {i : Nat} {w w' : Worker} (hi : s.workers[i]? = some w)
    (hp : w'.pending.Sublist w.pending) (n : Nat) (hn : s.nextResult ≤ n)
    (hw : Worker.Tidy { s.set i w' with nextResult := n } w') :
    Sys.Tidy { s.set i w' with nextResult := n } := by
  obtain ⟨rest, h1, h2⟩ := Sys.allRows_set hi
  obtain ⟨l1, l2, e, -, hs⟩ := split_at hi
  have hsub : ∀ r ∈ (s.set i w').allRows, r ∈ s.allRows := by
    intro r hr
    have := (h2 w').subset hr
    rw [List.append_assoc, List.mem_append, List.mem_append] at this
    refine h1.symm.subset ?_
    rw [List.append_assoc, List.mem_append, List.mem_append]
    rcases this with g | g | g
    · exact Or.inl g
    · exact Or.inr (Or.inl (hp.subset g))
    · exact Or.inr (Or.inr g)
  have hrows : ∀ r ∈ Sys.allRows { s.set i w' with nextResult := n },
      (∃ r0 ∈ s.allRows, r0.id = r.id ∧ r0.key = r.key) ∨ s.nextResult ≤ r.id :=
    fun r hr => Or.inl ⟨r, hsub r hr, rfl, rfl⟩
  refine ⟨h.orderly, ?_, fun r hr => Nat.lt_of_lt_of_le (h.below r (hsub r hr)) hn, ?_⟩
  · have h3 : ((s.db.results ++ w'.pending ++ rest).map (·.id)).Nodup := by
      refine List.Nodup.sublist ?_ ((h1.map _).nodup_iff.mp h.ids)
      exact ((List.Sublist.append_left hp _).append_right _).map _
    exact ((h2 w').map _).nodup_iff.mpr h3
  · intro v hv
    simp only [Sys.set, hs, List.mem_append, List.mem_cons] at hv
    have old : v ∈ s.workers → Worker.Tidy { s.set i w' with nextResult := n } v := fun hv =>
      (h.workers v hv).mono rfl hn hrows
    rcases hv with hv | rfl | hv
    · exact old (by rw [e]; simp [hv])
    · exact hw
    · exact old (by rw [e]; simp [hv])

theorem Sys.Tidy.set' {s : Sys} (h : s.Tidy) {i : Nat} {w w' : Worker} (hi : s.workers[i]? = some w)
    (hp : w'.pending.Sublist w.pending) (hw : w'.Tidy (s.set i w')) : (s.set i w').Tidy :=
  h.set hi hp s.nextResult (Nat.le_refl _) hw

/-- `For` when a worker changes without touching the results -/
theorem Tx.For.set {s : Sys} {tx : Tx} {q : QueueRow} (h : tx.For s q) {i : Nat} {w w' : Worker}
    (hi : s.workers[i]? = some w) (hp : w'.pending.Sublist w.pending) (n : Nat) (hn : s.nextResult ≤ n) :
    tx.For { s.set i w' with nextResult := n } q := by
  obtain ⟨rest, h1, h2⟩ := Sys.allRows_set hi
  refine h.mono hn ?_ h.orderly
  intro r hr
  refine Or.inl ⟨r, ?_, rfl, rfl⟩
  have := (h2 w').subset hr
  rw [List.append_assoc, List.mem_append, List.mem_append] at this
  refine h1.symm.subset ?_
  rw [List.append_assoc, List.mem_append, List.mem_append]
  rcases this with g | g | g
  · exact Or.inl g
  · exact Or.inr (Or.inl (hp.subset g))
  · exact Or.inr (Or.inr g)

/-! ### The statements -/

/-- the ids a statement collects -/
theorem Tx.mem_ids {tx : Tx} {l : List ResultRow} {p : ResultRow → Bool} (hid : (l.map (·.id)).Nodup) {r : ResultRow}
    (hr : r ∈ l) : r.id ∈ ((tx.core l).filter p).map (·.id) ↔ r.id ∉ tx.deleted ∧ p (tx.off r) = true := by
  constructor
  · intro hm
    obtain ⟨r1, hr1, he⟩ := List.mem_map.mp hm
    obtain ⟨hr1, hp1⟩ := List.mem_filter.mp hr1
    obtain ⟨r2, hr2, rfl⟩ := List.mem_map.mp hr1
    obtain ⟨hr2l, hr2d⟩ := List.mem_filter.mp hr2
    have : r2 = r := List.inj_on_of_nodup_map hid hr2l hr ((Tx.off_id _ _).symm.trans he)
    subst this
    exact ⟨by simpa using hr2d, hp1⟩
  · rintro ⟨hd, hp1⟩
    refine List.mem_map.mpr ⟨tx.off r, List.mem_filter.mpr ⟨List.mem_map_of_mem (List.mem_filter.mpr ⟨hr, ?_⟩), hp1⟩, ?_⟩
    · simpa using hd
    · exact Tx.off_id _ _

/-- what a transaction sees after a statement: the statement's effect on what it saw before -/
theorem Tx.core_deleted (tx : Tx) (l : List ResultRow) (p : ResultRow → Bool) (hid : (l.map (·.id)).Nodup) :
    ({ tx with deleted := tx.deleted ++ ((tx.core l).filter p).map (·.id) } : Tx).core l =
      (tx.core l).filter (fun r => !p r) := by
  have key : ∀ r ∈ l, r.id ∈ ((tx.core l).filter p).map (·.id) ↔ r.id ∉ tx.deleted ∧ p (tx.off r) = true :=
    fun r hr => Tx.mem_ids hid hr
  generalize ((tx.core l).filter p).map (·.id) = ids at key
  have e : ({ tx with deleted := tx.deleted ++ ids } : Tx).core l =
      (l.filter (fun r => !(tx.deleted ++ ids).contains r.id)).map tx.off := rfl
  rw [e, Tx.core, List.filter_map]
  congr 1
  rw [List.filter_filter]
  refine List.filter_congr fun r hr => ?_
  have := key r hr
  by_cases hd : r.id ∈ tx.deleted
  · simp [hd]
  · cases hp : p (tx.off r) with
    | true => simp [hd, hp, this]
    | false => simp [hd, hp, this]

theorem Tx.core_deactivated (tx : Tx) (l : List ResultRow) (p : ResultRow → Bool) (hid : (l.map (·.id)).Nodup) :
    ({ tx with deactivated := tx.deactivated ++ ((tx.core l).filter p).map (·.id) } : Tx).core l =
      (tx.core l).map (fun r => if p r then { r with active := false } else r) := by
  have key : ∀ r ∈ l, r.id ∈ ((tx.core l).filter p).map (·.id) ↔ r.id ∉ tx.deleted ∧ p (tx.off r) = true :=
    fun r hr => Tx.mem_ids hid hr
  generalize ((tx.core l).filter p).map (·.id) = ids at key
  have e : ({ tx with deactivated := tx.deactivated ++ ids } : Tx).core l =
      (l.filter (fun r => !tx.deleted.contains r.id)).map
        (fun r => if (tx.deactivated ++ ids).contains r.id then { r with active := false } else r) := rfl
  rw [e, Tx.core, List.map_map]
  refine List.map_congr_left fun r hr => ?_
  obtain ⟨hrl, hrd⟩ := List.mem_filter.mp hr
  have hd : r.id ∉ tx.deleted := by simpa using hrd
  have := key r hrl
  simp only [Function.comp]
  cases hp : p (tx.off r) with
  | true =>
    have hm : r.id ∈ ids := this.mpr ⟨hd, hp⟩
    simp only [List.contains_eq_mem, List.mem_append, hm, or_true, decide_true, if_true]
    unfold Tx.off; split <;> rfl
  | false =>
    have hm : r.id ∉ ids := fun h => by have := (this.mp h).2; rw [hp] at this; simp at this
    simp only [List.contains_eq_mem, List.mem_append, hm, or_false, Bool.false_eq_true, if_false]
    unfold Tx.off; rw [List.contains_eq_mem]


/-- the rows a transaction sees have different ids -/
theorem Sys.Tidy.ids_view {s : Sys} (h : s.Tidy) {i : Nat} {p : Phase} {tx : Tx}
    (hi : s.workers[i]? = some ⟨p, some tx⟩) :
    ((s.db.results ++ tx.inserted).map (·.id)).Nodup ∧ ∀ r ∈ s.db.results ++ tx.inserted, r ∈ s.allRows := by
  obtain ⟨rest, h1, -⟩ := Sys.allRows_set hi
  rw [Worker.pending_some] at h1
  refine ⟨List.Nodup.sublist ?_ ((h1.map _).nodup_iff.mp h.ids), fun r hr => h1.symm.subset (List.mem_append_left _ hr)⟩
  exact (List.sublist_append_left _ _).map _

/-- marking rows of the student and area -/
theorem Sys.Tidy.marked {s : Sys} (h : s.Tidy) {i : Nat} {p : Phase} {tx : Tx} {q : QueueRow}
    (hi : s.workers[i]? = some ⟨p, some tx⟩) {pr : ResultRow → Bool} (hpr : ∀ r, pr r = true → r.key = q.key) :
    ∀ id ∈ ((tx.view s.db.results).filter pr).map (·.id), id < s.nextResult ∧
      ∀ r ∈ s.allRows, r.id = id → r.key = q.key := by
  intro id hid
  obtain ⟨r1, hr1, rfl⟩ := List.mem_map.mp hid
  obtain ⟨hr1, hp1⟩ := List.mem_filter.mp hr1
  rw [Tx.view_eq] at hr1
  obtain ⟨r0, hr0, he, hk⟩ := Tx.mem_core hr1
  have hall := (h.ids_view hi).2 r0 hr0
  refine ⟨by rw [← he]; exact h.below r0 hall, ?_⟩
  intro r hr hre
  have : r = r0 := List.inj_on_of_nodup_map h.ids hr hall (hre.trans he.symm)
  rw [this, hk]; exact hpr r1 hp1

theorem isSame_key {q : QueueRow} {text : String} {r : ResultRow} (h : isSame q text r = true) : r.key = q.key := by
  simp [isSame] at h
  simp [ResultRow.key, QueueRow.key, h]

theorem isActiveOf_key {q : QueueRow} {r : ResultRow} (h : isActiveOf q r = true) : r.key = q.key := by
  simp [isActiveOf] at h
  simp [ResultRow.key, QueueRow.key, h]

/-- the `DELETE` and the `UPDATE` -/
theorem Sys.Tidy.mark {s : Sys} (h : s.Tidy) {i : Nat} {q : QueueRow} {text : String} {st : Stmt} {left : List Stmt}
    {tx tx' : Tx} (hi : s.workers[i]? = some ⟨.storing q text (st :: left), some tx⟩) (hst : st ≠ .insert)
    (hrun : tx.stmt s i q text st = some tx') (n : Nat) (hn : s.nextResult ≤ n) :
    Sys.Tidy { s.set i ⟨afterStmt q text left, some tx'⟩ with nextResult := n } := by
  obtain ⟨hq, hfor, hleft⟩ := h.workers _ (List.mem_of_getElem? hi) tx rfl
  obtain ⟨hnd, -⟩ := h.ids_view hi
  have hfor' : tx'.For s q ∧ tx'.taken = tx.taken ∧ tx'.inserted = tx.inserted ∧
      (st = .deactivate → NoneActive q (tx'.view s.db.results)) := by
    cases st with
    | insert => exact absurd rfl hst
    | deleteSame =>
      simp only [Tx.stmt] at hrun
      split at hrun
      · simp at hrun
      cases hrun
      have hm := h.marked hi (q := q) (pr := isSame q text) (fun r => isSame_key)
      refine ⟨⟨?_, ?_, hfor.inserted, ?_⟩, rfl, rfl, fun hc => by simp at hc⟩
      · intro id hid
        simp only [List.append_assoc, List.mem_append] at hid
        rcases hid with g | g | g
        · exact hfor.below id (List.mem_append_left _ g)
        · exact (hm id g).1
        · exact hfor.below id (List.mem_append_right _ g)
      · intro id hid
        simp only [List.append_assoc, List.mem_append] at hid
        rcases hid with g | g | g
        · exact hfor.only id (List.mem_append_left _ g)
        · exact (hm id g).2
        · exact hfor.only id (List.mem_append_right _ g)
      · have := Tx.core_deleted tx (s.db.results ++ tx.inserted) (isSame q text) hnd
        rw [Tx.view_eq, Tx.view_eq]
        rw [this]
        exact (Tx.view_eq tx _ ▸ hfor.orderly).sublist List.filter_sublist
    | deactivate =>
      simp only [Tx.stmt] at hrun
      split at hrun
      · simp at hrun
      cases hrun
      have hm := h.marked hi (q := q) (pr := isActiveOf q) (fun r => isActiveOf_key)
      have hview : ({ tx with deactivated := tx.deactivated ++ ((tx.view s.db.results).filter (isActiveOf q)).map (·.id) } : Tx).view
          s.db.results = (tx.view s.db.results).map (fun r => if isActiveOf q r then { r with active := false } else r) :=
        Tx.core_deactivated tx (s.db.results ++ tx.inserted) (isActiveOf q) hnd
      refine ⟨⟨?_, ?_, hfor.inserted, ?_⟩, rfl, rfl, fun _ => ?_⟩
      · intro id hid
        rw [← List.append_assoc, List.mem_append] at hid
        rcases hid with g | g
        · exact hfor.below id g
        · exact (hm id g).1
      · intro id hid
        rw [← List.append_assoc, List.mem_append] at hid
        rcases hid with g | g
        · exact hfor.only id g
        · exact (hm id g).2
      · rw [hview]; exact hfor.orderly.deactivate _
      · rw [hview]
        intro r hr hk
        obtain ⟨r0, -, rfl⟩ := List.mem_map.mp hr
        split
        · rfl
        · rename_i hna
          rw [if_neg hna] at hk
          simp only [ResultRow.key, QueueRow.key, Prod.mk.injEq] at hk
          simpa [isActiveOf, hk.1, hk.2] using hna
  obtain ⟨g1, g2, g3, g4⟩ := hfor'
  have hpend : ∀ ph, (Worker.pending ⟨ph, some tx'⟩).Sublist
      (Worker.pending ⟨.storing q text (st :: left), some tx⟩) := by
    intro ph; simp [g3]
  refine h.set hi (hpend _) n hn ?_
  have hset := fun ph => g1.set (w' := ⟨ph, some tx'⟩) hi (hpend ph) n hn
  rcases hleft with e | e | ⟨e, -⟩
  · simp only [List.cons.injEq] at e
    obtain ⟨rfl, rfl⟩ := e
    intro _ htx; cases htx
    exact ⟨by rw [g2]; exact hq, hset _, Or.inr (Or.inl rfl)⟩
  · simp only [List.cons.injEq] at e
    obtain ⟨rfl, rfl⟩ := e
    intro _ htx; cases htx
    exact ⟨by rw [g2]; exact hq, hset _, Or.inr (Or.inr ⟨rfl, fun _ => g4 rfl⟩)⟩
  · simp only [List.cons.injEq] at e
    exact absurd e.1 hst

/-- the `INSERT` -/
theorem Sys.Tidy.insert {s : Sys} (h : s.Tidy) {i : Nat} {q : QueueRow} {text : String} {left : List Stmt} {tx : Tx}
    (hi : s.workers[i]? = some ⟨.storing q text (.insert :: left), some tx⟩) :
    Sys.Tidy { s.set i ⟨afterStmt q text left,
        some { tx with inserted := tx.inserted ++ [newRow q text s.nextResult s.clock (tx.view s.db.results)] }⟩ with
      nextResult := s.nextResult + 1 } := by
  obtain ⟨hq, hfor, hleft⟩ := h.workers _ (List.mem_of_getElem? hi) tx rfl
  rcases hleft with e | e | ⟨e, hact⟩
  · simp at e
  · simp at e
  simp only [List.cons.injEq, true_and] at e
  subst e
  obtain ⟨rest, h1, h2⟩ := Sys.allRows_set hi
  obtain ⟨l1, l2, el, -, hs⟩ := split_at hi
  simp only [afterStmt]
  generalize hrow : newRow q text s.nextResult s.clock (tx.view s.db.results) = row
  have hrid : row.id = s.nextResult := by rw [← hrow]; rfl
  have hrk : row.key = q.key := by rw [← hrow]; rfl
  generalize htx' : ({ tx with inserted := tx.inserted ++ [row] } : Tx) = tx'
  have hins : tx'.inserted = tx.inserted ++ [row] := by rw [← htx']
  have h2' := h2 ⟨.finish, some tx'⟩
  rw [Worker.pending_some, hins] at h2'
  rw [Worker.pending_some] at h1
  have hcase : ∀ r ∈ (s.set i ⟨.finish, some tx'⟩).allRows, r ∈ s.allRows ∨ r = row := by
    intro r hr
    have := h2'.subset hr
    simp only [List.mem_append, List.mem_singleton] at this
    rcases this with (g | g | g) | g
    · exact Or.inl (h1.symm.subset (by simp [g]))
    · exact Or.inl (h1.symm.subset (by simp [g]))
    · exact Or.inr g
    · exact Or.inl (h1.symm.subset (by simp [g]))
  have hrows : ∀ r ∈ (s.set i ⟨.finish, some tx'⟩).allRows,
      (∃ r0 ∈ s.allRows, r0.id = r.id ∧ r0.key = r.key) ∨ s.nextResult ≤ r.id := by
    intro r hr
    rcases hcase r hr with g | rfl
    · exact Or.inl ⟨r, g, rfl, rfl⟩
    · exact Or.inr (by rw [hrid])
  have hview : tx'.view s.db.results = tx.view s.db.results ++ [row] := by
    rw [← htx']
    show tx.core (s.db.results ++ (tx.inserted ++ [row])) = _
    rw [← List.append_assoc]
    show (List.filter _ _).map _ = _
    rw [List.filter_append, List.map_append]
    have : tx.core [row] = [row] := by
      refine Tx.core_id ?_
      intro r hr hc
      simp at hr; subst hr
      have := hfor.below _ hc
      omega
    exact congrArg (tx.view s.db.results ++ ·) this
  have hfor' : tx'.For { s.set i ⟨.finish, some tx'⟩ with nextResult := s.nextResult + 1 } q := by
    have hdel : tx'.deleted = tx.deleted := by rw [← htx']
    have hdea : tx'.deactivated = tx.deactivated := by rw [← htx']
    refine ⟨?_, ?_, ?_, ?_⟩
    · rw [hdel, hdea]; intro id hid; exact Nat.lt_succ_of_lt (hfor.below id hid)
    · rw [hdel, hdea]
      intro id hid r hr he
      rcases hcase r hr with g | rfl
      · exact hfor.only id hid r g he
      · exact hrk
    · rw [hins]; intro r hr
      rcases List.mem_append.mp hr with g | g
      · exact hfor.inserted r g
      · simp at g; subst g; exact hrk
    · show Orderly (tx'.view s.db.results)
      rw [hview, ← hrow]
      refine hfor.orderly.insert q text _ _ ?_
      intro hl r hr hst hco
      exact hact hl r hr (by simp [ResultRow.key, QueueRow.key, hst, hco])
  refine ⟨h.orderly, ?_, ?_, ?_⟩
  · refine (h2'.map _).nodup_iff.mpr ?_
    have hp : (s.db.results ++ (tx.inserted ++ [row]) ++ rest).Perm (row :: (s.db.results ++ tx.inserted ++ rest)) := by
      have := @List.perm_middle _ row (s.db.results ++ tx.inserted) rest
      simpa [List.append_assoc] using this
    rw [(hp.map _).nodup_iff, List.map_cons, List.nodup_cons]
    refine ⟨?_, (h1.map _).nodup_iff.mp h.ids⟩
    intro hc
    obtain ⟨r, hr, he⟩ := List.mem_map.mp hc
    have := h.below r (h1.symm.subset hr)
    rw [he, hrid] at this
    omega
  · intro r hr
    rcases hcase r hr with g | rfl
    · exact Nat.lt_succ_of_lt (h.below r g)
    · rw [hrid]; exact Nat.lt_succ_self _
  · intro v hv
    simp only [Sys.set, hs, List.mem_append, List.mem_cons] at hv
    have old : v ∈ s.workers → Worker.Tidy { s.set i ⟨.finish, some tx'⟩ with nextResult := s.nextResult + 1 } v := fun hv =>
      (h.workers v hv).mono rfl (Nat.le_succ _) hrows
    rcases hv with hv | rfl | hv
    · exact old (by rw [el]; simp [hv])
    · intro _ htx; cases htx
      exact ⟨q, by rw [← htx']; exact hq, hfor'⟩
    · exact old (by rw [el]; simp [hv])

/-- `For` when another transaction commits that is for another student or area -/
theorem Tx.For.after {s s' : Sys} {tx txj : Tx} {q qj : QueueRow} (h : tx.For s q) (hj : txj.For s qj)
    (hne : q.key ≠ qj.key) (hn : s'.nextResult = s.nextResult) (hres : s'.db.results = txj.view s.db.results)
    (hrows : ∀ r ∈ s'.allRows, ∃ r0 ∈ s.allRows, r0.id = r.id ∧ r0.key = r.key) :
    tx.For s' q ∧ (tx.view s'.db.results).filter (fun r => r.key == q.key) =
      (tx.view s.db.results).filter (fun r => r.key == q.key) := by
  have hown : (tx.view s'.db.results).filter (fun r => r.key == q.key) =
      (tx.view s.db.results).filter (fun r => r.key == q.key) := by
    rw [Tx.view_eq, Tx.view_eq, Tx.core_filter, Tx.core_filter, List.filter_append, List.filter_append, hres,
      hj.other hne]
  refine ⟨h.mono (by rw [hn]) (fun r hr => Or.inl (hrows r hr)) ?_, hown⟩
  refine orderly_of_keys fun k => ?_
  by_cases hk : k = q.key
  · subst hk; rw [hown]; exact h.orderly.sublist List.filter_sublist
  · have honly : ∀ id ∈ tx.deleted ++ tx.deactivated, ∀ r ∈ s'.allRows, r.id = id → r.key = q.key := by
      intro id hid r hr he
      obtain ⟨r0, hr0, h1, h2⟩ := hrows r hr
      rw [← h2]; exact h.only id hid r0 hr0 (h1.trans he)
    rw [Tx.view_eq, Tx.core_filter, List.filter_append]
    have h1 : tx.inserted.filter (fun r => r.key == k) = [] := by
      rw [List.filter_eq_nil_iff]
      intro r hr hc
      rw [h.inserted r hr] at hc
      exact hk (by simpa using (beq_iff_eq.mp hc).symm)
    rw [h1, List.append_nil, Tx.core_id]
    · rw [hres]; exact hj.orderly.sublist List.filter_sublist
    · intro r hr hc
      obtain ⟨hr1, hr2⟩ := List.mem_filter.mp hr
      have := honly r.id hc r (List.mem_append_left _ hr1) rfl
      rw [this] at hr2
      exact hk (by simpa using (beq_iff_eq.mp hr2).symm)

/-- `COMMIT` -/
theorem Sys.Tidy.commit {s : Sys} (h : s.Tidy) (hsep : s.Separate) {i : Nat} {p p' : Phase} {txj : Tx} {qj : QueueRow}
    (hi : s.workers[i]? = some ⟨p, some txj⟩) (hqj : qj ∈ txj.taken) (hj : txj.For s qj)
    (hp' : Worker.Tidy { s.set i ⟨p', none⟩ with db := s.db.commit txj } ⟨p', none⟩) :
    Sys.Tidy { s.set i ⟨p', none⟩ with db := s.db.commit txj } := by
  by_cases hab : txj.aborted
  · have e : s.db.commit txj = s.db := by simp [Db.commit, hab]
    rw [e] at hp' ⊢
    exact h.set' hi (by simp) hp'
  have hres : (s.db.commit txj).results = txj.view s.db.results := by simp [Db.commit, hab]
  obtain ⟨rest, h1, h2⟩ := Sys.allRows_set hi
  obtain ⟨l1, l2, el, hlen, hs⟩ := split_at hi
  rw [Worker.pending_some] at h1
  have h2' := h2 ⟨p', none⟩
  rw [Worker.pending_none, List.append_nil] at h2'
  have hall : ∃ tail, (s.set i ⟨p', none⟩).allRows = s.db.results ++ tail ∧
      Sys.allRows { s.set i ⟨p', none⟩ with db := s.db.commit txj } = txj.view s.db.results ++ tail ∧ tail.Perm rest := by
    refine ⟨(s.set i ⟨p', none⟩).workers.flatMap Worker.pending, rfl, ?_, ?_⟩
    · unfold Sys.allRows; rw [hres]
    · exact (List.perm_append_left_iff _).mp h2'
  obtain ⟨tail, ha1, ha2, hperm⟩ := hall
  have hrows : ∀ r ∈ Sys.allRows { s.set i ⟨p', none⟩ with db := s.db.commit txj },
      ∃ r0 ∈ s.allRows, r0.id = r.id ∧ r0.key = r.key := by
    intro r hr
    rw [ha2] at hr
    rcases List.mem_append.mp hr with g | g
    · rw [Tx.view_eq] at g
      obtain ⟨r0, hr0, e⟩ := Tx.mem_core g
      exact ⟨r0, h1.symm.subset (List.mem_append_left _ hr0), e⟩
    · exact ⟨r, h1.symm.subset (List.mem_append_right _ (hperm.subset g)), rfl, rfl⟩
  refine ⟨by show Orderly (s.db.commit txj).results; rw [hres]; exact hj.orderly, ?_, ?_, ?_⟩
  · rw [ha2, List.map_append]
    have hnd : ((s.db.results ++ txj.inserted ++ tail).map (·.id)).Nodup := by
      refine (List.Perm.map _ ?_).nodup_iff.mp h.ids
      exact h1.trans (List.Perm.append_left _ hperm.symm)
    rw [List.map_append] at hnd
    exact hnd.sublist (List.Sublist.append_right (Tx.core_ids _ _) _)
  · intro r hr
    obtain ⟨r0, hr0, e, -⟩ := hrows r hr
    rw [← e]; exact h.below r0 hr0
  · intro v hv
    have hv' : v ∈ (s.set i ⟨p', none⟩).workers := hv
    simp only [Sys.set, hs, List.mem_append, List.mem_cons] at hv'
    have old : ∀ j, j ≠ i → s.workers[j]? = some v →
        Worker.Tidy { s.set i ⟨p', none⟩ with db := s.db.commit txj } v := by
      intro j hji hv
      have hvt := h.workers v (List.mem_of_getElem? hv)
      have hne : ∀ tx, v.tx = some tx → ∀ q ∈ tx.taken, q.key ≠ qj.key := by
        intro tx htx q hq hk
        simp only [QueueRow.key, Prod.mk.injEq] at hk
        exact hji (hsep j i q qj ⟨v, tx, hv, htx, hq⟩ ⟨_, txj, hi, rfl, hqj⟩ hk.1 hk.2)
      obtain ⟨p, tx⟩ := v
      cases p with
      | storing q text left =>
        intro tx htx
        obtain ⟨g0, g1, g2⟩ := hvt tx htx
        obtain ⟨k1, k2⟩ := g1.after hj (hne tx htx q g0)
          (s' := { s.set i ⟨p', none⟩ with db := s.db.commit txj }) rfl hres hrows
        refine ⟨g0, k1, ?_⟩
        rcases g2 with g2 | g2 | ⟨g2, g3⟩
        · exact Or.inl g2
        · exact Or.inr (Or.inl g2)
        · refine Or.inr (Or.inr ⟨g2, fun hl r hr hk => ?_⟩)
          have : r ∈ (tx.view s.db.results).filter (fun r => r.key == q.key) := by
            rw [← k2]; exact List.mem_filter.mpr ⟨hr, by simpa using hk⟩
          exact g3 hl r (List.mem_filter.mp this).1 hk
      | finish =>
        intro tx htx
        obtain ⟨q, hq, g1⟩ := hvt tx htx
        exact ⟨q, hq, (g1.after hj (hne tx htx q hq)
          (s' := { s.set i ⟨p', none⟩ with db := s.db.commit txj }) rfl hres hrows).1⟩
      | working q => exact hvt
      | start => exact hvt
      | fetch => exact hvt
      | leave => exact hvt
      | waiting => exact hvt
      | dead => exact hvt
    rcases hv' with hv | rfl | hv
    · obtain ⟨j, hj'⟩ := List.mem_iff_getElem?.mp hv
      obtain ⟨hlt, -⟩ := List.getElem?_eq_some_iff.mp hj'
      refine old j (by omega) ?_
      rw [el, List.getElem?_append_left hlt]; exact hj'
    · exact hp'
    · obtain ⟨j, hj'⟩ := List.mem_iff_getElem?.mp hv
      refine old (l1.length + (j + 1)) (by omega) ?_
      rw [el, List.getElem?_append_right (by omega), Nat.add_sub_cancel_left, List.getElem?_cons_succ]
      exact hj'

/-- clearing -/
theorem Sys.Tidy.clear {s : Sys} (h : s.Tidy) (now : Int) :
    Sys.Tidy { s with db := { s.db with results := clearExpired now s.db.results } } := by
  have hsub := clearExpired_sublist now s.db.results
  have hall : (Sys.allRows { s with db := { s.db with results := clearExpired now s.db.results } }).Sublist s.allRows :=
    hsub.append_right _
  have hview : ∀ tx : Tx, (tx.view (clearExpired now s.db.results)).Sublist (tx.view s.db.results) := fun tx =>
    Tx.core_sublist tx (hsub.append_right _)
  have hfor : ∀ (tx : Tx) q, tx.For s q →
      tx.For { s with db := { s.db with results := clearExpired now s.db.results } } q := fun tx q g =>
    g.mono (Nat.le_refl _) (fun r hr => Or.inl ⟨r, hall.subset hr, rfl, rfl⟩) (g.orderly.sublist (hview tx))
  refine ⟨h.orderly.sublist hsub, h.ids.sublist (hall.map _), fun r hr => h.below r (hall.subset hr), ?_⟩
  intro w hw
  have := h.workers w hw
  obtain ⟨p, tx⟩ := w
  cases p with
  | storing q text left =>
    intro tx htx
    obtain ⟨g0, g1, g2⟩ := this tx htx
    refine ⟨g0, hfor tx q g1, ?_⟩
    rcases g2 with g2 | g2 | ⟨g2, g3⟩
    · exact Or.inl g2
    · exact Or.inr (Or.inl g2)
    · exact Or.inr (Or.inr ⟨g2, fun hl r hr => g3 hl r ((hview tx).subset hr)⟩)
  | finish =>
    intro tx htx
    obtain ⟨q, hq, g⟩ := this tx htx
    exact ⟨q, hq, hfor tx q g⟩
  | working q => exact this
  | start => exact this
  | fetch => exact this
  | leave => exact this
  | waiting => exact this
  | dead => exact this

/-! ### Every step keeps the invariant -/

theorem stepWorker_tidy {s s' : Sys} (h : s.Tidy) (hsep : s.Separate) (hinv : s.Inv) {i : Nat} {w : Worker}
    (hi : s.workers[i]? = some w) {a : WAct} (hstep : stepWorker s i w a = some s') : s'.Tidy := by
  have hmem := List.mem_of_getElem? hi
  have ht := h.workers w hmem
  have hok := hinv.ok w hmem
  obtain ⟨p, tx⟩ := w
  cases a with
  | begin =>
    cases p <;> simp only [stepWorker, reduceCtorEq] at hstep
    cases hstep
    cases tx with
    | none => exact h.set' hi (by simp) (by intro tx htx; cases htx; exact ⟨rfl, rfl, rfl⟩)
    | some tx => exact h.set' hi (by simp) (by intro tx' htx; cases htx; exact ht tx rfl)
  | take choice =>
    cases p <;> cases tx <;> simp only [stepWorker, reduceCtorEq] at hstep
    rename_i tx
    cases choice with
    | none =>
      simp only at hstep
      split at hstep
      · cases hstep; exact h.set' hi (by simp) (by intro tx' htx; cases htx; exact ht tx rfl)
      · simp at hstep
    | some id =>
      simp only at hstep
      split at hstep
      · simp at hstep
      split at hstep
      · cases hstep
        refine h.set' hi (by simp) ?_
        intro tx' htx; cases htx
        exact ⟨by simp, ht tx rfl⟩
      · simp at hstep
  | areaMissing =>
    cases p <;> simp only [stepWorker, reduceCtorEq] at hstep
    cases hstep
    exact h.set' hi (List.Sublist.refl _) (by intro tx' htx; exact (ht tx' htx).2)
  | noResult =>
    cases p <;> simp only [stepWorker, reduceCtorEq] at hstep
    cases hstep
    refine h.set' hi (List.Sublist.refl _) ?_
    intro tx' htx
    obtain ⟨hq, hc⟩ := ht tx' htx
    exact ⟨_, hq, hc.for (s := s.set i _) h.orderly _⟩
  | result text =>
    cases p <;> simp only [stepWorker, reduceCtorEq] at hstep
    cases hstep
    rename_i q
    refine h.set' hi (List.Sublist.refl _) ?_
    intro tx' htx
    obtain ⟨hq, hc⟩ := ht tx' htx
    refine ⟨hq, hc.for (s := s.set i _) h.orderly _, ?_⟩
    unfold stmtsFor
    cases hl : q.linkOnly with
    | true => exact Or.inr (Or.inr ⟨rfl, by simp⟩)
    | false => exact Or.inl rfl
  | stmt =>
    cases p with
    | storing q text left =>
      cases left with
      | nil => simp [stepWorker] at hstep
      | cons st left =>
        cases tx with
        | none => simp [stepWorker] at hstep
        | some tx =>
          simp only [stepWorker] at hstep
          split at hstep
          · simp at hstep
          rename_i tx' hst
          cases hstep
          cases st with
          | insert =>
            simp only [Tx.stmt, Option.some.injEq] at hst
            subst hst
            exact h.insert hi
          | deleteSame => exact h.mark hi (by simp) hst _ (Nat.le_succ _)
          | deactivate => exact h.mark hi (by simp) hst _ (Nat.le_succ _)
    | _ => simp [stepWorker] at hstep
  | sqlError =>
    cases p <;> cases tx <;> simp only [stepWorker, reduceCtorEq] at hstep
    cases hstep
    rename_i tx
    obtain ⟨hq, hf, -⟩ := ht tx rfl
    refine h.set' hi (by simp) ?_
    intro tx' htx; cases htx
    refine ⟨_, hq, ?_⟩
    have hf' : Tx.For s { tx with aborted := true } _ := ⟨hf.below, hf.only, hf.inserted, hf.orderly⟩
    exact hf'.set hi (by simp) _ (Nat.le_refl _)
  | raise =>
    cases p <;> simp only [stepWorker, reduceCtorEq] at hstep
    cases hstep
    refine h.set' hi (List.Sublist.refl _) ?_
    intro tx' htx
    obtain ⟨hq, hf, -⟩ := ht tx' htx
    exact ⟨_, hq, hf.set (w' := ⟨.finish, tx⟩) hi (List.Sublist.refl _) _ (Nat.le_refl _)⟩
  | commit =>
    cases p <;> cases tx <;> simp only [stepWorker, reduceCtorEq] at hstep
    · cases hstep
      rename_i tx
      obtain ⟨q, hq, hf⟩ := ht tx rfl
      exact h.commit hsep hi hq hf (by intro tx' htx; simp at htx)
    · cases hstep
      rename_i tx
      have hc : tx.Clean := ht tx rfl
      have hset := h.set' (w' := ⟨.waiting, none⟩) hi (by simp) (by intro tx' htx; simp at htx)
      have hres : (s.db.commit tx).results = s.db.results := by
        unfold Db.commit; split
        · rfl
        · exact hc.view _
      refine ⟨by show Orderly (s.db.commit tx).results; rw [hres]; exact h.orderly, ?_, ?_, ?_⟩
      · have e : Sys.allRows { s.set i ⟨.waiting, none⟩ with db := s.db.commit tx } = (s.set i ⟨.waiting, none⟩).allRows := by
          unfold Sys.allRows; rw [hres]; rfl
        rw [e]; exact hset.ids
      · have e : Sys.allRows { s.set i ⟨.waiting, none⟩ with db := s.db.commit tx } = (s.set i ⟨.waiting, none⟩).allRows := by
          unfold Sys.allRows; rw [hres]; rfl
        rw [e]; exact hset.below
      · intro v hv
        refine (hset.workers v hv).mono hres (Nat.le_refl _) ?_
        have e : Sys.allRows { s.set i ⟨.waiting, none⟩ with db := s.db.commit tx } = (s.set i ⟨.waiting, none⟩).allRows := by
          unfold Sys.allRows; rw [hres]; rfl
        rw [e]; exact fun r hr => Or.inl ⟨r, hr, rfl, rfl⟩
  | notify =>
    cases p <;> simp only [stepWorker, reduceCtorEq] at hstep
    cases hstep
    exact h.set' hi (List.Sublist.refl _) ht
  | crash =>
    simp only [stepWorker] at hstep
    cases hstep
    exact h.set' hi (by simp) (by intro tx' htx; simp at htx)
  | restart =>
    cases p <;> simp only [stepWorker, reduceCtorEq] at hstep
    cases hstep
    exact h.set' hi (by simp) (by intro tx' htx; simp at htx)

theorem Sys.step_tidy {s s' : Sys} (h : s.Tidy) (hsep : s.Separate) (hinv : s.Inv) {a : Act}
    (hstep : s.step a = some s') : s'.Tidy := by
  cases a with
  | enqueue q =>
    simp only [Sys.step, Option.some.injEq] at hstep
    subst hstep
    exact ⟨h.orderly, h.ids, h.below, fun w hw =>
      (h.workers w hw).mono rfl (Nat.le_refl _) (fun r hr => Or.inl ⟨r, hr, rfl, rfl⟩)⟩
  | tick ms =>
    simp only [Sys.step, Option.some.injEq] at hstep
    subst hstep
    exact ⟨h.orderly, h.ids, h.below, fun w hw =>
      (h.workers w hw).mono rfl (Nat.le_refl _) (fun r hr => Or.inl ⟨r, hr, rfl, rfl⟩)⟩
  | clear =>
    simp only [Sys.step, Option.some.injEq] at hstep
    subst hstep
    exact h.clear _
  | worker i a =>
    simp only [Sys.step] at hstep
    split at hstep
    · simp at hstep
    · rename_i w hw
      exact stepWorker_tidy h hsep hinv hw hstep

/-- every state on the way satisfies `P` -/
def Sys.Throughout (P : Sys → Prop) (s : Sys) : List Act → Prop
  | [] => P s
  | a :: as => P s ∧ ∀ s', s.step a = some s' → s'.Throughout P as

theorem Sys.run_tidy {s s' : Sys} (h : s.Tidy) (hinv : s.Inv) {as : List Act} (hsep : s.Throughout Sys.Separate as)
    (hrun : s.run as = some s') : s'.Tidy := by
  induction as generalizing s with
  | nil => simp only [Sys.run, Option.some.injEq] at hrun; subst hrun; exact h
  | cons a as ih =>
    simp only [Sys.run] at hrun
    split at hrun
    · simp at hrun
    · rename_i s1 h1
      exact ih (Sys.step_tidy h hsep.1 hinv h1) (Sys.step_inv hinv h1) (hsep.2 s1 h1) hrun

theorem Sys.Initial.tidy {s : Sys} (h : s.Initial) (hg : s.GoodResults) : s.Tidy := by
  have hp : s.workers.flatMap Worker.pending = [] := by
    rw [List.flatMap_eq_nil_iff]
    intro w hw; rw [h.fresh w hw]; rfl
  refine ⟨hg.orderly, ?_, ?_, ?_⟩
  · unfold Sys.allRows; rw [hp, List.append_nil]; exact hg.ids
  · unfold Sys.allRows; rw [hp, List.append_nil]; exact hg.below
  · intro w hw; rw [h.fresh w hw]; intro tx htx; simp at htx

/-! ### C40 -/

/-- **C40** (several workers).  Whatever the workers, their failures and crashes, and the
clearings in between: as long as no two workers have items of one student and area at a
time, at most one result of a student and area is active, it is not link-only, and every
other result of that student and area has a smaller revision, or is link-only. -/
theorem C40_workers_one_active_partial {s0 s : Sys} (h0 : s0.Initial) (hg : s0.GoodResults) {as : List Act}
    (hsep : s0.Throughout Sys.Separate as) (hrun : s0.run as = some s) :
    (∀ student code, (s.db.results.filter (fun r => r.student == student && r.code == code && r.active)).length ≤ 1) ∧
    ∀ r ∈ s.db.results, r.active = true → r.linkOnly = false ∧ ∀ r' ∈ s.db.results, SameStudentArea r r' →
      r' = r ∨ r'.revision < r.revision ∨ r'.linkOnly = true := by
  have h := (Sys.run_tidy (h0.tidy hg) h0.inv hsep hrun).orderly
  refine ⟨fun student code => h.active_count student code, ?_⟩
  intro r hr ha
  refine ⟨h.2 r hr ha, ?_⟩
  intro r' hr' hs
  rcases h.compare hr hr' with he | hf | hf
  · exact Or.inl he.symm
  · exact Or.inr (Or.inr ((hf hs).2 ha))
  · exact Or.inr (Or.inl (hf hs.symm).1)

/-- **C40** (several workers).  It is enough that the queue never has two items of one student
and area. -/
theorem C40_separate_of_queue {s0 s : Sys} (h0 : s0.Initial) {as : List Act} (hrun : s0.run as = some s)
    (hone : ∀ q ∈ s.db.queue, ∀ q' ∈ s.db.queue, q.student = q'.student → q.code = q'.code → q = q') : s.Separate := by
  intro i j q q' hi hj hs hc
  have h := Sys.run_inv h0.inv hrun
  have hq : q ∈ s.db.queue := by
    obtain ⟨w, tx, hw, htx, hq⟩ := hi; exact h.taken w (List.mem_of_getElem? hw) tx htx q hq
  have hq' : q' ∈ s.db.queue := by
    obtain ⟨w, tx, hw, htx, hq⟩ := hj; exact h.taken w (List.mem_of_getElem? hw) tx htx q' hq
  have he := hone q hq q' hq' hs hc
  subst he
  exact C39_one_worker_per_item h0 hrun hi hj

/-- Two workers, two items of one student and area (as when a student is queued again while
an audit of theirs is under way). -/
def twinQueue : Sys :=
  { db := { queue := [⟨0, 1, 5, "1", "2018-19", "math", none, false⟩, ⟨1, 1, 9, "1", "2018-19", "math", none, false⟩] }
    workers := [{}, {}], nextItem := 2 }

/-- **C40** (what does not hold): two workers that have items of one student and area may leave
two active results, with the same revision. -/
theorem C40_concurrent_refuted :
    ¬ ∀ (s0 s : Sys) (as : List Act), s0.Initial → s0.GoodResults → s0.run as = some s →
      ∀ student code, (s.db.results.filter (fun r => r.student == student && r.code == code && r.active)).length ≤ 1 := by
  intro h
  have hi : twinQueue.Initial := by
    refine ⟨?_, by decide, by decide, by decide, by decide, by decide⟩
    intro w hw; simp [twinQueue] at hw; exact hw
  have hg : twinQueue.GoodResults := ⟨orderly_nil, by decide, by decide⟩
  let as : List Act := [.worker 0 .begin, .worker 0 (.take (some 0)), .worker 1 .begin, .worker 1 (.take (some 1)),
    .worker 0 (.result "a"), .worker 0 .stmt, .worker 0 .stmt, .worker 0 .stmt,
    .worker 1 (.result "b"), .worker 1 .stmt, .worker 1 .stmt, .worker 1 .stmt, .worker 0 .commit, .worker 1 .commit]
  cases hr : twinQueue.run as with
  | none => revert hr; decide
  | some s =>
    have := h _ s as hi hg hr "1" "math"
    have e : (twinQueue.run as).map (fun s => (s.db.results.filter (fun r => r.student == "1" && r.code == "math" && r.active)).length)
        = some 2 := by decide
    rw [hr] at e
    simp only [Option.map_some, Option.some.injEq] at e
    omega

/-- **C40** (what does not hold): when the audit of a student fails between the statements that
store its result, the deactivation of the earlier result is committed, and the student is left
without an active result. -/
theorem C40_interrupted_refuted :
    ∃ (s0 s : Sys) (as : List Act), s0.Initial ∧ s0.GoodResults ∧ s0.run as = some s ∧ s.db.queue = [] ∧
      (∃ r ∈ s0.db.results, r.active = true) ∧ s.db.results ≠ [] ∧ ∀ r ∈ s.db.results, r.active = false := by
  refine ⟨{ db := { queue := [⟨1, 1, 5, "1", "2018-19", "math", none, false⟩],
                    results := [⟨0, "1", "2018-19", "math", "a", 1, none, false, true, 1, 0⟩] },
            workers := [{}], nextItem := 2, nextResult := 1 }, _,
    [.worker 0 .begin, .worker 0 (.take (some 1)), .worker 0 (.result "b"), .worker 0 .stmt, .worker 0 .stmt,
     .worker 0 .raise, .worker 0 .commit], ?_, ?_, rfl, ?_, ?_, ?_, ?_⟩
  · refine ⟨?_, by decide, by decide, by decide, by decide, by decide⟩
    intro w hw; simp at hw; exact hw
  · refine ⟨⟨by simp, by decide⟩, by decide, by decide⟩
  · decide
  · decide
  · decide
  · decide

end Dp
