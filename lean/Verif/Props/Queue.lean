import Verif.Model.Server

/-
The queue of audits (C39).  Everything is stated about `Sys.run`: any number of workers, any
interleaving of their statements, any failures, crashes and restarts, and any items queued
meanwhile.
-/
namespace Dp

/-! ### Specification -/

/-- the system when the workers are started: no transaction is open, every item has its own
id, and no stored result was made for an item that is still queued -/
structure Sys.Initial (s : Sys) : Prop where
  fresh : ∀ w ∈ s.workers, w = {}
  ids : (s.db.queue.map (·.id)).Nodup
  below : ∀ q ∈ s.db.queue, q.id < s.nextItem
  sources : (s.db.results.map (·.source)).Nodup
  sourceBelow : ∀ r ∈ s.db.results, r.source < s.nextItem
  done : ∀ r ∈ s.db.results, ∀ q ∈ s.db.queue, r.source ≠ q.id

/-- worker `i` has taken `q` in its open transaction -/
def Sys.Holds (s : Sys) (i : Nat) (q : QueueRow) : Prop :=
  ∃ w tx, s.workers[i]? = some w ∧ w.tx = some tx ∧ q ∈ tx.taken

/-- `q` is queued and no open transaction has it -/
def Sys.Free (s : Sys) (q : QueueRow) : Prop := q ∈ s.db.queue ∧ ∀ i, ¬ s.Holds i q

/-- the stored row `r` is the result of the queued item `q` -/
def MadeFor (r : ResultRow) (q : QueueRow) : Prop :=
  r.source = q.id ∧ r.student = q.student ∧ r.catalog = q.catalog ∧ r.code = q.code ∧ r.linkOnly = q.linkOnly ∧
    r.expires = q.expires

/-! ### Lists of workers -/

theorem split_at {α} {l : List α} {i : Nat} {w : α} (h : l[i]? = some w) :
    ∃ l1 l2, l = l1 ++ w :: l2 ∧ l1.length = i ∧ ∀ w', l.set i w' = l1 ++ w' :: l2 := by
  induction l generalizing i with
  | nil => simp at h
  | cons a l ih =>
    cases i with
    | zero => simp at h; subst h; exact ⟨[], l, rfl, rfl, fun _ => rfl⟩
    | succ i =>
      obtain ⟨l1, l2, e, hl, hs⟩ := ih (by simpa using h)
      exact ⟨a :: l1, l2, by simp [e], by simp [hl], fun w' => by simp [hs]⟩

/-- the ids a worker has taken -/
def Worker.takenIds (w : Worker) : List Nat := (w.tx.toList.flatMap (·.taken)).map (·.id)

theorem Sys.takenIds_eq (s : Sys) : s.takenIds = s.workers.flatMap Worker.takenIds := rfl

@[simp] theorem Worker.takenIds_none (p : Phase) : Worker.takenIds ⟨p, none⟩ = [] := rfl
@[simp] theorem Worker.takenIds_some (p : Phase) (tx : Tx) : Worker.takenIds ⟨p, some tx⟩ = tx.taken.map (·.id) := by
  simp [Worker.takenIds]

/-! ### The invariant -/

/-- what is true of a worker between its statements -/
def Worker.Ok (w : Worker) : Prop :=
  match w.phase with
  | .start => ∀ tx, w.tx = some tx → tx.inserted = [] ∧ tx.aborted = false
  | .fetch | .leave => ∃ tx, w.tx = some tx ∧ tx.inserted = [] ∧ tx.aborted = false
  | .working q => ∃ tx, w.tx = some tx ∧ q ∈ tx.taken ∧ tx.inserted = [] ∧ tx.aborted = false
  | .storing q _ left => ∃ tx, w.tx = some tx ∧ q ∈ tx.taken ∧ tx.inserted = [] ∧ tx.aborted = false ∧
      ∃ pre, left = pre ++ [.insert] ∧ Stmt.insert ∉ pre
  | .finish => ∃ tx, w.tx = some tx ∧
      (tx.inserted = [] ∨ ∃ r, tx.inserted = [r] ∧ ∃ q ∈ tx.taken, MadeFor r q)
  | .waiting | .dead => w.tx = none

structure Sys.Inv (s : Sys) : Prop where
  ids : (s.db.queue.map (·.id)).Nodup
  below : ∀ q ∈ s.db.queue, q.id < s.nextItem
  sources : (s.db.results.map (·.source)).Nodup
  sourceBelow : ∀ r ∈ s.db.results, r.source < s.nextItem
  done : ∀ r ∈ s.db.results, ∀ q ∈ s.db.queue, r.source ≠ q.id
  taken : ∀ w ∈ s.workers, ∀ tx, w.tx = some tx → ∀ q ∈ tx.taken, q ∈ s.db.queue
  disjoint : s.takenIds.Nodup
  ok : ∀ w ∈ s.workers, w.Ok

theorem Sys.Initial.inv {s : Sys} (h : s.Initial) : s.Inv := by
  refine ⟨h.ids, h.below, h.sources, h.sourceBelow, h.done, ?_, ?_, ?_⟩
  · intro w hw tx ht; rw [h.fresh w hw] at ht; simp at ht
  · have : s.takenIds = [] := by
      rw [Sys.takenIds_eq, List.flatMap_eq_nil_iff]
      intro w hw; rw [h.fresh w hw]; rfl
    rw [this]; exact List.nodup_nil
  · intro w hw; rw [h.fresh w hw]; intro tx ht; simp at ht

/-- A worker changes; the tables do not; it takes at most one more row, an available one. -/
theorem Sys.Inv.set {s : Sys} (h : s.Inv) {i : Nat} {w w' : Worker} (hi : s.workers[i]? = some w)
    (hok : w'.Ok)
    (ht : w'.takenIds = w.takenIds ∨ w'.takenIds = [] ∨ ∃ q ∈ s.available, w'.takenIds = w.takenIds ++ [q.id])
    (hq : ∀ tx, w'.tx = some tx → ∀ q ∈ tx.taken, q ∈ s.db.queue) (n : Nat) :
    Sys.Inv { s.set i w' with nextResult := n } := by
  obtain ⟨l1, l2, e, -, hs⟩ := split_at hi
  refine ⟨h.ids, h.below, h.sources, h.sourceBelow, h.done, ?_, ?_, ?_⟩
  · intro v hv tx htx q hqt
    simp only [Sys.set, hs, List.mem_append, List.mem_cons] at hv
    rcases hv with hv | rfl | hv
    · exact h.taken v (by rw [e]; simp [hv]) tx htx q hqt
    · exact hq tx htx q hqt
    · exact h.taken v (by rw [e]; simp [hv]) tx htx q hqt
  · have hd := h.disjoint
    rw [Sys.takenIds_eq, e] at hd
    simp only [List.flatMap_append, List.flatMap_cons] at hd
    rw [Sys.takenIds_eq]
    simp only [Sys.set, hs, List.flatMap_append, List.flatMap_cons]
    rcases ht with ht | ht | ⟨q, hqa, ht⟩
    · rw [ht]; exact hd
    · rw [ht]
      refine hd.sublist ?_
      exact List.Sublist.append_left (List.Sublist.append_right (List.nil_sublist _) _) _
    · have hnot : q.id ∉ s.takenIds := by
        have := (List.mem_filter.mp hqa).2
        simpa using this
      rw [Sys.takenIds_eq, e] at hnot
      simp only [List.flatMap_append, List.flatMap_cons] at hnot
      rw [ht]
      have hp : (l1.flatMap Worker.takenIds ++ (w.takenIds ++ [q.id] ++ l2.flatMap Worker.takenIds)).Perm
          (q.id :: (l1.flatMap Worker.takenIds ++ (w.takenIds ++ l2.flatMap Worker.takenIds))) := by
        have h1 := @List.perm_middle _ q.id (l1.flatMap Worker.takenIds ++ w.takenIds) (l2.flatMap Worker.takenIds)
        simpa [List.append_assoc] using h1
      rw [hp.nodup_iff, List.nodup_cons]
      exact ⟨hnot, hd⟩
  · intro v hv
    simp only [Sys.set, hs, List.mem_append, List.mem_cons] at hv
    rcases hv with hv | rfl | hv
    · exact h.ok v (by rw [e]; simp [hv])
    · exact hok
    · exact h.ok v (by rw [e]; simp [hv])

theorem Sys.Inv.set' {s : Sys} (h : s.Inv) {i : Nat} {w w' : Worker} (hi : s.workers[i]? = some w)
    (hok : w'.Ok)
    (ht : w'.takenIds = w.takenIds ∨ w'.takenIds = [] ∨ ∃ q ∈ s.available, w'.takenIds = w.takenIds ++ [q.id])
    (hq : ∀ tx, w'.tx = some tx → ∀ q ∈ tx.taken, q ∈ s.db.queue) : (s.set i w').Inv := by
  have := h.set hi hok ht hq s.nextResult
  exact this

theorem Tx.view_sources (tx : Tx) (rs : List ResultRow) :
    ((tx.view rs).map (·.source)).Sublist ((rs ++ tx.inserted).map (·.source)) := by
  unfold Tx.view
  rw [List.map_map]
  have : ((fun r : ResultRow => r.source) ∘ fun r => if tx.deactivated.contains r.id then { r with active := false } else r)
      = fun r => r.source := by
    funext r; simp only [Function.comp]; split <;> rfl
  rw [this]
  exact List.Sublist.map _ List.filter_sublist

/-- COMMIT -/
theorem Sys.Inv.commit {s : Sys} (h : s.Inv) {i : Nat} {p p' : Phase} {tx : Tx}
    (hi : s.workers[i]? = some ⟨p, some tx⟩) (hok : Worker.Ok ⟨p', none⟩)
    (hins : tx.inserted = [] ∨ ∃ r, tx.inserted = [r] ∧ ∃ q ∈ tx.taken, MadeFor r q) :
    Sys.Inv { s.set i ⟨p', none⟩ with db := s.db.commit tx } := by
  have hset := h.set' (w' := ⟨p', none⟩) hi hok (Or.inr (Or.inl rfl)) (by simp)
  have hmem : (⟨p, some tx⟩ : Worker) ∈ s.workers := List.mem_of_getElem? hi
  have htk := h.taken _ hmem tx rfl
  obtain ⟨l1, l2, e, -, hs⟩ := split_at hi
  by_cases hab : tx.aborted
  · have : s.db.commit tx = s.db := by simp [Db.commit, hab]
    rw [this]; exact hset
  have hdb : s.db.commit tx = { queue := s.db.queue.filter (fun q => !(tx.taken.map (·.id)).contains q.id),
                                results := tx.view s.db.results } := by simp [Db.commit, hab]
  rw [hdb]
  have hsub := tx.view_sources s.db.results
  have hsrc : ∀ n ∈ (tx.view s.db.results).map (·.source),
      n ∈ s.db.results.map (·.source) ∨ n ∈ tx.taken.map (·.id) := by
    intro n hn
    have := hsub.subset hn
    rw [List.map_append, List.mem_append] at this
    rcases this with h1 | h1
    · exact Or.inl h1
    · rcases hins with h0 | ⟨r, h0, q, hq, h2⟩
      · simp [h0] at h1
      · simp [h0] at h1; subst h1; rw [h2.1]; exact Or.inr (List.mem_map_of_mem hq)
  refine ⟨h.ids.sublist (List.Sublist.map _ List.filter_sublist), fun q hq => h.below q (List.mem_filter.mp hq).1,
    ?_, ?_, ?_, ?_, hset.disjoint, hset.ok⟩
  · refine List.Nodup.sublist hsub ?_
    rcases hins with h0 | ⟨r, h0, q, hq, h2⟩
    · simpa [h0] using h.sources
    · rw [h0, List.map_append, List.nodup_append]
      refine ⟨h.sources, by simp, ?_⟩
      intro a ha b hb hab'
      simp at hb; subst hb; subst hab'
      obtain ⟨r0, hr0, he⟩ := List.mem_map.mp ha
      exact h.done r0 hr0 q (htk q hq) (he.trans h2.1)
  · intro r hr
    rcases hsrc r.source (List.mem_map_of_mem hr) with h1 | h1
    · obtain ⟨r0, hr0, he⟩ := List.mem_map.mp h1
      rw [← he]; exact h.sourceBelow r0 hr0
    · obtain ⟨q, hq, hqe⟩ := List.mem_map.mp h1
      rw [← hqe]; exact h.below q (htk q hq)
  · intro r hr q hq heq
    obtain ⟨hq1, hq2⟩ := List.mem_filter.mp hq
    rcases hsrc r.source (List.mem_map_of_mem hr) with h1 | h1
    · obtain ⟨r0, hr0, he⟩ := List.mem_map.mp h1
      exact h.done r0 hr0 q hq1 (he.trans heq)
    · rw [heq] at h1
      simp only [Bool.not_eq_true', List.contains_eq_mem, decide_eq_false_iff_not] at hq2
      exact hq2 h1
  · intro v hv tx' htx' q hq
    have hq0 := hset.taken v hv tx' htx' q hq
    refine List.mem_filter.mpr ⟨hq0, ?_⟩
    simp only [Bool.not_eq_true', List.contains_eq_mem, decide_eq_false_iff_not]
    intro hc
    have hd := h.disjoint
    rw [Sys.takenIds_eq, e] at hd
    simp only [List.flatMap_append, List.flatMap_cons, Worker.takenIds_some] at hd
    have hqv : q.id ∈ v.takenIds := by
      unfold Worker.takenIds
      rw [htx']
      simpa using ⟨q, hq, rfl⟩
    simp only [Sys.set, hs, List.mem_append, List.mem_cons] at hv
    rw [List.nodup_append] at hd
    obtain ⟨-, hd2, hd3⟩ := hd
    rcases hv with hv | rfl | hv
    · exact hd3 q.id (List.mem_flatMap.mpr ⟨v, hv, hqv⟩) q.id (List.mem_append_left _ hc) rfl
    · simp at htx'
    · rw [List.nodup_append] at hd2
      exact hd2.2.2 q.id hc q.id (List.mem_flatMap.mpr ⟨v, hv, hqv⟩) rfl

/-! ### Every step keeps the invariant -/

theorem clearExpired_sublist (now : Int) (rs : List ResultRow) : (clearExpired now rs).Sublist rs :=
  List.filter_sublist

theorem stmtsFor_split (b : Bool) : ∃ pre, stmtsFor b = pre ++ [.insert] ∧ Stmt.insert ∉ pre := by
  cases b
  · exact ⟨[.deleteSame, .deactivate], rfl, by decide⟩
  · exact ⟨[], rfl, by decide⟩

/-- a statement does not take queue rows, does not abort, and only the `INSERT` inserts -/
theorem Tx.stmt_shape {s : Sys} {i : Nat} {tx tx' : Tx} {q : QueueRow} {text : String} {st : Stmt}
    (h : tx.stmt s i q text st = some tx') :
    tx'.taken = tx.taken ∧ tx'.aborted = tx.aborted ∧
      (st ≠ .insert → tx'.inserted = tx.inserted) ∧
      (st = .insert → ∃ r, tx'.inserted = tx.inserted ++ [r] ∧ MadeFor r q) := by
  cases st <;> simp only [Tx.stmt] at h
  · split at h
    · simp at h
    · cases h; exact ⟨rfl, rfl, fun _ => rfl, fun h => by simp at h⟩
  · split at h
    · simp at h
    · cases h; exact ⟨rfl, rfl, fun _ => rfl, fun h => by simp at h⟩
  · cases h; exact ⟨rfl, rfl, fun h => absurd rfl h, fun _ => ⟨_, rfl, rfl, rfl, rfl, rfl, rfl, rfl⟩⟩

theorem stepWorker_inv {s s' : Sys} (h : s.Inv) {i : Nat} {w : Worker} (hi : s.workers[i]? = some w) {a : WAct}
    (hstep : stepWorker s i w a = some s') : s'.Inv := by
  have hmem : w ∈ s.workers := List.mem_of_getElem? hi
  have hok := h.ok w hmem
  have htk := h.taken w hmem
  obtain ⟨p, tx⟩ := w
  cases a with
  | begin =>
    cases p <;> simp only [stepWorker, reduceCtorEq] at hstep
    cases hstep
    cases tx with
    | none => exact h.set' hi ⟨_, rfl, rfl, rfl⟩ (Or.inl rfl) (by intro tx htx; cases htx; simp)
    | some tx =>
      refine h.set' hi ⟨_, rfl, hok tx rfl⟩ (Or.inl rfl) ?_
      intro tx' htx; cases htx; exact htk tx rfl
  | take choice =>
    cases p <;> cases tx <;> simp only [stepWorker, reduceCtorEq] at hstep
    rename_i tx
    obtain ⟨_, e, h1, h2⟩ := hok
    cases e
    cases choice with
    | none =>
      simp only at hstep
      split at hstep
      · cases hstep
        exact h.set' hi ⟨_, rfl, h1, h2⟩ (Or.inl rfl) (by intro tx' htx; cases htx; exact htk tx rfl)
      · simp at hstep
    | some id =>
      simp only at hstep
      split at hstep
      · simp at hstep
      · rename_i q hf
        split at hstep
        · cases hstep
          have hqa := List.mem_of_find?_eq_some hf
          refine h.set' hi ⟨_, rfl, by simp, h1, h2⟩ (Or.inr (Or.inr ⟨q, hqa, by simp⟩)) ?_
          intro tx' htx; cases htx
          intro q' hq'
          rcases List.mem_append.mp hq' with hq' | hq'
          · exact htk tx rfl q' hq'
          · simp at hq'; subst hq'; exact (List.mem_filter.mp hqa).1
        · simp at hstep
  | areaMissing =>
    cases p <;> simp only [stepWorker, reduceCtorEq] at hstep
    cases hstep
    obtain ⟨_, e, -, h1, h2⟩ := hok
    cases e
    exact h.set' hi (by intro tx' htx; cases htx; exact ⟨h1, h2⟩) (Or.inl rfl)
      (by intro tx' htx; cases htx; exact htk _ rfl)
  | noResult =>
    cases p <;> simp only [stepWorker, reduceCtorEq] at hstep
    cases hstep
    obtain ⟨_, e, -, h1, h2⟩ := hok
    cases e
    exact h.set' hi ⟨_, rfl, Or.inl h1⟩ (Or.inl rfl)
      (by intro tx' htx; cases htx; exact htk _ rfl)
  | result text =>
    cases p <;> simp only [stepWorker, reduceCtorEq] at hstep
    cases hstep
    obtain ⟨_, e, h0, h1, h2⟩ := hok
    cases e
    exact h.set' hi ⟨_, rfl, h0, h1, h2, stmtsFor_split _⟩ (Or.inl rfl)
      (by intro tx' htx; cases htx; exact htk _ rfl)
  | stmt =>
    cases p with
    | storing q text left =>
      obtain ⟨tx, e, h0, h1, h2, pre, hl, hpre⟩ := hok
      simp only at e
      subst e
      cases left with
      | nil => simp [stepWorker] at hstep
      | cons st left =>
        simp only [stepWorker] at hstep
        split at hstep
        · simp at hstep
        · rename_i tx' hst
          cases hstep
          obtain ⟨g1, g2, g3, g4⟩ := Tx.stmt_shape hst
          have hq' : ∀ q ∈ tx'.taken, q ∈ s.db.queue := by rw [g1]; exact htk _ rfl
          cases pre with
          | nil =>
            simp at hl
            obtain ⟨rfl, rfl⟩ := hl
            obtain ⟨r, hr, hrs⟩ := g4 rfl
            refine h.set (w' := ⟨.finish, some tx'⟩) hi
              ⟨_, rfl, Or.inr ⟨r, by rw [hr, h1]; rfl, q, by rw [g1]; exact h0, hrs⟩⟩ (Or.inl (by simp [g1]))
              (by intro _ htx; cases htx; exact hq') _
          | cons st' pre =>
            simp at hl
            obtain ⟨rfl, rfl⟩ := hl
            simp only [List.mem_cons, not_or] at hpre
            have hne : st ≠ .insert := fun hh => hpre.1 hh.symm
            refine h.set hi ?_ (Or.inl (by simp [g1])) (by intro _ htx; cases htx; exact hq') _
            cases hp : pre ++ [Stmt.insert] with
            | nil => simp at hp
            | cons a b =>
              exact ⟨_, rfl, by rw [g1]; exact h0, by rw [g3 hne, h1], by rw [g2, h2], pre, hp.symm, hpre.2⟩
    | _ => simp [stepWorker] at hstep
  | sqlError =>
    cases p <;> cases tx <;> simp only [stepWorker, reduceCtorEq] at hstep
    cases hstep
    rename_i tx
    obtain ⟨_, e, h0, h1, h2, -⟩ := hok
    cases e
    exact h.set' hi ⟨_, rfl, Or.inl h1⟩ (Or.inl (by simp)) (by intro tx' htx; cases htx; exact htk tx rfl)
  | raise =>
    cases p <;> simp only [stepWorker, reduceCtorEq] at hstep
    cases hstep
    obtain ⟨_, e, h0, h1, h2, -⟩ := hok
    cases e
    exact h.set' hi ⟨_, rfl, Or.inl h1⟩ (Or.inl rfl) (by intro tx' htx; cases htx; exact htk _ rfl)
  | commit =>
    cases p <;> cases tx <;> simp only [stepWorker, reduceCtorEq] at hstep
    · cases hstep
      obtain ⟨_, e, h1⟩ := hok
      cases e
      exact h.commit hi (by intro tx' htx; simp at htx) h1
    · cases hstep
      obtain ⟨_, e, h1, -⟩ := hok
      cases e
      exact h.commit hi rfl (Or.inl h1)
  | notify =>
    cases p <;> simp only [stepWorker, reduceCtorEq] at hstep
    cases hstep
    have hok' : tx = none := hok
    subst hok'
    exact h.set' hi (by intro tx' htx; simp at htx) (Or.inl rfl) (by simp)
  | crash =>
    simp only [stepWorker] at hstep
    cases hstep
    exact h.set' hi rfl (Or.inr (Or.inl rfl)) (by simp)
  | restart =>
    cases p <;> simp only [stepWorker, reduceCtorEq] at hstep
    cases hstep
    exact h.set' hi (by intro tx' htx; simp at htx) (Or.inr (Or.inl rfl)) (by simp)

theorem Sys.step_inv {s s' : Sys} (h : s.Inv) {a : Act} (hstep : s.step a = some s') : s'.Inv := by
  cases a with
  | enqueue q =>
    simp only [Sys.step, Option.some.injEq] at hstep
    subst hstep
    refine ⟨?_, ?_, h.sources, fun r hr => Nat.lt_succ_of_lt (h.sourceBelow r hr), ?_, ?_, h.disjoint, h.ok⟩
    · simp only [List.map_append, List.map_cons, List.map_nil]
      rw [List.nodup_append]
      refine ⟨h.ids, by simp, ?_⟩
      intro a ha b hb
      simp at hb; subst hb
      obtain ⟨q0, hq0, rfl⟩ := List.mem_map.mp ha
      exact Nat.ne_of_lt (h.below q0 hq0)
    · intro q0 hq0
      rcases List.mem_append.mp hq0 with h0 | h0
      · exact Nat.lt_succ_of_lt (h.below q0 h0)
      · simp at h0; subst h0; exact Nat.lt_succ_self _
    · intro r hr q0 hq0
      rcases List.mem_append.mp hq0 with h0 | h0
      · exact h.done r hr q0 h0
      · simp at h0; subst h0; exact Nat.ne_of_lt (h.sourceBelow r hr)
    · intro w hw tx htx q0 hq0
      exact List.mem_append_left _ (h.taken w hw tx htx q0 hq0)
  | tick ms =>
    simp only [Sys.step, Option.some.injEq] at hstep
    subst hstep
    exact ⟨h.ids, h.below, h.sources, h.sourceBelow, h.done, h.taken, h.disjoint, h.ok⟩
  | clear =>
    simp only [Sys.step, Option.some.injEq] at hstep
    subst hstep
    have hsub := clearExpired_sublist s.clock s.db.results
    exact ⟨h.ids, h.below, h.sources.sublist (hsub.map _), fun r hr => h.sourceBelow r (hsub.subset hr),
      fun r hr => h.done r (hsub.subset hr), h.taken, h.disjoint, h.ok⟩
  | worker i a =>
    simp only [Sys.step] at hstep
    split at hstep
    · simp at hstep
    · rename_i w hw
      exact stepWorker_inv h hw hstep

theorem Sys.run_inv {s s' : Sys} (h : s.Inv) {as : List Act} (hrun : s.run as = some s') : s'.Inv := by
  induction as generalizing s with
  | nil => simp only [Sys.run, Option.some.injEq] at hrun; subst hrun; exact h
  | cons a as ih =>
    simp only [Sys.run] at hrun
    split at hrun
    · simp at hrun
    · rename_i s1 h1
      exact ih (Sys.step_inv h h1) hrun

/-! ### C39 -/

/-- what a worker's step does to the tables -/
theorem stepWorker_db {s s' : Sys} {i : Nat} {w : Worker} {a : WAct} (h : stepWorker s i w a = some s') :
    (a ≠ .commit ∧ s'.db = s.db) ∨ (a = .commit ∧ ∃ tx, w.tx = some tx ∧ s'.db = s.db.commit tx) := by
  obtain ⟨p, tx⟩ := w
  cases a with
  | commit =>
    cases p <;> cases tx <;> simp only [stepWorker, reduceCtorEq] at h
    · cases h; exact Or.inr ⟨rfl, _, rfl, rfl⟩
    · cases h; exact Or.inr ⟨rfl, _, rfl, rfl⟩
  | take choice =>
    refine Or.inl ⟨by simp, ?_⟩
    cases p <;> cases tx <;> cases choice <;> simp only [stepWorker, reduceCtorEq] at h
    · split at h
      · cases h; rfl
      · simp at h
    · split at h
      · simp at h
      · split at h
        · cases h; rfl
        · simp at h
  | stmt =>
    refine Or.inl ⟨by simp, ?_⟩
    cases p with
    | storing q text left =>
      cases left with
      | nil => simp [stepWorker] at h
      | cons st left =>
        cases tx with
        | none => simp [stepWorker] at h
        | some tx =>
          simp only [stepWorker] at h
          split at h
          · simp at h
          · cases h; rfl
    | _ => simp [stepWorker] at h
  | sqlError =>
    refine Or.inl ⟨by simp, ?_⟩
    cases p <;> cases tx <;> simp only [stepWorker, reduceCtorEq] at h
    cases h; rfl
  | crash => simp only [stepWorker] at h; cases h; exact Or.inl ⟨by simp, rfl⟩
  | _ =>
    refine Or.inl ⟨by simp, ?_⟩
    cases p <;> simp only [stepWorker, reduceCtorEq] at h
    cases h; rfl

theorem Sys.free_iff {s : Sys} (h : s.Inv) (q : QueueRow) : s.Free q ↔ q ∈ s.available := by
  unfold Sys.available Sys.Free
  rw [List.mem_filter]
  refine and_congr_right fun hq => ?_
  simp only [Bool.not_eq_true', List.contains_eq_mem, decide_eq_false_iff_not]
  constructor
  · intro hn hc
    rw [Sys.takenIds_eq, List.mem_flatMap] at hc
    obtain ⟨w, hw, hc⟩ := hc
    obtain ⟨i, hi⟩ := List.mem_iff_getElem?.mp hw
    unfold Worker.takenIds at hc
    obtain ⟨q', hq', he⟩ := List.mem_map.mp hc
    obtain ⟨tx, htx, hq'⟩ := List.mem_flatMap.mp hq'
    have htx' : w.tx = some tx := by simpa using htx
    have := h.taken w hw tx htx' q' hq'
    have heq : q' = q := List.inj_on_of_nodup_map h.ids this hq he
    subst heq
    exact hn i ⟨w, tx, hi, htx', hq'⟩
  · rintro hn i ⟨w, tx, hi, htx, hqt⟩
    apply hn
    rw [Sys.takenIds_eq, List.mem_flatMap]
    refine ⟨w, List.mem_of_getElem? hi, ?_⟩
    unfold Worker.takenIds
    rw [htx]; simpa using ⟨q, hqt, rfl⟩

/-- **C39** (removal).  Whatever the workers have done before and whatever happens next, a
queued item disappears from the queue in exactly the steps in which the worker that has it
executes `COMMIT`, and none of its statements has failed. -/
theorem C39_removed_iff_committed {s0 s s' : Sys} (h0 : s0.Initial) {as : List Act} (hrun : s0.run as = some s)
    {a : Act} (hstep : s.step a = some s') {q : QueueRow} (hq : q ∈ s.db.queue) :
    q ∉ s'.db.queue ↔
      ∃ i w tx, a = .worker i .commit ∧ s.workers[i]? = some w ∧ w.tx = some tx ∧ q ∈ tx.taken ∧ tx.aborted = false := by
  have h := Sys.run_inv h0.inv hrun
  cases a with
  | enqueue q' =>
    simp only [Sys.step, Option.some.injEq] at hstep; subst hstep
    simp [hq]
  | tick ms => simp only [Sys.step, Option.some.injEq] at hstep; subst hstep; simp [hq]
  | clear => simp only [Sys.step, Option.some.injEq] at hstep; subst hstep; simp [hq]
  | worker i a =>
    simp only [Sys.step] at hstep
    split at hstep
    · simp at hstep
    rename_i w hw
    rcases stepWorker_db hstep with ⟨hne, hdb⟩ | ⟨rfl, tx, htx, hdb⟩
    · rw [hdb]
      constructor
      · intro hn; exact absurd hq hn
      · rintro ⟨j, w', tx, he, -⟩; cases he; exact absurd rfl hne
    · rw [hdb]
      unfold Db.commit
      cases hab : tx.aborted with
      | true =>
        simp only [if_true, hq, not_true_eq_false, false_iff]
        rintro ⟨j, w', tx', he, hw', htx', -, hab'⟩
        cases he
        rw [hw] at hw'; cases hw'
        rw [htx] at htx'; cases htx'
        simp [hab] at hab'
      | false =>
        simp only [Bool.false_eq_true, if_false, List.mem_filter, hq, true_and, Bool.not_eq_true', List.contains_eq_mem,
          decide_eq_false_iff_not, not_not]
        constructor
        · intro hc
          obtain ⟨q', hq', he⟩ := List.mem_map.mp hc
          have hq2 := h.taken w (List.mem_of_getElem? hw) tx htx q' hq'
          have heq : q' = q := List.inj_on_of_nodup_map h.ids hq2 hq he
          subst heq
          exact ⟨i, w, tx, rfl, hw, htx, hq', hab⟩
        · rintro ⟨j, w', tx', he, hw', htx', hqt, -⟩
          cases he
          rw [hw] at hw'; cases hw'
          rw [htx] at htx'; cases htx'
          exact List.mem_map_of_mem hqt

/-- **C39** (crash).  A worker may die at any point: the tables stay as they are, and every
item it had taken is in the queue, free for the other workers. -/
theorem C39_crash_keeps_items {s0 s : Sys} (h0 : s0.Initial) {as : List Act} (hrun : s0.run as = some s)
    {i : Nat} (hi : i < s.workers.length) :
    ∃ s', s.step (.worker i .crash) = some s' ∧ s'.db = s.db ∧ ∀ q, s.Holds i q → s'.Free q := by
  have h := Sys.run_inv h0.inv hrun
  obtain ⟨w, hw⟩ : ∃ w, s.workers[i]? = some w := ⟨_, List.getElem?_eq_getElem hi⟩
  refine ⟨s.set i ⟨.dead, none⟩, by simp [Sys.step, hw, stepWorker], rfl, ?_⟩
  rintro q ⟨w', tx, hw', htx, hqt⟩
  rw [hw] at hw'; cases hw'
  have hq := h.taken w (List.mem_of_getElem? hw) tx htx q hqt
  have hstep : s.step (.worker i .crash) = some (s.set i ⟨.dead, none⟩) := by simp [Sys.step, hw, stepWorker]
  rw [Sys.free_iff (Sys.step_inv h hstep)]
  refine List.mem_filter.mpr ⟨hq, ?_⟩
  simp only [Bool.not_eq_true', List.contains_eq_mem, decide_eq_false_iff_not]
  obtain ⟨l1, l2, e, -, hs⟩ := split_at hw
  have hd := h.disjoint
  rw [Sys.takenIds_eq, e] at hd
  simp only [List.flatMap_append, List.flatMap_cons] at hd
  have hmem : q.id ∈ w.takenIds := by
    unfold Worker.takenIds; rw [htx]; simpa using ⟨q, hqt, rfl⟩
  rw [Sys.takenIds_eq]
  simp only [Sys.set, hs, List.flatMap_append, List.flatMap_cons, Worker.takenIds_none, List.nil_append,
    List.mem_append, not_or]
  rw [List.nodup_append] at hd
  obtain ⟨-, hd2, hd3⟩ := hd
  rw [List.nodup_append] at hd2
  exact ⟨fun hc => hd3 q.id hc q.id (List.mem_append_left _ hmem) rfl, fun hc => hd2.2.2 q.id hmem q.id hc rfl⟩

/-- **C39** (one worker).  No two workers ever have the same item. -/
theorem C39_one_worker_per_item {s0 s : Sys} (h0 : s0.Initial) {as : List Act} (hrun : s0.run as = some s)
    {i j : Nat} {q : QueueRow} (hi : s.Holds i q) (hj : s.Holds j q) : i = j := by
  have h := Sys.run_inv h0.inv hrun
  obtain ⟨w, tx, hw, htx, hq⟩ := hi
  obtain ⟨w', tx', hw', htx', hq'⟩ := hj
  have hm : q.id ∈ w.takenIds := by unfold Worker.takenIds; rw [htx]; simpa using ⟨q, hq, rfl⟩
  have hm' : q.id ∈ w'.takenIds := by unfold Worker.takenIds; rw [htx']; simpa using ⟨q, hq', rfl⟩
  obtain ⟨l1, l2, e, hl, -⟩ := split_at hw
  have hd := h.disjoint
  rw [Sys.takenIds_eq, e] at hd
  simp only [List.flatMap_append, List.flatMap_cons] at hd
  rw [List.nodup_append] at hd
  obtain ⟨-, hd2, hd3⟩ := hd
  rw [List.nodup_append] at hd2
  rw [e] at hw'
  rcases Nat.lt_trichotomy j i with hlt | heq | hgt
  · exfalso
    rw [List.getElem?_append_left (by omega)] at hw'
    exact hd3 q.id (List.mem_flatMap.mpr ⟨w', List.mem_of_getElem? hw', hm'⟩) q.id (List.mem_append_left _ hm) rfl
  · exact heq.symm
  · exfalso
    rw [List.getElem?_append_right (by omega)] at hw'
    have : j - l1.length = (j - l1.length - 1) + 1 := by omega
    rw [this, List.getElem?_cons_succ] at hw'
    exact hd2.2.2 q.id hm q.id (List.mem_flatMap.mpr ⟨w', List.mem_of_getElem? hw', hm'⟩) rfl

/-- **C39** (order).  The item a worker takes is a free one, of the highest priority among the
free ones and of these one queued earliest. -/
theorem C39_order {s0 s s' : Sys} (h0 : s0.Initial) {as : List Act} (hrun : s0.run as = some s)
    {i id : Nat} (hstep : s.step (.worker i (.take (some id))) = some s') :
    ∃ q, q.id = id ∧ s.Free q ∧ s'.Holds i q ∧ s'.db = s.db ∧
      ∀ q', s.Free q' → q'.priority < q.priority ∨ (q'.priority = q.priority ∧ q.ts ≤ q'.ts) := by
  have h := Sys.run_inv h0.inv hrun
  simp only [Sys.step] at hstep
  split at hstep
  · simp at hstep
  rename_i w hw
  obtain ⟨p, tx⟩ := w
  cases p <;> cases tx <;> simp only [stepWorker, reduceCtorEq] at hstep
  split at hstep
  · simp at hstep
  rename_i tx _ q hf
  split at hstep
  · rename_i hall
    cases hstep
    have hid := List.find?_some hf
    have hmem := List.mem_of_find?_eq_some hf
    refine ⟨q, by simpa using hid, (Sys.free_iff h q).mpr hmem, ?_, rfl, ?_⟩
    · refine ⟨⟨.working q, some { tx with taken := tx.taken ++ [q] }⟩, { tx with taken := tx.taken ++ [q] }, ?_, rfl,
        by simp⟩
      obtain ⟨hlt, -⟩ := List.getElem?_eq_some_iff.mp hw
      simp [Sys.set, hlt]
    · intro q' hq'
      have := List.all_eq_true.mp hall q' ((Sys.free_iff h q').mp hq')
      simpa [QueueRow.before] using this
  · simp at hstep

/-- **C39** (order).  A worker stops looking only when no item is free. -/
theorem C39_leaves_nothing_free {s0 s s' : Sys} (h0 : s0.Initial) {as : List Act} (hrun : s0.run as = some s)
    {i : Nat} (hstep : s.step (.worker i (.take none)) = some s') (q : QueueRow) : ¬ s.Free q := by
  have h := Sys.run_inv h0.inv hrun
  rw [Sys.free_iff h]
  simp only [Sys.step] at hstep
  split at hstep
  · simp at hstep
  rename_i w hw
  obtain ⟨p, tx⟩ := w
  cases p <;> cases tx <;> simp only [stepWorker, reduceCtorEq] at hstep
  split at hstep
  · rename_i he; rw [he]; simp
  · simp at hstep

/-- **C39** (no partial result).  A result made for an item is never stored while the item
is queued, and never twice. -/
theorem C39_stored_once {s0 s : Sys} (h0 : s0.Initial) {as : List Act} (hrun : s0.run as = some s) :
    (∀ r ∈ s.db.results, ∀ q ∈ s.db.queue, r.source ≠ q.id) ∧ (s.db.results.map (·.source)).Nodup := by
  have h := Sys.run_inv h0.inv hrun
  exact ⟨h.done, h.sources⟩

/-- **C39** (no partial result).  The step in which a result becomes visible is the one in
which the item it was made for leaves the queue. -/
theorem C39_result_appears_with_removal {s0 s s' : Sys} (h0 : s0.Initial) {as : List Act} (hrun : s0.run as = some s)
    {a : Act} (hstep : s.step a = some s') {r : ResultRow} (hr : r ∈ s'.db.results)
    (hnew : r.source ∉ s.db.results.map (·.source)) :
    ∃ q ∈ s.db.queue, MadeFor r q ∧ q ∉ s'.db.queue := by
  have h := Sys.run_inv h0.inv hrun
  have old : s'.db.results.Sublist s.db.results → False := fun hs =>
    hnew (List.mem_map_of_mem (hs.subset hr))
  cases a with
  | enqueue q' => simp only [Sys.step, Option.some.injEq] at hstep; subst hstep; exact (old (List.Sublist.refl _)).elim
  | tick ms => simp only [Sys.step, Option.some.injEq] at hstep; subst hstep; exact (old (List.Sublist.refl _)).elim
  | clear =>
    simp only [Sys.step, Option.some.injEq] at hstep; subst hstep
    exact (old (clearExpired_sublist _ _)).elim
  | worker i a =>
    have hstep0 := hstep
    simp only [Sys.step] at hstep
    split at hstep
    · simp at hstep
    rename_i w hw
    rcases stepWorker_db hstep with ⟨-, hdb⟩ | ⟨rfl, tx, htx, hdb⟩
    · rw [hdb] at old; exact (old (List.Sublist.refl _)).elim
    · cases hab : tx.aborted with
      | true =>
        rw [hdb] at old; simp only [Db.commit, hab, if_true] at old
        exact (old (List.Sublist.refl _)).elim
      | false =>
        rw [hdb] at hr
        simp only [Db.commit, hab, Bool.false_eq_true, if_false, Tx.view] at hr
        obtain ⟨r1, hr1, he⟩ := List.mem_map.mp hr
        obtain ⟨hr1, -⟩ := List.mem_filter.mp hr1
        have hrs : r.source = r1.source := by rw [← he]; split <;> rfl
        rcases List.mem_append.mp hr1 with h1 | h1
        · exact (hnew (by rw [hrs]; exact List.mem_map_of_mem h1)).elim
        · have hok := h.ok w (List.mem_of_getElem? hw)
          have hfin : ∃ q ∈ tx.taken, MadeFor r1 q := by
            obtain ⟨p, tx0⟩ := w
            cases p <;> cases tx0 <;> simp only [stepWorker, reduceCtorEq] at hstep
            · obtain ⟨_, e, hins⟩ := hok
              cases e; cases htx
              rcases hins with h0 | ⟨r2, h2, q, hq, hm⟩
              · simp [h0] at h1
              · rw [h2] at h1; simp at h1; subst h1; exact ⟨q, hq, hm⟩
            · obtain ⟨_, e, hins, -⟩ := hok
              cases e; cases htx
              simp [hins] at h1
          obtain ⟨q, hq, hm⟩ := hfin
          have hqq := h.taken w (List.mem_of_getElem? hw) tx htx q hq
          refine ⟨q, hqq, ?_, (C39_removed_iff_committed h0 hrun hstep0 hqq).mpr ⟨i, w, tx, rfl, hw, htx, hq, hab⟩⟩
          have : MadeFor r q ↔ MadeFor r1 q := by
            rw [← he]; unfold MadeFor; split <;> rfl
          exact this.mpr hm

theorem find_of_mem {s : Sys} (hids : (s.db.queue.map (·.id)).Nodup) {q : QueueRow} (hq : q ∈ s.available) :
    s.available.find? (fun q' => q'.id == q.id) = some q := by
  cases hf : s.available.find? (fun q' => q'.id == q.id) with
  | none => have := List.find?_eq_none.mp hf q hq; simp at this
  | some q' =>
    have h1 := (List.mem_filter.mp (List.mem_of_find?_eq_some hf)).1
    have h2 := List.find?_some hf
    rw [List.inj_on_of_nodup_map hids h1 (List.mem_filter.mp hq).1 (by simpa using h2)]

/-- **C39** (what does not hold): an item whose result the database refuses is not removed,
although the program commits "just so it doesn't endlessly re-run itself": the exception is
swallowed by `audit`, the `COMMIT` of the failed transaction rolls back, and the worker is
back where it was, with the same item first in the queue.  This holds from every state in
which a worker begins and for every item that is first. -/
theorem C39_refused_item_runs_again {s : Sys} (hids : (s.db.queue.map (·.id)).Nodup) {i : Nat}
    (hi : s.workers[i]? = some {}) {q : QueueRow} (hq : q ∈ s.available)
    (hfirst : ∀ q' ∈ s.available, q'.priority < q.priority ∨ (q'.priority = q.priority ∧ q.ts ≤ q'.ts)) (text : String) :
    s.run [.worker i .begin, .worker i (.take (some q.id)), .worker i (.result text), .worker i .sqlError,
      .worker i .commit] = some s := by
  replace hq := find_of_mem hids hq
  obtain ⟨l1, l2, e, hl, hs⟩ := split_at hi
  obtain ⟨db, ws, clock, nr, ni⟩ := s
  simp only at e hi hs
  subst e
  subst hl
  have hav : ∀ p tx, Sys.available ⟨db, l1 ++ ⟨p, some tx⟩ :: l2, clock, nr, ni⟩ =
      (Sys.available ⟨db, l1 ++ {} :: l2, clock, nr, ni⟩).filter (fun q => !(tx.taken.map (·.id)).contains q.id) := by
    intro p tx
    simp only [Sys.available, Sys.takenIds_eq, List.filter_filter]
    congr 1
    funext q
    simp [Worker.takenIds]
    grind
  have h1 : Sys.available ⟨db, l1 ++ ⟨.fetch, some {}⟩ :: l2, clock, nr, ni⟩ =
      Sys.available ⟨db, l1 ++ {} :: l2, clock, nr, ni⟩ := by
    rw [hav]; simp
  have hall : (Sys.available ⟨db, l1 ++ {} :: l2, clock, nr, ni⟩).all (q.before ·) = true :=
    List.all_eq_true.mpr (fun q' hq' => by simpa [QueueRow.before] using hfirst q' hq')
  simp [Sys.run, Sys.step, stepWorker, Sys.set, h1, hq, hall, Db.commit]

/-- **C39** (what does not hold): an item whose area cannot be found is not removed when it is
passed over; the worker keeps it until a later `COMMIT` of its own. -/
theorem C39_missing_area_is_kept {s s' : Sys} {i : Nat} {q : QueueRow} {tx : Tx}
    (hi : s.workers[i]? = some ⟨.working q, some tx⟩) (hq : q ∈ tx.taken)
    (hstep : s.step (.worker i .areaMissing) = some s') :
    s'.db = s.db ∧ s'.Holds i q ∧ s'.workers[i]? = some ⟨.start, some tx⟩ := by
  simp only [Sys.step, hi, stepWorker, Option.some.injEq] at hstep
  subst hstep
  obtain ⟨hlt, -⟩ := List.getElem?_eq_some_iff.mp hi
  have : (s.set i ⟨.start, some tx⟩).workers[i]? = some ⟨.start, some tx⟩ := by simp [Sys.set, hlt]
  exact ⟨rfl, ⟨_, _, this, rfl, hq⟩, this⟩

/-! A run: two workers; the first takes the urgent item and dies, the second takes it again
and stores its result, then takes the earlier of the other two. -/

def exampleQueue : Sys :=
  { db := { queue := [⟨0, 1, 5, "1", "2018-19", "music", none, false⟩, ⟨1, 100, 9, "2", "2018-19", "math", none, false⟩,
                      ⟨2, 1, 3, "3", "2018-19", "art", none, false⟩] }
    workers := [{}, {}], nextItem := 3 }

def exampleRun : List Act :=
  [.worker 0 .begin, .worker 0 (.take (some 1)), .worker 1 .begin, .worker 0 (.result "r"), .worker 0 .stmt,
   .worker 0 .crash, .enqueue ⟨0, 1, 9, "4", "2018-19", "art", none, false⟩, .worker 1 (.take (some 1)),
   .worker 1 (.result "r"), .worker 1 .stmt, .worker 1 .stmt, .worker 1 .stmt, .worker 1 .commit,
   .worker 1 .begin, .worker 1 (.take (some 2))]

theorem exampleQueue_initial : exampleQueue.Initial := by
  refine ⟨?_, by decide, by decide, by decide, by decide, by decide⟩
  intro w hw
  simp [exampleQueue] at hw
  exact hw

example : (exampleQueue.run exampleRun).map (fun s => (s.db.queue.map (·.id), s.db.results.map (·.source),
    s.db.results.map (·.active), s.workers.map (·.phase) |>.head?)) =
    some ([0, 2, 3], [1], [true], some .dead) := by decide

/-- the earlier item cannot be passed over -/
example : exampleQueue.run [.worker 0 .begin, .worker 0 (.take (some 2))] = none := by decide

/-- an item whose result is refused stays: the case of `C39_refused_item_runs_again` -/
example : exampleQueue.run [.worker 0 .begin, .worker 0 (.take (some 1)), .worker 0 (.result "r"), .worker 0 .sqlError,
    .worker 0 .commit] = some exampleQueue := by decide

end Dp
