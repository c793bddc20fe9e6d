import Verif.Props.Independent

/-
C37: one audit counts a class at most once, over all rules that do not allow claimed
courses.
-/
namespace Dp

/-! ### Vocabulary -/

mutual
/-- The claims recorded in a result tree by the rules that claim courses for themselves:
course rules and queries on courses that do not allow claimed courses.  (A query with
`claim: false` records nothing.)  Claims beneath audited requirements count too. -/
def Node.exclusive : Node → List Claim
  | .course s d => if s = .result ∧ d.allowClaimed = false then d.claim.toList else []
  | .query s d =>
    if s = .result ∧ d.allowClaimed = false ∧ d.attemptClaims = true ∧ d.source = .courses then d.successful
    else []
  | .count _ _ items => Node.exclusiveList items
  | .req _ _ r => Node.exclusiveOpt r
  | .cond _ _ t f => t.exclusive ++ Node.exclusiveOpt f
  | .prof _ _ c => match c with
    | some (s, d) => if s = .result ∧ d.allowClaimed = false then d.claim.toList else []
    | none => []
/-- for all children -/
def Node.exclusiveList : List Node → List Claim
  | [] => []
  | n :: ns => n.exclusive ++ Node.exclusiveList ns
/-- for an optional child -/
def Node.exclusiveOpt : Option Node → List Claim
  | none => []
  | some n => n.exclusive
end

/-- how many of the claims are on the class `k`, not counting failed ones -/
def timesClaimed (k : String) (l : List Claim) : Nat := l.countP (fun c => !c.failed && c.course.clbid == k)

/-- the courses an audit can come upon -/
def Ctx.Knows (x : Ctx) (c : Course) : Prop :=
  c ∈ x.transcript ∨ c ∈ x.withFailed ∨ ∃ k, (k, c) ∈ x.forced

/-- The class `k` is an ordinary one: no exception forces it in anywhere, and it is not
listed as multicountable. -/
structure Ordinary (x : Ctx) (es : List Exc) (k : String) : Prop where
  notForced : ∀ e ∈ es, e.kind ≠ .insertion k true
  unlisted : ∀ c, x.Knows c → c.clbid = k → x.multicountable.get? c.identity = none

theorem timesClaimed_append (k : String) (a b : List Claim) :
    timesClaimed k (a ++ b) = timesClaimed k a + timesClaimed k b := by
  simp [timesClaimed]

theorem timesClaimed_nil (k : String) : timesClaimed k [] = 0 := rfl

theorem timesClaimed_failed (k : String) {c : Claim} (h : c.failed = true) : timesClaimed k [c] = 0 := by
  simp [timesClaimed, h]

theorem timesClaimed_pos {k : String} {l : List Claim} (h : timesClaimed k l ≠ 0) :
    ∃ c ∈ l, c.failed = false ∧ c.course.clbid = k := by
  have := List.countP_pos_iff.1 (Nat.pos_of_ne_zero h)
  simpa [and_assoc] using this

/-! ### One claim -/

/-- every entry of the table holds a claim -/
def ClaimTable.Good (t : ClaimTable) : Prop := ∀ e ∈ t, e.2 ≠ []

theorem ClaimTable.Good.ok {t : ClaimTable} (h : t.Good) : t.Ok := by
  intro k hk
  induction t with
  | nil => simp [ClaimTable.has] at hk
  | cons e t ih =>
    obtain ⟨k', v⟩ := e
    simp only [ClaimTable.get]
    split
    · exact h (k', v) List.mem_cons_self
    · rename_i hne
      refine ih (fun e he => h e (List.mem_cons_of_mem _ he)) ?_
      have hne' : (k' == k) = false := by simpa using hne
      simpa [ClaimTable.has, hne'] using hk

theorem ClaimTable.Good.append {t : ClaimTable} (h : t.Good) (k : String) (c : Claim) : (t.append k c).Good := by
  induction t with
  | nil => intro e he; simp only [ClaimTable.append, List.mem_singleton] at he; subst he; simp
  | cons e t ih =>
    obtain ⟨k', v⟩ := e
    have ht : ClaimTable.Good t := fun e he => h e (List.mem_cons_of_mem _ he)
    simp only [ClaimTable.append]
    split
    · intro e he
      rcases List.mem_cons.1 he with rfl | he
      · simp
      · exact ht e he
    · intro e he
      rcases List.mem_cons.1 he with rfl | he
      · exact h _ List.mem_cons_self
      · exact ih ht e he

theorem ClaimTable.Good.set {t : ClaimTable} (h : t.Good) (k : String) {v : List Claim} (hv : v ≠ []) :
    (t.set k v).Good := by
  induction t with
  | nil => intro e he; simp only [ClaimTable.set, List.mem_singleton] at he; subst he; exact hv
  | cons e t ih =>
    obtain ⟨k', v'⟩ := e
    have ht : ClaimTable.Good t := fun e he => h e (List.mem_cons_of_mem _ he)
    simp only [ClaimTable.set]
    split
    · intro e he
      rcases List.mem_cons.1 he with rfl | he
      · exact hv
      · exact ht e he
    · intro e he
      rcases List.mem_cons.1 he with rfl | he
      · exact h _ List.mem_cons_self
      · exact ih ht e he

theorem mergeTables_good {a b : ClaimTable} (ha : a.Good) (hb : b.Good) : (mergeTables a b).Good := by
  unfold mergeTables
  induction b generalizing a with
  | nil => exact ha
  | cons e b ih =>
    simp only [List.foldl_cons]
    exact ih (ha.set _ (hb e List.mem_cons_self)) (fun e he => hb e (List.mem_cons_of_mem _ he))

theorem ClaimTable.good_nil : ClaimTable.Good [] := by intro e he; simp at he

/-- What auditing something may do to the claims on a class: `a` claims are recorded, and
they are just what the table gains; and the table gains nothing if it has a claim already. -/
def Counted (k : String) (t : ClaimTable) (a : Nat) (t' : ClaimTable) : Prop :=
  t.Good → t'.Good ∧ (t'.get k).length = (t.get k).length + a ∧ (t'.get k).length ≤ max 1 (t.get k).length

theorem Counted.refl (k : String) (t : ClaimTable) : Counted k t 0 t :=
  fun h => ⟨h, rfl, le_max_right _ _⟩

theorem Counted.trans {k : String} {t1 t2 t3 : ClaimTable} {a b : Nat} (h1 : Counted k t1 a t2)
    (h2 : Counted k t2 b t3) : Counted k t1 (a + b) t3 := by
  intro h
  obtain ⟨g1, g2, g3⟩ := h1 h
  obtain ⟨g4, g5, g6⟩ := h2 g1
  refine ⟨g4, by omega, by omega⟩

theorem makeClaim_counted {m : Multicountable} {t : ClaimTable} {c : Course} {p : Path} {k : String}
    (hm : c.clbid = k → m.get? c.identity = none) :
    Counted k t (timesClaimed k [(makeClaim m t c p false).1]) (makeClaim m t c p false).2 := by
  intro ht
  have ho := makeClaim_outcome m t ht.ok c p false
  generalize makeClaim m t c p false = res at ho ⊢
  cases ho with
  | allowed ha ho => cases ha
  | granted _ why ho =>
    subst ho
    refine ⟨ht.append _ _, ?_⟩
    simp only [timesClaimed, ClaimTable.get_append]
    by_cases hk : c.clbid = k
    · have hnone : t.has c.clbid = false := by
        rcases why with h | ⟨ps, h, _⟩
        · exact h
        · rw [hm hk] at h; cases h
      have hget := ClaimTable.get_eq_nil_of_not_has _ _ hnone
      rw [hk] at hget
      simp [hk, hget]
    · simp [hk]
  | refused _ prior why ho =>
    subst ho
    simp [timesClaimed, ht]

theorem makeClaim_counted_of {m : Multicountable} {t : ClaimTable} {c : Course} {p : Path} {k : String}
    {allow : Bool} (hk : c.clbid = k → allow = false ∧ m.get? c.identity = none) :
    Counted k t (timesClaimed k [(makeClaim m t c p allow).1]) (makeClaim m t c p allow).2 := by
  cases allow with
  | false => exact makeClaim_counted (fun h => (hk h).2)
  | true =>
    have : c.clbid ≠ k := fun h => by cases (hk h).1
    intro ht
    simp [makeClaim, timesClaimed, this, ht]

/-! ### Leaves -/

theorem forcedInsert_ne {x : Ctx} {es : List Exc} (hes : x.exceptions = groupExceptions es)
    {p : Path} {e : Exc} (he : e ∈ getInsertExceptions x.exceptions p) {k k' : String} (hx : Ordinary x es k)
    (hk : e.kind = .insertion k' true) : k' ≠ k := by
  rw [hes, (C07_exact_path_first_wins es p).1] at he
  have := hx.notForced e (List.mem_filter.1 he).1
  rintro rfl
  exact this hk

theorem queryInsert_known {x : Ctx} (hf : x.ForcedOk) {d : QueryData} {es : List Exc} {acc f : Filtered}
    (h : queryInsert x d es acc = .ok f) (hacc : ∀ c, Item.course c ∈ acc.data → x.Knows c) :
    ∀ c, Item.course c ∈ f.data → x.Knows c := by
  induction es generalizing acc with
  | nil => cases h; exact hacc
  | cons e es ih =>
    unfold queryInsert at h
    split at h
    · split at h
      · exact ih h hacc
      · split at h
        · split at h
          · cases h
          · rename_i c hc
            refine ih h ?_
            intro c' hc'
            rcases List.mem_append.1 hc' with hc' | hc'
            · exact hacc _ hc'
            · simp only [List.mem_singleton, Item.course.injEq] at hc'
              subst hc'
              rcases (forcedCourseByClbid_ok hf hc).2 with h | h
              · exact Or.inl h
              · exact Or.inr (Or.inr ⟨_, h⟩)
        · refine ih h ?_
          intro c' hc'
          rcases List.mem_append.1 hc' with hc' | hc'
          · exact hacc _ hc'
          · obtain ⟨c, hc, he⟩ := List.mem_map.1 hc'
            rw [Option.mem_toList] at hc
            cases he
            exact Or.inl (findCourseByClbid_some hc).1
    · exact ih h hacc

theorem queryFiltered_known {x : Ctx} (hf : x.ForcedOk) {d : QueryData} {f : Filtered}
    (h : queryFiltered x d = .ok f) : ∀ c, Item.course c ∈ f.data → x.Knows c := by
  have hdata : ∀ c, Item.course c ∈ queryData x d → x.Knows c := by
    intro c hc
    unfold queryData at hc
    split at hc
    · obtain ⟨c', hc', he⟩ := List.mem_map.1 hc
      cases he
      have := (List.mem_filter.1 hc').1
      split at this
      · exact Or.inr (Or.inl this)
      · exact Or.inl this
    all_goals simp at hc
  have hgo : ∀ data : List Item, (∀ c, Item.course c ∈ data → x.Knows c) →
      (if d.source = .courses ∨ d.source = .claimed then
        queryInsert x d (getInsertExceptions x.exceptions d.path) ⟨data, [], []⟩ else .ok ⟨data, [], []⟩) = .ok f →
      ∀ c, Item.course c ∈ f.data → x.Knows c := by
    intro data hd h
    split at h
    · exact queryInsert_known hf h hd
    · cases h; exact hd
  unfold queryFiltered at h
  cases hw : d.where' with
  | none =>
    simp only [hw] at h
    exact hgo _ hdata h
  | some p =>
    simp only [hw] at h
    split at h
    · cases h
    · rename_i data hd
      exact hgo _ (fun c hc => hdata c ((mem_filterItems hd _).1 hc).1) h

/-- one leaf, audited -/
theorem claimLoop_counted {x : Ctx} {d : QueryData} {k : String} {cs : List Course}
    (hk : ∀ c ∈ cs, c.clbid = k → (d.allowClaimed || d.forceInserted.contains c.clbid) = false ∧
      x.multicountable.get? c.identity = none) : ∀ (t : ClaimTable) (acc : Collected),
    ∃ a, timesClaimed k (claimLoop x d cs t acc).1.successful = timesClaimed k acc.successful + a ∧
      Counted k t a (claimLoop x d cs t acc).2 := by
  induction cs with
  | nil => exact fun t acc => ⟨0, rfl, Counted.refl k t⟩
  | cons c cs ih =>
    intro t acc
    have hc := makeClaim_counted_of (m := x.multicountable) (t := t) (p := d.path) (hk c List.mem_cons_self)
    simp only [claimLoop]
    split
    · rename_i hfail
      obtain ⟨a, h1, h2⟩ := ih (fun c hc => hk c (List.mem_cons_of_mem _ hc)) (makeClaim x.multicountable t c d.path
        (d.allowClaimed || d.forceInserted.contains c.clbid)).2
        { acc with failed := acc.failed ++ [(makeClaim x.multicountable t c d.path
          (d.allowClaimed || d.forceInserted.contains c.clbid)).1] }
      refine ⟨a, h1, ?_⟩
      have h3 := hc.trans h2
      rwa [timesClaimed_failed k hfail, Nat.zero_add] at h3
    · obtain ⟨a, h1, h2⟩ := ih (fun c hc => hk c (List.mem_cons_of_mem _ hc)) (makeClaim x.multicountable t c d.path
        (d.allowClaimed || d.forceInserted.contains c.clbid)).2
        { acc with successful := acc.successful ++ [(makeClaim x.multicountable t c d.path
          (d.allowClaimed || d.forceInserted.contains c.clbid)).1], items := acc.items ++ [.course c] }
      refine ⟨_, ?_, hc.trans h2⟩
      rw [h1]
      simp only [timesClaimed_append]
      omega

theorem claimLoop_allowed {x : Ctx} {d : QueryData} (hd : d.allowClaimed = true) (cs : List Course) :
    ∀ (t : ClaimTable) (acc : Collected), (claimLoop x d cs t acc).2 = t := by
  induction cs with
  | nil => exact fun _ _ => rfl
  | cons c cs ih =>
    intro t acc
    simp only [claimLoop, hd, Bool.true_or, makeClaim, if_true]
    split <;> exact ih _ _

theorem course_counted {x : Ctx} (hf : x.ForcedOk) {es : List Exc} (hes : x.exceptions = groupExceptions es)
    {k : String} (hk : Ordinary x es k) {d s r : CourseData} {t t' : ClaimTable}
    (hs : s ∈ (courseSolutions x d).items) (ha : courseAudit x s t = .ok (r, t')) :
    Counted k t (timesClaimed k (Node.course .result r).exclusive) t' := by
  have hallow : r.allowClaimed = s.allowClaimed := by
    unfold courseAudit at ha
    dsimp only at ha
    repeat' split at ha
    all_goals first
      | cases ha; done
      | (obtain ⟨rfl, rfl⟩ := Prod.mk.inj (Except.ok.inj ha); rfl)
  have hsm : ∀ c, s.matched = some c → c.clbid = k → s.forced = false ∧ x.multicountable.get? c.identity = none := by
    intro c hc hck
    rcases courseSolutions_cases hs with ⟨rfl, _⟩ | ⟨e, he, k', f, c', hek, hfc, _, rfl⟩ | ⟨c', hc', _, rfl⟩ | rfl
    · cases hc
    · cases hc
      obtain ⟨h1, h2⟩ := forcedCourseByClbid_ok hf hfc
      refine ⟨?_, hk.unlisted c ?_ hck⟩
      · cases f with
        | false => rfl
        | true => exact absurd (h1.symm.trans hck) (forcedInsert_ne hes he hk hek)
      · rcases h2 with h | h
        · exact Or.inl h
        · exact Or.inr (Or.inr ⟨_, h⟩)
    · cases hc
      exact ⟨rfl, hk.unlisted c (Or.inl (findCourses_spec hc').1) hck⟩
    · cases hc
  simp only [Node.exclusive, true_and]
  rcases courseAudit_claim ha with ⟨h1, rfl, _⟩ | ⟨c, hc, _, _, h1, h2⟩
  · rw [h1]
    simp only [Option.toList_none, ite_self]
    exact Counted.refl k _
  · rw [← h1, ← h2, hallow]
    cases hal : s.allowClaimed with
    | false =>
      simp only [if_true, Option.toList_some]
      exact makeClaim_counted_of (fun h => ⟨by simpa [hal] using (hsm c hc h).1, (hsm c hc h).2⟩)
    | true =>
      simp only [Bool.or_true, makeClaim, if_true]
      exact Counted.refl k _

theorem query_counted {x : Ctx} (hf : x.ForcedOk) {es : List Exc} (hes : x.exceptions = groupExceptions es)
    {o : Orders} (ho : o.Lawful)
    {k : String} (hk : Ordinary x es k) {d s r : QueryData} (hd : d.Loaded x) {t t' : ClaimTable}
    (hs : s ∈ (querySolutions x o d).items) (ha : queryAudit x s t = .ok (r, t')) :
    Counted k t (timesClaimed k (Node.query .result r).exclusive) t' := by
  have hfields : r.allowClaimed = s.allowClaimed ∧ r.attemptClaims = s.attemptClaims ∧ r.source = s.source := by
    unfold queryAudit at ha
    split at ha
    · obtain ⟨rfl, rfl⟩ := Prod.mk.inj (Except.ok.inj ha); exact ⟨rfl, rfl, rfl⟩
    · split at ha
      · cases ha
      · dsimp only at ha
        split at ha
        · cases ha
        · obtain ⟨rfl, rfl⟩ := Prod.mk.inj (Except.ok.inj ha); exact ⟨rfl, rfl, rfl⟩
  obtain ⟨e1, e2, e3⟩ := hfields
  simp only [Node.exclusive, true_and, e1, e2, e3]
  unfold queryAudit at ha
  split at ha
  · obtain ⟨rfl, rfl⟩ := Prod.mk.inj (Except.ok.inj ha)
    simp only [ite_self]
    exact Counted.refl k _
  rename_i hov
  split at ha
  · cases ha
  rename_i col t2 hcol
  dsimp only at ha
  split at ha
  · cases ha
  obtain ⟨rfl, rfl⟩ := Prod.mk.inj (Except.ok.inj ha)
  unfold collect at hcol
  split at hcol
  · rename_i hsrc
    unfold collectCourses at hcol
    split at hcol
    · cases hcol
    rename_i cs hcs
    split at hcol
    · rename_i hat
      have hcol' := Except.ok.inj hcol
      cases hal : s.allowClaimed with
      | true =>
        have := claimLoop_allowed (x := x) hal cs t {}
        rw [hcol'] at this
        simp only at this
        simp only [Bool.true_eq_false, false_and, if_false]
        rw [this]
        exact Counted.refl k _
      | false =>
        have := claimLoop_counted (x := x) (d := s) (k := k) (cs := cs) ?_ t {}
        · rw [hcol'] at this
          obtain ⟨a, h1, h2⟩ := this
          simp only [timesClaimed_nil, Nat.zero_add] at h1
          simp only [hat, hsrc, and_self, if_true, h1]
          exact h2
        · intro c hc hck
          rcases querySolutions_cases ho hs with ⟨h, rfl⟩ | ⟨_, f, hfil, out, rfl, hout, _⟩
          · have : cs = [] := by
              have h := itemCourses_eq hcs
              simp only [querySolution] at h
              simpa using h.symm
            subst this
            simp at hc
          · have hi : Item.course c ∈ f.data := by
              refine hout _ ?_
              have h := itemCourses_eq hcs
              simp only [querySolution] at h
              rw [h]
              exact List.mem_map_of_mem hc
            refine ⟨?_, hk.unlisted c (queryFiltered_known hf hfil c hi) hck⟩
            rw [hal, Bool.false_or]
            simp only [querySolution, hd.2.1, List.nil_append, List.contains_eq_mem, decide_eq_false_iff_not]
            intro hmem
            obtain ⟨_, _, h3⟩ := queryFiltered_spec hf hfil
            obtain ⟨e, he, hek⟩ := h3 _ hmem
            exact forcedInsert_ne hes he hk hek.1 hck
    · rename_i hat
      split at hcol
      · obtain ⟨rfl, rfl⟩ := Prod.mk.inj (Except.ok.inj hcol)
        rw [if_neg (fun h => hat h.2.1)]
        exact Counted.refl k _
      · obtain ⟨rfl, rfl⟩ := Prod.mk.inj (Except.ok.inj hcol)
        simp only [ite_self]
        exact Counted.refl k _
  · rename_i hsrc
    have : t2 = t := by
      unfold collectClaimed at hcol
      split at hcol
      · cases hcol
      dsimp only at hcol
      split at hcol
      · cases hcol
      split at hcol
      · cases hcol
      split at hcol
      · cases hcol
      exact (Prod.mk.inj (Except.ok.inj hcol)).2.symm
    subst this
    simp only [hsrc, reduceCtorEq, and_false, if_false]
    exact Counted.refl k _
  · obtain ⟨rfl, rfl⟩ := Prod.mk.inj (Except.ok.inj hcol)
    simp only [ite_self]
    exact Counted.refl k _

/-! ### Trees -/

mutual
/-- rules have not claimed anything -/
theorem Node.loaded_exclusive (x : Ctx) : ∀ n : Node, n.Loaded x → n.exclusive = []
  | .course s d, h => by
    simp only [Node.Loaded] at h
    rw [h.1]
    simp [Node.exclusive]
  | .query s d, h => by
    simp only [Node.Loaded] at h
    rw [h.1]
    simp [Node.exclusive]
  | .count s d items, h => by
    simp only [Node.Loaded] at h
    simp only [Node.exclusive]
    exact Node.loaded_exclusiveList x items h.2.2
  | .req s d r, h => by
    simp only [Node.Loaded] at h
    simp only [Node.exclusive]
    exact Node.loaded_exclusiveOpt x r h.2.2
  | .cond s d t f, h => by
    simp only [Node.Loaded] at h
    simp only [Node.exclusive, Node.loaded_exclusive x t h.2.2.1, Node.loaded_exclusiveOpt x f h.2.2.2, List.append_nil]
  | .prof s d c, h => by
    simp only [Node.Loaded] at h
    simp only [Node.exclusive]
    rcases c with _ | ⟨s', d'⟩
    · rfl
    · have := (h.2.2 _ rfl).1
      simp only at this
      rw [this]
      simp
theorem Node.loaded_exclusiveList (x : Ctx) : ∀ ns : List Node, Node.LoadedList x ns → Node.exclusiveList ns = []
  | [], _ => rfl
  | n :: ns, h => by
    simp only [Node.LoadedList] at h
    simp only [Node.exclusiveList, Node.loaded_exclusive x n h.1, Node.loaded_exclusiveList x ns h.2, List.append_nil]
theorem Node.loaded_exclusiveOpt (x : Ctx) : ∀ n : Option Node, Node.LoadedOpt x n → Node.exclusiveOpt n = []
  | none, _ => rfl
  | some n, h => by
    simp only [Node.LoadedOpt] at h
    exact Node.loaded_exclusive x n h
end

/-- what may be said of one audit after another -/
structure Accumulates (Q : ClaimTable → Nat → ClaimTable → Prop) : Prop where
  refl : ∀ t, Q t 0 t
  trans : ∀ {t1 t2 t3 a b}, Q t1 a t2 → Q t2 b t3 → Q t1 (a + b) t3

/-- auditing solutions of `n` does `Q` -/
def StepsBy (x : Ctx) (o : Orders) (k : String) (Q : ClaimTable → Nat → ClaimTable → Prop) (n : Node) : Prop :=
  ∀ s ∈ (n.solutions x o).items, ∀ t t' r, s.audit x o t = .ok (r, t') → Q t (timesClaimed k r.exclusive) t'

theorem auditList_steps {x : Ctx} {o : Orders} {k : String} {Q : ClaimTable → Nat → ClaimTable → Prop}
    (hQ : Accumulates Q) (base : Node → Nat) {l rs : List Node} {t t' : ClaimTable}
    (hl : ∀ n ∈ l, ∀ t t' r, n.audit x o t = .ok (r, t') →
      ∃ a, timesClaimed k r.exclusive = base n + a ∧ Q t a t')
    (h : Node.auditList x o l t = .ok (rs, t')) :
    ∃ a, timesClaimed k (Node.exclusiveList rs) = (l.map base).sum + a ∧ Q t a t' := by
  induction l generalizing rs t with
  | nil =>
    simp only [Node.auditList] at h
    obtain ⟨rfl, rfl⟩ := Prod.mk.inj (Except.ok.inj h)
    exact ⟨0, rfl, hQ.refl _⟩
  | cons n l ih =>
    simp only [Node.auditList] at h
    split at h
    · cases h
    · rename_i r t1 hr
      split at h
      · cases h
      · rename_i rs' t2 hrs
        obtain ⟨rfl, rfl⟩ := Prod.mk.inj (Except.ok.inj h)
        obtain ⟨a, h1, h2⟩ := hl n List.mem_cons_self _ _ _ hr
        obtain ⟨b, h3, h4⟩ := ih (fun n hn => hl n (List.mem_cons_of_mem _ hn)) hrs
        refine ⟨a + b, ?_, hQ.trans h2 h4⟩
        simp only [Node.exclusiveList, timesClaimed_append, List.map_cons, List.sum_cons]
        omega

theorem sum_map_zero {α : Type} (l : List α) : (l.map (fun _ => 0)).sum = 0 := by
  induction l <;> simp_all

/-- a count whose items are solutions that do `Q`, or rules -/
theorem count_steps {x : Ctx} {o : Orders} {k : String} {Q : ClaimTable → Nat → ClaimTable → Prop}
    (hQ : Accumulates Q) {d : CountData} {l : List Node} {t t' : ClaimTable} {r : Node}
    (h : (Node.count .solution d l).audit x o t = .ok (r, t'))
    (hov : d.overridden = true → ∀ n ∈ l, n.Loaded x)
    (hl : ∀ n ∈ l, n.Loaded x ∨ ∀ t t' r, n.audit x o t = .ok (r, t') → Q t (timesClaimed k r.exclusive) t') :
    Q t (timesClaimed k r.exclusive) t' := by
  rcases Node.audit_count h with ⟨h1, rfl, rfl⟩ | ⟨_, rs, as, hrs, _, rfl⟩
  · simp only [Node.exclusive]
    rw [Node.loaded_exclusiveList x l (Node.loadedList_iff.2 (hov h1))]
    exact hQ.refl _
  · simp only [Node.exclusive]
    have key : ∀ n ∈ l, ∀ t t' r, n.audit x o t = .ok (r, t') →
        ∃ a, timesClaimed k r.exclusive = 0 + a ∧ Q t a t' := by
      intro n hn t t' r ha
      rcases hl n hn with hl | hl
      · rw [Node.audit_of_not_solution (by rw [Node.loaded_stage hl]; decide)] at ha
        obtain ⟨rfl, rfl⟩ := Prod.mk.inj (Except.ok.inj ha)
        exact ⟨0, by rw [Node.loaded_exclusive x _ hl]; rfl, hQ.refl _⟩
      · exact ⟨_, (Nat.zero_add _).symm, hl _ _ _ ha⟩
    obtain ⟨a, h1, h2⟩ := auditList_steps hQ (fun _ => 0) key hrs
    rw [h1, sum_map_zero, Nat.zero_add]
    exact h2

theorem plainCount_steps {x : Ctx} {o : Orders} {k : String} {Q : ClaimTable → Nat → ClaimTable → Prop}
    (hQ : Accumulates Q) {d : CountData} {items : List Node}
    (hload : Node.LoadedList x items) (ih : ∀ n ∈ items, StepsBy x o k Q n)
    {s : Node} (hs : s ∈ (plainCountSolutions x d items (Node.solutionsList x o items)).items)
    {t t' : ClaimTable} {r : Node} (ha : s.audit x o t = .ok (r, t')) : Q t (timesClaimed k r.exclusive) t' := by
  have hl := Node.loadedList_iff.1 hload
  unfold plainCountSolutions at hs
  split at hs
  · simp only [Gen.one, List.mem_singleton] at hs
    subst hs
    exact count_steps hQ ha (fun _ => hl) (fun n hn => Or.inl (hl n hn))
  · split at hs
    · simp [Gen.raise] at hs
    · rename_i pot hpot
      split at hs
      · simp [Gen.raise] at hs
      · rename_i sorted hsorted
        obtain ⟨l, rfl, hitems⟩ := countSolutions_items hs
        refine count_steps hQ ha (fun h => by cases h) (fun n hn => ?_)
        rcases hitems n hn with ⟨p, hp, hi⟩ | hn' | hn'
        · have hp' := (mem_filterE hpot).1.subset ((sortByPath_perm hsorted).mem_iff.1 hp)
          obtain ⟨h1, h2⟩ := mem_solutionsList hp'
          rw [h2] at hi
          exact Or.inr (ih p.1 h1 n hi)
        · exact Or.inl (hl n hn')
        · simp at hn'

mutual
/-- If auditing the leaves in use does `Q`, then auditing the tree does. -/
theorem Node.steps_of_live {x : Ctx} {o : Orders} {k : String} {Q : ClaimTable → Nat → ClaimTable → Prop}
    (hQ : Accumulates Q) : ∀ n : Node, n.Loaded x →
    (∀ leaf ∈ n.liveLeaves, StepsBy x o k Q leaf) → StepsBy x o k Q n
  | .course s d, _, h => h _ (by simp [Node.liveLeaves])
  | .query s d, _, h => h _ (by simp [Node.liveLeaves])
  | .count s d items, hl, h => by
    simp only [Node.Loaded] at hl
    simp only [Node.liveLeaves] at h
    intro s hs t t' r ha
    simp only [Node.solutions] at hs
    exact plainCount_steps hQ hl.2.2 (Node.steps_of_liveList hQ items hl.2.2 h) hs ha
  | .req s d child, hl, h => by
    simp only [Node.Loaded] at hl
    simp only [Node.liveLeaves] at h
    intro s hs t t' r ha
    simp only [Node.solutions] at hs
    split at hs
    · simp only [Gen.one, List.mem_singleton] at hs
      subst hs
      simp only [reqSolution, Node.audit, if_true] at ha
      obtain ⟨rfl, rfl⟩ := Prod.mk.inj (Except.ok.inj ha)
      simp only [Node.exclusive, Node.loaded_exclusiveOpt x _ hl.2.2, timesClaimed_nil]
      exact hQ.refl _
    · split at hs
      · simp only [Gen.one, List.mem_singleton] at hs
        subst hs
        simp only [reqSolution, Node.audit, Bool.false_eq_true, if_false, Node.auditOpt] at ha
        obtain ⟨rfl, rfl⟩ := Prod.mk.inj (Except.ok.inj ha)
        simp only [Node.exclusive, Node.exclusiveOpt, timesClaimed_nil]
        exact hQ.refl _
      · rename_i g hg
        obtain ⟨s', hs', rfl⟩ := Gen.mem_map.1 hs
        simp only [reqSolution, Node.audit, Bool.false_eq_true, if_false, Node.auditOpt] at ha
        split at ha
        · cases ha
        · rename_i r' t2 hr'
          obtain ⟨rfl, rfl⟩ := Prod.mk.inj (Except.ok.inj ha)
          split at hr'
          · cases hr'
          · rename_i r'' t3 hr''
            obtain ⟨rfl, rfl⟩ := Prod.mk.inj (Except.ok.inj hr')
            simp only [Node.exclusive, Node.exclusiveOpt]
            exact Node.steps_of_liveOpt hQ child hl.2.2 h g hg s' hs' _ _ _ hr''
  | .cond s d th f, hl, h => by
    simp only [Node.Loaded] at hl
    simp only [Node.liveLeaves] at h
    intro s hs t t' r ha
    simp only [Node.solutions] at hs
    split at hs
    · rename_i hc
      rw [hc] at h
      obtain ⟨s', hs', rfl⟩ := Gen.mem_map.1 hs
      simp only [Node.audit, hc] at ha
      split at ha
      · cases ha
      · rename_i r' t2 hr'
        obtain ⟨rfl, rfl⟩ := Prod.mk.inj (Except.ok.inj ha)
        simp only [Node.exclusive, Node.loaded_exclusiveOpt x _ hl.2.2.2, List.append_nil]
        exact Node.steps_of_live hQ th hl.2.2.1 h s' hs' _ _ _ hr'
    · rename_i hc
      rw [hc] at h
      split at hs
      · rename_i g hg
        obtain ⟨s', hs', rfl⟩ := Gen.mem_map.1 hs
        simp only [Node.audit, hc, Node.auditOpt] at ha
        split at ha
        · cases ha
        · rename_i r' t2 hr'
          obtain ⟨rfl, rfl⟩ := Prod.mk.inj (Except.ok.inj ha)
          split at hr'
          · cases hr'
          · rename_i r'' t3 hr''
            obtain ⟨rfl, rfl⟩ := Prod.mk.inj (Except.ok.inj hr')
            simp only [Node.exclusive, Node.loaded_exclusive x _ hl.2.2.1, List.nil_append, Node.exclusiveOpt]
            exact Node.steps_of_liveOpt hQ f hl.2.2.2 h g hg s' hs' _ _ _ hr''
      · simp [Gen.nil] at hs
    · simp [Gen.nil] at hs
  | .prof s d c, hl, h => by
    simp only [Node.Loaded] at hl
    simp only [Node.liveLeaves] at h
    intro s hs t t' r ha
    simp only [Node.solutions, profSolutions] at hs
    split at hs
    · simp only [Gen.one, List.mem_singleton] at hs
      subst hs
      simp only [Node.audit, profAudit, if_true] at ha
      obtain ⟨rfl, rfl⟩ := Prod.mk.inj (Except.ok.inj ha)
      rcases c with _ | ⟨s', d'⟩
      · simp only [Node.exclusive, timesClaimed_nil]
        exact hQ.refl _
      · have := (hl.2.2 _ rfl).1
        simp only at this
        simp only [Node.exclusive, this, reduceCtorEq, false_and, if_false, timesClaimed_nil]
        exact hQ.refl _
    · split at hs
      · simp only [Gen.one, List.mem_singleton] at hs
        subst hs
        simp only [Node.audit, profAudit, Bool.false_eq_true, if_false] at ha
        split at ha
        · cases ha
        · obtain ⟨rfl, rfl⟩ := Prod.mk.inj (Except.ok.inj ha)
          simp only [Node.exclusive, timesClaimed_nil]
          exact hQ.refl _
      · rename_i st cd
        split at hs
        · rename_i s0 rest hitems
          simp only [Gen.one, List.mem_singleton] at hs
          subst hs
          simp only [Node.audit, profAudit, Bool.false_eq_true, if_false] at ha
          split at ha
          · cases ha
          · split at ha
            · cases ha
            · rename_i cd' t2 hca
              obtain ⟨rfl, rfl⟩ := Prod.mk.inj (Except.ok.inj ha)
              have := h (.course st cd) (by simp) (.course .solution s0) ?_ t t2 (.course .result cd') ?_
              · simpa only [Node.exclusive] using this
              · simp only [Node.solutions]
                exact Gen.mem_map.2 ⟨s0, by rw [hitems]; exact List.mem_cons_self, rfl⟩
              · simp [Node.audit, hca]
        · simp [Gen.raise] at hs
theorem Node.steps_of_liveList {x : Ctx} {o : Orders} {k : String} {Q : ClaimTable → Nat → ClaimTable → Prop}
    (hQ : Accumulates Q) : ∀ ns : List Node,
    Node.LoadedList x ns → (∀ leaf ∈ Node.liveLeavesList ns, StepsBy x o k Q leaf) →
    ∀ n ∈ ns, StepsBy x o k Q n
  | [], _, _ => by simp
  | n :: ns, hl, h => by
    simp only [Node.LoadedList] at hl
    simp only [Node.liveLeavesList, List.mem_append] at h
    intro n' hn'
    rcases List.mem_cons.1 hn' with he | hn'
    · rw [he]
      exact Node.steps_of_live hQ n hl.1 (fun l hl => h l (Or.inl hl))
    · exact Node.steps_of_liveList hQ ns hl.2 (fun l hl => h l (Or.inr hl)) n' hn'
theorem Node.steps_of_liveOpt {x : Ctx} {o : Orders} {k : String} {Q : ClaimTable → Nat → ClaimTable → Prop}
    (hQ : Accumulates Q) : ∀ n : Option Node,
    Node.LoadedOpt x n → (∀ leaf ∈ Node.liveLeavesOpt n, StepsBy x o k Q leaf) →
    ∀ g, Node.solutionsOpt x o n = some g → ∀ s ∈ g.items, ∀ t t' r, s.audit x o t = .ok (r, t') →
      Q t (timesClaimed k r.exclusive) t'
  | none, _, _ => by
    intro g hg
    cases hg
  | some n, hl, h => by
    simp only [Node.LoadedOpt] at hl
    simp only [Node.liveLeavesOpt] at h
    intro g hg s hs
    simp only [Node.solutionsOpt, Option.some.injEq] at hg
    subst hg
    exact Node.steps_of_live hQ n hl h s hs
end

theorem Counted.accumulates (k : String) : Accumulates (Counted k) := ⟨Counted.refl k, Counted.trans⟩

/-- Auditing a solution of a loaded rule: the claims recorded on an ordinary class are what
the table gains. -/
theorem Node.counted {x : Ctx} (hf : x.ForcedOk) {es : List Exc} (hes : x.exceptions = groupExceptions es)
    {o : Orders} (ho : o.Lawful) {k : String} (hk : Ordinary x es k) {n : Node} (hn : n.Loaded x) :
    StepsBy x o k (Counted k) n := by
  refine Node.steps_of_live (Counted.accumulates k) n hn ?_
  intro leaf hleaf s hs t t' r ha
  have hleaf' := Node.liveLeaves_subset n hleaf
  have hl := Node.leaves_loaded n hn leaf hleaf'
  rcases Node.leaves_kind n leaf hleaf' with ⟨st, d, rfl⟩ | ⟨st, d, rfl⟩
  · simp only [Node.solutions] at hs
    obtain ⟨sd, hsd, rfl⟩ := Gen.mem_map.1 hs
    simp only [Node.audit] at ha
    split at ha
    · cases ha
    · rename_i rd t2 hca
      obtain ⟨rfl, rfl⟩ := Prod.mk.inj (Except.ok.inj ha)
      exact course_counted hf hes hk hsd hca
  · simp only [Node.solutions] at hs
    obtain ⟨sd, hsd, rfl⟩ := Gen.mem_map.1 hs
    simp only [Node.Loaded] at hl
    simp only [Node.audit] at ha
    split at ha
    · cases ha
    · rename_i rd t2 hca
      obtain ⟨rfl, rfl⟩ := Prod.mk.inj (Except.ok.inj ha)
      exact query_counted hf hes ho hk hl.2 hsd hca

/-- **C37 for rules solved as a whole** (every child of an area's topmost rule that is solved
on its own, every rule common to all majors, every area whose topmost rule is not a
count): one audited solution counts an ordinary class at most once, over all rules of the
tree that do not allow claimed courses, whatever has been claimed before; and not at
all if it has been claimed before. -/
theorem C37_rule_at_most_once (x : Ctx) (hf : x.ForcedOk) (es : List Exc) (hes : x.exceptions = groupExceptions es)
    (o : Orders) (ho : o.Lawful) (k : String) (hk : Ordinary x es k) (n : Node) (hn : n.Loaded x)
    (s r : Node) (t t' : ClaimTable) (ht : t.Good) (hs : s ∈ (n.solutions x o).items)
    (ha : s.audit x o t = .ok (r, t')) :
    timesClaimed k r.exclusive ≤ 1 ∧ (t.get k ≠ [] → timesClaimed k r.exclusive = 0) := by
  obtain ⟨_, h2, h3⟩ := Node.counted hf hes ho hk hn s hs t t' r ha ht
  refine ⟨by omega, fun hne => ?_⟩
  have := List.length_pos_iff.2 hne
  omega

/-! ### The topmost rule -/

/-- a rule that claims courses for itself -/
def Node.ClaimsForItself : Node → Prop
  | .course _ d => d.allowClaimed = false
  | .query _ d => d.allowClaimed = false ∧ d.attemptClaims = true ∧ d.source = .courses
  | _ => False

/-- `CourseRule.load` and `QueryRule.load` let rules over claimed courses share them,
`dp/rule/course.py:74-78` and `dp/rule/query.py:54-60`. -/
def Node.LoadedFlags : Node → Prop
  | .course _ d => d.fromClaimed = true → d.allowClaimed = true
  | _ => True

theorem leaf_exclusive {x : Ctx} (hf : x.ForcedOk) {es : List Exc} (hes : x.exceptions = groupExceptions es)
    {o : Orders} (ho : o.Lawful) {n leaf : Node} (hn : leaf ∈ n.leaves) (hl : leaf.Loaded x) (hfl : leaf.LoadedFlags)
    {s r : Node} {t t' : ClaimTable} (hs : s ∈ (leaf.solutions x o).items) (ha : s.audit x o t = .ok (r, t'))
    {cl : Claim} (hcl : cl ∈ r.exclusive) (hfail : cl.failed = false) :
    leaf.ClaimsForItself ∧ CanUse x es leaf cl.course ∧ x.Knows cl.course := by
  have hcl' : cl ∈ r.claims ∧ leaf.ClaimsForItself ∧ x.Knows cl.course := by
    rcases Node.leaves_kind n leaf hn with ⟨st, d, rfl⟩ | ⟨st, d, rfl⟩
    · simp only [Node.solutions] at hs
      obtain ⟨sd, hsd, rfl⟩ := Gen.mem_map.1 hs
      simp only [Node.audit] at ha
      split at ha
      · cases ha
      rename_i rd t2 hca
      obtain ⟨rfl, rfl⟩ := Prod.mk.inj (Except.ok.inj ha)
      have hallow : rd.allowClaimed = sd.allowClaimed := by
        unfold courseAudit at hca
        dsimp only at hca
        repeat' split at hca
        all_goals first
          | cases hca; done
          | (obtain ⟨rfl, rfl⟩ := Prod.mk.inj (Except.ok.inj hca); rfl)
      simp only [Node.exclusive, true_and] at hcl
      split at hcl
      · rename_i hal
        rw [Option.mem_toList] at hcl
        refine ⟨?_, ?_, ?_⟩
        · simp [Node.claims, courseClaims, hcl, hfail]
        · rw [hallow] at hal
          rcases courseSolutions_cases hsd with ⟨rfl, _⟩ | ⟨e, he, k', f, c', hek, hfc, _, rfl⟩ | ⟨c', hc', _, rfl⟩ | rfl <;>
            exact hal
        · rcases courseAudit_claim hca with ⟨h1, _⟩ | ⟨c, hc, _, _, h1, _⟩
          · rw [h1] at hcl; cases hcl
          · rw [← h1] at hcl
            obtain ⟨e1, _⟩ := makeClaim_course x.multicountable t c sd.path (sd.forced || sd.allowClaimed)
            cases hcl
            rw [e1]
            rcases courseSolutions_cases hsd with ⟨rfl, _⟩ | ⟨e, he, k', f, c', hek, hfc, _, rfl⟩ | ⟨c', hc', _, rfl⟩ | rfl
            · cases hc
            · cases hc
              rcases (forcedCourseByClbid_ok hf hfc).2 with h | h
              · exact Or.inl h
              · exact Or.inr (Or.inr ⟨_, h⟩)
            · cases hc
              exact Or.inl (findCourses_spec hc').1
            · cases hc
      · simp at hcl
    · simp only [Node.solutions] at hs
      obtain ⟨sd, hsd, rfl⟩ := Gen.mem_map.1 hs
      simp only [Node.audit] at ha
      split at ha
      · cases ha
      rename_i rd t2 hqa
      obtain ⟨rfl, rfl⟩ := Prod.mk.inj (Except.ok.inj ha)
      simp only [Node.exclusive, true_and] at hcl
      split at hcl
      · rename_i hflags
        refine ⟨by simpa [Node.claims, queryClaims] using hcl, ?_⟩
        unfold queryAudit at hqa
        split at hqa
        · obtain ⟨rfl, rfl⟩ := Prod.mk.inj (Except.ok.inj hqa)
          simp at hcl
        split at hqa
        · cases hqa
        rename_i col t3 hcol
        dsimp only at hqa
        split at hqa
        · cases hqa
        obtain ⟨rfl, rfl⟩ := Prod.mk.inj (Except.ok.inj hqa)
        dsimp only at hflags hcl
        unfold collect at hcol
        rw [hflags.2.2] at hcol
        simp only [collectCourses, hflags.2.1, if_true] at hcol
        split at hcol
        · cases hcol
        rename_i cs hcs
        have hcol' := Except.ok.inj hcol
        obtain ⟨l, h1, h2, _⟩ := claimLoop_spec x sd cs t {}
        rw [hcol'] at h1
        simp only [List.nil_append] at h1
        rw [h1] at hcl
        have hin : cl.course ∈ cs := h2.subset (List.mem_map_of_mem hcl)
        rcases querySolutions_cases ho hsd with ⟨_, rfl⟩ | ⟨_, f, hfil, out, rfl, hout, _⟩
        · have : cs = [] := by
            have h := itemCourses_eq hcs
            simp only [querySolution] at h
            simpa using h.symm
          subst this
          simp at hin
        · refine ⟨hflags, queryFiltered_known hf hfil _ (hout _ ?_)⟩
          have h := itemCourses_eq hcs
          simp only [querySolution] at h
          rw [h]
          exact List.mem_map_of_mem hin
      · simp at hcl
  obtain ⟨h1, h2, h3⟩ := hcl'
  refine ⟨h2, ?_, h3⟩
  obtain ⟨_, _, g3, g4⟩ := leaf_claims hf hes ho hn hl ⟨s, hs, t, t', r, ha, h1⟩
  rcases Node.leaves_kind n leaf hn with ⟨st, d, rfl⟩ | ⟨st, d, rfl⟩
  · refine ⟨g3, ?_⟩
    rcases g4 with g4 | g4
    · refine Or.inl ⟨?_, g4⟩
      simp only [Node.ClaimsForItself] at h2
      cases hfc : d.fromClaimed with
      | false => rfl
      | true => rw [hfl hfc] at h2; cases h2
    · exact Or.inr g4
  · refine ⟨g3, h2.2.2, ?_⟩
    rcases g4 with ⟨⟨t0, g4⟩, g5⟩ | g4
    · left
      simp only [InSource, h2.2.2] at g4
      exact ⟨g4, g5⟩
    · exact Or.inr g4

/-- The class of the course `c0` is known by that course only. -/
def Ctx.OneCourse (x : Ctx) (c0 : Course) : Prop := ∀ c, x.Knows c → c.clbid = c0.clbid → c = c0

/-- Some rule in use in the tree claims for itself and can use `c0`. -/
def Node.Wants (x : Ctx) (es : List Exc) (c0 : Course) (n : Node) : Prop :=
  ∃ leaf ∈ n.liveLeaves, leaf.ClaimsForItself ∧ CanUse x es leaf c0

theorem Node.wants_of_claimed {x : Ctx} (hf : x.ForcedOk) {es : List Exc} (hes : x.exceptions = groupExceptions es)
    {o : Orders} (ho : o.Lawful) {c0 : Course} (h0 : x.OneCourse c0) {n : Node} (hn : n.Loaded x)
    (hfl : ∀ l ∈ n.liveLeaves, l.LoadedFlags) :
    StepsBy x o c0.clbid (fun _ a _ => a ≠ 0 → n.Wants x es c0) n := by
  refine Node.steps_of_live ⟨fun _ h => absurd rfl h, fun {_ _ _ a b} h1 h2 h => ?_⟩ n hn ?_
  · by_cases ha : a = 0
    · exact h2 (by omega)
    · exact h1 ha
  · intro leaf hleaf s hs t t' r ha hpos
    obtain ⟨cl, hcl, hfail, hk⟩ := timesClaimed_pos hpos
    have hleaf' := Node.liveLeaves_subset n hleaf
    obtain ⟨h1, h2, h3⟩ := leaf_exclusive hf hes ho hleaf' (Node.leaves_loaded n hn leaf hleaf') (hfl leaf hleaf)
      hs ha hcl hfail
    rw [h0 _ h3 hk] at h2
    exact ⟨leaf, hleaf, h1, h2⟩

theorem findIndependent_paths {x : Ctx} {items a b : List Node} (h : findIndependent x items = .ok (a, b))
    {i j : Node} (hi : i ∈ a) (hj : j ∈ b) : i.path ≠ j.path := by
  unfold findIndependent at h
  split at h
  · cases h
  · split at h
    · obtain ⟨rfl, rfl⟩ := Prod.mk.inj (Except.ok.inj h)
      simp at hj
    · dsimp only at h
      obtain ⟨rfl, rfl⟩ := Prod.mk.inj (Except.ok.inj h)
      intro he
      have h1 := (List.mem_filter.1 hi).2
      have h2 := (List.mem_filter.1 hj).2
      rw [he] at h1
      rw [h2] at h1
      cases h1

theorem sum_eq_zero {l : List Nat} (h : ∀ n ∈ l, n = 0) : l.sum = 0 := by
  induction l with
  | nil => rfl
  | cons a l ih =>
    rw [List.sum_cons, h a List.mem_cons_self, ih (fun n hn => h n (List.mem_cons_of_mem _ hn))]

theorem sum_perm {l l' : List Nat} (h : l.Perm l') : l.sum = l'.sum := by
  induction h with
  | nil => rfl
  | cons a _ ih => simp [ih]
  | swap a b l => simp only [List.sum_cons]; omega
  | trans _ _ h1 h2 => rw [h1, h2]

theorem sum_le_one {α : Type} (f : α → Nat) : ∀ l : List α, (∀ a ∈ l, f a ≤ 1) →
    l.Pairwise (fun a b => f a = 0 ∨ f b = 0) → (l.map f).sum ≤ 1
  | [], _, _ => by simp
  | a :: l, h, hp => by
    rw [List.pairwise_cons] at hp
    have ih := sum_le_one f l (fun b hb => h b (List.mem_cons_of_mem _ hb)) hp.2
    simp only [List.map_cons, List.sum_cons]
    by_cases ha : f a = 0
    · omega
    · have : (l.map f).sum = 0 := by
        apply sum_eq_zero
        intro n hn
        obtain ⟨b, hb, rfl⟩ := List.mem_map.1 hn
        rcases hp.1 b hb with h | h
        · exact absurd h ha
        · exact h
      have := h a List.mem_cons_self
      omega

/-- the claims an item already has when the count is audited -/
def Node.already (k : String) (n : Node) : Nat := if n.stage = .result then timesClaimed k n.exclusive else 0

/-- The children that the flags `disjoint: true` take out of the comparison share what they
use. -/
def HonestFlags (items : List Node) : Prop :=
  ∀ i ∈ items, i.alwaysDisjoint = true → ∀ leaf ∈ i.liveLeaves, ¬ leaf.ClaimsForItself

theorem topCount_at_most_once {x : Ctx} (hf : x.ForcedOk) (hx : (x.transcript.map (·.clbid)).Nodup)
    {es : List Exc} (hes : x.exceptions = groupExceptions es)
    {o : Orders} (ho : o.Lawful) {c0 : Course} (hc0 : c0 ∈ x.transcript) (h0 : x.OneCourse c0)
    (hk : Ordinary x es c0.clbid) {d : CountData} {items : List Node} (hl : Node.LoadedList x items)
    (hfl : ∀ l ∈ Node.liveLeavesList items, l.LoadedFlags) (hnd : (items.map Node.path).Nodup)
    (hflags : HonestFlags items) {t0 : ClaimTable} {s r : Node} {t t' : ClaimTable} (ht : t.Good)
    (hs : s ∈ (topCountSolutions x o d items t0).1.items) (ha : s.audit x o t = .ok (r, t')) :
    timesClaimed c0.clbid r.exclusive ≤ 1 := by
  have hload := Node.loadedList_iff.1 hl
  have hcounted : ∀ n ∈ items, StepsBy x o c0.clbid (Counted c0.clbid) n := fun n hn =>
    Node.counted hf hes ho hk (hload n hn)
  have hle : ∀ {a t t'}, Counted c0.clbid t a t' → t.Good → a ≤ 1 := by
    intro a t t' h ht
    obtain ⟨_, h1, h2⟩ := h ht
    omega
  have hfl' : ∀ n ∈ items, ∀ l ∈ n.liveLeaves, l.LoadedFlags := by
    intro n hn l hl
    refine hfl l ?_
    clear * - hn hl
    induction items with
    | nil => simp at hn
    | cons i is ih =>
      simp only [Node.liveLeavesList, List.mem_append]
      rcases List.mem_cons.1 hn with rfl | hn
      · exact Or.inl hl
      · exact Or.inr (ih hn)
  have hQ := Counted.accumulates c0.clbid
  unfold topCountSolutions at hs
  split at hs
  · simp only [Gen.one, List.mem_singleton] at hs
    subst hs
    exact hle (count_steps hQ ha (fun _ => hload) (fun n hn => Or.inl (hload n hn))) ht
  split at hs
  · simp [Gen.raise] at hs
  rename_i pot hpot
  split at hs
  · exact hle (plainCount_steps hQ hl hcounted hs ha) ht
  split at hs
  · simp [Gen.raise] at hs
  rename_i indep codep hind
  split at hs
  · simp [Gen.raise] at hs
  rename_i solved t1 hsolved
  split at hs
  · simp [Gen.raise] at hs
  rename_i results hresults
  dsimp only at hs
  split at hs
  · simp [Gen.raise] at hs
  rename_i sorted hsorted
  have hsub := (mem_filterE hpot).1
  obtain ⟨hi, hc⟩ := findIndependent_subset hind
  obtain ⟨hsolvedFst, hsolvedMem⟩ := solveIndependent_mem hsolved
  have hfst : ∀ p ∈ solved, p.1 ∈ indep := by
    intro p hp
    have : p.1 ∈ o.children indep := by rw [← hsolvedFst]; exact List.mem_map_of_mem hp
    exact (ho.2.2 indep).mem_iff.1 this
  -- the children that want the course
  have hclash : ∀ a ∈ indep, ∀ b ∈ pot, a.path ≠ b.path → a.Wants x es c0 → b.Wants x es c0 → False := by
    intro a ha b hb hab ⟨la, hla, hca, hua⟩ ⟨lb, hlb, hcb, hub⟩
    have hflag : a.alwaysDisjoint = false := by
      cases h : a.alwaysDisjoint with
      | false => rfl
      | true => exact absurd hca (hflags a (hsub.subset (hi.subset ha)) h la hla)
    exact C24_no_shared_course_partial x hx es hes pot indep codep hind a b ha hb hab (Or.inl hflag) c0 hc0
      ⟨⟨la, hla, hua⟩, lb, hlb, hub⟩
  -- what the solved children have claimed
  let f : Node × Option Node → Nat := fun p => match p.2 with
    | none => 0
    | some r => Node.already c0.clbid r
  have hfspec : ∀ p ∈ solved, f p ≤ 1 ∧ (f p ≠ 0 → p.1.Wants x es c0) := by
    intro p hp
    show (match p.2 with | none => 0 | some r => Node.already c0.clbid r) ≤ 1 ∧
      ((match p.2 with | none => 0 | some r => Node.already c0.clbid r) ≠ 0 → _)
    cases hp2 : p.2 with
    | none => simp
    | some r =>
      obtain ⟨s', hs', t3, hr⟩ := hsolvedMem p hp r hp2
      have hpi := hsub.subset (hi.subset (hfst p hp))
      have hstage := Node.audit_stage (Node.solutions_stage hs') hr
      simp only [Node.already, hstage, if_true]
      exact ⟨hle (hcounted p.1 hpi s' hs' _ _ _ hr) ClaimTable.good_nil,
        Node.wants_of_claimed hf hes ho h0 (hload _ hpi) (hfl' _ hpi) s' hs' _ _ _ hr⟩
  have hsolvedNd : (solved.map (fun p => p.1.path)).Nodup := by
    have h1 : ((o.children indep).map Node.path).Nodup :=
      (((ho.2.2 indep).map _).nodup_iff).2 (hnd.sublist ((hi.trans hsub).map _))
    rw [← hsolvedFst, List.map_map] at h1
    exact h1
  have hpair : solved.Pairwise (fun p q => f p = 0 ∨ f q = 0) := by
    have h1 : solved.Pairwise (fun p q : Node × Option Node => p.1.path ≠ q.1.path) := by
      have := hsolvedNd
      unfold List.Nodup at this
      rwa [List.pairwise_map] at this
    refine h1.imp_of_mem ?_
    intro p q hp hq hne
    by_contra hcon
    rw [not_or] at hcon
    exact hclash p.1 (hfst p hp) q.1 (hi.subset (hfst q hq)) hne ((hfspec p hp).2 hcon.1) ((hfspec q hq).2 hcon.2)
  have hresSum : (results.map (Node.already c0.clbid)).sum = (solved.map f).sum := by
    rw [sum_perm ((sortByPath_perm hresults).map _)]
    clear * -
    induction solved with
    | nil => rfl
    | cons p l ih =>
      rcases p with ⟨n, _ | r⟩
      · simpa [f] using ih
      · simpa [f] using ih
  have hsolvedLe : (solved.map f).sum ≤ 1 := sum_le_one f solved (fun p hp => (hfspec p hp).1) hpair
  -- the items of the solution
  have hitems : ∃ l, s = .count .solution { d with overridden := false } l ∧
      (l.map (Node.already c0.clbid)).sum = (results.map (Node.already c0.clbid)).sum ∧
      ∀ i ∈ l, (∃ n ∈ codep, i ∈ (n.solutions x o).items) ∨ i ∈ items ∨ i ∈ results := by
    have hz1 : ∀ n ∈ items, Node.already c0.clbid n = 0 := by
      intro n hn
      simp [Node.already, Node.loaded_stage (hload n hn)]
    have hz2 : ∀ n i, i ∈ (Node.solutions x o n).items → Node.already c0.clbid i = 0 := by
      intro n i h
      simp [Node.already, Node.solutions_stage h]
    have hzero : ∀ l : List Node, (∀ n ∈ l, Node.already c0.clbid n = 0) → (l.map (Node.already c0.clbid)).sum = 0 := by
      intro l hl
      apply sum_eq_zero
      intro n hn
      obtain ⟨m, hm, rfl⟩ := List.mem_map.1 hn
      exact hl m hm
    obtain ⟨l, hsl, hlm⟩ := countSolutions_items hs
    refine ⟨l, hsl, ?_, ?_⟩
    · rcases countSolutions_mem hs with ⟨selected, sols, h1, _, h3, h4⟩ | h4
      · obtain ⟨l', hl', he⟩ := countSolution_mem h4
        have : l = l' := by rw [hsl] at he; injection he
        subst this
        rw [sum_perm ((sortByPath_perm hl').map _), List.map_append, List.map_append, List.sum_append, List.sum_append,
          hzero sols ?_, hzero (List.filter _ _) ?_, Nat.zero_add]
        · intro n hn
          exact hz1 n (List.mem_of_mem_filter (List.mem_of_mem_filter hn))
        · intro n hn
          obtain ⟨p, hp, hin⟩ := forall₂_mem_left h3 hn
          obtain ⟨m, _, rfl⟩ := List.mem_map.1 (h1.subset hp)
          exact hz2 m n hin
      · obtain ⟨l', hl', he⟩ := countSolution_mem h4
        have : l = l' := by rw [hsl] at he; injection he
        subst this
        rw [sum_perm ((sortByPath_perm hl').map _), List.map_append, List.sum_append,
          hzero (List.filter _ _) ?_, Nat.zero_add]
        intro n hn
        exact hz1 n (List.mem_of_mem_filter hn)
    · intro i hi'
      rcases hlm i hi' with ⟨p, hp, hin⟩ | h | h
      · obtain ⟨m, hm, rfl⟩ := List.mem_map.1 hp
        exact Or.inl ⟨m, (sortByPath_perm hsorted).mem_iff.1 hm, hin⟩
      · exact Or.inr (Or.inl (List.mem_of_mem_filter h))
      · exact Or.inr (Or.inr h)
  obtain ⟨l, rfl, hlsum, hl'⟩ := hitems
  rcases Node.audit_count ha with ⟨h1, _⟩ | ⟨_, rs, as, hrs, _, rfl⟩
  · cases h1
  have hbase : ∀ (Q : ClaimTable → Nat → ClaimTable → Prop), Accumulates Q → (∀ n ∈ codep, StepsBy x o c0.clbid Q n) →
      ∀ n ∈ l, ∀ t t' r, n.audit x o t = .ok (r, t') →
        ∃ a, timesClaimed c0.clbid r.exclusive = Node.already c0.clbid n + a ∧ Q t a t' := by
    intro Q hQ hcod n hn t t' r ha
    rcases hl' n hn with ⟨m, hm, hin⟩ | hn' | hn'
    · refine ⟨_, ?_, hcod m hm n hin t t' r ha⟩
      simp [Node.already, Node.solutions_stage hin]
    · have hln := hload n hn'
      rw [Node.audit_of_not_solution (by rw [Node.loaded_stage hln]; decide)] at ha
      obtain ⟨rfl, rfl⟩ := Prod.mk.inj (Except.ok.inj ha)
      refine ⟨0, ?_, hQ.refl _⟩
      rw [Node.loaded_exclusive x _ hln]
      simp [Node.already, Node.loaded_stage hln, timesClaimed_nil]
    · have hn'' := (sortByPath_perm hresults).mem_iff.1 hn'
      obtain ⟨p, hp, hpr⟩ := List.mem_filterMap.1 hn''
      obtain ⟨s', hs', t3, hs''⟩ := hsolvedMem p hp n hpr
      have hstage := Node.audit_stage (Node.solutions_stage hs') hs''
      rw [Node.audit_of_not_solution (by rw [hstage]; decide)] at ha
      obtain ⟨rfl, rfl⟩ := Prod.mk.inj (Except.ok.inj ha)
      exact ⟨0, by simp [Node.already, hstage], hQ.refl _⟩
  simp only [Node.exclusive]
  obtain ⟨a, h1, h2⟩ := auditList_steps hQ _
    (hbase _ hQ (fun n hn => hcounted n (hsub.subset (hc.subset hn)))) hrs
  have ha1 := hle h2 ht
  rw [hlsum, hresSum] at h1
  by_cases hz : (solved.map f).sum = 0
  · omega
  · -- a solved child has claimed the course: no other one wants it
    have : ∃ p ∈ solved, f p ≠ 0 := by
      by_contra hno
      push Not at hno
      apply hz
      apply sum_eq_zero
      intro n hn
      obtain ⟨m, hm, rfl⟩ := List.mem_map.1 hn
      exact hno m hm
    obtain ⟨p, hp, hpz⟩ := this
    have hzeroQ : Accumulates (fun (_ : ClaimTable) (a : Nat) (_ : ClaimTable) => a = 0) :=
      ⟨fun _ => rfl, fun h1 h2 => by omega⟩
    obtain ⟨b, h3, h4⟩ := auditList_steps hzeroQ _ (hbase _ hzeroQ (fun n hn s hs t t' r ha => by
      by_contra hne
      have hni := hsub.subset (hc.subset hn)
      exact hclash p.1 (hfst p hp) n (hc.subset hn) (findIndependent_paths hind (hfst p hp) hn)
        ((hfspec p hp).2 hpz)
        (Node.wants_of_claimed hf hes ho h0 (hload _ hni) (hfl' _ hni) s hs _ _ _ ha hne))) hrs
    rw [hlsum, hresSum] at h3
    omega

/-! ### Tables of independently solved children -/

theorem bestLoop_inner {x : Ctx} {o : Orders} {tail : Option Err} {ss : List Node}
    {best : Option (Node × Rat)} {inner : Option ClaimTable} {res}
    (hinner : ∀ i, inner = some i → i.Good)
    (hss : ∀ s ∈ ss, ∀ r t', s.audit x o [] = .ok (r, t') → t'.Good)
    (h : bestLoop x o tail ss best inner = .ok res) : ∀ i, res.2 = some i → i.Good := by
  induction ss generalizing best inner with
  | nil =>
    unfold bestLoop at h
    split at h
    · cases h
    · cases h; exact hinner
  | cons s ss ih =>
    unfold bestLoop at h
    split at h
    · cases h
    · rename_i r t' hr
      have hP := hss s List.mem_cons_self r t' hr
      split at h
      · cases h
      · dsimp only at h
        split at h
        · cases h
          intro i hi
          cases hi
          exact hP
        · refine ih ?_ (fun s' hs' => hss s' (List.mem_cons_of_mem _ hs')) h
          intro i hi
          cases hi
          exact hP

theorem findBest_good {x : Ctx} {o : Orders} {rule : Node} {r : Option Node} {t t' : ClaimTable} {m : Bool}
    (hg : ∀ s ∈ (rule.solutions x o).items, ∀ r t', s.audit x o [] = .ok (r, t') → t'.Good)
    (ht : t.Good) (h : findBest x o rule t m = .ok (r, t')) : t'.Good := by
  unfold findBest at h
  dsimp only at h
  split at h
  · cases h
  · rename_i best inner hb
    split at h
    · split at h
      · cases h
      · rename_i i
        obtain ⟨_, rfl⟩ := Prod.mk.inj (Except.ok.inj h)
        exact mergeTables_good ht (bestLoop_inner (by simp) hg hb i rfl)
    · obtain ⟨_, rfl⟩ := Prod.mk.inj (Except.ok.inj h)
      exact ht

theorem solveIndependent_good {x : Ctx} {o : Orders} {ns : List Node} {t t' : ClaimTable}
    {solved : List (Node × Option Node)}
    (hg : ∀ n ∈ ns, ∀ s ∈ (n.solutions x o).items, ∀ r t', s.audit x o [] = .ok (r, t') → t'.Good)
    (ht : t.Good) (h : solveIndependent x o ns t = .ok (solved, t')) : t'.Good := by
  induction ns generalizing t solved with
  | nil =>
    simp only [solveIndependent] at h
    obtain ⟨rfl, rfl⟩ := Prod.mk.inj (Except.ok.inj h)
    exact ht
  | cons n ns ih =>
    simp only [solveIndependent] at h
    split at h
    · cases h
    · rename_i r t1 h1
      split at h
      · cases h
      · rename_i rs t2 h2
        obtain ⟨rfl, rfl⟩ := Prod.mk.inj (Except.ok.inj h)
        exact ih (fun n hn => hg n (List.mem_cons_of_mem _ hn))
          (findBest_good (hg n List.mem_cons_self) ht h1) h2

theorem topCount_good {x : Ctx} {o : Orders} (ho : o.Lawful) {d : CountData} {items : List Node} {t : ClaimTable}
    (hg : ∀ n ∈ items, ∀ s ∈ (n.solutions x o).items, ∀ r t', s.audit x o [] = .ok (r, t') → t'.Good)
    (ht : t.Good) : (topCountSolutions x o d items t).2.Good := by
  unfold topCountSolutions
  split
  · exact ht
  split
  · exact ht
  rename_i pot hpot
  split
  · exact ht
  split
  · exact ht
  rename_i indep codep hind
  split
  · exact ht
  rename_i solved t1 hsolved
  have hgood : t1.Good := by
    refine solveIndependent_good (fun n hn => ?_) ht hsolved
    exact hg n ((mem_filterE hpot).1.subset ((findIndependent_subset hind).1.subset ((ho.2.2 indep).mem_iff.1 hn)))
  split
  · exact hgood
  dsimp only
  split
  · exact hgood
  · exact hgood

/-! ### Whole areas -/

mutual
/-- the children of the topmost rule, which may be solved on their own: those of the count
rule in use at the top -/
def Node.topChildren : Node → List Node
  | .count _ _ items => items
  | .cond _ d t f => match d.condition with
    | some true => t.topChildren
    | some false => Node.topChildrenOpt f
    | none => []
  | _ => []
/-- for an optional child -/
def Node.topChildrenOpt : Option Node → List Node
  | none => []
  | some n => n.topChildren
end

mutual
theorem Node.top_at_most_once {x : Ctx} (hf : x.ForcedOk) (hx : (x.transcript.map (·.clbid)).Nodup)
    {es : List Exc} (hes : x.exceptions = groupExceptions es)
    {o : Orders} (ho : o.Lawful) {c0 : Course} (h0 : x.OneCourse c0)
    (hk : Ordinary x es c0.clbid) : ∀ n : Node, n.Loaded x → (∀ l ∈ n.liveLeaves, l.LoadedFlags) →
    (n.topChildren.map Node.path).Nodup → HonestFlags n.topChildren → ∀ t0 : ClaimTable, t0.Good →
    (n.topSolutions x o t0).2.Good ∧
    (c0 ∈ x.transcript → ∀ s ∈ (n.topSolutions x o t0).1.items, ∀ t t' r, t.Good → s.audit x o t = .ok (r, t') →
      timesClaimed c0.clbid r.exclusive ≤ 1)
  | .course st d, hl, _, _, _ => by
    intro t0 ht0
    simp only [Node.topSolutions]
    exact ⟨ht0, fun _ s hs t t' r ht ha => (C37_rule_at_most_once x hf es hes o ho _ hk _ hl s r t t' ht hs ha).1⟩
  | .query st d, hl, _, _, _ => by
    intro t0 ht0
    simp only [Node.topSolutions]
    exact ⟨ht0, fun _ s hs t t' r ht ha => (C37_rule_at_most_once x hf es hes o ho _ hk _ hl s r t t' ht hs ha).1⟩
  | .req st d c, hl, _, _, _ => by
    intro t0 ht0
    simp only [Node.topSolutions]
    exact ⟨ht0, fun _ s hs t t' r ht ha => (C37_rule_at_most_once x hf es hes o ho _ hk _ hl s r t t' ht hs ha).1⟩
  | .prof st d c, hl, _, _, _ => by
    intro t0 ht0
    simp only [Node.topSolutions]
    exact ⟨ht0, fun _ s hs t t' r ht ha => (C37_rule_at_most_once x hf es hes o ho _ hk _ hl s r t t' ht hs ha).1⟩
  | .count st d items, hl, hfl, hnd, hflags => by
    intro t0 ht0
    simp only [Node.Loaded] at hl
    simp only [Node.liveLeaves] at hfl
    simp only [Node.topChildren] at hnd hflags
    simp only [Node.topSolutions]
    refine ⟨topCount_good ho ?_ ht0, ?_⟩
    · intro n hn s hs r t' ha
      exact (Node.counted hf hes ho hk (Node.loadedList_iff.1 hl.2.2 n hn) s hs _ _ _ ha ClaimTable.good_nil).1
    · intro hc0 s hs t t' r ht ha
      exact topCount_at_most_once hf hx hes ho hc0 h0 hk hl.2.2 hfl hnd hflags ht hs ha
  | .cond st d th f, hl, hfl, hnd, hflags => by
    intro t0 ht0
    simp only [Node.Loaded] at hl
    simp only [Node.liveLeaves] at hfl
    simp only [Node.topChildren] at hnd hflags
    simp only [Node.topSolutions]
    cases hc : d.condition with
    | none => exact ⟨ht0, by simp [Gen.nil]⟩
    | some b =>
      cases b with
      | true =>
        simp only [hc] at hfl hnd hflags
        obtain ⟨h1, h2⟩ := Node.top_at_most_once hf hx hes ho h0 hk th hl.2.2.1 hfl hnd hflags t0 ht0
        refine ⟨h1, ?_⟩
        intro hc0 s hs t t' r ht ha
        obtain ⟨s', hs', rfl⟩ := Gen.mem_map.1 hs
        simp only [Node.audit, hc] at ha
        split at ha
        · cases ha
        · rename_i r' t2 hr'
          obtain ⟨rfl, rfl⟩ := Prod.mk.inj (Except.ok.inj ha)
          simp only [Node.exclusive, Node.loaded_exclusiveOpt x _ hl.2.2.2, List.append_nil]
          exact h2 hc0 s' hs' _ _ _ ht hr'
      | false =>
        simp only [hc] at hfl hnd hflags
        have ih := Node.top_at_most_onceOpt hf hx hes ho h0 hk f hl.2.2.2 hfl hnd hflags t0 ht0
        dsimp only
        split
        · rename_i g t2 hg
          obtain ⟨h1, h2⟩ := ih _ hg
          refine ⟨h1, ?_⟩
          intro hc0 s hs t t' r ht ha
          obtain ⟨s', hs', rfl⟩ := Gen.mem_map.1 hs
          simp only [Node.audit, hc, Node.auditOpt] at ha
          split at ha
          · cases ha
          · rename_i r' t2 hr'
            obtain ⟨rfl, rfl⟩ := Prod.mk.inj (Except.ok.inj ha)
            split at hr'
            · cases hr'
            · rename_i r'' t3 hr''
              obtain ⟨rfl, rfl⟩ := Prod.mk.inj (Except.ok.inj hr')
              simp only [Node.exclusive, Node.loaded_exclusive x _ hl.2.2.1, List.nil_append, Node.exclusiveOpt]
              exact h2 hc0 s' hs' _ _ _ ht hr''
        · exact ⟨ht0, by simp [Gen.nil]⟩
theorem Node.top_at_most_onceOpt {x : Ctx} (hf : x.ForcedOk) (hx : (x.transcript.map (·.clbid)).Nodup)
    {es : List Exc} (hes : x.exceptions = groupExceptions es)
    {o : Orders} (ho : o.Lawful) {c0 : Course} (h0 : x.OneCourse c0)
    (hk : Ordinary x es c0.clbid) : ∀ n : Option Node, Node.LoadedOpt x n →
    (∀ l ∈ Node.liveLeavesOpt n, l.LoadedFlags) →
    ((Node.topChildrenOpt n).map Node.path).Nodup → HonestFlags (Node.topChildrenOpt n) →
    ∀ t0 : ClaimTable, t0.Good → ∀ g, Node.topSolutionsOpt x o n t0 = some g → g.2.Good ∧
    (c0 ∈ x.transcript → ∀ s ∈ g.1.items, ∀ t t' r, t.Good → s.audit x o t = .ok (r, t') →
      timesClaimed c0.clbid r.exclusive ≤ 1)
  | none, _, _, _, _ => by
    intro t0 _ g hg
    cases hg
  | some n, hl, hfl, hnd, hflags => by
    intro t0 ht0 g hg
    simp only [Node.LoadedOpt] at hl
    simp only [Node.liveLeavesOpt] at hfl
    simp only [Node.topChildrenOpt] at hnd hflags
    simp only [Node.topSolutionsOpt, Option.some.injEq] at hg
    subst hg
    exact Node.top_at_most_once hf hx hes ho h0 hk n hl hfl hnd hflags t0 ht0
end

theorem transcriptSolutions_good {o : Orders} {a : Area} {st : Student} {es : List Exc} {t : ClaimTable}
    {tr : List Course} (h : (a.result.topSolutions (areaCtx a st es tr) o t).2.Good) :
    (transcriptSolutions o a st es t tr).2.Good ∧
    ∀ s ∈ (transcriptSolutions o a st es t tr).1.items, s.claims.Good := by
  unfold transcriptSolutions
  dsimp only
  split
  · rename_i err t' he
    rw [he] at h
    exact ⟨h, by simp⟩
  · rename_i s0 ss err t' he
    rw [he] at h
    refine ⟨ClaimTable.good_nil, ?_⟩
    intro s hs
    rcases List.mem_cons.1 hs with rfl | hs
    · exact h
    · obtain ⟨s1, _, rfl⟩ := List.mem_map.1 hs
      exact ClaimTable.good_nil

theorem areaLoop_good {o : Orders} {a : Area} {st : Student} {es : List Exc} {tail : Option Err}
    {trs : List (List Course)} (hg : ∀ tr ∈ trs, ∀ t : ClaimTable, t.Good →
      (a.result.topSolutions (areaCtx a st es tr) o t).2.Good)
    {t : ClaimTable} (ht : t.Good) {s : AreaSolution} (h : s ∈ (areaLoop o a st es tail trs t).items) :
    s.claims.Good ∧ ∃ tr ∈ trs, ∃ t0 : ClaimTable, t0.Good ∧ s.ctx = areaCtx a st es tr ∧
      s.solution ∈ (a.result.topSolutions (areaCtx a st es tr) o t0).1.items := by
  induction trs generalizing t with
  | nil => simp [areaLoop] at h
  | cons tr trs ih =>
    simp only [areaLoop] at h
    obtain ⟨h1, h2⟩ := transcriptSolutions_good (hg tr List.mem_cons_self t ht)
    rcases Gen.mem_append h with h | h
    · exact ⟨h2 s h, tr, List.mem_cons_self, t, ht, transcriptSolutions_mem h⟩
    · obtain ⟨h3, tr', htr', r⟩ := ih (fun tr htr => hg tr (List.mem_cons_of_mem _ htr)) h1 h
      exact ⟨h3, tr', List.mem_cons_of_mem _ htr', r⟩

theorem clbids_nodup_of_subset {l l' : List Course} (hl : (l.map (·.clbid)).Nodup) (h : l'.Nodup)
    (hs : ∀ c ∈ l', c ∈ l) : (l'.map (·.clbid)).Nodup := by
  refine List.Nodup.map_on ?_ h
  intro c hc c' hc' he
  exact List.inj_on_of_nodup_map hl (hs c hc) (hs c' hc') he

theorem exclusiveList_append (a b : List Node) :
    Node.exclusiveList (a ++ b) = Node.exclusiveList a ++ Node.exclusiveList b := by
  induction a with
  | nil => rfl
  | cons n a ih => simp [Node.exclusiveList, ih]

/-- **C37, partial.** In every audited solution of an area - whichever limited transcript it
is for - a class of that transcript is counted at most once over all rules that do not allow
claimed courses, the ones solved on their own included, if

* the class is not listed as multicountable and no exception forces it in,
* the children of the topmost rule have different paths, and of those flagged
  `disjoint: true` none claims courses for itself,
* the rules common to all majors claim no courses for themselves.

Missing: children flagged `disjoint: true` that do (`C37_disjoint_flag_refuted`), and failed
classes and classes the limits have dropped, which only queries including failed courses
can claim. -/
theorem C37_single_count_partial (a : Area) (st : Student) (es : List Exc) (o : Orders) (ho : o.Lawful)
    (hl : a.result.Loaded { exceptions := groupExceptions es })
    (hcl : Node.LoadedList { exceptions := groupExceptions es } a.commonRules)
    (hfl : ∀ l ∈ a.result.liveLeaves, l.LoadedFlags)
    (hcommon : ∀ l ∈ Node.leavesList a.commonRules, ¬ l.ClaimsForItself)
    (hpaths : (a.result.topChildren.map Node.path).Nodup) (hflags : HonestFlags a.result.topChildren)
    (hids : (st.courses.map (·.clbid)).Nodup)
    (c0 : Course) (h0 : ∀ c ∈ st.courses ++ st.coursesWithFailed, c.clbid = c0.clbid → c = c0)
    (hforced : ∀ e ∈ es, e.kind ≠ .insertion c0.clbid true)
    (hmulti : a.multicountable.get? c0.identity = none)
    (s : AreaSolution) (hs : s ∈ (a.solutions o st es).items) (hc0 : c0 ∈ s.ctx.transcript)
    (r : AreaResult) (ha : s.audit o a = .ok r) :
    timesClaimed c0.clbid r.result.exclusive ≤ 1 := by
  have htr : ∀ tr ∈ (limitedTranscripts (o.limit []) a.limit st.courses (forcedClbids es)).items,
      (∀ c ∈ tr, c ∈ st.courses) ∧ tr.Nodup := by
    intro tr htr
    obtain ⟨h1, h2⟩ := C10_only_input_courses _ (ho.1 []) _ _ _ _ htr
    exact ⟨h1, h2 (Or.inr (List.Nodup.of_map _ hids))⟩
  have hknown : ∀ tr ∈ (limitedTranscripts (o.limit []) a.limit st.courses (forcedClbids es)).items,
      ∀ c, (areaCtx a st es tr).Knows c → c.clbid = c0.clbid → c = c0 := by
    intro tr ht c hc
    refine h0 c ?_
    rcases hc with hc | hc | ⟨k, hc⟩
    · exact List.mem_append_left _ ((htr tr ht).1 c hc)
    · exact List.mem_append_right _ hc
    · simp only [areaCtx, List.mem_map, List.mem_reverse, List.mem_filter] at hc
      obtain ⟨c', ⟨hc', _⟩, he⟩ := hc
      cases he
      exact List.mem_append_left _ hc'
  have hord : ∀ tr ∈ (limitedTranscripts (o.limit []) a.limit st.courses (forcedClbids es)).items,
      Ordinary (areaCtx a st es tr) es c0.clbid := by
    intro tr ht
    refine ⟨hforced, fun c hc hk => ?_⟩
    rw [hknown tr ht c hc hk]
    exact hmulti
  have htop : ∀ tr ∈ (limitedTranscripts (o.limit []) a.limit st.courses (forcedClbids es)).items, _ := fun tr ht =>
    Node.top_at_most_once (areaCtx_forcedOk a st es tr) (clbids_nodup_of_subset hids (htr tr ht).2 (htr tr ht).1)
      (es := es) rfl ho (hknown tr ht) (hord tr ht) a.result
      (Node.loaded_congr (x := { exceptions := groupExceptions es }) (y := areaCtx a st es tr) rfl _ hl) hfl hpaths hflags
  obtain ⟨hgood, tr, ht, t0, ht0, hctx, hsol⟩ :=
    areaLoop_good (fun tr ht t htg => (htop tr ht t htg).1) ClaimTable.good_nil hs
  unfold AreaSolution.audit at ha
  split at ha
  · cases ha
  rename_i r0 t1 hr0
  rw [hctx] at hr0 hc0
  have hmain : timesClaimed c0.clbid r0.exclusive ≤ 1 := (htop tr ht t0 ht0).2 hc0 _ hsol _ _ _ hgood hr0
  split at ha
  · split at ha
    · cases ha
    rename_i common hcm
    split at ha
    · rename_i d items
      cases ha
      simp only [Node.exclusive, exclusiveList_append, timesClaimed_append] at hmain ⊢
      have : timesClaimed c0.clbid (Node.exclusiveList [common]) = 0 := by
        rw [hctx] at hcm
        unfold auditCommon at hcm
        split at hcm
        · cases hcm
        split at hcm
        · cases hcm
        rename_i ins hins
        dsimp only at hcm
        split at hcm
        · cases hcm
        rename_i citems hcitems
        cases hcm
        simp only [Node.exclusiveList, Node.exclusive, Node.exclusiveOpt, List.append_nil]
        have key : ∀ n ∈ citems, timesClaimed c0.clbid n.exclusive = 0 := by
          intro n hn
          obtain ⟨rule, hrule, x, hx, t, hb⟩ := commonItems_mem hcitems hn
          have hcc : CommonCtx es x := by
            rcases hx with rfl | rfl
            · refine ⟨rfl, ?_⟩
              intro e he
              simp only [List.mem_map, List.mem_reverse] at he
              obtain ⟨c, _, rfl⟩ := he
              rfl
            · exact ⟨rfl, by intro e he; simp at he⟩
          obtain ⟨s', hs', t2, hs''⟩ := findBest_mem hb
          have hlr := Node.loaded_congr hcc.exceptions.symm _ (Node.loadedList_iff.1 hcl rule hrule)
          refine Node.steps_of_live (k := c0.clbid) (Q := fun _ a _ => a = 0)
            ⟨fun _ => rfl, fun h1 h2 => by omega⟩ rule hlr ?_ s' hs' _ _ _ hs''
          intro leaf hleaf s hs t t' r ha
          by_contra hne
          obtain ⟨cl, hcl', hfail, _⟩ := timesClaimed_pos hne
          have hleaf' := Node.liveLeaves_subset rule hleaf
          have hno := hcommon leaf (Node.mem_leavesList.2 ⟨rule, hrule, hleaf'⟩)
          refine hno (leaf_exclusive hcc.forcedOk hcc.exceptions ho hleaf' (Node.leaves_loaded rule hlr leaf hleaf') ?_
            hs ha hcl' hfail).1
          rcases Node.leaves_kind rule leaf hleaf' with ⟨st, d, rfl⟩ | ⟨st, d, rfl⟩
          · intro _
            simpa [Node.ClaimsForItself] using hno
          · trivial
        clear * - key
        induction citems with
        | nil => rfl
        | cons n ns ih =>
          rw [Node.exclusiveList, timesClaimed_append, key n List.mem_cons_self,
            ih (fun n hn => key n (List.mem_cons_of_mem _ hn))]
      omega
    · cases ha
  · cases ha
    exact hmain

/-- Two requirements flagged `disjoint: true` are solved on their own; although the class is
an ordinary one, both count it in one audited solution. -/
theorem C37_disjoint_flag_refuted : ∃ (a : Area) (st : Student) (c0 : Course) (s : AreaSolution) (r : AreaResult),
    a.result.Loaded {} ∧ (st.courses.map (·.clbid)).Nodup ∧ c0 ∈ st.courses ∧
    a.multicountable = [] ∧ a.commonRules = [] ∧
    (a.result.topChildren.map Node.path).Nodup ∧
    s ∈ (a.solutions .insertion st []).items ∧ s.audit .insertion a = .ok r ∧
    timesClaimed c0.clbid r.result.exclusive = 2 := by
  let c0 : Course := { clbid := "7", identity := "CSCI 251" }
  let items := [courseReq "[0]" "Core" "CSCI 251" (some true), courseReq "[1]" "Elective" "CSCI 251" (some true)]
  let a : Area := { result := .count .rule { path := ["$", ".count"], count := 2 } items }
  let st : Student := { courses := [c0] }
  have hl : a.result.Loaded {} := ⟨rfl, rfl, ⟨rfl, rfl, ⟨rfl, rfl, rfl, rfl, rfl⟩⟩, ⟨rfl, rfl, ⟨rfl, rfl, rfl, rfl, rfl⟩⟩, trivial⟩
  have hw : ∃ s rest, (a.solutions .insertion st []).items = s :: rest ∧
      ((s.audit .insertion a).toOption.map (fun r => timesClaimed "7" r.result.exclusive)) = some 2 := by
    refine ⟨_, _, rfl, ?_⟩
    decide +kernel
  obtain ⟨s, rest, hs, hr⟩ := hw
  cases hau : s.audit .insertion a with
  | error e => rw [hau] at hr; cases hr
  | ok r =>
    rw [hau] at hr
    exact ⟨a, st, c0, s, r, hl, by decide, by simp [st], rfl, rfl, by decide, by rw [hs]; exact List.mem_cons_self, hau,
      by simpa [Except.toOption] using hr⟩

/-- Non-trivial case for C37: two requirements ask for the same course and a third for
another one, which is solved on its own; the first two are not flagged.  Every solution can
be audited, and each counts both classes once. -/
example :
    let items := [courseReq "[0]" "Core" "CSCI 251" none, courseReq "[1]" "Elective" "CSCI 251" none,
      courseReq "[2]" "Math" "MATH 220" none]
    let a : Area := { result := .count .rule { path := ["$", ".count"], count := 3 } items }
    let c0 : Course := { clbid := "7", identity := "CSCI 251" }
    let c1 : Course := { clbid := "9", identity := "MATH 220" }
    let st : Student := { courses := [c0, c1], coursesWithFailed := [c0, c1] }
    a.result.Loaded {} ∧ (∀ l ∈ a.result.liveLeaves, l.LoadedFlags) ∧ HonestFlags a.result.topChildren ∧
    (a.result.topChildren.map Node.path).Nodup ∧ (st.courses.map (·.clbid)).Nodup ∧
    ((a.solutions .insertion st []).items.map (fun s => (s.audit .insertion a).toOption.map
      (fun r => (timesClaimed "7" r.result.exclusive, timesClaimed "9" r.result.exclusive)))) = [some (1, 1)] := by
  refine ⟨⟨rfl, rfl, ⟨rfl, rfl, ⟨rfl, rfl, rfl, rfl, rfl⟩⟩, ⟨rfl, rfl, ⟨rfl, rfl, rfl, rfl, rfl⟩⟩,
    ⟨rfl, rfl, ⟨rfl, rfl, rfl, rfl, rfl⟩⟩, trivial⟩, ?_, ?_, by decide, by decide, by decide +kernel⟩
  · simp [Node.liveLeaves, Node.liveLeavesList, Node.liveLeavesOpt, courseReq, Node.LoadedFlags]
  · intro i hi hd
    simp only [Node.topChildren, List.mem_cons, List.not_mem_nil, or_false] at hi
    rcases hi with rfl | rfl | rfl <;> simp [courseReq, Node.alwaysDisjoint, Node.alwaysDisjointOpt] at hd

end Dp
