import Verif.Props.AlikeSearch
import Verif.Props.FoundArea

/-
Children of a count that are solved on their own claim different classes, so that it does not matter in which order they
are solved.
-/
namespace Dp

/-- a query on the student's courses leaves out the failed ones -/
def Node.SkipsFailed : Node → Prop
  | .query _ d => d.includeFailed = false
  | _ => True

/-- a class that is in the table has been there before or has been claimed -/
def Adds (k : String) (t : ClaimTable) (a : Nat) (t' : ClaimTable) : Prop := k ∈ t'.map (·.1) → k ∈ t.map (·.1) ∨ a ≠ 0

theorem Adds.accumulates (k : String) : Accumulates (Adds k) :=
  ⟨fun _ h => .inl h, fun {t1 t2 t3 a b} h1 h2 h => by
    rcases h2 h with h | h
    · rcases h1 h with h | h
      · exact .inl h
      · exact .inr (by omega)
    · exact .inr (by omega)⟩

theorem Adds.refl (k : String) (t : ClaimTable) (a : Nat) : Adds k t a t := fun h => .inl h

theorem keys_of_append {t : ClaimTable} {k k' : String} {c : Claim} (h : k ∈ (t.append k' c).map (·.1)) :
    k = k' ∨ k ∈ t.map (·.1) := by
  induction t with
  | nil => simpa [ClaimTable.append] using h
  | cons e t ih =>
    obtain ⟨k2, v⟩ := e
    unfold ClaimTable.append at h
    split at h
    · exact .inr (by simpa using h)
    · simp only [List.map_cons, List.mem_cons] at h ⊢
      rcases h with h | h
      · exact .inr (.inl h)
      · rcases ih h with h | h
        · exact .inl h
        · exact .inr (.inr h)

theorem makeClaim_adds (m : Multicountable) (t : ClaimTable) (c : Course) (p : Path) (k : String) (b : Bool) :
    Adds k t (timesClaimed k [(makeClaim m t c p b).1]) (makeClaim m t c p b).2 := by
  intro h
  by_cases hk : k ∈ t.map (·.1)
  · exact .inl hk
  right
  cases hb : b with
  | true => rw [hb] at h; simp only [makeClaim, if_true] at h; exact absurd h hk
  | false =>
    rw [hb] at h
    simp only [makeClaim, Bool.false_eq_true, if_false] at h ⊢
    by_cases hh : t.has c.clbid = true
    · have hmem : c.clbid ∈ t.map (·.1) := by
        simpa [ClaimTable.has, List.any_eq_true, List.mem_map, beq_iff_eq] using hh
      have hne : k ≠ c.clbid := fun e => hk (e ▸ hmem)
      exfalso
      rw [if_neg (by simp [hh])] at h
      have happ : ∀ cl, k ∈ (t.append c.clbid cl).map (·.1) → False := fun cl h => by
        rcases keys_of_append h with h | h
        · exact hne h
        · exact hk h
      split at h
      · unfold makeMulticountableClaim at h
        dsimp only at h
        repeat' split at h
        all_goals first
          | exact hk h
          | exact happ _ h
      · split at h
        · exact hk h
        · exact happ _ h
    · have hh' : t.has c.clbid = false := by simpa using hh
      simp only [hh', Bool.not_false, if_true] at h ⊢
      rcases keys_of_append h with rfl | h
      · simp [timesClaimed]
      · exact absurd h hk

theorem claimLoop_adds {x : Ctx} {d : QueryData} {k : String} : ∀ (cs : List Course) (t : ClaimTable) (acc : Collected),
    ∃ a, timesClaimed k (claimLoop x d cs t acc).1.successful = timesClaimed k acc.successful + a ∧
      Adds k t a (claimLoop x d cs t acc).2
  | [], t, acc => ⟨0, rfl, Adds.refl k t 0⟩
  | c :: cs, t, acc => by
    have hc := makeClaim_adds x.multicountable t c d.path k (d.allowClaimed || d.forceInserted.contains c.clbid)
    simp only [claimLoop]
    split
    · rename_i hfail
      obtain ⟨a, h1, h2⟩ := claimLoop_adds cs (makeClaim x.multicountable t c d.path
        (d.allowClaimed || d.forceInserted.contains c.clbid)).2
        { acc with failed := acc.failed ++ [(makeClaim x.multicountable t c d.path
          (d.allowClaimed || d.forceInserted.contains c.clbid)).1] }
      refine ⟨a, h1, ?_⟩
      have h3 := (Adds.accumulates k).trans hc h2
      rwa [timesClaimed_failed k hfail, Nat.zero_add] at h3
    · obtain ⟨a, h1, h2⟩ := claimLoop_adds cs (makeClaim x.multicountable t c d.path
        (d.allowClaimed || d.forceInserted.contains c.clbid)).2
        { acc with successful := acc.successful ++ [(makeClaim x.multicountable t c d.path
          (d.allowClaimed || d.forceInserted.contains c.clbid)).1], items := acc.items ++ [.course c] }
      refine ⟨_, ?_, (Adds.accumulates k).trans hc h2⟩
      rw [h1]
      simp only [timesClaimed_append]
      omega

theorem course_adds {x : Ctx} {k : String} {s r : CourseData} {t t' : ClaimTable} (ha : courseAudit x s t = .ok (r, t')) :
    Adds k t (timesClaimed k (Node.course .result r).exclusive) t' := by
  have hallow : r.allowClaimed = s.allowClaimed := by
    unfold courseAudit at ha
    dsimp only at ha
    repeat' split at ha
    all_goals first
      | cases ha; done
      | (obtain ⟨rfl, rfl⟩ := Prod.mk.inj (Except.ok.inj ha); rfl)
  simp only [Node.exclusive, true_and]
  rcases courseAudit_claim ha with ⟨h1, rfl, _⟩ | ⟨c, hc, _, _, h1, h2⟩
  · exact Adds.refl k _ _
  · rw [← h1, ← h2, hallow]
    cases hal : s.allowClaimed with
    | false => simpa using makeClaim_adds x.multicountable t c s.path k (s.forced || false)
    | true =>
      simp only [Bool.or_true, makeClaim, if_true]
      exact Adds.refl k _ _

theorem query_adds {x : Ctx} {k : String} {s r : QueryData} {t t' : ClaimTable} (ha : queryAudit x s t = .ok (r, t')) :
    Adds k t (timesClaimed k (Node.query .result r).exclusive) t' := by
  unfold queryAudit at ha
  split at ha
  · obtain ⟨rfl, rfl⟩ := Prod.mk.inj (Except.ok.inj ha)
    exact Adds.refl k _ _
  split at ha
  · cases ha
  rename_i col t2 hcol
  dsimp only at ha
  split at ha
  · cases ha
  obtain ⟨rfl, rfl⟩ := Prod.mk.inj (Except.ok.inj ha)
  simp only [Node.exclusive, true_and]
  unfold collect at hcol
  split at hcol
  · rename_i hsrc
    unfold collectCourses at hcol
    split at hcol
    · cases hcol
    rename_i cs hcs
    split at hcol
    · rename_i hat
      have hcol' := Except.ok.inj hcol
      cases hal : s.allowClaimed with
      | true =>
        have := claimLoop_allowed (x := x) hal cs t {}
        rw [hcol'] at this
        simp only at this
        rw [this]
        exact Adds.refl k _ _
      | false =>
        obtain ⟨a, h1, h2⟩ := claimLoop_adds (x := x) (d := s) (k := k) cs t {}
        rw [hcol'] at h1 h2
        simp only [timesClaimed_nil, Nat.zero_add] at h1
        simp only [hat, hsrc, and_self, if_true, h1]
        exact h2
    · split at hcol
      · obtain ⟨rfl, rfl⟩ := Prod.mk.inj (Except.ok.inj hcol)
        exact Adds.refl k _ _
      · obtain ⟨rfl, rfl⟩ := Prod.mk.inj (Except.ok.inj hcol)
        exact Adds.refl k _ _
  · have : t2 = t := by
      unfold collectClaimed at hcol
      split at hcol
      · cases hcol
      dsimp only at hcol
      split at hcol
      · cases hcol
      split at hcol
      · cases hcol
      split at hcol
      · cases hcol
      exact (Prod.mk.inj (Except.ok.inj hcol)).2.symm
    subst this
    exact Adds.refl k _ _
  · obtain ⟨rfl, rfl⟩ := Prod.mk.inj (Except.ok.inj hcol)
    exact Adds.refl k _ _

theorem queryInsert_noFailed (x : Ctx) (d : QueryData) : ∀ (es : List Exc) (acc : Filtered),
    queryInsert { x with withFailed := [] } d es acc = queryInsert x d es acc
  | [], _ => rfl
  | e :: es, acc => by
    unfold queryInsert
    have hf : ∀ k, ({ x with withFailed := [] } : Ctx).forcedCourseByClbid k = x.forcedCourseByClbid k := fun _ => rfl
    have hc : ∀ k, ({ x with withFailed := [] } : Ctx).findCourseByClbid k = x.findCourseByClbid k := fun _ => rfl
    simp only [hf, hc, queryInsert_noFailed x d es]

/-- what a query that leaves out failed courses comes upon is on the transcript or forced in -/
theorem queryFiltered_own {x : Ctx} (hf : x.ForcedOk) {d : QueryData} (hd : d.includeFailed = false) {f : Filtered}
    (h : queryFiltered x d = .ok f) : ∀ c, Item.course c ∈ f.data → c ∈ x.transcript ∨ ∃ k, (k, c) ∈ x.forced := by
  have he : queryFiltered { x with withFailed := [] } d = .ok f := by
    rw [← h]
    unfold queryFiltered
    have hdata : queryData { x with withFailed := [] } d = queryData x d := by
      unfold queryData
      simp only [hd, Bool.false_eq_true, if_false]
    simp only [hdata, queryInsert_noFailed]
  intro c hc
  rcases queryFiltered_known (x := { x with withFailed := [] }) hf he c hc with h | h | h
  · exact .inl h
  · simp at h
  · exact .inr h

/-- the classes that a rule claims for itself are on the transcript -/
theorem leaf_own {x : Ctx} (hf : x.ForcedOk) (hin : ∀ e ∈ x.forced, e.2 ∈ x.transcript)
    {o : Orders} (ho : o.Lawful) {n leaf : Node} (hn : leaf ∈ n.leaves) (hsk : leaf.SkipsFailed)
    {s r : Node} {t t' : ClaimTable} (hs : s ∈ (leaf.solutions x o).items) (ha : s.audit x o t = .ok (r, t'))
    {cl : Claim} (hcl : cl ∈ r.exclusive) : cl.course ∈ x.transcript := by
  have hor : cl.course ∈ x.transcript ∨ (∃ k, (k, cl.course) ∈ x.forced) → cl.course ∈ x.transcript := by
    rintro (h | ⟨k, h⟩)
    · exact h
    · exact hin _ h
  apply hor
  rcases Node.leaves_kind n leaf hn with ⟨st, d, rfl⟩ | ⟨st, d, rfl⟩
  · simp only [Node.solutions] at hs
    obtain ⟨sd, hsd, rfl⟩ := Gen.mem_map.1 hs
    simp only [Node.audit] at ha
    split at ha
    · cases ha
    rename_i rd t2 hca
    obtain ⟨rfl, rfl⟩ := Prod.mk.inj (Except.ok.inj ha)
    simp only [Node.exclusive, true_and] at hcl
    split at hcl
    · rw [Option.mem_toList] at hcl
      rcases courseAudit_claim hca with ⟨h1, _⟩ | ⟨c, hc, _, _, h1, _⟩
      · rw [h1] at hcl; cases hcl
      · rw [← h1] at hcl
        obtain ⟨e1, _⟩ := makeClaim_course x.multicountable t c sd.path (sd.forced || sd.allowClaimed)
        cases hcl
        rw [e1]
        rcases courseSolutions_cases hsd with ⟨rfl, _⟩ | ⟨e, he, k', f, c', hek, hfc, _, rfl⟩ | ⟨c', hc', _, rfl⟩ | rfl
        · cases hc
        · cases hc
          rcases (forcedCourseByClbid_ok hf hfc).2 with h | h
          · exact .inl h
          · exact .inr ⟨_, h⟩
        · cases hc
          exact .inl (findCourses_spec hc').1
        · cases hc
    · simp at hcl
  · simp only [Node.solutions] at hs
    obtain ⟨sd, hsd, rfl⟩ := Gen.mem_map.1 hs
    simp only [Node.audit] at ha
    split at ha
    · cases ha
    rename_i rd t2 hqa
    obtain ⟨rfl, rfl⟩ := Prod.mk.inj (Except.ok.inj ha)
    simp only [Node.exclusive, true_and] at hcl
    split at hcl
    · rename_i hflags
      unfold queryAudit at hqa
      split at hqa
      · obtain ⟨rfl, rfl⟩ := Prod.mk.inj (Except.ok.inj hqa)
        simp at hcl
      split at hqa
      · cases hqa
      rename_i col t3 hcol
      dsimp only at hqa
      split at hqa
      · cases hqa
      obtain ⟨rfl, rfl⟩ := Prod.mk.inj (Except.ok.inj hqa)
      dsimp only at hflags hcl
      unfold collect at hcol
      rw [hflags.2.2] at hcol
      simp only [collectCourses, hflags.2.1, if_true] at hcol
      split at hcol
      · cases hcol
      rename_i cs hcs
      have hcol' := Except.ok.inj hcol
      obtain ⟨l, h1, h2, _⟩ := claimLoop_spec x sd cs t {}
      rw [hcol'] at h1
      simp only [List.nil_append] at h1
      rw [h1] at hcl
      have hin : cl.course ∈ cs := h2.subset (List.mem_map_of_mem hcl)
      rcases querySolutions_cases ho hsd with ⟨_, rfl⟩ | ⟨_, f, hfil, out, rfl, hout, _⟩
      · have : cs = [] := by
          have h := itemCourses_eq hcs
          simp only [querySolution] at h
          simpa using h.symm
        subst this
        simp at hin
      · refine queryFiltered_own hf hsk hfil _ (hout _ ?_)
        have h := itemCourses_eq hcs
        simp only [querySolution] at h
        rw [h]
        exact List.mem_map_of_mem hin
    · simp at hcl

/-- a class that is in the table after auditing is one of the transcript that some rule claims for itself -/
theorem Node.keyed {x : Ctx} (hf : x.ForcedOk) (hin : ∀ e ∈ x.forced, e.2 ∈ x.transcript) {es : List Exc}
    (hes : x.exceptions = groupExceptions es) {o : Orders} (ho : o.Lawful) {n : Node} (hn : n.Loaded x)
    (hfl : ∀ l ∈ n.liveLeaves, l.LoadedFlags) (hsk : ∀ l ∈ n.liveLeaves, l.ClaimsForItself → l.SkipsFailed)
    {s r : Node} {t : ClaimTable} (hs : s ∈ (n.solutions x o).items) (ha : s.audit x o [] = .ok (r, t)) {k : String}
    (hk : k ∈ t.map (·.1)) : ∃ c ∈ x.transcript, c.clbid = k ∧ n.Wants x es c := by
  have h1 : StepsBy x o k (Adds k) n := by
    refine Node.steps_of_live (Adds.accumulates k) n hn ?_
    intro leaf hleaf s hs t t' r ha
    have hleaf' := Node.liveLeaves_subset n hleaf
    rcases Node.leaves_kind n leaf hleaf' with ⟨st, d, rfl⟩ | ⟨st, d, rfl⟩
    · simp only [Node.solutions] at hs
      obtain ⟨sd, hsd, rfl⟩ := Gen.mem_map.1 hs
      simp only [Node.audit] at ha
      split at ha
      · cases ha
      rename_i rd t2 hca
      obtain ⟨rfl, rfl⟩ := Prod.mk.inj (Except.ok.inj ha)
      exact course_adds hca
    · simp only [Node.solutions] at hs
      obtain ⟨sd, hsd, rfl⟩ := Gen.mem_map.1 hs
      simp only [Node.audit] at ha
      split at ha
      · cases ha
      rename_i rd t2 hca
      obtain ⟨rfl, rfl⟩ := Prod.mk.inj (Except.ok.inj ha)
      exact query_adds hca
  have h2 : StepsBy x o k (fun _ a _ => a ≠ 0 → ∃ c ∈ x.transcript, c.clbid = k ∧ n.Wants x es c) n := by
    refine Node.steps_of_live ⟨fun _ h => absurd rfl h, fun {_ _ _ a b} h1 h2 h => ?_⟩ n hn ?_
    · by_cases ha : a = 0
      · exact h2 (by omega)
      · exact h1 ha
    · intro leaf hleaf s hs t t' r ha hpos
      obtain ⟨cl, hcl, hfail, hk⟩ := timesClaimed_pos hpos
      have hleaf' := Node.liveLeaves_subset n hleaf
      obtain ⟨h1, h2, _⟩ := leaf_exclusive hf hes ho hleaf' (Node.leaves_loaded n hn leaf hleaf') (hfl leaf hleaf)
        hs ha hcl hfail
      exact ⟨cl.course, leaf_own hf hin ho hleaf' (hsk leaf hleaf h1) hs ha hcl, hk, leaf, hleaf, h1, h2⟩
  rcases h1 s hs _ _ _ ha hk with h | h
  · simp at h
  · exact h2 s hs _ _ _ ha h

/-- The children that are solved on their own do not dispute a class, if those flagged as disjoint share what they use. -/
theorem undisputed {x : Ctx} (hf : x.ForcedOk) (hx : (x.transcript.map (·.clbid)).Nodup) (hin : ∀ e ∈ x.forced, e.2 ∈ x.transcript)
    {es : List Exc} (hes : x.exceptions = groupExceptions es) {o : Orders} (ho : o.Lawful) {items : List Node}
    (hl : ∀ i ∈ items, i.Loaded x) (hfl : ∀ i ∈ items, ∀ l ∈ i.liveLeaves, l.LoadedFlags)
    (hsk : ∀ i ∈ items, ∀ l ∈ i.liveLeaves, l.ClaimsForItself → l.SkipsFailed) (hflags : HonestFlags items) :
    Undisputed x o items := by
  intro pot hpot indep codep hind a ha b hb hab sa hsa sb hsb ra ta rb tb hra hrb k hka hkb
  have hsub := (mem_filterE hpot).1
  obtain ⟨hi, _⟩ := findIndependent_subset hind
  have ham := hsub.subset (hi.subset ha)
  have hbm := hsub.subset (hi.subset hb)
  obtain ⟨ca, hca, eca, la, hla, hsa', hua⟩ := Node.keyed hf hin hes ho (hl a ham) (hfl a ham) (hsk a ham) hsa hra hka
  obtain ⟨cb, hcb, ecb, lb, hlb, hsb', hub⟩ := Node.keyed hf hin hes ho (hl b hbm) (hfl b hbm) (hsk b hbm) hsb hrb hkb
  have he : ca = cb := List.inj_on_of_nodup_map hx hca hcb (eca.trans ecb.symm)
  subst he
  have hflag : a.alwaysDisjoint = false := by
    cases h : a.alwaysDisjoint with
    | false => rfl
    | true => exact absurd hsa' (hflags a ham h la hla)
  exact C24_no_shared_course_partial x hx es hes pot indep codep hind a b ha (hi.subset hb) hab (Or.inl hflag) ca hca
    ⟨⟨la, hla, hua⟩, lb, hlb, hub⟩

end Dp
