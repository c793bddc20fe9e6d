import Verif.Props.Waive
import Verif.Props.PathOrder

/-
C23: the solutions of count rules.  C24: independent children.
-/
namespace Dp

/-! ### Paths are kept -/

theorem courseSolutions_path {x : Ctx} {d s : CourseData} (hs : s ∈ (courseSolutions x d).items) : s.path = d.path := by
  rcases courseSolutions_cases hs with ⟨rfl, _⟩ | ⟨e, he, k, f, c'', hk, hfc, hex, rfl⟩ | ⟨c'', _, _, rfl⟩ | rfl <;> rfl

/-- a solution has the path of its rule -/
theorem Node.solutions_path {x : Ctx} {o : Orders} (ho : o.Lawful) {n s : Node} (h : s ∈ (n.solutions x o).items) :
    s.path = n.path := by
  cases n with
  | course st d =>
    simp only [Node.solutions] at h
    obtain ⟨s', hs', rfl⟩ := Gen.mem_map.1 h
    exact courseSolutions_path hs'
  | query st d =>
    simp only [Node.solutions] at h
    obtain ⟨s', hs', rfl⟩ := Gen.mem_map.1 h
    rcases querySolutions_cases ho hs' with ⟨_, rfl⟩ | ⟨_, f, _, out, rfl, _⟩ <;> rfl
  | count st d items =>
    simp only [Node.solutions, plainCountSolutions] at h
    repeat' split at h
    all_goals first
      | (simp [Gen.raise] at h)
      | (simp only [Gen.one, List.mem_singleton] at h; subst h; rfl)
      | (obtain ⟨l, rfl, _⟩ := countSolutions_items h; rfl)
  | req st d r =>
    simp only [Node.solutions] at h
    repeat' split at h
    all_goals first
      | (simp only [Gen.one, List.mem_singleton] at h; subst h; rfl)
      | (obtain ⟨_, _, rfl⟩ := Gen.mem_map.1 h; rfl)
  | cond st d t f =>
    simp only [Node.solutions] at h
    repeat' split at h
    all_goals first
      | (simp [Gen.nil] at h)
      | (obtain ⟨_, _, rfl⟩ := Gen.mem_map.1 h; rfl)
  | prof st d c =>
    simp only [Node.solutions, profSolutions] at h
    repeat' split at h
    all_goals first
      | (simp [Gen.raise] at h)
      | (simp only [Gen.one, List.mem_singleton] at h; subst h; rfl)

/-- a result has the path of its solution -/
theorem Node.audit_path {x : Ctx} {o : Orders} {n r : Node} {t t' : ClaimTable}
    (h : n.audit x o t = .ok (r, t')) : r.path = n.path := by
  by_cases hst : n.stage = .solution
  · cases n with
    | course s d =>
      simp only [Node.stage] at hst
      subst hst
      simp only [Node.audit] at h
      split at h
      · cases h
      · rename_i d' t2 hca
        obtain ⟨rfl, rfl⟩ := Prod.mk.inj (Except.ok.inj h)
        exact (courseAudit_fields hca).1
    | query s d =>
      simp only [Node.stage] at hst
      subst hst
      simp only [Node.audit] at h
      split at h
      · cases h
      · rename_i d' t2 hca
        obtain ⟨rfl, rfl⟩ := Prod.mk.inj (Except.ok.inj h)
        unfold queryAudit at hca
        repeat' split at hca
        all_goals first
          | (cases hca; done)
          | (obtain ⟨rfl, rfl⟩ := Prod.mk.inj (Except.ok.inj hca); rfl)
          | (dsimp only at hca
             split at hca
             · cases hca
             · obtain ⟨rfl, rfl⟩ := Prod.mk.inj (Except.ok.inj hca); rfl)
    | count s d items =>
      simp only [Node.stage] at hst
      subst hst
      rcases Node.audit_count h with ⟨_, rfl, _⟩ | ⟨_, rs, as, _, _, rfl⟩ <;> rfl
    | req s d c =>
      simp only [Node.stage] at hst
      subst hst
      simp only [Node.audit] at h
      repeat' split at h
      all_goals first
        | (cases h; done)
        | (obtain ⟨rfl, rfl⟩ := Prod.mk.inj (Except.ok.inj h); rfl)
    | cond s d th f =>
      simp only [Node.stage] at hst
      subst hst
      simp only [Node.audit] at h
      repeat' split at h
      all_goals first
        | (cases h; done)
        | (obtain ⟨rfl, rfl⟩ := Prod.mk.inj (Except.ok.inj h); rfl)
    | prof s d c =>
      simp only [Node.stage] at hst
      subst hst
      simp only [Node.audit, profAudit] at h
      repeat' split at h
      all_goals first
        | (cases h; done)
        | (obtain ⟨rfl, rfl⟩ := Prod.mk.inj (Except.ok.inj h); rfl)
  · rw [Node.audit_of_not_solution hst] at h
    obtain ⟨rfl, rfl⟩ := Prod.mk.inj (Except.ok.inj h)
    rfl

/-! ### Bookkeeping of paths -/

/-- Splitting the children into some selected ones and the rest. -/
theorem paths_split {ps sel : List Path} (h1 : ps.Nodup) (h2 : sel.Nodup) (h3 : sel ⊆ ps) :
    (sel ++ ps.filter (fun p => !sel.contains p)).Perm ps := by
  refine (List.perm_ext_iff_of_nodup ?_ h1).2 ?_
  · refine List.nodup_append.2 ⟨h2, h1.filter _, ?_⟩
    intro a ha b hb
    rintro rfl
    simp only [List.mem_filter, Bool.not_eq_true', List.contains_eq_mem, decide_eq_false_iff_not] at hb
    exact hb.2 ha
  · intro p
    simp only [List.mem_append, List.mem_filter, Bool.not_eq_true', List.contains_eq_mem, decide_eq_false_iff_not]
    constructor
    · rintro (h | h)
      · exact h3 h
      · exact h.1
    · intro h
      by_cases hs : p ∈ sel
      · exact Or.inl hs
      · exact Or.inr ⟨h, hs⟩

theorem forall₂_path {x : Ctx} {o : Orders} (ho : o.Lawful) {sols : List Node} {sel : List (Node × Gen Node)}
    (hsel : ∀ p ∈ sel, p.2 = p.1.solutions x o)
    (h : List.Forall₂ (fun a (p : Node × Gen Node) => a ∈ p.2.items) sols sel) :
    sols.map Node.path = sel.map (·.1.path) := by
  induction h with
  | nil => rfl
  | cons hr _ ih =>
    rename_i a p l l' _
    simp only [List.map_cons]
    rw [ih (fun p hp => hsel p (List.mem_cons_of_mem _ hp))]
    rw [hsel p List.mem_cons_self] at hr
    rw [Node.solutions_path ho hr]

/-- How a solution of a count rule mentions a child: solved, left unsolved, or already
resolved (solved on its own and audited). -/
def Mentions (x : Ctx) (o : Orders) (item i : Node) : Prop :=
  i ∈ (item.solutions x o).items ∨ i = item ∨ ∃ s ∈ (item.solutions x o).items, ∃ t, s.audit x o [] = .ok (i, t)

/-- The list mentions each child exactly once, in path order. -/
structure MentionsAll (x : Ctx) (o : Orders) (items l : List Node) : Prop where
  once : (l.map Node.path).Perm (items.map Node.path)
  sorted : SortedByPath Node.path l
  how : ∀ i ∈ l, ∃ item ∈ items, item.path = i.path ∧ Mentions x o item i

theorem countSolution_accounts {x : Ctx} {o : Orders} {d : CountData} {items l : List Node} {s : Node}
    (hc : ∀ i ∈ items, CanonicalPath i.path) (hd : (items.map Node.path).Nodup)
    (hperm : (l.map Node.path).Perm (items.map Node.path))
    (how : ∀ i ∈ l, ∃ item ∈ items, item.path = i.path ∧ Mentions x o item i)
    (hs : s ∈ (countSolution d l).items) :
    ∃ l', s = .count .solution { d with overridden := false } l' ∧ MentionsAll x o items l' := by
  obtain ⟨l', hl', rfl⟩ := countSolution_mem hs
  have hcl : ∀ i ∈ l, CanonicalPath i.path := by
    intro i hi
    obtain ⟨item, h1, h2, _⟩ := how i hi
    rw [← h2]
    exact hc item h1
  obtain ⟨l2, h1, h2, h3⟩ := C15_sort_correct Node.path l hcl (hperm.nodup_iff.2 hd)
  rw [hl'] at h1
  cases h1
  exact ⟨l', rfl, (h2.map _).trans hperm, h3, fun i hi => how i (h2.mem_iff.1 hi)⟩

/-- `CountRule.solutions` from line 262 on: the children are the solved ones (`results`,
one per path in `solved`) and the others, among which are the potential ones. -/
theorem countSolutions_accounts {x : Ctx} {o : Orders} (ho : o.Lawful) {d : CountData} {items : List Node}
    {potential : List (Node × Gen Node)} {results : List Node} {solved : List Path} {nItems : Nat} {s : Node}
    (hc : ∀ i ∈ items, CanonicalPath i.path) (hd : (items.map Node.path).Nodup)
    (hres : ∀ i ∈ results, ∃ item ∈ items, item.path = i.path ∧ Mentions x o item i)
    (hsolved : (results.map Node.path).Perm solved)
    (hsolvedNd : solved.Nodup)
    (hpot : ∀ p ∈ potential, p.1 ∈ items ∧ p.2 = p.1.solutions x o ∧ p.1.path ∉ solved)
    (hpotNd : (potential.map (·.1.path)).Nodup)
    (hs : s ∈ (countSolutions d nItems potential results
      (items.filter (fun n => !solved.contains n.path))).items) :
    ∃ l, s = .count .solution { d with overridden := false } l ∧ MentionsAll x o items l := by
  have hressub : solved ⊆ items.map Node.path := by
    intro p hp
    obtain ⟨i, hi, rfl⟩ := List.mem_map.1 (hsolved.mem_iff.2 hp)
    obtain ⟨item, h1, h2, _⟩ := hres i hi
    exact List.mem_map.2 ⟨item, h1, h2⟩
  have hothers : ∀ i ∈ items.filter (fun n => !solved.contains n.path),
      ∃ item ∈ items, item.path = i.path ∧ Mentions x o item i :=
    fun i hi => ⟨i, List.mem_of_mem_filter hi, rfl, Or.inr (Or.inl rfl)⟩
  have hsplit := paths_split hd hsolvedNd hressub
  rcases countSolutions_mem hs with ⟨sel, sols, h1, _, h3, h4⟩ | h
  · have hsel : ∀ p ∈ sel, p.1 ∈ items ∧ p.2 = p.1.solutions x o ∧ p.1.path ∉ solved :=
      fun p hp => hpot p (h1.subset hp)
    refine countSolution_accounts hc hd ?_ ?_ h4
    · simp only [List.map_append]
      rw [forall₂_path ho (fun p hp => (hsel p hp).2.1) h3]
      -- the paths: selected, not selected among the others, and solved ones
      have hselNd : (sel.map (·.1.path)).Nodup := hpotNd.sublist (h1.map _)
      have hselsub : sel.map (·.1.path) ⊆ (items.map Node.path).filter (fun p => !solved.contains p) := by
        intro p hp
        obtain ⟨q, hq, rfl⟩ := List.mem_map.1 hp
        obtain ⟨g1, _, g3⟩ := hsel q hq
        simp only [List.mem_filter, Bool.not_eq_true', List.contains_eq_mem, decide_eq_false_iff_not]
        exact ⟨List.mem_map_of_mem g1, g3⟩
      have hsplit2 := paths_split (hd.filter _) hselNd hselsub
      have e1 : ((items.filter (fun n => !solved.contains n.path)).filter
          (fun n => !(sel.map (·.1.path)).contains n.path)).map Node.path =
          ((items.map Node.path).filter (fun p => !solved.contains p)).filter
            (fun p => !(sel.map (·.1.path)).contains p) := by
        rw [List.filter_map, List.filter_map]
        rfl
      rw [e1]
      refine ((hsplit2.append_right _).trans ?_)
      refine List.Perm.trans ?_ hsplit
      exact List.perm_append_comm.trans (hsolved.append_right _)
    · intro i hi
      simp only [List.mem_append, List.mem_filter] at hi
      rcases hi with (hi | hi) | hi
      · obtain ⟨p, hp, hin⟩ := forall₂_mem_left h3 hi
        obtain ⟨g1, g2, _⟩ := hsel p hp
        rw [g2] at hin
        exact ⟨p.1, g1, (Node.solutions_path ho hin).symm, Or.inl hin⟩
      · exact ⟨i, hi.1.1, rfl, Or.inr (Or.inl rfl)⟩
      · exact hres i hi
  · refine countSolution_accounts hc hd ?_ ?_ h
    · simp only [List.map_append]
      have e1 : (items.filter (fun n => !solved.contains n.path)).map Node.path =
          (items.map Node.path).filter (fun p => !solved.contains p) := by
        rw [List.filter_map]; rfl
      rw [e1]
      exact ((hsolved.append_left _).trans List.perm_append_comm).trans hsplit
    · intro i hi
      rcases List.mem_append.1 hi with hi | hi
      · exact hothers i hi
      · exact hres i hi

theorem plainCount_accounts {x : Ctx} {o : Orders} (ho : o.Lawful) {d : CountData} {items : List Node} {s : Node}
    (hc : ∀ i ∈ items, CanonicalPath i.path) (hd : (items.map Node.path).Nodup)
    (hw : (getWaiveException x.exceptions d.path).isSome = false)
    (hs : s ∈ (plainCountSolutions x d items (Node.solutionsList x o items)).items) :
    ∃ l, s = .count .solution { d with overridden := false } l ∧ MentionsAll x o items l := by
  unfold plainCountSolutions at hs
  simp only [hw, Bool.false_eq_true, if_false] at hs
  split at hs
  · simp [Gen.raise] at hs
  · rename_i pot hpot
    split at hs
    · simp [Gen.raise] at hs
    · rename_i sorted hsorted
      have hperm := sortByPath_perm hsorted
      have hsub := (mem_filterE hpot).1
      have e0 : items = items.filter (fun n => !([] : List Path).contains n.path) := by simp
      rw [e0] at hs
      have hzip : (items.zip (Node.solutionsList x o items)).map (·.1.path) = items.map Node.path := by
        clear hs hpot hc hd hsub e0
        induction items with
        | nil => rfl
        | cons a l ih => simp [Node.solutionsList, ih]
      refine countSolutions_accounts ho (solved := []) hc hd (by simp) (by simp) (by simp) ?_ ?_ hs
      · intro p hp
        obtain ⟨g1, g2⟩ := mem_solutionsList (hsub.subset (hperm.mem_iff.1 hp))
        exact ⟨g1, g2, by simp⟩
      · have : (pot.map (·.1.path)).Nodup := by
          have := hsub.map (fun p : Node × Gen Node => p.1.path)
          rw [hzip] at this
          exact hd.sublist this
        exact ((hperm.map _).nodup_iff).2 this

/-- **C23.** Every solution of a count rule that is not waived mentions each child exactly
once, in path order, each one solved or left unsolved. -/
theorem C23_each_child_once (x : Ctx) (o : Orders) (ho : o.Lawful) (es : List Exc)
    (hx : x.exceptions = groupExceptions es) (st : Stage) (d : CountData) (items : List Node)
    (hw : ∀ e ∈ es, e.path = d.path → e.kind ≠ .override)
    (hc : ∀ i ∈ items, CanonicalPath i.path) (hd : (items.map Node.path).Nodup)
    (s : Node) (hs : s ∈ ((Node.count st d items).solutions x o).items) :
    ∃ l, s = .count .solution { d with overridden := false } l ∧ MentionsAll x o items l := by
  have hw' : (getWaiveException x.exceptions d.path).isSome = false := by
    by_contra h
    obtain ⟨e, he, hp, hk⟩ := (getWaive_isSome es d.path).1 (by rw [← hx]; exact Bool.not_eq_false _ |>.mp h)
    exact hw e he hp hk
  simp only [Node.solutions] at hs
  exact plainCount_accounts ho hc hd hw' hs

/-- **C23**, for the topmost count rule of an area, whose independent children are solved
first: each child is mentioned exactly once, in path order, solved, left unsolved, or
already resolved. -/
theorem C23_each_child_once_top (x : Ctx) (o : Orders) (ho : o.Lawful) (es : List Exc)
    (hx : x.exceptions = groupExceptions es) (st : Stage) (d : CountData) (items : List Node)
    (hw : ∀ e ∈ es, e.path = d.path → e.kind ≠ .override)
    (hc : ∀ i ∈ items, CanonicalPath i.path) (hd : (items.map Node.path).Nodup) (t0 : ClaimTable)
    (s : Node) (hs : s ∈ ((Node.count st d items).topSolutions x o t0).1.items) :
    ∃ l, s = .count .solution { d with overridden := false } l ∧ MentionsAll x o items l := by
  have hw' : (getWaiveException x.exceptions d.path).isSome = false := by
    by_contra h
    obtain ⟨e, he, hp, hk⟩ := (getWaive_isSome es d.path).1 (by rw [← hx]; exact Bool.not_eq_false _ |>.mp h)
    exact hw e he hp hk
  simp only [Node.topSolutions] at hs
  unfold topCountSolutions at hs
  simp only [hw', Bool.false_eq_true, if_false] at hs
  split at hs
  · simp [Gen.raise] at hs
  · rename_i pot hpot
    split at hs
    · exact plainCount_accounts ho hc hd hw' hs
    · split at hs
      · simp [Gen.raise] at hs
      · rename_i indep codep hind
        split at hs
        · simp [Gen.raise] at hs
        · rename_i solved t1 hsolved
          split at hs
          · simp [Gen.raise] at hs
          · rename_i results hresults
            split at hs
            · simp [Gen.raise] at hs
            · rename_i sorted hsorted
              have hsub := (mem_filterE hpot).1
              obtain ⟨hi, hcd⟩ := findIndependent_subset hind
              obtain ⟨h1, h2⟩ := solveIndependent_mem hsolved
              have hpotNd : (pot.map Node.path).Nodup := hd.sublist (hsub.map _)
              have hindNd : (indep.map Node.path).Nodup := hpotNd.sublist (hi.map _)
              have hsolNd : (solved.map (·.1.path)).Nodup := by
                have : solved.map (·.1.path) = (solved.map (·.1)).map Node.path := by simp
                rw [this, h1]
                exact (((ho.2.2 indep).map _).nodup_iff).2 hindNd
              have hsolsub : ∀ p ∈ solved, p.1 ∈ indep := by
                intro p hp
                apply (ho.2.2 indep).mem_iff.1
                rw [← h1]
                exact List.mem_map_of_mem hp
              have hrp : ∀ p ∈ solved, ∀ r, p.2 = some r → r.path = p.1.path := by
                intro p hp r hr
                obtain ⟨s', hs', t3, hs''⟩ := h2 p hp r hr
                rw [Node.audit_path hs'', Node.solutions_path ho hs']
              refine countSolutions_accounts ho hc hd ?_ ?_ ?_ ?_ ?_ hs
              · intro i hi'
                obtain ⟨p, hp, hpr⟩ := List.mem_filterMap.1 ((sortByPath_perm hresults).mem_iff.1 hi')
                obtain ⟨s', hs', t3, hs''⟩ := h2 p hp i hpr
                refine ⟨p.1, hsub.subset (hi.subset (hsolsub p hp)), (hrp p hp i hpr).symm, Or.inr (Or.inr ?_)⟩
                exact ⟨s', hs', t3, hs''⟩
              · refine ((sortByPath_perm hresults).map _).trans ?_
                have : (solved.filterMap (·.2)).map Node.path =
                    (solved.filter (·.2.isSome)).map (·.1.path) := by
                  clear hs hsolved h1 h2 hresults hsolNd hsolsub
                  induction solved with
                  | nil => rfl
                  | cons p ps ih =>
                    have ih := ih (fun q hq => hrp q (List.mem_cons_of_mem _ hq))
                    rcases hp2 : p.2 with _ | r
                    · simp [hp2, ih]
                    · simp [hp2, ih, hrp p List.mem_cons_self r hp2]
                rw [this]
              · exact hsolNd.sublist (List.filter_sublist.map _)
              · intro p hp
                obtain ⟨n, hn, rfl⟩ := List.mem_map.1 hp
                have hn' := (sortByPath_perm hsorted).mem_iff.1 hn
                refine ⟨hsub.subset (hcd.subset hn'), rfl, ?_⟩
                -- the independent and the other children are different
                intro hmem
                obtain ⟨q, hq, hqp⟩ := List.mem_map.1 hmem
                have hq' := hsolsub q (List.mem_of_mem_filter hq)
                have : q.1.path = n.path := hqp
                unfold findIndependent at hind
                split at hind
                · cases hind
                · split at hind
                  · obtain ⟨rfl, rfl⟩ := Prod.mk.inj (Except.ok.inj hind)
                    simp at hn'
                  · obtain ⟨rfl, rfl⟩ := Prod.mk.inj (Except.ok.inj hind)
                    simp only [List.mem_filter] at hq' hn'
                    rw [this, hn'.2] at hq'
                    simp at hq'
              · rw [List.map_map]
                have : (sorted.map Node.path).Nodup :=
                  (((sortByPath_perm hsorted).map _).nodup_iff).2 (hpotNd.sublist (hcd.map _))
                exact this

/-! ### At least one solution -/

theorem Gen.orElse_yields {α : Type} {g h : Gen α} (hh : h.items ≠ [] ∨ h.err ≠ none) :
    (g.orElse h).items ≠ [] ∨ (g.orElse h).err ≠ none := by
  unfold Gen.orElse
  obtain ⟨l, e⟩ := g
  cases l <;> cases e <;> simp_all

theorem countSolution_yields (d : CountData) (l : List Node) :
    (countSolution d l).items ≠ [] ∨ (countSolution d l).err ≠ none := by
  unfold countSolution
  split <;> simp [Gen.raise, Gen.one]

theorem countSolutions_yields (d : CountData) (n : Nat) (pot : List (Node × Gen Node)) (rs os : List Node) :
    (countSolutions d n pot rs os).items ≠ [] ∨ (countSolutions d n pot rs os).err ≠ none :=
  Gen.orElse_yields (countSolution_yields _ _)

/-- **C23.** A count rule is never silent: it yields a solution or raises. -/
theorem C23_never_silent (x : Ctx) (o : Orders) (st : Stage) (d : CountData) (items : List Node) :
    let g := (Node.count st d items).solutions x o
    g.items ≠ [] ∨ g.err ≠ none := by
  simp only [Node.solutions, plainCountSolutions]
  repeat' split
  all_goals first
    | exact countSolutions_yields _ _ _ _ _
    | simp [Gen.raise, Gen.one]

theorem Gen.forList_yields {α β : Type} {l : List α} {f : α → Gen β}
    (hl : l ≠ []) (h : ∀ a ∈ l, (f a).items ≠ []) : (Gen.forList l f).items ≠ [] := by
  cases l with
  | nil => exact absurd rfl hl
  | cons a as =>
    have := h a List.mem_cons_self
    simp only [Gen.forList, Gen.append]
    split <;> simp_all

theorem cartesianGen_yields {α : Type} {gs : List (Gen α)} (h : ∀ g ∈ gs, g.items ≠ []) :
    (cartesianGen gs).items ≠ [] := by
  induction gs with
  | nil => simp [cartesianGen, Gen.one]
  | cons g gs ih =>
    have ih := ih (fun g' h' => h g' (List.mem_cons_of_mem _ h'))
    simp only [cartesianGen, Gen.bind, Gen.append]
    have : (Gen.forList g.items (fun x => (cartesianGen gs).map (fun t => x :: t))).items ≠ [] :=
      Gen.forList_yields (h g List.mem_cons_self) (fun a _ => by simpa [Gen.map] using ih)
    split <;> simp_all

theorem lazyProduct_yields {α : Type} {gs : List (Gen α)} (h : ∀ g ∈ gs, g.items ≠ []) :
    (lazyProduct gs).items ≠ [] := by
  rw [lazyProduct_eq gs 1 (by simpa using h)]
  exact cartesianGen_yields (by simpa using h)

theorem Gen.bind_yields {α β : Type} {g : Gen α} {f : α → Gen β} (hg : g.items ≠ [])
    (h : ∀ a ∈ g.items, (f a).items ≠ []) : (g.bind f).items ≠ [] := by
  have := Gen.forList_yields hg h
  simp only [Gen.bind, Gen.append]
  split <;> simp_all

theorem countSolution_yields_ok {d : CountData} {l : List Node}
    (hc : ∀ i ∈ l, CanonicalPath i.path) (hd : (l.map Node.path).Nodup) :
    (countSolution d l).items ≠ [] := by
  obtain ⟨l', h, _⟩ := C15_sort_correct Node.path l hc hd
  unfold countSolution
  rw [h]
  simp [Gen.one]

theorem Gen.forList_clean {α β : Type} {l : List α} {f : α → Gen β}
    (h : ∀ a ∈ l, (f a).items ≠ [] ∨ f a = Gen.nil) :
    (Gen.forList l f).items ≠ [] ∨ Gen.forList l f = Gen.nil := by
  induction l with
  | nil => exact Or.inr rfl
  | cons a as ih =>
    have ih := ih (fun b hb => h b (List.mem_cons_of_mem _ hb))
    simp only [Gen.forList]
    rcases h a List.mem_cons_self with h1 | h1
    · left
      simp only [Gen.append]
      split <;> simp_all
    · rw [h1]
      simpa using ih

theorem Gen.orElse_items {α : Type} {g h : Gen α} (hg : g.items ≠ [] ∨ g = Gen.nil) (hh : h.items ≠ []) :
    (g.orElse h).items ≠ [] := by
  rcases hg with hg | rfl
  · unfold Gen.orElse
    obtain ⟨l, e⟩ := g
    cases l <;> cases e <;> simp_all
  · exact hh

theorem Gen.orElse_clean {α : Type} {g h : Gen α} (hg : g.items ≠ [] ∨ g = Gen.nil)
    (hh : h.items ≠ [] ∨ h = Gen.nil) : (g.orElse h).items ≠ [] ∨ g.orElse h = Gen.nil := by
  rcases hg with hg | rfl
  · left
    unfold Gen.orElse
    obtain ⟨l, e⟩ := g
    cases l <;> cases e <;> simp_all
  · exact hh

/-- An unwaived count rule whose potential children all yield a solution yields one. -/
theorem plainCount_yields {x : Ctx} {o : Orders} (ho : o.Lawful) {d : CountData} {items : List Node}
    (hc : ∀ i ∈ items, CanonicalPath i.path) (hd : (items.map Node.path).Nodup)
    (hp : ∀ i ∈ items, ∃ b, i.hasPotential x = .ok b ∧ (b = true → (i.solutions x o).items ≠ [])) :
    (plainCountSolutions x d items (Node.solutionsList x o items)).items ≠ [] := by
  unfold plainCountSolutions
  split
  · simp [Gen.one]
  · have hzip : (items.zip (Node.solutionsList x o items)).map (·.1.path) = items.map Node.path := by
      clear hp hc hd
      induction items with
      | nil => rfl
      | cons a l ih => simp [Node.solutionsList, ih]
    have hfil : ∃ pot, filterE (fun p : Node × Gen Node => p.1.hasPotential x)
        (items.zip (Node.solutionsList x o items)) = .ok pot := by
      have : ∀ l : List (Node × Gen Node), (∀ p ∈ l, ∃ b, p.1.hasPotential x = .ok b) →
          ∃ pot, filterE (fun p : Node × Gen Node => p.1.hasPotential x) l = .ok pot := by
        intro l
        induction l with
        | nil => intro _; exact ⟨[], rfl⟩
        | cons p l ih =>
          intro hl
          obtain ⟨pot, hpot⟩ := ih (fun q hq => hl q (List.mem_cons_of_mem _ hq))
          obtain ⟨b, hb⟩ := hl p List.mem_cons_self
          simp only [filterE, hb, hpot]
          exact ⟨_, rfl⟩
      refine this _ (fun p hp' => ?_)
      obtain ⟨h1, _⟩ := mem_solutionsList hp'
      obtain ⟨b, hb, _⟩ := hp p.1 h1
      exact ⟨b, hb⟩
    obtain ⟨pot, hpot⟩ := hfil
    have hsub := (mem_filterE hpot).1
    have hpotNd : (pot.map (·.1.path)).Nodup := by
      have := hsub.map (fun p : Node × Gen Node => p.1.path)
      rw [hzip] at this
      exact hd.sublist this
    have hpotC : ∀ p ∈ pot, CanonicalPath p.1.path :=
      fun p hp' => hc _ (mem_solutionsList (hsub.subset hp')).1
    obtain ⟨sorted, hsorted, hperm, _⟩ := C15_sort_correct (fun p : Node × Gen Node => p.1.path) pot hpotC hpotNd
    rw [hpot]
    simp only
    rw [hsorted]
    simp only
    have hgens : ∀ p ∈ sorted, p.2.items ≠ [] := by
      intro p hp'
      have hp'' := hperm.mem_iff.1 hp'
      obtain ⟨h1, h2⟩ := mem_solutionsList (hsub.subset hp'')
      obtain ⟨b, hb, hby⟩ := hp p.1 h1
      have := ((mem_filterE hpot).2 p).1 hp''
      rw [hb] at this
      rw [h2]
      exact hby (by simpa using this.2)
    have hcomb : ∀ size, (makeCombinations d sorted [] items size).items ≠ [] ∨
        makeCombinations d sorted [] items size = Gen.nil := by
      intro size
      refine Gen.forList_clean (fun (sel : List (Node × Gen Node)) hsel => Or.inl ?_)
      have hsel' := (mem_combos.1 hsel).1
      refine Gen.bind_yields (lazyProduct_yields ?_) ?_
      · intro g hg
        obtain ⟨p, hp', rfl⟩ := List.mem_map.1 hg
        exact hgens p (hsel'.subset hp')
      · intro sols hsols
        have hF := mem_lazyProduct hsols
        have hF' : List.Forall₂ (fun a (p : Node × Gen Node) => a ∈ p.2.items) sols sel := by
          simpa [List.forall₂_map_right_iff] using hF
        have hselm : ∀ p ∈ sel, p.1 ∈ items ∧ p.2 = p.1.solutions x o := fun p hp' =>
          mem_solutionsList (hsub.subset (hperm.mem_iff.1 (hsel'.subset hp')))
        have hmap := forall₂_path ho (fun p hp' => (hselm p hp').2) hF'
        have hselNd : (sel.map (·.1.path)).Nodup :=
          (((hperm.map (fun p : Node × Gen Node => p.1.path)).nodup_iff).2 hpotNd).sublist (hsel'.map _)
        have hselsub : sel.map (·.1.path) ⊆ items.map Node.path := by
          intro p hp'
          obtain ⟨q, hq, rfl⟩ := List.mem_map.1 hp'
          exact List.mem_map_of_mem (hselm q hq).1
        have hperm2 : ((sols ++ items.filter (fun n : Node => !(sel.map (fun p : Node × Gen Node => p.1.path)).contains n.path) ++ []).map
            Node.path).Perm (items.map Node.path) := by
          simp only [List.append_nil, List.map_append, hmap]
          have e1 : (items.filter (fun n => !(sel.map (·.1.path)).contains n.path)).map Node.path =
              (items.map Node.path).filter (fun p => !(sel.map (·.1.path)).contains p) := by
            rw [List.filter_map]; rfl
          rw [e1]
          exact paths_split hd hselNd hselsub
        refine countSolution_yields_ok ?_ (hperm2.nodup_iff.2 hd)
        intro i hi
        have : i.path ∈ items.map Node.path := hperm2.mem_iff.1 (List.mem_map_of_mem hi)
        obtain ⟨j, hj, hji⟩ := List.mem_map.1 this
        rw [← hji]
        exact hc j hj
    unfold countSolutions
    refine Gen.orElse_items (Gen.orElse_clean (Gen.forList_clean (fun size _ => hcomb size)) ?_) ?_
    · split
      · exact Or.inr rfl
      · exact hcomb _
    · rw [List.append_nil]
      exact countSolution_yields_ok hc hd

/-! ### The whole tree -/

theorem courseSolutions_yields (x : Ctx) (d : CourseData) :
    (courseSolutions x d).items ≠ [] ∨ (courseSolutions x d).err ≠ none := by
  unfold courseSolutions
  split
  · simp [Gen.one]
  · exact Gen.orElse_yields (by simp [Gen.one])

theorem querySolutions_yields (x : Ctx) (o : Orders) (d : QueryData) :
    (querySolutions x o d).items ≠ [] ∨ (querySolutions x o d).err ≠ none := by
  unfold querySolutions
  repeat' split
  all_goals first
    | exact Gen.orElse_yields (by simp [Gen.one])
    | simp [Gen.raise, Gen.one]

theorem profSolutions_yields (x : Ctx) (d : ProfData) (c : Option (Stage × CourseData)) :
    (profSolutions x d c).items ≠ [] ∨ (profSolutions x d c).err ≠ none := by
  unfold profSolutions
  repeat' split
  all_goals simp [Gen.raise, Gen.one]

/-- A rule that ends in a conditional whose condition is false (or unknown) and that has
nothing for that case. -/
def Node.deadEnd : Node → Bool
  | .cond _ d t f => match d.condition with
    | some true => t.deadEnd
    | some false => match f with
      | some n => n.deadEnd
      | none => true
    | none => true
  | .req _ _ (some n) => n.deadEnd
  | _ => false

mutual
/-- What the search for solutions relies on: no leaf raises, potential can be decided,
siblings have different canonical paths, and no child of a count that has potential is a
dead end. -/
def Node.Searchable (x : Ctx) (o : Orders) : Node → Prop
  | .course st d => ((Node.course st d).solutions x o).err = none
  | .query st d => ((Node.query st d).solutions x o).err = none
  | .prof st d c => ((Node.prof st d c).solutions x o).err = none
  | .count _ _ items => (∀ i ∈ items, CanonicalPath i.path) ∧ (items.map Node.path).Nodup ∧
      Node.SearchableList x o items
  | .req _ _ r => Node.SearchableOpt x o r
  | .cond _ _ t f => t.Searchable x o ∧ Node.SearchableOpt x o f
def Node.SearchableList (x : Ctx) (o : Orders) : List Node → Prop
  | [] => True
  | n :: ns => (∃ b, n.hasPotential x = .ok b ∧ (n.deadEnd = true → b = false)) ∧ n.Searchable x o ∧
      Node.SearchableList x o ns
def Node.SearchableOpt (x : Ctx) (o : Orders) : Option Node → Prop
  | none => True
  | some n => n.Searchable x o
end

mutual
theorem Node.yields {x : Ctx} {o : Orders} (ho : o.Lawful) : (n : Node) → n.Searchable x o →
    n.deadEnd = false → (n.solutions x o).items ≠ []
  | .course st d, h, _ => by
    simp only [Node.Searchable, Node.solutions, Gen.map] at h ⊢
    rcases courseSolutions_yields x d with h' | h'
    · simpa using h'
    · exact absurd h h'
  | .query st d, h, _ => by
    simp only [Node.Searchable, Node.solutions, Gen.map] at h ⊢
    rcases querySolutions_yields x o d with h' | h'
    · simpa using h'
    · exact absurd h h'
  | .prof st d c, h, _ => by
    simp only [Node.Searchable, Node.solutions] at h ⊢
    rcases profSolutions_yields x d c with h' | h'
    · exact h'
    · exact absurd h h'
  | .count st d items, h, _ => by
    simp only [Node.solutions]
    obtain ⟨h1, h2, h3⟩ := h
    exact plainCount_yields ho h1 h2 (Node.yieldsList ho items h3)
  | .req st d none, _, _ => by
    simp only [Node.solutions, Node.solutionsOpt]
    split <;> simp [Gen.one]
  | .req st d (some n), h, hd => by
    simp only [Node.solutions, Node.solutionsOpt]
    split
    · simp [Gen.one]
    · have := Node.yields ho n h hd
      simpa [Gen.map] using this
  | .cond st d t none, h, hd => by
    simp only [Node.deadEnd] at hd
    simp only [Node.solutions]
    split
    · rename_i hc
      rw [hc] at hd
      have := Node.yields ho t h.1 hd
      simpa [Gen.map] using this
    · rename_i hc
      simp [hc] at hd
    · rename_i hc
      simp [hc] at hd
  | .cond st d t (some f), h, hd => by
    simp only [Node.deadEnd] at hd
    simp only [Node.solutions, Node.solutionsOpt]
    split
    · rename_i hc
      rw [hc] at hd
      have := Node.yields ho t h.1 hd
      simpa [Gen.map] using this
    · rename_i hc
      rw [hc] at hd
      have := Node.yields ho f h.2 hd
      simpa [Gen.map] using this
    · rename_i hc
      simp [hc] at hd
theorem Node.yieldsList {x : Ctx} {o : Orders} (ho : o.Lawful) : (l : List Node) → Node.SearchableList x o l →
    ∀ i ∈ l, ∃ b, i.hasPotential x = .ok b ∧ (b = true → (i.solutions x o).items ≠ [])
  | [], _ => by simp
  | n :: ns, h => by
    intro i hi
    obtain ⟨⟨b, hb, hbd⟩, h2, h3⟩ := h
    rcases List.mem_cons.1 hi with he | hi
    · rw [he]
      refine ⟨b, hb, fun hbt => Node.yields ho n h2 ?_⟩
      cases hdn : n.deadEnd with
      | false => rfl
      | true => exact absurd (hbd hdn) (by simp [hbt])
    · exact Node.yieldsList ho ns h3 i hi
end

/-- A dead end has no potential when no exception lies at or beneath its requirements. -/
theorem Node.deadEnd_potential {x : Ctx} (hx : ∀ p, existsBeneath x.exceptions p = false) :
    (n : Node) → n.deadEnd = true → n.hasPotential x = .ok false
  | .course _ _, h => by simp [Node.deadEnd] at h
  | .query _ _, h => by simp [Node.deadEnd] at h
  | .prof _ _ _, h => by simp [Node.deadEnd] at h
  | .count _ _ _, h => by simp [Node.deadEnd] at h
  | .req _ d none, h => by simp [Node.deadEnd] at h
  | .req _ d (some n), h => by
    simp only [Node.deadEnd] at h
    simp only [Node.hasPotential, hx, Bool.false_eq_true, if_false, Node.optPotential]
    split
    · rfl
    · exact Node.deadEnd_potential hx n h
  | .cond _ d t none, h => by
    simp only [Node.deadEnd] at h
    simp only [Node.hasPotential, Node.optPotential]
    split
    · rename_i hc
      rw [hc] at h
      exact Node.deadEnd_potential hx t h
    · rfl
    · rfl
  | .cond _ d t (some f), h => by
    simp only [Node.deadEnd] at h
    simp only [Node.hasPotential, Node.optPotential]
    split
    · rename_i hc
      rw [hc] at h
      exact Node.deadEnd_potential hx t h
    · rename_i hc
      rw [hc] at h
      exact Node.deadEnd_potential hx f h
    · rfl

/-- **C23, partial.** A count rule always yields a solution, provided the search meets no
error below it and no potential child ends in a conditional without an answer.  Missing: the
remaining case is false (`C23_always_yields_refuted`). -/
theorem C23_always_yields_partial (x : Ctx) (o : Orders) (ho : o.Lawful) (st : Stage) (d : CountData)
    (items : List Node) (h : (Node.count st d items).Searchable x o) :
    ((Node.count st d items).solutions x o).items ≠ [] :=
  Node.yields ho _ h rfl

/-- A count rule, one of whose requirements ends in a conditional that is false and has
nothing for that case, raises as soon as an exception is recorded beneath that requirement. -/
theorem C23_always_yields_refuted : ∃ (x : Ctx) (es : List Exc) (n : Node), x.exceptions = groupExceptions es ∧
    n.Loaded x ∧ (∃ st d items, n = .count st d items ∧ (∀ i ∈ items, CanonicalPath i.path) ∧
      (items.map Node.path).Nodup) ∧
    (n.solutions x .insertion).items.length = 0 ∧ (n.solutions x .insertion).err = some .runtimeError := by
  let es : List Exc := [⟨["$", ".count", "[0]", "%Language", ".cond", "/t", "*CSCI 121"],
    .insertion "12" false⟩]
  let c : Node := .cond .rule { path := ["$", ".count", "[0]", "%Language", ".cond"], condition := some false }
      (.course .rule { path := ["$", ".count", "[0]", "%Language", ".cond", "/t", "*CSCI 121"]
                       course := some "CSCI 121" }) none
  let r : Node := .req .rule { path := ["$", ".count", "[0]", "%Language"], name := "Language" } (some c)
  refine ⟨{ exceptions := groupExceptions es }, es, .count .rule { path := ["$", ".count"], count := 1 } [r],
    rfl, ⟨rfl, rfl, ⟨rfl, rfl, ⟨rfl, by decide, ⟨rfl, rfl, rfl, rfl, rfl⟩, trivial⟩⟩, trivial⟩,
    ⟨_, _, _, rfl, ?_, by simp [r]⟩, by decide +kernel, by decide +kernel⟩
  intro i hi s hs
  simp only [List.mem_singleton] at hi
  subst hi
  simp only [r, Node.path, List.mem_cons, List.not_mem_nil, or_false] at hs
  rcases hs with rfl | rfl | rfl | rfl
  · left; decide
  · left; decide
  · right; exact ⟨0, by decide, by decide⟩
  · left; decide

theorem canonical_example : ∀ s ∈ ["[0]", "[1]", "[10]", "$", ".count", "*CSCI 121", "*CSCI 251"],
    CanonicalPath [s] := by
  intro s hs t ht
  simp only [List.mem_singleton] at ht
  subst ht
  simp only [List.mem_cons, List.not_mem_nil, or_false] at hs
  rcases hs with rfl | rfl | rfl | rfl | rfl | rfl | rfl
  · right; exact ⟨0, by decide, by decide⟩
  · right; exact ⟨1, by decide, by decide⟩
  · right; exact ⟨10, by decide, by decide⟩
  all_goals left; decide

/-- Non-trivial case for C23: one or more of three courses, two of them name the one that the
student has taken; there are three solutions. -/
example :
    let c (i p n : String) : Node := .course .rule { path := ["$", ".count", i, p], course := some n }
    let items := [c "[0]" "*CSCI 121" "CSCI 121", c "[1]" "*CSCI 251" "CSCI 251", c "[10]" "*CSCI 251" "CSCI 251"]
    let d : CountData := { path := ["$", ".count"], count := 1 }
    let n : Node := .count .rule d items
    let x : Ctx := { exceptions := groupExceptions []
                     transcript := [{ clbid := "7", identity := "CSCI 251" }] }
    (∀ i ∈ items, CanonicalPath i.path) ∧ (items.map Node.path).Nodup ∧ n.Searchable x .insertion ∧
      (n.solutions x .insertion).items.length = 3 := by
  have hc := canonical_example
  simp only [List.mem_cons, List.not_mem_nil, or_false, forall_eq_or_imp, forall_eq] at hc
  obtain ⟨h0, h1, h2, hd, hcount, ha, hb⟩ := hc
  have hcan : ∀ i n, CanonicalPath [i] → CanonicalPath [n] → CanonicalPath ["$", ".count", i, n] := by
    intro i n hi hn s hs
    simp only [List.mem_cons, List.not_mem_nil, or_false] at hs
    rcases hs with rfl | rfl | rfl | rfl
    · exact hd _ (by simp)
    · exact hcount _ (by simp)
    · exact hi _ (by simp)
    · exact hn _ (by simp)
  have hall : ∀ i ∈ [Node.course .rule { path := ["$", ".count", "[0]", "*CSCI 121"], course := some "CSCI 121" },
      Node.course .rule { path := ["$", ".count", "[1]", "*CSCI 251"], course := some "CSCI 251" },
      Node.course .rule { path := ["$", ".count", "[10]", "*CSCI 251"], course := some "CSCI 251" }],
      CanonicalPath i.path := by
    intro i hi
    simp only [List.mem_cons, List.not_mem_nil, or_false] at hi
    rcases hi with rfl | rfl | rfl
    · exact hcan _ _ h0 ha
    · exact hcan _ _ h1 hb
    · exact hcan _ _ h2 hb
  refine ⟨hall, by decide, ⟨hall, by decide, ⟨false, by decide +kernel, by decide⟩, ?_,
    ⟨true, by decide +kernel, by decide⟩, ?_, ⟨true, by decide +kernel, by decide⟩, ?_, trivial⟩,
    by decide +kernel⟩
  all_goals
    show Gen.err _ = none
    decide +kernel

end Dp
