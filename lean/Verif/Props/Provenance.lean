import Verif.Props.AreaClaims
import Verif.Props.Blocks

/-
Where the results of course and query rules in an area's result come from: each is the result of auditing a solution of a
course or query rule of the area.
-/
namespace Dp

/-- `r` is the result of auditing some solution of the rule `n`. -/
def ResultOf (x : Ctx) (o : Orders) (n r : Node) : Prop :=
  ∃ s ∈ (n.solutions x o).items, ∃ t t', s.audit x o t = .ok (r, t')

/-- the course and query results in a result; rules that were not selected stay in it as rules -/
def Node.leafResults (r : Node) : List Node := r.leaves.filter (fun q => q.stage == .result)

/-- All course and query results in the results of `n` satisfy `P`. -/
def ResultsSatisfy (x : Ctx) (o : Orders) (P : Node → Prop) (n : Node) : Prop :=
  ∀ r, ResultOf x o n r → ∀ q ∈ r.leafResults, P q

theorem Node.mem_leafResults {r q : Node} : q ∈ r.leafResults ↔ q ∈ r.leaves ∧ q.stage = .result := by
  simp [Node.leafResults]

mutual
theorem Node.loaded_leaves (x : Ctx) : ∀ n : Node, n.Loaded x → ∀ q ∈ n.leaves, q.stage = .rule
  | .course s d, h => by
    simp only [Node.Loaded] at h
    simp only [Node.leaves, List.mem_singleton]
    rintro q rfl
    exact h.1
  | .query s d, h => by
    simp only [Node.Loaded] at h
    simp only [Node.leaves, List.mem_singleton]
    rintro q rfl
    exact h.1
  | .count _ _ items, h => by
    simp only [Node.Loaded] at h
    simp only [Node.leaves]
    exact Node.loaded_leavesList x items h.2.2
  | .req _ _ r, h => by
    simp only [Node.Loaded] at h
    simp only [Node.leaves]
    exact Node.loaded_leavesOpt x r h.2.2
  | .cond _ _ t f, h => by
    simp only [Node.Loaded] at h
    simp only [Node.leaves, List.mem_append]
    rintro q (hq | hq)
    · exact Node.loaded_leaves x t h.2.2.1 q hq
    · exact Node.loaded_leavesOpt x f h.2.2.2 q hq
  | .prof _ _ c, h => by
    simp only [Node.Loaded] at h
    simp only [Node.leaves, List.mem_map]
    rintro q ⟨p, hp, rfl⟩
    rw [Option.mem_toList] at hp
    exact (h.2.2 _ hp).1
theorem Node.loaded_leavesList (x : Ctx) : ∀ ns : List Node, Node.LoadedList x ns → ∀ q ∈ Node.leavesList ns, q.stage = .rule
  | [], _ => by simp [Node.leavesList]
  | n :: ns, h => by
    simp only [Node.LoadedList] at h
    simp only [Node.leavesList, List.mem_append]
    rintro q (hq | hq)
    · exact Node.loaded_leaves x n h.1 q hq
    · exact Node.loaded_leavesList x ns h.2 q hq
theorem Node.loaded_leavesOpt (x : Ctx) : ∀ n : Option Node, Node.LoadedOpt x n → ∀ q ∈ Node.leavesOpt n, q.stage = .rule
  | none, _ => by simp [Node.leavesOpt]
  | some n, h => by
    simp only [Node.LoadedOpt] at h
    simp only [Node.leavesOpt]
    exact Node.loaded_leaves x n h
end

theorem Node.loaded_no_results {x : Ctx} {n : Node} (h : n.Loaded x) : n.leafResults = [] := by
  rw [List.eq_nil_iff_forall_not_mem]
  intro q hq
  obtain ⟨h1, h2⟩ := Node.mem_leafResults.1 hq
  rw [Node.loaded_leaves x n h q h1] at h2
  cases h2

/-- the leaf results of an audited count, if those of its items are accounted for -/
theorem count_results_of {x : Ctx} {o : Orders} {d : CountData} {l : List Node} {t t' : ClaimTable} {r : Node}
    (P : Node → Prop) (h : (Node.count .solution d l).audit x o t = .ok (r, t'))
    (hov : d.overridden = true → ∀ n ∈ l, ∀ q ∈ n.leafResults, P q)
    (hl : ∀ n ∈ l, ∀ t1 t2 r', n.audit x o t1 = .ok (r', t2) → ∀ q ∈ r'.leafResults, P q) :
    ∀ q ∈ r.leafResults, P q := by
  intro q hq
  obtain ⟨hq, hst⟩ := Node.mem_leafResults.1 hq
  rcases Node.audit_count h with ⟨h1, rfl, _⟩ | ⟨_, rs, as, hrs, _, rfl⟩
  · simp only [Node.leaves] at hq
    obtain ⟨n, hn, hq⟩ := Node.mem_leavesList.1 hq
    exact hov h1 n hn q (Node.mem_leafResults.2 ⟨hq, hst⟩)
  · simp only [Node.leaves] at hq
    obtain ⟨r', hr', hq⟩ := Node.mem_leavesList.1 hq
    obtain ⟨n, hn, t1, t2, ha⟩ := Node.auditList_mem hrs hr'
    exact hl n hn t1 t2 r' ha q (Node.mem_leafResults.2 ⟨hq, hst⟩)

theorem rule_results {x : Ctx} {o : Orders} {items : List Node} (hload : Node.LoadedList x items) {n : Node} (hn : n ∈ items)
    {P : Node → Prop} {t1 t2 : ClaimTable} {r' : Node} (ha : n.audit x o t1 = .ok (r', t2)) : ∀ q ∈ r'.leafResults, P q := by
  have hl := Node.loadedList_iff.1 hload n hn
  rw [Node.audit_of_not_solution (by rw [Node.loaded_stage hl]; decide)] at ha
  obtain ⟨rfl, rfl⟩ := Prod.mk.inj (Except.ok.inj ha)
  rw [Node.loaded_no_results hl]
  simp

theorem plainCount_results {x : Ctx} {o : Orders} {P : Node → Prop} {d : CountData} {items : List Node}
    (hload : Node.LoadedList x items) (ih : ∀ n ∈ items, ResultsSatisfy x o P n)
    {s : Node} (hs : s ∈ (plainCountSolutions x d items (Node.solutionsList x o items)).items)
    {t t' : ClaimTable} {r : Node} (ha : s.audit x o t = .ok (r, t')) : ∀ q ∈ r.leafResults, P q := by
  unfold plainCountSolutions at hs
  split at hs
  · simp only [Gen.one, List.mem_singleton] at hs
    subst hs
    refine count_results_of P ha (fun _ n hn q hq => ?_) (fun n hn t1 t2 r' ha' => rule_results hload hn ha')
    rw [Node.loaded_no_results (Node.loadedList_iff.1 hload n hn)] at hq
    simp at hq
  · split at hs
    · simp [Gen.raise] at hs
    · rename_i pot hpot
      split at hs
      · simp [Gen.raise] at hs
      · rename_i sorted hsorted
        obtain ⟨l, rfl, hl⟩ := countSolutions_items hs
        refine count_results_of P ha (fun h => by cases h) (fun n hn t1 t2 r' ha' => ?_)
        rcases hl n hn with ⟨p, hp, hi⟩ | hn' | hn'
        · have hp' := (mem_filterE hpot).1.subset ((sortByPath_perm hsorted).mem_iff.1 hp)
          obtain ⟨h1, h2⟩ := mem_solutionsList hp'
          rw [h2] at hi
          exact ih p.1 h1 r' ⟨n, hi, t1, t2, ha'⟩
        · exact rule_results hload hn' ha'
        · simp at hn'

mutual
/-- If all results of the leaves in use satisfy `P`, then all course and query results in the results of the tree do. -/
theorem Node.results_of_live (x : Ctx) (o : Orders) (P : Node → Prop) : ∀ n : Node, n.Loaded x →
    (∀ leaf ∈ n.liveLeaves, ResultsSatisfy x o P leaf) → ResultsSatisfy x o P n
  | .course s d, _, h => h _ (by simp [Node.liveLeaves])
  | .query s d, _, h => h _ (by simp [Node.liveLeaves])
  | .count s d items, hl, h => by
    simp only [Node.Loaded] at hl
    simp only [Node.liveLeaves] at h
    rintro r ⟨s, hs, t, t', ha⟩
    simp only [Node.solutions] at hs
    exact plainCount_results hl.2.2 (Node.results_of_liveList x o P items hl.2.2 h) hs ha
  | .req s d child, hl, h => by
    simp only [Node.Loaded] at hl
    simp only [Node.liveLeaves] at h
    rintro r ⟨s, hs, t, t', ha⟩
    simp only [Node.solutions] at hs
    split at hs
    · simp only [Gen.one, List.mem_singleton] at hs
      subst hs
      simp only [reqSolution, Node.audit, if_true] at ha
      obtain ⟨rfl, rfl⟩ := Prod.mk.inj (Except.ok.inj ha)
      intro q hq
      obtain ⟨hq, hst⟩ := Node.mem_leafResults.1 hq
      simp only [Node.leaves] at hq
      rw [Node.loaded_leavesOpt x child hl.2.2 q hq] at hst
      cases hst
    · split at hs
      · simp only [Gen.one, List.mem_singleton] at hs
        subst hs
        simp only [reqSolution, Node.audit, Bool.false_eq_true, if_false, Node.auditOpt] at ha
        obtain ⟨rfl, rfl⟩ := Prod.mk.inj (Except.ok.inj ha)
        intro q hq
        simp [Node.leafResults, Node.leaves, Node.leavesOpt] at hq
      · rename_i g hg
        obtain ⟨s', hs', rfl⟩ := Gen.mem_map.1 hs
        simp only [reqSolution, Node.audit, Bool.false_eq_true, if_false, Node.auditOpt] at ha
        split at ha
        · cases ha
        · rename_i r' t2 hr'
          obtain ⟨rfl, rfl⟩ := Prod.mk.inj (Except.ok.inj ha)
          split at hr'
          · cases hr'
          · rename_i r'' t3 hr''
            obtain ⟨rfl, rfl⟩ := Prod.mk.inj (Except.ok.inj hr')
            intro q hq
            simp only [Node.leafResults, Node.leaves, Node.leavesOpt] at hq
            exact Node.results_of_liveOpt x o P child hl.2.2 h g hg s' hs' _ _ _ hr'' q hq
  | .cond s d th f, hl, h => by
    simp only [Node.Loaded] at hl
    simp only [Node.liveLeaves] at h
    rintro r ⟨s, hs, t, t', ha⟩
    simp only [Node.solutions] at hs
    split at hs
    · rename_i hc
      rw [hc] at h
      obtain ⟨s', hs', rfl⟩ := Gen.mem_map.1 hs
      simp only [Node.audit, hc] at ha
      split at ha
      · cases ha
      · rename_i r' t2 hr'
        obtain ⟨rfl, rfl⟩ := Prod.mk.inj (Except.ok.inj ha)
        intro q hq
        obtain ⟨hq, hst⟩ := Node.mem_leafResults.1 hq
        simp only [Node.leaves, List.mem_append] at hq
        rcases hq with hq | hq
        · exact Node.results_of_live x o P th hl.2.2.1 h r' ⟨s', hs', _, _, hr'⟩ q (Node.mem_leafResults.2 ⟨hq, hst⟩)
        · rw [Node.loaded_leavesOpt x f hl.2.2.2 q hq] at hst
          cases hst
    · rename_i hc
      rw [hc] at h
      split at hs
      · rename_i g hg
        obtain ⟨s', hs', rfl⟩ := Gen.mem_map.1 hs
        simp only [Node.audit, hc, Node.auditOpt] at ha
        split at ha
        · cases ha
        · rename_i r' t2 hr'
          obtain ⟨rfl, rfl⟩ := Prod.mk.inj (Except.ok.inj ha)
          split at hr'
          · cases hr'
          · rename_i r'' t3 hr''
            obtain ⟨rfl, rfl⟩ := Prod.mk.inj (Except.ok.inj hr')
            intro q hq
            obtain ⟨hq, hst⟩ := Node.mem_leafResults.1 hq
            simp only [Node.leaves, Node.leavesOpt, List.mem_append] at hq
            rcases hq with hq | hq
            · rw [Node.loaded_leaves x th hl.2.2.1 q hq] at hst
              cases hst
            · exact Node.results_of_liveOpt x o P f hl.2.2.2 h g hg s' hs' _ _ _ hr'' q (Node.mem_leafResults.2 ⟨hq, hst⟩)
      · simp [Gen.nil] at hs
    · simp [Gen.nil] at hs
  | .prof s d c, hl, h => by
    simp only [Node.Loaded] at hl
    simp only [Node.liveLeaves] at h
    rintro r ⟨s, hs, t, t', ha⟩
    simp only [Node.solutions, profSolutions] at hs
    split at hs
    · simp only [Gen.one, List.mem_singleton] at hs
      subst hs
      simp only [Node.audit, profAudit, if_true] at ha
      obtain ⟨rfl, rfl⟩ := Prod.mk.inj (Except.ok.inj ha)
      intro q hq
      obtain ⟨hq, hst⟩ := Node.mem_leafResults.1 hq
      simp only [Node.leaves, List.mem_map] at hq
      obtain ⟨p, hp, rfl⟩ := hq
      rw [Option.mem_toList] at hp
      have := (hl.2.2 _ hp).1
      simp only [Node.stage] at hst
      rw [this] at hst
      cases hst
    · split at hs
      · simp only [Gen.one, List.mem_singleton] at hs
        subst hs
        simp only [Node.audit, profAudit, Bool.false_eq_true, if_false] at ha
        split at ha
        · cases ha
        · obtain ⟨rfl, rfl⟩ := Prod.mk.inj (Except.ok.inj ha)
          intro q hq
          simp [Node.leafResults, Node.leaves] at hq
      · rename_i st cd
        split at hs
        · rename_i s0 rest hitems
          simp only [Gen.one, List.mem_singleton] at hs
          subst hs
          simp only [Node.audit, profAudit, Bool.false_eq_true, if_false] at ha
          split at ha
          · cases ha
          · split at ha
            · cases ha
            · rename_i cd' t2 hca
              obtain ⟨rfl, rfl⟩ := Prod.mk.inj (Except.ok.inj ha)
              intro q hq
              obtain ⟨hq, hst⟩ := Node.mem_leafResults.1 hq
              simp only [Node.leaves, Option.toList, List.map_cons, List.map_nil, List.mem_singleton] at hq
              subst hq
              refine h (.course st cd) (by simp) (.course .result cd') ⟨.course .solution s0, ?_, t, t2, ?_⟩ _ ?_
              · simp only [Node.solutions]
                exact Gen.mem_map.2 ⟨s0, by rw [hitems]; exact List.mem_cons_self, rfl⟩
              · simp [Node.audit, hca]
              · simp [Node.leafResults, Node.leaves, Node.stage]
        · simp [Gen.raise] at hs
theorem Node.results_of_liveList (x : Ctx) (o : Orders) (P : Node → Prop) : ∀ ns : List Node,
    Node.LoadedList x ns → (∀ leaf ∈ Node.liveLeavesList ns, ResultsSatisfy x o P leaf) →
    ∀ n ∈ ns, ResultsSatisfy x o P n
  | [], _, _ => by simp
  | n :: ns, hl, h => by
    simp only [Node.LoadedList] at hl
    simp only [Node.liveLeavesList, List.mem_append] at h
    intro n' hn'
    rcases List.mem_cons.1 hn' with he | hn'
    · rw [he]
      exact Node.results_of_live x o P n hl.1 (fun l hl => h l (Or.inl hl))
    · exact Node.results_of_liveList x o P ns hl.2 (fun l hl => h l (Or.inr hl)) n' hn'
theorem Node.results_of_liveOpt (x : Ctx) (o : Orders) (P : Node → Prop) : ∀ n : Option Node,
    Node.LoadedOpt x n → (∀ leaf ∈ Node.liveLeavesOpt n, ResultsSatisfy x o P leaf) →
    ∀ g, Node.solutionsOpt x o n = some g → ∀ s ∈ g.items, ∀ t t' r, s.audit x o t = .ok (r, t') →
      ∀ q ∈ r.leafResults, P q
  | none, _, _ => by
    intro g hg
    cases hg
  | some n, hl, h => by
    simp only [Node.LoadedOpt] at hl
    simp only [Node.liveLeavesOpt] at h
    intro g hg s hs t t' r ha
    simp only [Node.solutionsOpt, Option.some.injEq] at hg
    subst hg
    exact Node.results_of_live x o P n hl h r ⟨s, hs, t, t', ha⟩
end

/-- If all results of the leaves satisfy `P`, then all course and query results in the results of the tree do. -/
theorem Node.results_of_leaves (x : Ctx) (o : Orders) (P : Node → Prop) (n : Node) (hn : n.Loaded x)
    (h : ∀ leaf ∈ n.leaves, ResultsSatisfy x o P leaf) : ResultsSatisfy x o P n :=
  Node.results_of_live x o P n hn (fun leaf hl => h leaf (Node.liveLeaves_subset n hl))

theorem topCount_results {x : Ctx} {o : Orders} (ho : o.Lawful) {P : Node → Prop} {d : CountData} {items : List Node}
    {t0 : ClaimTable}
    (hload : Node.LoadedList x items) (ih : ∀ n ∈ items, ResultsSatisfy x o P n)
    {s : Node} (hs : s ∈ (topCountSolutions x o d items t0).1.items)
    {t t' : ClaimTable} {r : Node} (ha : s.audit x o t = .ok (r, t')) : ∀ q ∈ r.leafResults, P q := by
  unfold topCountSolutions at hs
  split at hs
  · simp only [Gen.one, List.mem_singleton] at hs
    subst hs
    refine count_results_of P ha (fun _ n hn q hq => ?_) (fun n hn t1 t2 r' ha' => rule_results hload hn ha')
    rw [Node.loaded_no_results (Node.loadedList_iff.1 hload n hn)] at hq
    simp at hq
  · split at hs
    · simp [Gen.raise] at hs
    · rename_i pot hpot
      split at hs
      · exact plainCount_results hload ih hs ha
      · split at hs
        · simp [Gen.raise] at hs
        · rename_i indep codep hind
          split at hs
          · simp [Gen.raise] at hs
          · rename_i solved t1 hsolved
            split at hs
            · simp [Gen.raise] at hs
            · rename_i results hresults
              dsimp only at hs
              split at hs
              · simp [Gen.raise] at hs
              · rename_i sorted hsorted
                obtain ⟨l, rfl, hl⟩ := countSolutions_items hs
                have hsub := (mem_filterE hpot).1
                obtain ⟨hi, hc⟩ := findIndependent_subset hind
                refine count_results_of P ha (fun h => by cases h) (fun n hn t1 t2 r' ha' => ?_)
                rcases hl n hn with ⟨p, hp, hin⟩ | hn' | hn'
                · obtain ⟨n', hn', rfl⟩ := List.mem_map.1 hp
                  exact ih n' (hsub.subset (hc.subset ((sortByPath_perm hsorted).mem_iff.1 hn')))
                    r' ⟨n, hin, t1, t2, ha'⟩
                · exact rule_results hload (List.mem_of_mem_filter hn') ha'
                · have hn'' := (sortByPath_perm hresults).mem_iff.1 hn'
                  obtain ⟨p, hp, hpr⟩ := List.mem_filterMap.1 hn''
                  obtain ⟨h1, h2⟩ := solveIndependent_mem hsolved
                  obtain ⟨s', hs', t3, hs''⟩ := h2 p hp n hpr
                  have hstage := Node.audit_stage (Node.solutions_stage hs') hs''
                  rw [Node.audit_of_not_solution (by rw [hstage]; decide)] at ha'
                  obtain ⟨rfl, rfl⟩ := Prod.mk.inj (Except.ok.inj ha')
                  have hp1 : p.1 ∈ o.children indep := by
                    rw [← h1]
                    exact List.mem_map_of_mem hp
                  have hp1' := hsub.subset (hi.subset ((ho.2.2 indep).mem_iff.1 hp1))
                  exact ih p.1 hp1' _ ⟨s', hs', _, _, hs''⟩

theorem Node.results_of_leavesList (x : Ctx) (o : Orders) (P : Node → Prop) (ns : List Node)
    (hn : Node.LoadedList x ns) (h : ∀ leaf ∈ Node.leavesList ns, ResultsSatisfy x o P leaf) :
    ∀ n ∈ ns, ResultsSatisfy x o P n :=
  Node.results_of_liveList x o P ns hn (fun leaf hl => h leaf (Node.liveLeaves_subsetList ns hl))

mutual
/-- the same for the solutions of the topmost rule -/
theorem Node.topResults_of_leaves (x : Ctx) (o : Orders) (ho : o.Lawful) (P : Node → Prop) : ∀ n : Node,
    n.Loaded x → (∀ leaf ∈ n.leaves, ResultsSatisfy x o P leaf) → ∀ t0 : ClaimTable,
    ∀ s ∈ (n.topSolutions x o t0).1.items, ∀ t t' r, s.audit x o t = .ok (r, t') → ∀ q ∈ r.leafResults, P q
  | .course s d, hl, h => by
    intro t0 s hs t t' r ha
    simp only [Node.topSolutions] at hs
    exact Node.results_of_leaves x o P _ hl h r ⟨s, hs, t, t', ha⟩
  | .query s d, hl, h => by
    intro t0 s hs t t' r ha
    simp only [Node.topSolutions] at hs
    exact Node.results_of_leaves x o P _ hl h r ⟨s, hs, t, t', ha⟩
  | .req s d c, hl, h => by
    intro t0 s hs t t' r ha
    simp only [Node.topSolutions] at hs
    exact Node.results_of_leaves x o P _ hl h r ⟨s, hs, t, t', ha⟩
  | .prof s d c, hl, h => by
    intro t0 s hs t t' r ha
    simp only [Node.topSolutions] at hs
    exact Node.results_of_leaves x o P _ hl h r ⟨s, hs, t, t', ha⟩
  | .count s d items, hl, h => by
    intro t0 s hs t t' r ha
    simp only [Node.Loaded] at hl
    simp only [Node.leaves] at h
    simp only [Node.topSolutions] at hs
    exact topCount_results ho hl.2.2 (Node.results_of_leavesList x o P items hl.2.2 h) hs ha
  | .cond s d th f, hl, h => by
    intro t0 s hs t t' r ha
    simp only [Node.Loaded] at hl
    simp only [Node.leaves, List.mem_append] at h
    simp only [Node.topSolutions] at hs
    split at hs
    · rename_i hc
      obtain ⟨s', hs', rfl⟩ := Gen.mem_map.1 hs
      simp only [Node.audit, hc] at ha
      split at ha
      · cases ha
      · rename_i r' t2 hr'
        obtain ⟨rfl, rfl⟩ := Prod.mk.inj (Except.ok.inj ha)
        intro q hq
        obtain ⟨hq, hst⟩ := Node.mem_leafResults.1 hq
        simp only [Node.leaves, List.mem_append] at hq
        rcases hq with hq | hq
        · exact Node.topResults_of_leaves x o ho P th hl.2.2.1 (fun l hl => h l (Or.inl hl)) t0 s' hs' _ _ _ hr' q
            (Node.mem_leafResults.2 ⟨hq, hst⟩)
        · rw [Node.loaded_leavesOpt x f hl.2.2.2 q hq] at hst
          cases hst
    · rename_i hc
      split at hs
      · rename_i g t2 hg
        obtain ⟨s', hs', rfl⟩ := Gen.mem_map.1 hs
        simp only [Node.audit, hc, Node.auditOpt] at ha
        split at ha
        · cases ha
        · rename_i r' t2 hr'
          obtain ⟨rfl, rfl⟩ := Prod.mk.inj (Except.ok.inj ha)
          split at hr'
          · cases hr'
          · rename_i r'' t3 hr''
            obtain ⟨rfl, rfl⟩ := Prod.mk.inj (Except.ok.inj hr')
            intro q hq
            obtain ⟨hq, hst⟩ := Node.mem_leafResults.1 hq
            simp only [Node.leaves, Node.leavesOpt, List.mem_append] at hq
            rcases hq with hq | hq
            · rw [Node.loaded_leaves x th hl.2.2.1 q hq] at hst
              cases hst
            · exact Node.topResults_of_leavesOpt x o ho P f hl.2.2.2 (fun l hl => h l (Or.inr hl)) t0 _ hg
                s' hs' _ _ _ hr'' q (Node.mem_leafResults.2 ⟨hq, hst⟩)
      · simp [Gen.nil] at hs
    · simp [Gen.nil] at hs
theorem Node.topResults_of_leavesOpt (x : Ctx) (o : Orders) (ho : o.Lawful) (P : Node → Prop) : ∀ n : Option Node,
    Node.LoadedOpt x n → (∀ leaf ∈ Node.leavesOpt n, ResultsSatisfy x o P leaf) → ∀ (t0 : ClaimTable) g,
    Node.topSolutionsOpt x o n t0 = some g → ∀ s ∈ g.1.items, ∀ t t' r, s.audit x o t = .ok (r, t') →
      ∀ q ∈ r.leafResults, P q
  | none, _, _ => by
    intro t0 g hg
    cases hg
  | some n, hl, h => by
    simp only [Node.LoadedOpt] at hl
    simp only [Node.leavesOpt] at h
    intro t0 g hg s hs
    simp only [Node.topSolutionsOpt, Option.some.injEq] at hg
    subst hg
    exact Node.topResults_of_leaves x o ho P n hl h t0 s hs
end

theorem leafResults_leaf {x : Ctx} {o : Orders} {leaf r q : Node} (hleaf : ∃ n : Node, leaf ∈ n.leaves)
    (h : ResultOf x o leaf r) (hq : q ∈ r.leafResults) : q = r := by
  have hkind : (∃ s d, leaf = .course s d) ∨ ∃ s d, leaf = .query s d := by
    obtain ⟨n, hn⟩ := hleaf
    exact Node.leaves_kind n leaf hn
  obtain ⟨s, hs, t, t', ha⟩ := h
  obtain ⟨hq, _⟩ := Node.mem_leafResults.1 hq
  rcases hkind with ⟨st, d, rfl⟩ | ⟨st, d, rfl⟩
  · simp only [Node.solutions] at hs
    obtain ⟨sd, _, rfl⟩ := Gen.mem_map.1 hs
    simp only [Node.audit] at ha
    split at ha
    · cases ha
    obtain ⟨rfl, rfl⟩ := Prod.mk.inj (Except.ok.inj ha)
    simpa [Node.leaves] using hq
  · simp only [Node.solutions] at hs
    obtain ⟨sd, _, rfl⟩ := Gen.mem_map.1 hs
    simp only [Node.audit] at ha
    split at ha
    · cases ha
    obtain ⟨rfl, rfl⟩ := Prod.mk.inj (Except.ok.inj ha)
    simpa [Node.leaves] using hq

theorem Node.mem_leafResultsList {ns : List Node} {q : Node} :
    (q ∈ Node.leavesList ns ∧ q.stage = .result) ↔ ∃ n ∈ ns, q ∈ n.leafResults := by
  rw [Node.mem_leavesList]
  constructor
  · rintro ⟨⟨n, hn, hq⟩, hs⟩
    exact ⟨n, hn, Node.mem_leafResults.2 ⟨hq, hs⟩⟩
  · rintro ⟨n, hn, hq⟩
    exact ⟨⟨n, hn, (Node.mem_leafResults.1 hq).1⟩, (Node.mem_leafResults.1 hq).2⟩

/-- Every course and query result in the result of an area was made by auditing a solution of a course or query rule of
the area's own tree, or of one of the rules common to all majors. -/
theorem area_results {o : Orders} (ho : o.Lawful) {a : Area} {st : Student} {es : List Exc}
    (hl : a.result.Loaded { exceptions := groupExceptions es })
    (hcl : Node.LoadedList { exceptions := groupExceptions es } a.commonRules)
    {s : AreaSolution} (hs : s ∈ (a.solutions o st es).items) {r : AreaResult} (ha : s.audit o a = .ok r)
    {q : Node} (hq : q ∈ r.result.leafResults) :
    ∃ tr ∈ (limitedTranscripts (o.limit []) a.limit st.courses (forcedClbids es)).items,
      s.ctx = areaCtx a st es tr ∧
    ((∃ leaf ∈ a.result.leaves, ResultOf (areaCtx a st es tr) o leaf q) ∨
     (a.kind = "major" ∧ ∃ leaf ∈ Node.leavesList a.commonRules, ∃ x, CommonCtx es x ∧ ResultOf x o leaf q)) := by
  obtain ⟨tr, htr, t0, hctx, hsol⟩ := Area.solutions_mem hs
  refine ⟨tr, htr, hctx, ?_⟩
  unfold AreaSolution.audit at ha
  split at ha
  · cases ha
  rename_i r0 t1 hr0
  rw [hctx] at hr0
  have hmain : ∀ q ∈ r0.leafResults, ∃ leaf ∈ a.result.leaves, ResultOf (areaCtx a st es tr) o leaf q := by
    refine Node.topResults_of_leaves (areaCtx a st es tr) o ho _ a.result
      (Node.loaded_congr (x := { exceptions := groupExceptions es }) (y := areaCtx a st es tr) rfl _ hl) ?_ t0 _ hsol _ _ _ hr0
    intro leaf hleaf r hr q hq
    obtain rfl := leafResults_leaf ⟨_, hleaf⟩ hr hq
    exact ⟨leaf, hleaf, hr⟩
  split at ha
  · rename_i hk
    split at ha
    · cases ha
    rename_i common hcommon
    split at ha
    · rename_i d items
      cases ha
      rw [Node.mem_leafResults] at hq
      simp only [Node.leaves] at hq
      obtain ⟨n, hn, hqn⟩ := Node.mem_leafResultsList.1 hq
      clear hq
      rcases List.mem_append.1 hn with hn | hn
      · refine Or.inl (hmain q ?_)
        rw [Node.mem_leafResults]
        simp only [Node.leaves]
        exact Node.mem_leafResultsList.2 ⟨n, hn, hqn⟩
      · right
        refine ⟨hk, ?_⟩
        simp only [List.mem_singleton] at hn
        subst hn
        rw [hctx] at hcommon
        unfold auditCommon at hcommon
        split at hcommon
        · cases hcommon
        split at hcommon
        · cases hcommon
        rename_i ins hins
        dsimp only at hcommon
        split at hcommon
        · cases hcommon
        rename_i citems hcitems
        cases hcommon
        rw [Node.mem_leafResults] at hqn
        simp only [Node.leaves, Node.leavesOpt] at hqn
        obtain ⟨n', hn', hq⟩ := Node.mem_leafResultsList.1 hqn
        obtain ⟨rule, hrule, x, hx, t, hb⟩ := commonItems_mem hcitems hn'
        have hcc : CommonCtx es x := by
          rcases hx with rfl | rfl
          · refine ⟨rfl, ?_⟩
            intro e he
            simp only [List.mem_map, List.mem_reverse] at he
            obtain ⟨c, _, rfl⟩ := he
            rfl
          · exact ⟨rfl, by intro e he; simp at he⟩
        obtain ⟨s', hs', t2, hs''⟩ := findBest_mem hb
        have hlr := Node.loadedList_iff.1 hcl rule hrule
        have := Node.results_of_leaves x o (fun q => ∃ leaf ∈ rule.leaves, ResultOf x o leaf q) rule
          (Node.loaded_congr hcc.exceptions.symm _ hlr)
          (fun leaf hleaf r hr q hq => by
            obtain rfl := leafResults_leaf ⟨_, hleaf⟩ hr hq
            exact ⟨leaf, hleaf, hr⟩) n' ⟨s', hs', _, _, hs''⟩ q hq
        obtain ⟨leaf, hleaf, hlc⟩ := this
        exact ⟨leaf, Node.mem_leavesList.2 ⟨rule, hrule, hleaf⟩, x, hcc, hlc⟩
    · cases ha
  · cases ha
    exact Or.inl (hmain q hq)

end Dp
