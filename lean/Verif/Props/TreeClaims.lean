import Verif.Props.Query

/-
Every claim in the result of an audited solution was made by one of the course or
query rules of the tree.  This lifts C26 and C27 to whole areas and proves C25.
-/
namespace Dp

/-! ### Members of products and sorted lists -/

theorem mem_cartesianGen {α : Type} {gs : List (Gen α)} {t : List α} (h : t ∈ (cartesianGen gs).items) :
    List.Forall₂ (fun a (g : Gen α) => a ∈ g.items) t gs := by
  induction gs generalizing t with
  | nil =>
    simp only [cartesianGen, Gen.one, List.mem_singleton] at h
    subst h
    exact .nil
  | cons g gs ih =>
    simp only [cartesianGen] at h
    obtain ⟨a, ha, h⟩ := Gen.mem_bind h
    obtain ⟨t', ht', rfl⟩ := Gen.mem_map.1 h
    exact .cons ha (ih ht')

theorem mem_lazyProduct {α : Type} {gs : List (Gen α)} {t : List α} (h : t ∈ (lazyProduct gs).items) :
    List.Forall₂ (fun a (g : Gen α) => a ∈ g.items) t gs := by
  by_cases hne : ∀ g ∈ gs, g.items ≠ []
  · rw [lazyProduct_eq gs 1 (by simpa using hne)] at h
    have := mem_cartesianGen h
    simpa using this
  · -- the first empty generator raises
    exfalso
    have : ∃ pre g post, gs = pre ++ g :: post ∧ (∀ g' ∈ pre, g'.items ≠ []) ∧ g.items = [] := by
      clear h
      induction gs with
      | nil => simp at hne
      | cons g gs ih =>
        by_cases hg : g.items = []
        · exact ⟨[], g, gs, rfl, by simp, hg⟩
        · obtain ⟨pre, g', post, rfl, h1, h2⟩ := ih (by
            intro h'
            apply hne
            intro g' hg'
            rcases List.mem_cons.1 hg' with rfl | hg'
            · exact hg
            · exact h' g' hg')
          refine ⟨g :: pre, g', post, rfl, ?_, h2⟩
          intro g'' hg''
          rcases List.mem_cons.1 hg'' with rfl | hg''
          · exact hg
          · exact h1 _ hg''
    obtain ⟨pre, g, post, rfl, h1, h2⟩ := this
    rw [C13_empty_raises pre post g h1 h2] at h
    simp at h

theorem insertByPath_perm {α : Type} {key : α → Path} {a : α} {l l' : List α}
    (h : insertByPath key a l = .ok l') : l'.Perm (a :: l) := by
  induction l generalizing l' with
  | nil => cases h; exact List.Perm.refl _
  | cons b l ih =>
    unfold insertByPath at h
    split at h
    · cases h
    · split at h
      · cases h; exact List.Perm.refl _
      · split at h
        · rename_i zs hz
          cases h
          exact ((ih hz).cons b).trans (List.Perm.swap a b l)
        · cases h

theorem sortByPath_perm {α : Type} {key : α → Path} {l l' : List α} (h : sortByPath key l = .ok l') :
    l'.Perm l := by
  induction l generalizing l' with
  | nil => cases h; exact List.Perm.refl _
  | cons a l ih =>
    unfold sortByPath at h
    split at h
    · rename_i ys hy
      exact (insertByPath_perm h).trans ((ih hy).cons a)
    · cases h

theorem mem_filterE {α : Type} {f : α → Except Err Bool} {l l' : List α} (h : filterE f l = .ok l') :
    l'.Sublist l ∧ ∀ a, a ∈ l' ↔ a ∈ l ∧ f a = .ok true := by
  induction l generalizing l' with
  | nil => cases h; simp
  | cons a l ih =>
    unfold filterE at h
    split at h
    · cases h
    · rename_i b hb
      split at h
      · cases h
      · rename_i rest hr
        cases h
        obtain ⟨h1, h2⟩ := ih hr
        cases b
        · refine ⟨h1.cons _, fun c => ?_⟩
          simp only [Bool.false_eq_true, if_false, h2, List.mem_cons]
          constructor
          · rintro ⟨h3, h4⟩; exact ⟨Or.inr h3, h4⟩
          · rintro ⟨rfl | h3, h4⟩
            · rw [hb] at h4; cases h4
            · exact ⟨h3, h4⟩
        · refine ⟨h1.cons_cons _, fun c => ?_⟩
          simp only [if_true, List.mem_cons, h2]
          constructor
          · rintro (rfl | ⟨h3, h4⟩)
            · exact ⟨Or.inl rfl, hb⟩
            · exact ⟨Or.inr h3, h4⟩
          · rintro ⟨rfl | h3, h4⟩
            · exact Or.inl rfl
            · exact Or.inr ⟨h3, h4⟩

/-! ### Leaves -/

mutual
/-- the course and query rules of a tree; a proficiency's course rule is one of them -/
def Node.leaves : Node → List Node
  | .course s d => [.course s d]
  | .query s d => [.query s d]
  | .count _ _ items => Node.leavesList items
  | .req _ _ r => Node.leavesOpt r
  | .cond _ _ t f => t.leaves ++ Node.leavesOpt f
  | .prof _ _ c => c.toList.map (fun p => .course p.1 p.2)
/-- the leaves of all children -/
def Node.leavesList : List Node → List Node
  | [] => []
  | n :: ns => n.leaves ++ Node.leavesList ns
/-- the leaves of an optional child -/
def Node.leavesOpt : Option Node → List Node
  | none => []
  | some n => n.leaves
end

theorem Node.mem_leavesList {ns : List Node} {l : Node} :
    l ∈ Node.leavesList ns ↔ ∃ n ∈ ns, l ∈ n.leaves := by
  induction ns with
  | nil => simp [Node.leavesList]
  | cons n ns ih => simp [Node.leavesList, ih]

theorem Node.mem_claimsList {ns : List Node} {c : Claim} :
    c ∈ Node.claimsList ns ↔ ∃ n ∈ ns, c ∈ n.claims := by
  induction ns with
  | nil => simp [Node.claimsList]
  | cons n ns ih => simp [Node.claimsList, ih]

theorem Node.loadedList_iff {x : Ctx} {ns : List Node} : Node.LoadedList x ns ↔ ∀ n ∈ ns, n.Loaded x := by
  induction ns with
  | nil => simp [Node.LoadedList]
  | cons n ns ih => simp [Node.LoadedList, ih]

/-- The leaf `leaf` makes the claim `c`: some solution of it, audited on some table of
claims, reports the claim. -/
def LeafClaim (x : Ctx) (o : Orders) (leaf : Node) (c : Claim) : Prop :=
  ∃ s ∈ (leaf.solutions x o).items, ∃ t t' r, s.audit x o t = .ok (r, t') ∧ c ∈ r.claims

mutual
/-- rules have not claimed anything -/
theorem Node.loaded_claims (x : Ctx) : ∀ n : Node, n.Loaded x → n.claims = []
  | .course s d, h => by
    simp only [Node.Loaded] at h
    rw [h.1]
    simp [Node.claims, courseClaims]
  | .query s d, h => by
    simp only [Node.Loaded] at h
    rw [h.1]
    simp [Node.claims, queryClaims]
  | .count s d items, h => by
    simp only [Node.Loaded] at h
    simp only [Node.claims]
    exact Node.loaded_claimsList x items h.2.2
  | .req s d r, h => by
    simp only [Node.Loaded] at h
    simp only [Node.claims]
    split
    · rfl
    · exact Node.loaded_claimsOpt x r h.2.2
  | .cond s d t f, h => by
    simp only [Node.Loaded] at h
    simp only [Node.claims]
    split
    · exact Node.loaded_claims x t h.2.2.1
    · exact Node.loaded_claimsOpt x f h.2.2.2
    · rfl
  | .prof s d c, h => by
    simp only [Node.Loaded] at h
    rw [h.1]
    simp [Node.claims, profClaims]
theorem Node.loaded_claimsList (x : Ctx) : ∀ ns : List Node, Node.LoadedList x ns → Node.claimsList ns = []
  | [], _ => rfl
  | n :: ns, h => by
    simp only [Node.LoadedList] at h
    simp only [Node.claimsList, Node.loaded_claims x n h.1, Node.loaded_claimsList x ns h.2, List.append_nil]
theorem Node.loaded_claimsOpt (x : Ctx) : ∀ n : Option Node, Node.LoadedOpt x n → Node.claimsOpt n = []
  | none, _ => rfl
  | some n, h => by
    simp only [Node.LoadedOpt] at h
    exact Node.loaded_claims x n h
end

theorem Node.loaded_stage {x : Ctx} {n : Node} (h : n.Loaded x) : n.stage = .rule := by
  cases n <;> (simp only [Node.Loaded] at h; exact h.1)

/-- what is not a solution is left alone by an audit -/
theorem Node.audit_of_not_solution {x : Ctx} {o : Orders} {n : Node} (h : n.stage ≠ .solution) (t : ClaimTable) :
    n.audit x o t = .ok (n, t) := by
  cases n with
  | course s d => cases s <;> first | rfl | (exact absurd rfl h)
  | query s d => cases s <;> first | (exact absurd rfl h) | simp [Node.audit]
  | count s d items => cases s <;> first | (exact absurd rfl h) | simp [Node.audit]
  | req s d r => cases s <;> first | (exact absurd rfl h) | simp [Node.audit]
  | cond s d th f => cases s <;> first | (exact absurd rfl h) | simp [Node.audit]
  | prof s d c => cases s <;> first | (exact absurd rfl h) | simp [Node.audit]

/-- each result of auditing a list comes from auditing an element -/
theorem Node.auditList_mem {x : Ctx} {o : Orders} {ns rs : List Node} {t t' : ClaimTable}
    (h : Node.auditList x o ns t = .ok (rs, t')) {r : Node} (hr : r ∈ rs) :
    ∃ n ∈ ns, ∃ t1 t2, n.audit x o t1 = .ok (r, t2) := by
  induction ns generalizing rs t with
  | nil =>
    simp only [Node.auditList] at h
    obtain ⟨rfl, rfl⟩ := Prod.mk.inj (Except.ok.inj h)
    simp at hr
  | cons n ns ih =>
    simp only [Node.auditList] at h
    split at h
    · cases h
    · rename_i r0 t1 h1
      split at h
      · cases h
      · rename_i rs' t2 h2
        obtain ⟨rfl, rfl⟩ := Prod.mk.inj (Except.ok.inj h)
        rcases List.mem_cons.1 hr with rfl | hr
        · exact ⟨n, List.mem_cons_self, _, _, h1⟩
        · obtain ⟨n', hn', r'⟩ := ih h2 hr
          exact ⟨n', List.mem_cons_of_mem _ hn', r'⟩

/-- the shape of a solution of a count -/
theorem countSolution_mem {d : CountData} {items : List Node} {s : Node} (h : s ∈ (countSolution d items).items) :
    ∃ l, sortByPath Node.path items = .ok l ∧ s = .count .solution { d with overridden := false } l := by
  unfold countSolution at h
  split at h
  · simp [Gen.raise] at h
  · rename_i l hl
    exact ⟨l, hl, by simpa [Gen.one] using h⟩

/-- what `make_combinations` yields -/
theorem makeCombinations_mem {d : CountData} {potential : List (Node × Gen Node)} {results others : List Node}
    {size : Nat} {s : Node} (h : s ∈ (makeCombinations d potential results others size).items) :
    ∃ selected sols, selected.Sublist potential ∧ selected.length = size ∧
      List.Forall₂ (fun a (p : Node × Gen Node) => a ∈ p.2.items) sols selected ∧
      s ∈ (countSolution d (sols ++ others.filter
        (fun n => !(selected.map (·.1.path)).contains n.path) ++ results)).items := by
  unfold makeCombinations at h
  obtain ⟨selected, hsel, h⟩ := Gen.mem_forList h
  obtain ⟨sols, hsols, h⟩ := Gen.mem_bind h
  have h2 := mem_lazyProduct hsols
  rw [List.forall₂_map_right_iff] at h2
  exact ⟨selected, sols, (mem_combos.1 hsel).1, (mem_combos.1 hsel).2, h2, h⟩

/-- how the solutions of a count come about -/
theorem countSolutions_mem {d : CountData} {nItems : Nat} {potential : List (Node × Gen Node)}
    {results others : List Node} {s : Node} (h : s ∈ (countSolutions d nItems potential results others).items) :
    (∃ selected sols, selected.Sublist potential ∧
      (selected.length ∈ countSizes d nItems ∨ selected.length = potential.length) ∧
      List.Forall₂ (fun a (p : Node × Gen Node) => a ∈ p.2.items) sols selected ∧
      s ∈ (countSolution d (sols ++ others.filter
        (fun n => !(selected.map (·.1.path)).contains n.path) ++ results)).items) ∨
    s ∈ (countSolution d (others ++ results)).items := by
  unfold countSolutions at h
  rcases Gen.mem_orElse h with h | h
  · left
    rcases Gen.mem_orElse h with h | h
    · obtain ⟨size, hsize, h⟩ := Gen.mem_forList h
      obtain ⟨selected, sols, h1, h2, h3, h4⟩ := makeCombinations_mem h
      exact ⟨selected, sols, h1, Or.inl (h2 ▸ hsize), h3, h4⟩
    · split at h
      · simp [Gen.nil] at h
      · obtain ⟨selected, sols, h1, h2, h3, h4⟩ := makeCombinations_mem h
        exact ⟨selected, sols, h1, Or.inr h2, h3, h4⟩
  · exact Or.inr h

theorem forall₂_mem_left {α β : Type} {R : α → β → Prop} {l : List α} {l' : List β} (h : List.Forall₂ R l l')
    {a : α} (ha : a ∈ l) : ∃ b ∈ l', R a b := by
  induction h with
  | nil => simp at ha
  | cons hr _ ih =>
    rcases List.mem_cons.1 ha with rfl | ha
    · exact ⟨_, List.mem_cons_self, hr⟩
    · obtain ⟨b, hb, h⟩ := ih ha
      exact ⟨b, List.mem_cons_of_mem _ hb, h⟩

/-- the items of a solution of a count: solutions of the potential rules, or the items
left alone -/
theorem countSolutions_items {d : CountData} {nItems : Nat} {potential : List (Node × Gen Node)}
    {results others : List Node} {s : Node} (h : s ∈ (countSolutions d nItems potential results others).items) :
    ∃ l, s = .count .solution { d with overridden := false } l ∧
      ∀ i ∈ l, (∃ p ∈ potential, i ∈ p.2.items) ∨ i ∈ others ∨ i ∈ results := by
  rcases countSolutions_mem h with ⟨selected, sols, h1, _, h3, h4⟩ | h
  · obtain ⟨l, hl, rfl⟩ := countSolution_mem h4
    refine ⟨l, rfl, ?_⟩
    intro i hi
    have := (sortByPath_perm hl).mem_iff.1 hi
    simp only [List.mem_append, List.mem_filter] at this
    rcases this with (h | h) | h
    · obtain ⟨p, hp, hi⟩ := forall₂_mem_left h3 h
      exact Or.inl ⟨p, h1.subset hp, hi⟩
    · exact Or.inr (Or.inl h.1)
    · exact Or.inr (Or.inr h)
  · obtain ⟨l, hl, rfl⟩ := countSolution_mem h
    refine ⟨l, rfl, ?_⟩
    intro i hi
    have := (sortByPath_perm hl).mem_iff.1 hi
    simpa using Or.inr (List.mem_append.1 this)

/-- auditing a count -/
theorem Node.audit_count {x : Ctx} {o : Orders} {d : CountData} {items : List Node} {t t' : ClaimTable} {r : Node}
    (h : (Node.count .solution d items).audit x o t = .ok (r, t')) :
    (d.overridden = true ∧ r = .count .result d items ∧ t' = t) ∨
    (d.overridden = false ∧ ∃ rs as, Node.auditList x o items t = .ok (rs, t') ∧
      auditAssertions x (matchedItems o rs) d.audits = .ok as ∧ r = .count .result { d with audits := as } rs) := by
  simp only [Node.audit] at h
  split at h
  · rename_i hov
    obtain ⟨rfl, rfl⟩ := Prod.mk.inj (Except.ok.inj h)
    exact Or.inl ⟨hov, rfl, rfl⟩
  · rename_i hov
    split at h
    · cases h
    · rename_i rs t2 hrs
      split at h
      · cases h
      · rename_i as has
        obtain ⟨rfl, rfl⟩ := Prod.mk.inj (Except.ok.inj h)
        exact Or.inr ⟨by simpa using hov, rs, as, hrs, has, rfl⟩

/-- the claims of an audited count, if those of its items are accounted for -/
theorem count_claims_of {x : Ctx} {o : Orders} {d : CountData} {l : List Node} {t t' : ClaimTable} {r : Node}
    (P : Claim → Prop) (h : (Node.count .solution d l).audit x o t = .ok (r, t'))
    (hov : d.overridden = true → ∀ n ∈ l, ∀ c ∈ n.claims, P c)
    (hl : ∀ n ∈ l, ∀ t1 t2 r', n.audit x o t1 = .ok (r', t2) → ∀ c ∈ r'.claims, P c) :
    ∀ c ∈ r.claims, P c := by
  intro c hc
  rcases Node.audit_count h with ⟨h1, rfl, _⟩ | ⟨_, rs, as, hrs, _, rfl⟩
  · simp only [Node.claims] at hc
    obtain ⟨n, hn, hc⟩ := Node.mem_claimsList.1 hc
    exact hov h1 n hn c hc
  · simp only [Node.claims] at hc
    obtain ⟨r', hr', hc⟩ := Node.mem_claimsList.1 hc
    obtain ⟨n, hn, t1, t2, ha⟩ := Node.auditList_mem hrs hr'
    exact hl n hn t1 t2 r' ha c hc

theorem mem_solutionsList {x : Ctx} {o : Orders} {ns : List Node} {p : Node × Gen Node}
    (h : p ∈ ns.zip (Node.solutionsList x o ns)) : p.1 ∈ ns ∧ p.2 = p.1.solutions x o := by
  induction ns with
  | nil => simp [Node.solutionsList] at h
  | cons n ns ih =>
    simp only [Node.solutionsList, List.zip_cons_cons, List.mem_cons] at h
    rcases h with rfl | h
    · exact ⟨List.mem_cons_self, rfl⟩
    · exact ⟨List.mem_cons_of_mem _ (ih h).1, (ih h).2⟩

/-- The claims of the audited solutions of `n` satisfy `P`. -/
def ClaimsSatisfy (x : Ctx) (o : Orders) (P : Claim → Prop) (n : Node) : Prop :=
  ∀ s ∈ (n.solutions x o).items, ∀ t t' r, s.audit x o t = .ok (r, t') → ∀ c ∈ r.claims, P c

theorem plainCount_claims {x : Ctx} {o : Orders} {P : Claim → Prop} {d : CountData} {items : List Node}
    (hload : Node.LoadedList x items) (ih : ∀ n ∈ items, ClaimsSatisfy x o P n)
    {s : Node} (hs : s ∈ (plainCountSolutions x d items (Node.solutionsList x o items)).items)
    {t t' : ClaimTable} {r : Node} (ha : s.audit x o t = .ok (r, t')) : ∀ c ∈ r.claims, P c := by
  have hclean : ∀ n ∈ items, n.claims = [] := fun n hn =>
    Node.loaded_claims x n (Node.loadedList_iff.1 hload n hn)
  unfold plainCountSolutions at hs
  split at hs
  · simp only [Gen.one, List.mem_singleton] at hs
    subst hs
    refine count_claims_of P ha (fun _ n hn c hc => ?_) (fun n hn t1 t2 r' ha' c hc => ?_)
    · rw [hclean n hn] at hc; simp at hc
    · rw [Node.audit_of_not_solution (by rw [Node.loaded_stage (Node.loadedList_iff.1 hload n hn)]; decide)] at ha'
      obtain ⟨rfl, rfl⟩ := Prod.mk.inj (Except.ok.inj ha')
      rw [hclean _ hn] at hc; simp at hc
  · split at hs
    · simp [Gen.raise] at hs
    · rename_i pot hpot
      split at hs
      · simp [Gen.raise] at hs
      · rename_i sorted hsorted
        obtain ⟨l, rfl, hl⟩ := countSolutions_items hs
        refine count_claims_of P ha (fun h => by cases h) (fun n hn t1 t2 r' ha' c hc => ?_)
        rcases hl n hn with ⟨p, hp, hi⟩ | hn' | hn'
        · have hp' := (mem_filterE hpot).1.subset ((sortByPath_perm hsorted).mem_iff.1 hp)
          obtain ⟨h1, h2⟩ := mem_solutionsList hp'
          rw [h2] at hi
          exact ih p.1 h1 n hi t1 t2 r' ha' c hc
        · rw [Node.audit_of_not_solution (by rw [Node.loaded_stage (Node.loadedList_iff.1 hload n hn')]; decide)] at ha'
          obtain ⟨rfl, rfl⟩ := Prod.mk.inj (Except.ok.inj ha')
          rw [hclean _ hn'] at hc; simp at hc
        · simp at hn'

mutual
/-- The course and query rules in a tree that are in use: of a conditional only the branch
chosen by its condition counts. -/
def Node.liveLeaves : Node → List Node
  | .course s d => [.course s d]
  | .query s d => [.query s d]
  | .count _ _ items => Node.liveLeavesList items
  | .req _ _ r => Node.liveLeavesOpt r
  | .cond _ d t f => match d.condition with
    | some true => t.liveLeaves
    | some false => Node.liveLeavesOpt f
    | none => []
  | .prof _ _ c => match c with
    | some (s, d) => [.course s d]
    | none => []
def Node.liveLeavesList : List Node → List Node
  | [] => []
  | n :: ns => n.liveLeaves ++ Node.liveLeavesList ns
def Node.liveLeavesOpt : Option Node → List Node
  | none => []
  | some n => n.liveLeaves
end

mutual
theorem Node.liveLeaves_subset : ∀ n : Node, n.liveLeaves ⊆ n.leaves
  | .course s d => by simp [Node.liveLeaves, Node.leaves]
  | .query s d => by simp [Node.liveLeaves, Node.leaves]
  | .count _ _ items => by
    simp only [Node.liveLeaves, Node.leaves]
    exact Node.liveLeaves_subsetList items
  | .req _ _ r => by
    simp only [Node.liveLeaves, Node.leaves]
    exact Node.liveLeaves_subsetOpt r
  | .cond _ d t f => by
    simp only [Node.liveLeaves, Node.leaves]
    split
    · exact fun l hl => List.mem_append_left _ (Node.liveLeaves_subset t hl)
    · exact fun l hl => List.mem_append_right _ (Node.liveLeaves_subsetOpt f hl)
    · simp
  | .prof _ _ c => by
    simp only [Node.liveLeaves, Node.leaves]
    rcases c with _ | ⟨s, d⟩ <;> simp
theorem Node.liveLeaves_subsetList : ∀ ns : List Node, Node.liveLeavesList ns ⊆ Node.leavesList ns
  | [] => by simp [Node.liveLeavesList]
  | n :: ns => by
    simp only [Node.liveLeavesList, Node.leavesList]
    intro l hl
    rcases List.mem_append.1 hl with hl | hl
    · exact List.mem_append_left _ (Node.liveLeaves_subset n hl)
    · exact List.mem_append_right _ (Node.liveLeaves_subsetList ns hl)
theorem Node.liveLeaves_subsetOpt : ∀ n : Option Node, Node.liveLeavesOpt n ⊆ Node.leavesOpt n
  | none => by simp [Node.liveLeavesOpt]
  | some n => by
    simp only [Node.liveLeavesOpt, Node.leavesOpt]
    exact Node.liveLeaves_subset n
end

mutual
/-- If all claims of the leaves in use satisfy `P`, then all claims of the tree do. -/
theorem Node.claims_of_live (x : Ctx) (o : Orders) (P : Claim → Prop) : ∀ n : Node, n.Loaded x →
    (∀ leaf ∈ n.liveLeaves, ClaimsSatisfy x o P leaf) → ClaimsSatisfy x o P n
  | .course s d, _, h => h _ (by simp [Node.liveLeaves])
  | .query s d, _, h => h _ (by simp [Node.liveLeaves])
  | .count s d items, hl, h => by
    simp only [Node.Loaded] at hl
    simp only [Node.liveLeaves] at h
    intro s hs t t' r ha
    simp only [Node.solutions] at hs
    exact plainCount_claims hl.2.2 (Node.claims_of_liveList x o P items hl.2.2 h) hs ha
  | .req s d child, hl, h => by
    simp only [Node.Loaded] at hl
    simp only [Node.liveLeaves] at h
    intro s hs t t' r ha
    simp only [Node.solutions] at hs
    split at hs
    · simp only [Gen.one, List.mem_singleton] at hs
      subst hs
      simp only [reqSolution, Node.audit, if_true] at ha
      obtain ⟨rfl, rfl⟩ := Prod.mk.inj (Except.ok.inj ha)
      intro c hc
      simp only [Node.claims, Node.loaded_claimsOpt x _ hl.2.2, ite_self] at hc
      simp at hc
    · split at hs
      · simp only [Gen.one, List.mem_singleton] at hs
        subst hs
        simp only [reqSolution, Node.audit, Bool.false_eq_true, if_false, Node.auditOpt] at ha
        obtain ⟨rfl, rfl⟩ := Prod.mk.inj (Except.ok.inj ha)
        intro c hc
        simp [Node.claims, Node.claimsOpt] at hc
      · rename_i g hg
        obtain ⟨s', hs', rfl⟩ := Gen.mem_map.1 hs
        simp only [reqSolution, Node.audit, Bool.false_eq_true, if_false, Node.auditOpt] at ha
        split at ha
        · cases ha
        · rename_i r' t2 hr'
          obtain ⟨rfl, rfl⟩ := Prod.mk.inj (Except.ok.inj ha)
          split at hr'
          · cases hr'
          · rename_i r'' t3 hr''
            obtain ⟨rfl, rfl⟩ := Prod.mk.inj (Except.ok.inj hr')
            intro c hc
            simp only [Node.claims, Node.claimsOpt] at hc
            split at hc
            · simp at hc
            · exact Node.claims_of_liveOpt x o P child hl.2.2 h g hg s' hs' _ _ _ hr'' c hc
  | .cond s d th f, hl, h => by
    simp only [Node.Loaded] at hl
    simp only [Node.liveLeaves] at h
    intro s hs t t' r ha
    simp only [Node.solutions] at hs
    split at hs
    · rename_i hc
      rw [hc] at h
      obtain ⟨s', hs', rfl⟩ := Gen.mem_map.1 hs
      simp only [Node.audit, hc] at ha
      split at ha
      · cases ha
      · rename_i r' t2 hr'
        obtain ⟨rfl, rfl⟩ := Prod.mk.inj (Except.ok.inj ha)
        intro c hcl
        simp only [Node.claims, hc] at hcl
        exact Node.claims_of_live x o P th hl.2.2.1 h s' hs' _ _ _ hr' c hcl
    · rename_i hc
      rw [hc] at h
      split at hs
      · rename_i g hg
        obtain ⟨s', hs', rfl⟩ := Gen.mem_map.1 hs
        simp only [Node.audit, hc, Node.auditOpt] at ha
        split at ha
        · cases ha
        · rename_i r' t2 hr'
          obtain ⟨rfl, rfl⟩ := Prod.mk.inj (Except.ok.inj ha)
          split at hr'
          · cases hr'
          · rename_i r'' t3 hr''
            obtain ⟨rfl, rfl⟩ := Prod.mk.inj (Except.ok.inj hr')
            intro c hcl
            simp only [Node.claims, hc, Node.claimsOpt] at hcl
            exact Node.claims_of_liveOpt x o P f hl.2.2.2 h g hg s' hs' _ _ _ hr'' c hcl
      · simp [Gen.nil] at hs
    · simp [Gen.nil] at hs
  | .prof s d c, hl, h => by
    simp only [Node.Loaded] at hl
    simp only [Node.liveLeaves] at h
    intro s hs t t' r ha
    simp only [Node.solutions, profSolutions] at hs
    split at hs
    · simp only [Gen.one, List.mem_singleton] at hs
      subst hs
      simp only [Node.audit, profAudit, if_true] at ha
      obtain ⟨rfl, rfl⟩ := Prod.mk.inj (Except.ok.inj ha)
      intro cl hcl
      simp only [Node.claims, profClaims] at hcl
      split at hcl
      · rename_i s' d' _ hc
        have := (hl.2.2 _ rfl).1
        simp only at this
        rw [this] at hcl
        simp [courseClaims] at hcl
      · simp at hcl
    · split at hs
      · simp only [Gen.one, List.mem_singleton] at hs
        subst hs
        simp only [Node.audit, profAudit, Bool.false_eq_true, if_false] at ha
        split at ha
        · cases ha
        · obtain ⟨rfl, rfl⟩ := Prod.mk.inj (Except.ok.inj ha)
          intro cl hcl
          simp [Node.claims, profClaims] at hcl
      · rename_i st cd
        split at hs
        · rename_i s0 rest hitems
          simp only [Gen.one, List.mem_singleton] at hs
          subst hs
          simp only [Node.audit, profAudit, Bool.false_eq_true, if_false] at ha
          split at ha
          · cases ha
          · split at ha
            · cases ha
            · rename_i cd' t2 hca
              obtain ⟨rfl, rfl⟩ := Prod.mk.inj (Except.ok.inj ha)
              intro cl hcl
              simp only [Node.claims, profClaims] at hcl
              refine h (.course st cd) (by simp) (.course .solution s0) ?_ t t2 (.course .result cd') ?_ cl ?_
              · simp only [Node.solutions]
                exact Gen.mem_map.2 ⟨s0, by rw [hitems]; exact List.mem_cons_self, rfl⟩
              · simp [Node.audit, hca]
              · simpa [Node.claims] using hcl
        · simp [Gen.raise] at hs
theorem Node.claims_of_liveList (x : Ctx) (o : Orders) (P : Claim → Prop) : ∀ ns : List Node,
    Node.LoadedList x ns → (∀ leaf ∈ Node.liveLeavesList ns, ClaimsSatisfy x o P leaf) →
    ∀ n ∈ ns, ClaimsSatisfy x o P n
  | [], _, _ => by simp
  | n :: ns, hl, h => by
    simp only [Node.LoadedList] at hl
    simp only [Node.liveLeavesList, List.mem_append] at h
    intro n' hn'
    rcases List.mem_cons.1 hn' with he | hn'
    · rw [he]
      exact Node.claims_of_live x o P n hl.1 (fun l hl => h l (Or.inl hl))
    · exact Node.claims_of_liveList x o P ns hl.2 (fun l hl => h l (Or.inr hl)) n' hn'
theorem Node.claims_of_liveOpt (x : Ctx) (o : Orders) (P : Claim → Prop) : ∀ n : Option Node,
    Node.LoadedOpt x n → (∀ leaf ∈ Node.liveLeavesOpt n, ClaimsSatisfy x o P leaf) →
    ∀ g, Node.solutionsOpt x o n = some g → ∀ s ∈ g.items, ∀ t t' r, s.audit x o t = .ok (r, t') →
      ∀ c ∈ r.claims, P c
  | none, _, _ => by
    intro g hg
    cases hg
  | some n, hl, h => by
    simp only [Node.LoadedOpt] at hl
    simp only [Node.liveLeavesOpt] at h
    intro g hg s hs
    simp only [Node.solutionsOpt, Option.some.injEq] at hg
    subst hg
    exact Node.claims_of_live x o P n hl h s hs
end

/-- If all claims of the leaves satisfy `P`, then all claims of the tree do. -/
theorem Node.claims_of_leaves (x : Ctx) (o : Orders) (P : Claim → Prop) (n : Node) (hn : n.Loaded x)
    (h : ∀ leaf ∈ n.leaves, ClaimsSatisfy x o P leaf) : ClaimsSatisfy x o P n :=
  Node.claims_of_live x o P n hn (fun leaf hl => h leaf (Node.liveLeaves_subset n hl))

theorem Node.claims_of_leavesList (x : Ctx) (o : Orders) (P : Claim → Prop) (ns : List Node)
    (hn : Node.LoadedList x ns) (h : ∀ leaf ∈ Node.leavesList ns, ClaimsSatisfy x o P leaf) :
    ∀ n ∈ ns, ClaimsSatisfy x o P n :=
  Node.claims_of_liveList x o P ns hn (fun leaf hl => h leaf (Node.liveLeaves_subsetList ns hl))

end Dp
