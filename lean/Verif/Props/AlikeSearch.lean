import Verif.Props.AlikeTree
import Verif.Props.SingleCount

/-
The search for the best solution does not depend on the order in which the interpreter visits sets.
-/
namespace Dp

/-! ### Solutions -/

/-- the limits of a query are on numbers of courses, and no limit is given twice -/
def QueryData.LimitsFree (d : QueryData) : Prop := d.limit.Nodup ∧ ∀ l ∈ d.limit, l.what = .courses

/-- the part of a rule on which the order in which sets are visited has no influence: the limits of queries count courses,
and what looks at all claimed courses at once does not ask for something that depends on their order -/
def Node.OrderFree : Node → Prop
  | .query _ d => d.LimitsFree ∧ (d.source = .claimed → ∀ a ∈ d.assertions, a.All Assertion.OrderFree)
  | .count _ d _ => ∀ a ∈ d.audits, a.All Assertion.OrderFree
  | _ => True

/-- no two of the courses that an audit can come upon have the same id -/
def Ctx.OneEach (x : Ctx) : Prop := ∀ c d, x.Knows c → x.Knows d → c.clbid = d.clbid → c = d

theorem queryLimited_eq {x : Ctx} (hf : x.ForcedOk) (hx : x.OneEach) {d : QueryData} (hd : d.LimitsFree) {o o' : Orders}
    (ho : o.Lawful) (ho' : o'.Lawful) {f : Filtered} (hfil : queryFiltered x d = .ok f) {courses : List Course}
    (hc : itemCourses f.data = .ok courses) :
    limitedTranscripts (o.limit d.path) d.limit courses f.forceInserted = limitedTranscripts (o'.limit d.path) d.limit courses f.forceInserted := by
  refine C45_order_independent_partial _ _ (ho.1 _) (ho'.1 _) _ hd.1 hd.2 _ _ (fun c hcm e hem => ?_)
  have hk : ∀ c ∈ courses, x.Knows c := fun c hcm => queryFiltered_known hf hfil c (by
    rw [itemCourses_eq hc]; exact List.mem_map_of_mem hcm)
  exact hx c e (hk c hcm) (hk e hem)

theorem querySolutions_eq {x : Ctx} (hf : x.ForcedOk) (hx : x.OneEach) {d : QueryData} (hd : d.LimitsFree) {o o' : Orders}
    (ho : o.Lawful) (ho' : o'.Lawful) : querySolutions x o d = querySolutions x o' d := by
  unfold querySolutions
  split
  · rfl
  cases hfil : queryFiltered x d with
  | error e => rfl
  | ok f =>
    dsimp only
    cases d.source <;> dsimp only
    cases hc : itemCourses f.data with
    | error e => rfl
    | ok courses =>
      dsimp only
      unfold queryCourseSolutions
      rw [queryLimited_eq hf hx hd ho ho' hfil hc]

mutual
theorem Node.solutions_eq {x : Ctx} (hf : x.ForcedOk) (hx : x.OneEach) {o o' : Orders} (ho : o.Lawful) (ho' : o'.Lawful) : ∀ n : Node,
    (∀ m ∈ n.within, m.OrderFree) → n.solutions x o = n.solutions x o'
  | .course s d, _ => rfl
  | .query s d, h => by
    unfold Node.solutions
    rw [querySolutions_eq hf hx (h (.query s d) (by simp [Node.within])).1 ho ho']
  | .count s d l, h => by
    unfold Node.solutions
    rw [Node.solutions_eqList hf hx ho ho' l (fun m hm => h m (by simp [Node.within, hm]))]
  | .req s d r, h => by
    unfold Node.solutions
    rw [Node.solutions_eqOpt hf hx ho ho' r (fun m hm => h m (by simp [Node.within, hm]))]
  | .cond s d t f, h => by
    unfold Node.solutions
    rw [Node.solutions_eq hf hx ho ho' t (fun m hm => h m (by simp [Node.within, hm])),
      Node.solutions_eqOpt hf hx ho ho' f (fun m hm => h m (by simp [Node.within, hm]))]
  | .prof s d c, _ => rfl
theorem Node.solutions_eqList {x : Ctx} (hf : x.ForcedOk) (hx : x.OneEach) {o o' : Orders} (ho : o.Lawful) (ho' : o'.Lawful) : ∀ l : List Node,
    (∀ m ∈ Node.withinList l, m.OrderFree) → Node.solutionsList x o l = Node.solutionsList x o' l
  | [], _ => rfl
  | n :: l, h => by
    unfold Node.solutionsList
    rw [Node.solutions_eq hf hx ho ho' n (fun m hm => h m (by simp [Node.withinList, hm])),
      Node.solutions_eqList hf hx ho ho' l (fun m hm => h m (by simp [Node.withinList, hm]))]
theorem Node.solutions_eqOpt {x : Ctx} (hf : x.ForcedOk) (hx : x.OneEach) {o o' : Orders} (ho : o.Lawful) (ho' : o'.Lawful) : ∀ l : Option Node,
    (∀ m ∈ Node.withinOpt l, m.OrderFree) → Node.solutionsOpt x o l = Node.solutionsOpt x o' l
  | none, _ => rfl
  | some n, h => by
    unfold Node.solutionsOpt
    rw [Node.solutions_eq hf hx ho ho' n h]
end

theorem queryEstimate_eq {x : Ctx} (hf : x.ForcedOk) (hx : x.OneEach) {d : QueryData} (hd : d.LimitsFree) {o o' : Orders}
    (ho : o.Lawful) (ho' : o'.Lawful) : queryEstimate x o d = queryEstimate x o' d := by
  unfold queryEstimate
  split
  · rfl
  cases hfil : queryFiltered x d with
  | error e => rfl
  | ok f =>
    dsimp only
    cases hc : itemCourses f.data with
    | error e => rfl
    | ok courses =>
      dsimp only
      rw [queryLimited_eq hf hx hd ho ho' hfil hc]

mutual
theorem Node.estimate_eq {x : Ctx} (hf : x.ForcedOk) (hx : x.OneEach) {o o' : Orders} (ho : o.Lawful) (ho' : o'.Lawful) : ∀ n : Node,
    (∀ m ∈ n.within, m.OrderFree) → n.estimate x o = n.estimate x o'
  | .course s d, _ => rfl
  | .query s d, h => by
    unfold Node.estimate
    rw [queryEstimate_eq hf hx (h (.query s d) (by simp [Node.within])).1 ho ho']
  | .count s d l, h => by
    unfold Node.estimate
    rw [Node.estimate_eqList hf hx ho ho' l (fun m hm => h m (by simp [Node.within, hm]))]
  | .req s d r, h => by
    unfold Node.estimate
    rw [Node.estimate_eqOpt hf hx ho ho' r (fun m hm => h m (by simp [Node.within, hm]))]
  | .cond s d t f, h => by
    unfold Node.estimate
    rw [Node.estimate_eq hf hx ho ho' t (fun m hm => h m (by simp [Node.within, hm])),
      Node.estimate_eqOpt hf hx ho ho' f (fun m hm => h m (by simp [Node.within, hm]))]
  | .prof s d c, _ => rfl
theorem Node.estimate_eqList {x : Ctx} (hf : x.ForcedOk) (hx : x.OneEach) {o o' : Orders} (ho : o.Lawful) (ho' : o'.Lawful) : ∀ l : List Node,
    (∀ m ∈ Node.withinList l, m.OrderFree) → Node.estimateList x o l = Node.estimateList x o' l
  | [], _ => rfl
  | n :: l, h => by
    unfold Node.estimateList
    rw [Node.estimate_eq hf hx ho ho' n (fun m hm => h m (by simp [Node.withinList, hm])),
      Node.estimate_eqList hf hx ho ho' l (fun m hm => h m (by simp [Node.withinList, hm]))]
theorem Node.estimate_eqOpt {x : Ctx} (hf : x.ForcedOk) (hx : x.OneEach) {o o' : Orders} (ho : o.Lawful) (ho' : o'.Lawful) : ∀ l : Option Node,
    (∀ m ∈ Node.withinOpt l, m.OrderFree) → Node.estimateOpt x o l = Node.estimateOpt x o' l
  | none, _ => rfl
  | some n, h => by
    unfold Node.estimateOpt
    rw [Node.estimate_eq hf hx ho ho' n h]
end

theorem Node.mem_within_list {n : Node} {l : List Node} (hn : n ∈ l) : ∀ m ∈ n.within, m ∈ Node.withinList l := by
  induction l with
  | nil => cases hn
  | cons a l ih =>
    intro m hm
    rcases List.mem_cons.1 hn with rfl | hn
    · simp [Node.withinList, hm]
    · simp [Node.withinList, ih hn m hm]

theorem topCountEstimate_eq {x : Ctx} (hf : x.ForcedOk) (hx : x.OneEach) {o o' : Orders} (ho : o.Lawful) (ho' : o'.Lawful) {d : CountData}
    {items : List Node} (h : ∀ m ∈ Node.withinList items, m.OrderFree) : topCountEstimate x o d items = topCountEstimate x o' d items := by
  unfold topCountEstimate
  split
  · rfl
  cases hpot : filterE (fun n => n.hasPotential x) items with
  | error e => rfl
  | ok pot =>
    dsimp only
    split
    · rw [Node.estimate_eqList hf hx ho ho' items h]
    cases hind : findIndependent x pot with
    | error e => rfl
    | ok p =>
      obtain ⟨a, b⟩ := p
      dsimp only
      cases hsort : sortByPath Node.path b with
      | error e => rfl
      | ok sorted =>
        dsimp only
        congr 1
        refine List.map_congr_left (fun n hn => ?_)
        have hn' : n ∈ items := (mem_filterE hpot).1.subset ((findIndependent_subset hind).2.subset ((sortByPath_perm hsort).mem_iff.1 hn))
        rw [Node.estimate_eq hf hx ho ho' n (fun m hm => h m (Node.mem_within_list hn' m hm))]

mutual
theorem Node.topEstimate_eq {x : Ctx} (hf : x.ForcedOk) (hx : x.OneEach) {o o' : Orders} (ho : o.Lawful) (ho' : o'.Lawful) : ∀ n : Node,
    (∀ m ∈ n.within, m.OrderFree) → n.topEstimate x o = n.topEstimate x o'
  | .count s d l, h => by
    unfold Node.topEstimate
    rw [topCountEstimate_eq hf hx ho ho' (fun m hm => h m (by simp [Node.within, hm]))]
  | .cond s d t f, h => by
    unfold Node.topEstimate
    rw [Node.topEstimate_eq hf hx ho ho' t (fun m hm => h m (by simp [Node.within, hm])),
      Node.topEstimate_eqOpt hf hx ho ho' f (fun m hm => h m (by simp [Node.within, hm]))]
  | .course s d, h => Node.estimate_eq hf hx ho ho' _ h
  | .query s d, h => Node.estimate_eq hf hx ho ho' _ h
  | .req s d r, h => Node.estimate_eq hf hx ho ho' _ h
  | .prof s d c, h => Node.estimate_eq hf hx ho ho' _ h
theorem Node.topEstimate_eqOpt {x : Ctx} (hf : x.ForcedOk) (hx : x.OneEach) {o o' : Orders} (ho : o.Lawful) (ho' : o'.Lawful) : ∀ l : Option Node,
    (∀ m ∈ Node.withinOpt l, m.OrderFree) → Node.topEstimateOpt x o l = Node.topEstimateOpt x o' l
  | none, _ => rfl
  | some n, h => by
    unfold Node.topEstimateOpt
    rw [Node.topEstimate_eq hf hx ho ho' n h]
end

/-! ### Rules and solutions on which the order has no influence -/

theorem QueryData.steady_self {d : QueryData} (h : d.source = .claimed → ∀ a ∈ d.assertions, a.All Assertion.OrderFree) : d.Steady d := by
  refine ⟨.refl d, fun _ _ => rfl, ?_⟩
  by_cases hs : d.source = .claimed
  · exact .inr (h hs)
  · exact .inl ⟨hs, rfl, rfl⟩

theorem QueryData.Steady.claimed {d e : QueryData} (h : d.Steady e) : d.source = .claimed → ∀ a ∈ d.assertions, a.All Assertion.OrderFree := by
  intro hs
  rcases h.2.2 with h | h
  · exact absurd hs h.1
  · exact h

mutual
theorem Node.OrderFree.steady : ∀ n : Node, (∀ m ∈ n.within, m.OrderFree) → n.Steady n
  | .course s d, _ => ⟨rfl, rfl⟩
  | .query s d, h => ⟨rfl, QueryData.steady_self (h (.query s d) (by simp [Node.within])).2⟩
  | .count s d l, h => ⟨rfl, ⟨.refl d, h (.count s d l) (by simp [Node.within])⟩,
      Node.OrderFree.steadyList l (fun m hm => h m (by simp [Node.within, hm]))⟩
  | .req s d r, h => ⟨rfl, rfl, Node.OrderFree.steadyOpt r (fun m hm => h m (by simp [Node.within, hm]))⟩
  | .cond s d t f, h => ⟨rfl, rfl, Node.OrderFree.steady t (fun m hm => h m (by simp [Node.within, hm])),
      Node.OrderFree.steadyOpt f (fun m hm => h m (by simp [Node.within, hm]))⟩
  | .prof s d c, _ => ⟨rfl, rfl, rfl⟩
theorem Node.OrderFree.steadyList : ∀ l : List Node, (∀ m ∈ Node.withinList l, m.OrderFree) →
    Node.AlikeWithList QueryData.Steady CountData.Steady l l
  | [], _ => trivial
  | n :: l, h => ⟨Node.OrderFree.steady n (fun m hm => h m (by simp [Node.withinList, hm])),
      Node.OrderFree.steadyList l (fun m hm => h m (by simp [Node.withinList, hm]))⟩
theorem Node.OrderFree.steadyOpt : ∀ l : Option Node, (∀ m ∈ Node.withinOpt l, m.OrderFree) →
    Node.AlikeWithOpt QueryData.Steady CountData.Steady l l
  | none, _ => trivial
  | some n, h => Node.OrderFree.steady n h
end

theorem steadyList_self {l : List Node} : Node.AlikeWithList QueryData.Steady CountData.Steady l l ↔ ∀ n ∈ l, n.Steady n := by
  rw [alikeList_iff]
  exact List.forall₂_same

theorem countSolutions_steady {d : CountData} (hd : ∀ a ∈ d.audits, a.All Assertion.OrderFree) {n : Nat} {pot : List (Node × Gen Node)}
    {results others : List Node} (hp : ∀ p ∈ pot, ∀ s ∈ p.2.items, s.Steady s) (hr : ∀ s ∈ results, s.Steady s)
    (ho : ∀ s ∈ others, s.Steady s) {s : Node} (hs : s ∈ (countSolutions d n pot results others).items) : s.Steady s := by
  obtain ⟨l, rfl, hl⟩ := countSolutions_items hs
  refine ⟨rfl, ⟨.refl _, hd⟩, steadyList_self.2 (fun i hi => ?_)⟩
  rcases hl i hi with ⟨p, h1, h2⟩ | h | h
  · exact hp p h1 i h2
  · exact ho i h
  · exact hr i h

mutual
theorem Node.solutions_steady {x : Ctx} {o : Orders} (ho : o.Lawful) : ∀ (n : Node), n.Steady n → ∀ s ∈ (n.solutions x o).items, s.Steady s
  | .course st d, _, s, hs => by
    unfold Node.solutions at hs
    obtain ⟨s', _, rfl⟩ := Gen.mem_map.1 hs
    exact ⟨rfl, rfl⟩
  | .query st d, h, s, hs => by
    unfold Node.solutions at hs
    obtain ⟨s', hs', rfl⟩ := Gen.mem_map.1 hs
    refine ⟨rfl, QueryData.steady_self ?_⟩
    rcases querySolutions_cases ho hs' with ⟨_, rfl⟩ | ⟨_, f, _, out, rfl, _⟩
    · exact h.2.claimed
    · exact h.2.claimed
  | .count st d l, h, s, hs => by
    have hl := steadyList_self.1 h.2.2
    unfold Node.solutions plainCountSolutions at hs
    split at hs
    · simp only [Gen.one, List.mem_singleton] at hs
      subst hs
      exact ⟨rfl, ⟨.refl _, h.2.1.2⟩, h.2.2⟩
    split at hs
    · simp [Gen.raise] at hs
    rename_i pot hpot
    split at hs
    · simp [Gen.raise] at hs
    rename_i sorted hsorted
    refine countSolutions_steady h.2.1.2 (fun p hp i hi => ?_) (by simp) hl hs
    have hp' := (mem_filterE hpot).1.subset ((sortByPath_perm hsorted).mem_iff.1 hp)
    obtain ⟨h1, h2⟩ := mem_solutionsList hp'
    rw [h2] at hi
    exact Node.solutions_steadyList ho l h.2.2 p.1 h1 i hi
  | .req st d r, h, s, hs => by
    unfold Node.solutions at hs
    split at hs
    · simp only [Gen.one, List.mem_singleton] at hs
      subst hs
      exact ⟨rfl, rfl, h.2.2⟩
    cases r with
    | none =>
      simp only [Node.solutionsOpt, Gen.one, List.mem_singleton] at hs
      subst hs
      exact ⟨rfl, rfl, trivial⟩
    | some n =>
      simp only [Node.solutionsOpt] at hs
      obtain ⟨s', hs', rfl⟩ := Gen.mem_map.1 hs
      exact ⟨rfl, rfl, Node.solutions_steady ho n h.2.2 s' hs'⟩
  | .cond st d t f, h, s, hs => by
    unfold Node.solutions at hs
    split at hs
    · obtain ⟨s', hs', rfl⟩ := Gen.mem_map.1 hs
      exact ⟨rfl, rfl, Node.solutions_steady ho t h.2.2.1 s' hs', h.2.2.2⟩
    · cases f with
      | none => simp [Node.solutionsOpt, Gen.nil] at hs
      | some n =>
        simp only [Node.solutionsOpt] at hs
        obtain ⟨s', hs', rfl⟩ := Gen.mem_map.1 hs
        exact ⟨rfl, rfl, h.2.2.1, Node.solutions_steady ho n h.2.2.2 s' hs'⟩
    · simp [Gen.nil] at hs
  | .prof st d c, _, s, hs => by
    unfold Node.solutions profSolutions at hs
    repeat' split at hs
    all_goals first
      | (simp [Gen.raise] at hs; done)
      | (simp only [Gen.one, List.mem_singleton] at hs; subst hs; exact ⟨rfl, rfl, rfl⟩)
theorem Node.solutions_steadyList {x : Ctx} {o : Orders} (ho : o.Lawful) : ∀ l : List Node,
    Node.AlikeWithList QueryData.Steady CountData.Steady l l → ∀ n ∈ l, ∀ s ∈ (n.solutions x o).items, s.Steady s
  | [], _, n, hn, _, _ => by cases hn
  | n :: l, h, n', hn', s, hs => by
    rcases List.mem_cons.1 hn' with e | hn'
    · rw [e] at hs
      exact Node.solutions_steady ho n h.1 s hs
    · exact Node.solutions_steadyList ho l h.2 n' hn' s hs
end

/-! ### The best solution -/

/-- the best result so far, up to the order in which courses are listed -/
def BestAlike : Option (Node × Rat) → Option (Node × Rat) → Prop := Option.Rel (fun a b => a.1.Steady b.1 ∧ a.2 = b.2)

theorem bestLoop_alike {x y : Ctx} (hx : x.Alike y) {o o' : Orders} (ho : o.Lawful) (ho' : o'.Lawful) {tail tail' : Option Err}
    (ht : tail.isSome = tail'.isSome) {ss ss' : List Node} (h : List.Forall₂ Node.Steady ss ss') {best best' : Option (Node × Rat)}
    {inner inner' : Option ClaimTable} (hb : BestAlike best best') (hi : Option.Rel ClaimTable.Alike inner inner') :
    ExAlike (fun p q => BestAlike p.1 q.1 ∧ Option.Rel ClaimTable.Alike p.2 q.2)
      (bestLoop x o tail ss best inner) (bestLoop y o' tail' ss' best' inner') := by
  induction h generalizing best best' inner inner' with
  | nil =>
    unfold bestLoop
    cases tail <;> cases tail' <;> simp only [Option.isSome, Bool.false_eq_true, Bool.true_eq_false] at ht
    · exact ⟨hb, hi⟩
    · trivial
  | cons hs _ ih =>
    unfold bestLoop
    rcases (Node.audit_steady hx ho ho' _ _ [] [] hs ⟨.refl _, by simp⟩).cases with ⟨e, e', h1, h2⟩ | ⟨⟨r, t⟩, ⟨r', t'⟩, h1, h2, h3, h4⟩
    · rw [h1, h2]; trivial
    rw [h1, h2]
    dsimp only at h3 h4 ⊢
    rw [Node.rank_alike _ _ h3.alike, Node.status_alike _ _ h3.alike]
    cases hrank : r.rank with
    | error e => trivial
    | ok p =>
      obtain ⟨rank, mx⟩ := p
      dsimp only
      split
      · exact ⟨.some ⟨h3, rfl⟩, .some h4⟩
      · refine ih ?_ (.some h4)
        refine .some ?_
        cases hb with
        | none => exact ⟨h3, rfl⟩
        | @some b b' hb =>
          dsimp only
          rw [hb.2]
          split
          · exact ⟨h3, rfl⟩
          · exact hb

/-- the best result of a rule solved on its own, and the claims of the solution tried last -/
def oneBest (x : Ctx) (o : Orders) (n : Node) : Except Err (Option Node × ClaimTable) :=
  match bestLoop x o (n.solutions x o).err (n.solutions x o).items none none with
  | .error e => .error e
  | .ok (_, none) => .error .unboundLocal
  | .ok (best, some i) => .ok (best.map (·.1), i)

theorem findBest_eq (x : Ctx) (o : Orders) (n : Node) (t : ClaimTable) : findBest x o n t true =
    match oneBest x o n with
    | .error e => .error e
    | .ok (b, i) => .ok (b, mergeTables t i) := by
  unfold findBest oneBest
  dsimp only
  cases bestLoop x o (n.solutions x o).err (n.solutions x o).items none none with
  | error e => rfl
  | ok p =>
    obtain ⟨best, _ | i⟩ := p
    · rfl
    · rfl

theorem oneBest_alike {x y : Ctx} (hx : x.Alike y) {o o' : Orders} (ho : o.Lawful) (ho' : o'.Lawful) {n n' : Node}
    (h : Gen.Alike Node.Steady (n.solutions x o) (n'.solutions y o')) :
    ExAlike (fun p q => Option.Rel Node.Steady p.1 q.1 ∧ p.2.Alike q.2) (oneBest x o n) (oneBest y o' n') := by
  unfold oneBest
  rcases (bestLoop_alike hx ho ho' h.2 h.1 .none .none).cases with ⟨e, e', h1, h2⟩ | ⟨⟨b, i⟩, ⟨b', i'⟩, h1, h2, h3, h4⟩
  · rw [h1, h2]; trivial
  rw [h1, h2]
  dsimp only at h3 h4
  cases h4 with
  | none => trivial
  | some h4 =>
    refine ⟨?_, h4⟩
    cases h3 with
    | none => exact .none
    | some h3 => exact .some h3.1

theorem findBest_alike {x y : Ctx} (hx : x.Alike y) {o o' : Orders} (ho : o.Lawful) (ho' : o'.Lawful) {n n' : Node}
    (h : Gen.Alike Node.Steady (n.solutions x o) (n'.solutions y o')) :
    ExAlike (fun p q => Option.Rel Node.Steady p.1 q.1) (findBest x o n [] false) (findBest y o' n' [] false) := by
  unfold findBest
  dsimp only
  rcases (bestLoop_alike hx ho ho' h.2 h.1 .none .none).cases with ⟨e, e', h1, h2⟩ | ⟨⟨b, i⟩, ⟨b', i'⟩, h1, h2, h3, h4⟩
  · rw [h1, h2]; trivial
  rw [h1, h2]
  simp only [Bool.false_eq_true, if_false]
  cases h3 with
  | none => exact .none
  | some h3 => exact .some h3.1

/-! ### Merging claims -/

theorem ClaimTable.set_new {t : ClaimTable} {k : String} {v : List Claim} (h : k ∉ t.map (·.1)) : t.set k v = t ++ [(k, v)] := by
  induction t with
  | nil => rfl
  | cons e t ih =>
    obtain ⟨k', v'⟩ := e
    simp only [List.map_cons, List.mem_cons, not_or] at h
    have : (k' == k) = false := by simpa using fun e => h.1 e.symm
    simp only [ClaimTable.set, this, Bool.false_eq_true, if_false, List.cons_append]
    rw [ih h.2]

theorem mergeTables_new {t u : ClaimTable} (hu : (u.map (·.1)).Nodup) (h : ∀ k ∈ u.map (·.1), k ∉ t.map (·.1)) :
    mergeTables t u = t ++ u := by
  unfold mergeTables
  induction u generalizing t with
  | nil => simp
  | cons e u ih =>
    obtain ⟨k, v⟩ := e
    simp only [List.map_cons, List.nodup_cons] at hu
    simp only [List.foldl_cons]
    rw [ClaimTable.set_new (h k (by simp)), ih hu.2]
    · simp
    · intro k' hk'
      simp only [List.map_append, List.map_cons, List.map_nil, List.mem_append, List.mem_singleton, not_or]
      refine ⟨h k' (by simp [hk']), ?_⟩
      rintro rfl
      exact hu.1 hk'

/-- no class is claimed in both -/
def ClaimTable.Apart (t u : ClaimTable) : Prop := ∀ k ∈ t.map (·.1), k ∉ u.map (·.1)

theorem ClaimTable.Apart.symm {t u : ClaimTable} (h : t.Apart u) : u.Apart t := fun k hk hk' => h k hk' hk

theorem mergeAll {ts : List ClaimTable} (hn : ∀ t ∈ ts, (t.map (·.1)).Nodup) (ha : ts.Pairwise ClaimTable.Apart) {t : ClaimTable}
    (ht : ∀ u ∈ ts, t.Apart u) : ts.foldl mergeTables t = t ++ ts.flatten := by
  induction ts generalizing t with
  | nil => simp
  | cons u ts ih =>
    rw [List.pairwise_cons] at ha
    simp only [List.foldl_cons]
    rw [mergeTables_new (hn u (by simp)) (fun k hk => (ht u (by simp)).symm k hk),
      ih (fun t ht => hn t (List.mem_cons_of_mem _ ht)) ha.2]
    · simp
    · intro v hv k hk
      simp only [List.map_append, List.mem_append] at hk
      rcases hk with hk | hk
      · exact ht v (List.mem_cons_of_mem _ hv) k hk
      · exact ha.1 v hv k hk

/-! ### Solving independent children -/

/-- a child with its best result and its claims -/
def solvedChild (x : Ctx) (o : Orders) (n : Node) : Except Err (Node × Option Node × ClaimTable) :=
  match oneBest x o n with
  | .error e => .error e
  | .ok b => .ok (n, b)

theorem solveIndependent_eq (x : Ctx) (o : Orders) (ns : List Node) (t : ClaimTable) : solveIndependent x o ns t =
    match seqE (ns.map (solvedChild x o)) with
    | .error e => .error e
    | .ok bs => .ok (bs.map (fun b => (b.1, b.2.1)), (bs.map (fun b => b.2.2)).foldl mergeTables t) := by
  induction ns generalizing t with
  | nil => rfl
  | cons n ns ih =>
    simp only [solveIndependent, findBest_eq, List.map_cons, solvedChild]
    cases oneBest x o n with
    | error e => rfl
    | ok b =>
      obtain ⟨b, i⟩ := b
      simp only [ih, seqE]
      cases seqE (ns.map (solvedChild x o)) with
      | error e => rfl
      | ok bs => rfl

theorem seqE_perm {α : Type} {l m : List (Except Err α)} (h : l.Perm m) : ExAlike List.Perm (seqE l) (seqE m) := by
  have hal : ∀ {a b c : Except Err (List α)}, ExAlike List.Perm a b → ExAlike List.Perm b c → ExAlike List.Perm a c := by
    intro a b c h1 h2
    cases a <;> cases b <;> cases c <;> simp_all only [ExAlike]
    exact h1.trans h2
  induction h with
  | nil => exact List.Perm.refl _
  | cons a _ ih =>
    cases a with
    | error e => trivial
    | ok a =>
      simp only [seqE]
      rcases ih.cases with ⟨e, e', h1, h2⟩ | ⟨r, r', h1, h2, h3⟩
      · rw [h1, h2]; trivial
      · rw [h1, h2]; exact h3.cons _
  | swap a b l =>
    cases a <;> cases b <;> try trivial
    simp only [seqE]
    cases seqE l with
    | error e => trivial
    | ok r => exact List.Perm.swap _ _ r
  | trans _ _ ih1 ih2 => exact hal ih1 ih2

theorem seqE_forall₂ {α β : Type} {R : α → β → Prop} {l : List (Except Err α)} {m : List (Except Err β)}
    (h : List.Forall₂ (ExAlike R) l m) : ExAlike (List.Forall₂ R) (seqE l) (seqE m) := by
  induction h with
  | nil => exact .nil
  | cons h _ ih =>
    rcases h.cases with ⟨e, e', rfl, rfl⟩ | ⟨a, b, rfl, rfl, hab⟩
    · trivial
    · simp only [seqE]
      rcases ih.cases with ⟨e, e', h1, h2⟩ | ⟨r, r', h1, h2, h3⟩
      · rw [h1, h2]; trivial
      · rw [h1, h2]; exact .cons hab h3

theorem seqE_mem {α : Type} {l : List (Except Err α)} {r : List α} (h : seqE l = .ok r) : l = r.map Except.ok := by
  induction l generalizing r with
  | nil => cases h; rfl
  | cons a l ih =>
    cases a with
    | error e => cases h
    | ok a =>
      simp only [seqE] at h
      cases hl : seqE l with
      | error e => rw [hl] at h; cases h
      | ok m =>
        rw [hl] at h
        cases h
        rw [ih hl]
        rfl

/-- whatever solutions of the two rules are tried, they do not claim the same class -/
def Separate (x : Ctx) (o : Orders) (a b : Node) : Prop :=
  ∀ sa ∈ (a.solutions x o).items, ∀ sb ∈ (b.solutions x o).items, ∀ ra ta rb tb, sa.audit x o [] = .ok (ra, ta) →
    sb.audit x o [] = .ok (rb, tb) → ta.Apart tb

theorem bestLoop_last {x : Ctx} {o : Orders} {tail : Option Err} {ss : List Node} {best b : Option (Node × Rat)} {i : ClaimTable}
    {inner : Option ClaimTable} (h : bestLoop x o tail ss best inner = .ok (b, some i)) :
    inner = some i ∨ ∃ s ∈ ss, ∃ r, s.audit x o [] = .ok (r, i) := by
  induction ss generalizing best inner with
  | nil =>
    unfold bestLoop at h
    split at h
    · cases h
    · cases h; exact .inl rfl
  | cons s ss ih =>
    unfold bestLoop at h
    split at h
    · cases h
    rename_i r t hs
    split at h
    · cases h
    dsimp only at h
    split at h
    · cases h
      exact .inr ⟨s, by simp, r, hs⟩
    · rcases ih h with h | ⟨s', h1, h2⟩
      · cases h
        exact .inr ⟨s, by simp, r, hs⟩
      · exact .inr ⟨s', List.mem_cons_of_mem _ h1, h2⟩

theorem oneBest_claims {x : Ctx} {o : Orders} {n : Node} {b : Option Node} {t : ClaimTable} (h : oneBest x o n = .ok (b, t)) :
    ∃ s ∈ (n.solutions x o).items, ∃ r, s.audit x o [] = .ok (r, t) := by
  unfold oneBest at h
  split at h
  · cases h
  · cases h
  · rename_i hb
    cases h
    rcases bestLoop_last hb with h | h
    · cases h
    · exact h

theorem solvedChildren {x : Ctx} {o : Orders} {l : List Node} {bs : List (Node × Option Node × ClaimTable)}
    (h : seqE (l.map (solvedChild x o)) = .ok bs) : l = bs.map (·.1) ∧ ∀ b ∈ bs, oneBest x o b.1 = .ok b.2 := by
  replace h := seqE_mem h
  induction l generalizing bs with
  | nil => cases bs <;> simp_all
  | cons n l ih =>
    cases bs with
    | nil => simp at h
    | cons b bs =>
      simp only [List.map_cons, List.cons.injEq] at h
      obtain ⟨h1, h2⟩ := h
      obtain ⟨h3, h4⟩ := ih h2
      unfold solvedChild at h1
      split at h1
      · cases h1
      rename_i b' hb
      cases h1
      refine ⟨by simp [← h3], ?_⟩
      intro b hb'
      rcases List.mem_cons.1 hb' with rfl | hb'
      · exact hb
      · exact h4 b hb'

theorem apart_forall₂ {ts us : List ClaimTable} (h : List.Forall₂ ClaimTable.Alike ts us) (ha : ts.Pairwise ClaimTable.Apart) :
    us.Pairwise ClaimTable.Apart := by
  induction h with
  | nil => exact .nil
  | cons h hr ih =>
    rw [List.pairwise_cons] at ha ⊢
    refine ⟨fun u hu k hk hk' => ?_, ih ha.2⟩
    obtain ⟨t', ht', hal⟩ := forall₂_mem_left hr.flip hu
    exact ha.1 t' ht' k ((h.1.map _).mem_iff.2 hk) ((hal.1.map _).mem_iff.2 hk')

theorem flatten_alike {ts us : List ClaimTable} (h : List.Forall₂ ClaimTable.Alike ts us) (ha : ts.Pairwise ClaimTable.Apart) :
    ClaimTable.Alike ts.flatten us.flatten := by
  induction h with
  | nil => exact ⟨.refl _, by simp⟩
  | cons h hr ih =>
    rw [List.pairwise_cons] at ha
    obtain ⟨h1, h2⟩ := ih ha.2
    refine ⟨by simpa using h.1.append h1, ?_⟩
    simp only [List.flatten_cons, List.map_append]
    refine List.nodup_append.2 ⟨h.2, h2, ?_⟩
    rintro k hk k' hk' rfl
    obtain ⟨e, he, rfl⟩ := List.mem_map.1 hk'
    obtain ⟨t', ht', he⟩ := List.mem_flatten.1 he
    exact ha.1 t' ht' _ hk (List.mem_map_of_mem he)

/-- **Solving independent children in another order** gives the same results and claims. -/
theorem solveIndependent_alike {x : Ctx} {o o' : Orders} (ho : o.Lawful) (ho' : o'.Lawful) {l l' : List Node} (hl : l.Perm l')
    (h : ∀ n ∈ l, Gen.Alike Node.Steady (n.solutions x o) (n.solutions x o'))
    (hself : ∀ n ∈ l, Gen.Alike Node.Steady (n.solutions x o) (n.solutions x o)) (hsep : l.Pairwise (Separate x o)) :
    ExAlike (fun p q => (∃ m : List (Node × Option Node), p.1.Perm m ∧
        List.Forall₂ (fun a b => a.1 = b.1 ∧ Option.Rel Node.Steady a.2 b.2) m q.1) ∧ p.2.Alike q.2)
      (solveIndependent x o l []) (solveIndependent x o' l' []) := by
  rw [solveIndependent_eq, solveIndependent_eq]
  have h2 : ExAlike (List.Forall₂ (fun (a b : Node × Option Node × ClaimTable) => a.1 = b.1 ∧ Option.Rel Node.Steady a.2.1 b.2.1 ∧ a.2.2.Alike b.2.2))
      (seqE (l'.map (solvedChild x o))) (seqE (l'.map (solvedChild x o'))) := by
    refine seqE_forall₂ ?_
    rw [List.forall₂_map_left_iff, List.forall₂_map_right_iff, List.forall₂_same]
    intro n hn
    unfold solvedChild
    rcases (oneBest_alike (.refl x) ho ho' (h n (hl.mem_iff.2 hn))).cases with ⟨e, e', h1, h2⟩ | ⟨b, b', h1, h2, h3⟩
    · rw [h1, h2]; trivial
    · rw [h1, h2]; exact ⟨rfl, h3⟩
  rcases (seqE_perm (hl.map (solvedChild x o))).cases with ⟨e, e', h1, h3⟩ | ⟨bs, bs', h1, h3, hbs⟩
  · rw [h3] at h2
    rw [h1]
    rcases h2.cases with ⟨_, _, _, h4⟩ | ⟨_, _, h4, _⟩
    · rw [h4]; trivial
    · cases h4
  · rw [h3] at h2
    rw [h1]
    rcases h2.cases with ⟨_, _, h4, _⟩ | ⟨b, bs'', h4, h5, h6⟩
    · cases h4
    obtain rfl : bs' = b := Except.ok.inj h4
    rw [h5]
    have htab : ∀ b ∈ bs, b.1 ∈ l ∧ oneBest x o b.1 = .ok b.2 := by
      intro b hb
      obtain ⟨h7, h8⟩ := solvedChildren h1
      exact ⟨by rw [h7]; exact List.mem_map_of_mem hb, h8 b hb⟩
    have hnd : ∀ t ∈ bs.map (fun b => b.2.2), (t.map (·.1)).Nodup := by
      intro t ht
      obtain ⟨b, hb, rfl⟩ := List.mem_map.1 ht
      obtain ⟨h7, h8⟩ := htab b hb
      have := oneBest_alike (.refl x) ho ho (hself b.1 h7)
      rw [h8] at this
      exact this.2.2
    have hap : (bs.map (fun b => b.2.2)).Pairwise ClaimTable.Apart := by
      rw [List.pairwise_map]
      have h7 := (solvedChildren h1).1
      rw [h7, List.pairwise_map] at hsep
      refine hsep.imp_of_mem (fun {a b} ha hb hab => ?_)
      obtain ⟨sa, hsa, ra, hra⟩ := oneBest_claims (htab a ha).2
      obtain ⟨sb, hsb, rb, hrb⟩ := oneBest_claims (htab b hb).2
      exact hab sa hsa sb hsb ra _ rb _ hra hrb
    have hap' : (bs'.map (fun b => b.2.2)).Pairwise ClaimTable.Apart :=
      (hbs.map _).pairwise hap (fun h => h.symm)
    have hf : List.Forall₂ ClaimTable.Alike (bs'.map (fun b => b.2.2)) (bs''.map (fun b => b.2.2)) := by
      rw [List.forall₂_map_left_iff, List.forall₂_map_right_iff]
      exact h6.imp (fun _ _ h => h.2.2)
    refine ⟨⟨bs'.map (fun b => (b.1, b.2.1)), hbs.map _, ?_⟩, ?_⟩
    · rw [List.forall₂_map_left_iff, List.forall₂_map_right_iff]
      exact h6.imp (fun _ _ h => ⟨h.1, h.2.1⟩)
    · dsimp only
      have e1 := mergeAll hnd hap (t := []) (fun u _ k hk => by cases hk)
      have e2 := mergeAll (fun t ht => by
        obtain ⟨t', _, h⟩ := forall₂_mem_left hf.flip ht
        exact (h.1.map _).nodup_iff.1 h.2) (apart_forall₂ hf hap') (t := []) (fun u _ k hk => by cases hk)
      rw [e1, e2, List.nil_append, List.nil_append]
      have hff := flatten_alike hf hap'
      exact ⟨((hbs.map _).flatten).trans hff.1, (((hbs.map _).flatten).map _).nodup_iff.2 hff.2⟩

/-! ### Generators that yield related items -/

theorem Gen.Alike.one {α β : Type} {R : α → β → Prop} {a : α} {b : β} (h : R a b) : Gen.Alike R (.one a) (.one b) :=
  ⟨.cons h .nil, rfl⟩

theorem Gen.Alike.raise {α β : Type} {R : α → β → Prop} (e e' : Err) : Gen.Alike R (.raise e) (.raise e') := ⟨.nil, rfl⟩

theorem Gen.Alike.nil {α β : Type} {R : α → β → Prop} : Gen.Alike R .nil .nil := ⟨.nil, rfl⟩

theorem Gen.Alike.self {α : Type} {R : α → α → Prop} {g : Gen α} (h : ∀ a ∈ g.items, R a a) : Gen.Alike R g g :=
  ⟨List.forall₂_same.2 h, rfl⟩

theorem Gen.Alike.append {α β : Type} {R : α → β → Prop} {g g' : Gen α} {h h' : Gen β} (h1 : Gen.Alike R g h) (h2 : Gen.Alike R g' h') :
    Gen.Alike R (g.append g') (h.append h') := by
  obtain ⟨is, e⟩ := g
  obtain ⟨js, e'⟩ := h
  obtain ⟨h1, h3⟩ := h1
  dsimp only at h1 h3
  cases e <;> cases e' <;> simp only [Option.isSome, Bool.false_eq_true, Bool.true_eq_false] at h3
  · exact ⟨List.rel_append h1 h2.1, h2.2⟩
  · exact ⟨h1, rfl⟩

theorem Gen.Alike.forList {α γ β δ : Type} {R : γ → δ → Prop} {S : α → β → Prop} {l : List α} {m : List β} (hl : List.Forall₂ S l m)
    {f : α → Gen γ} {g : β → Gen δ} (h : ∀ a b, S a b → Gen.Alike R (f a) (g b)) : Gen.Alike R (Gen.forList l f) (Gen.forList m g) := by
  induction hl with
  | nil => exact .nil
  | cons hab _ ih => exact (h _ _ hab).append ih

theorem Gen.Alike.bind {α γ β δ : Type} {R : γ → δ → Prop} {S : α → β → Prop} {g : Gen α} {g' : Gen β} (hg : Gen.Alike S g g')
    {f : α → Gen γ} {f' : β → Gen δ} (h : ∀ a b, S a b → Gen.Alike R (f a) (f' b)) : Gen.Alike R (g.bind f) (g'.bind f') :=
  (Gen.Alike.forList hg.1 h).append ⟨.nil, hg.2⟩

theorem Gen.Alike.orElse {α β : Type} {R : α → β → Prop} {g g' : Gen α} {h h' : Gen β} (h1 : Gen.Alike R g h) (h2 : Gen.Alike R g' h') :
    Gen.Alike R (g.orElse g') (h.orElse h') := by
  obtain ⟨is, e⟩ := g
  obtain ⟨js, e'⟩ := h
  obtain ⟨h1, h3⟩ := h1
  dsimp only at h1 h3
  unfold Gen.orElse
  cases h1 with
  | nil =>
    cases e <;> cases e' <;> simp only [Option.isSome, Bool.false_eq_true, Bool.true_eq_false] at h3
    · exact h2
    · exact ⟨.nil, rfl⟩
  | cons h1 h4 => exact ⟨.cons h1 h4, h3⟩

theorem Gen.Alike.map {α γ β δ : Type} {R : γ → δ → Prop} {S : α → β → Prop} {g : Gen α} {g' : Gen β} (hg : Gen.Alike S g g')
    {f : α → γ} {f' : β → δ} (h : ∀ a b, S a b → R (f a) (f' b)) : Gen.Alike R (g.map f) (g'.map f') := by
  refine ⟨?_, hg.2⟩
  simp only [Gen.map, List.forall₂_map_left_iff, List.forall₂_map_right_iff]
  exact hg.1.imp h

/-! ### Sorting -/

theorem insertByPath_alike {α β : Type} {R : α → β → Prop} {key : α → Path} {key' : β → Path} (hk : ∀ a b, R a b → key' b = key a)
    {a : α} {b : β} (hab : R a b) {l : List α} {m : List β} (h : List.Forall₂ R l m) :
    ExAlike (List.Forall₂ R) (insertByPath key a l) (insertByPath key' b m) := by
  induction h with
  | nil => exact .cons hab .nil
  | cons hd htl ih =>
    unfold insertByPath
    rw [hk _ _ hab, hk _ _ hd]
    split
    · trivial
    · split
      · exact .cons hab (.cons hd htl)
      · rcases ih.cases with ⟨e, e', h1, h2⟩ | ⟨r, r', h1, h2, h3⟩
        · rw [h1, h2]; trivial
        · rw [h1, h2]; exact .cons hd h3

theorem sortByPath_alike {α β : Type} {R : α → β → Prop} {key : α → Path} {key' : β → Path} (hk : ∀ a b, R a b → key' b = key a)
    {l : List α} {m : List β} (h : List.Forall₂ R l m) : ExAlike (List.Forall₂ R) (sortByPath key l) (sortByPath key' m) := by
  induction h with
  | nil => exact .nil
  | cons hd _ ih =>
    unfold sortByPath
    rcases ih.cases with ⟨e, e', h1, h2⟩ | ⟨r, r', h1, h2, h3⟩
    · rw [h1, h2]; trivial
    · rw [h1, h2]; exact insertByPath_alike hk hd h3

/-! ### The solutions of a count -/

theorem countSolution_alike {d : CountData} (hd : ∀ a ∈ d.audits, a.All Assertion.OrderFree) {l l' : List Node}
    (h : List.Forall₂ Node.Steady l l') : Gen.Alike Node.Steady (countSolution d l) (countSolution d l') := by
  unfold countSolution
  rcases (sortByPath_alike (key := Node.path) (key' := Node.path) (fun _ _ h => Node.Alike.path_eq (Node.Steady.alike h)) h).cases with
    ⟨e, e', h1, h2⟩ | ⟨r, r', h1, h2, h3⟩
  · rw [h1, h2]; exact .raise _ _
  · rw [h1, h2]; exact .one ⟨rfl, ⟨.refl _, hd⟩, alikeList_iff.2 h3⟩

theorem makeCombinations_alike {d : CountData} (hd : ∀ a ∈ d.audits, a.All Assertion.OrderFree) {pot : List (Node × Gen Node)}
    (hp : ∀ p ∈ pot, ∀ s ∈ p.2.items, s.Steady s) {results results' others : List Node} (hr : List.Forall₂ Node.Steady results results')
    (ho : ∀ s ∈ others, s.Steady s) (size : Nat) :
    Gen.Alike Node.Steady (makeCombinations d pot results others size) (makeCombinations d pot results' others size) := by
  unfold makeCombinations
  refine Gen.Alike.forList (S := fun a b => a = b ∧ a ∈ combos size pot) (List.forall₂_same.2 (fun a ha => ⟨rfl, ha⟩)) ?_
  rintro sel _ ⟨rfl, hsel⟩
  dsimp only
  refine Gen.Alike.bind (S := fun a b => a = b ∧ a ∈ (lazyProduct (sel.map (·.2))).items) (.self (fun a ha => ⟨rfl, ha⟩)) ?_
  rintro sols _ ⟨rfl, hsols⟩
  refine countSolution_alike hd (List.rel_append (List.rel_append (List.forall₂_same.2 fun s hs => ?_) (List.forall₂_same.2 fun s hs => ?_)) hr)
  · have h2 := mem_lazyProduct hsols
    rw [List.forall₂_map_right_iff] at h2
    obtain ⟨p, hp', hs'⟩ := forall₂_mem_left h2 hs
    exact hp p ((mem_combos.1 hsel).1.subset hp') s hs'
  · exact ho s (List.mem_filter.1 hs).1

theorem countSolutions_alike {d : CountData} (hd : ∀ a ∈ d.audits, a.All Assertion.OrderFree) {n : Nat} {pot : List (Node × Gen Node)}
    (hp : ∀ p ∈ pot, ∀ s ∈ p.2.items, s.Steady s) {results results' others : List Node} (hr : List.Forall₂ Node.Steady results results')
    (ho : ∀ s ∈ others, s.Steady s) :
    Gen.Alike Node.Steady (countSolutions d n pot results others) (countSolutions d n pot results' others) := by
  unfold countSolutions
  refine Gen.Alike.orElse (Gen.Alike.orElse ?_ ?_) ?_
  · exact Gen.Alike.forList (S := Eq) (List.forall₂_same.2 (fun _ _ => rfl)) (by rintro a _ rfl; exact makeCombinations_alike hd hp hr ho a)
  · split
    · exact .nil
    · exact makeCombinations_alike hd hp hr ho _
  · exact countSolution_alike hd (List.rel_append (List.forall₂_same.2 ho) hr)

/-- the children of a count that are solved on their own never claim the same class -/
def Undisputed (x : Ctx) (o : Orders) (items : List Node) : Prop :=
  ∀ pot, filterE (fun n => n.hasPotential x) items = .ok pot → ∀ indep codep, findIndependent x pot = .ok (indep, codep) →
    ∀ a ∈ indep, ∀ b ∈ indep, a.path ≠ b.path → Separate x o a b

theorem Separate.symm {x : Ctx} {o : Orders} {a b : Node} (h : Separate x o a b) : Separate x o b a :=
  fun sb hb sa ha rb tb ra ta h1 h2 => (h sa ha sb hb ra ta rb tb h2 h1).symm

theorem topCountSolutions_alike {x : Ctx} (hf : x.ForcedOk) (hx : x.OneEach) {o o' : Orders} (ho : o.Lawful) (ho' : o'.Lawful)
    {d : CountData} {items : List Node} (h : ∀ m ∈ (Node.count .rule d items).within, m.OrderFree)
    (hc : ∀ i ∈ items, CanonicalPath i.path) (hn : (items.map Node.path).Nodup) (hu : Undisputed x o items) :
    Gen.Alike Node.Steady (topCountSolutions x o d items []).1 (topCountSolutions x o' d items []).1 ∧
      (topCountSolutions x o d items []).2.Alike (topCountSolutions x o' d items []).2 := by
  have hd : ∀ a ∈ d.audits, a.All Assertion.OrderFree := h (.count .rule d items) (by simp [Node.within])
  have hin : ∀ i ∈ items, ∀ m ∈ i.within, m.OrderFree := fun i hi m hm => h m (by
    simp only [Node.within, List.mem_cons]; exact .inr (Node.mem_within_list hi m hm))
  have hst : ∀ i ∈ items, i.Steady i := fun i hi => Node.OrderFree.steady i (hin i hi)
  have hnil : ClaimTable.Alike [] [] := ⟨.refl _, by simp⟩
  unfold topCountSolutions
  split
  · exact ⟨.one ⟨rfl, ⟨.refl _, hd⟩, steadyList_self.2 hst⟩, hnil⟩
  cases hpot : filterE (fun n => n.hasPotential x) items with
  | error e => exact ⟨.raise _ _, hnil⟩
  | ok pot =>
    dsimp only
    split
    · refine ⟨?_, hnil⟩
      have hsol : (Node.count .rule d items).solutions x o = (Node.count .rule d items).solutions x o' :=
        Node.solutions_eq hf hx ho ho' _ h
      simp only [Node.solutions] at hsol
      rw [← hsol]
      exact .self (fun s hs => Node.solutions_steady ho (.count .rule d items) (Node.OrderFree.steady _ h) s (by
        simpa only [Node.solutions] using hs))
    cases hind : findIndependent x pot with
    | error e => exact ⟨.raise _ _, hnil⟩
    | ok p =>
      obtain ⟨indep, codep⟩ := p
      dsimp only
      have hpotsub := (mem_filterE hpot).1
      have hindsub := (findIndependent_subset hind).1.trans hpotsub
      have hcodsub := (findIndependent_subset hind).2.trans hpotsub
      have hperm : (o.children indep).Perm (o'.children indep) := (ho.2.2 _).trans (ho'.2.2 _).symm
      have hmem : ∀ n ∈ o.children indep, n ∈ items := fun n hn => hindsub.subset ((ho.2.2 indep).mem_iff.1 hn)
      have hsols : ∀ n ∈ items, n.solutions x o = n.solutions x o' := fun n hn => Node.solutions_eq hf hx ho ho' n (hin n hn)
      have hself : ∀ n ∈ items, Gen.Alike Node.Steady (n.solutions x o) (n.solutions x o) := fun n hn =>
        .self (fun s hs => Node.solutions_steady ho n (hst n hn) s hs)
      have hsep : (o.children indep).Pairwise (Separate x o) := by
        refine (ho.2.2 indep).symm.pairwise ?_ (fun h => h.symm)
        have hnd : (indep.map Node.path).Nodup := hn.sublist (hindsub.map _)
        rw [List.Nodup, List.pairwise_map] at hnd
        exact hnd.imp_of_mem (fun {a b} ha hb hab => hu pot hpot indep codep hind a ha b hb hab)
      rcases (solveIndependent_alike ho ho' hperm (fun n hn => by rw [← hsols n (hmem n hn)]; exact hself n (hmem n hn))
        (fun n hn => hself n (hmem n hn)) hsep).cases with ⟨e, e', h1, h2⟩ | ⟨⟨solved, t⟩, ⟨solved', t'⟩, h1, h2, ⟨m, hm, hm'⟩, ht⟩
      · rw [h1, h2]; exact ⟨.raise _ _, hnil⟩
      rw [h1, h2]
      dsimp only at hm hm' ht ⊢
      obtain ⟨g1, g2⟩ := solveIndependent_mem h1
      have hpath : ∀ p ∈ solved, ∀ r, p.2 = some r → r.path = p.1.path := by
        intro p hp r hr
        obtain ⟨s, hs, t2, ha⟩ := g2 p hp r hr
        rw [Node.audit_path ha, Node.solutions_path ho hs]
      have hpitems : ∀ p ∈ solved, p.1 ∈ items := fun p hp => hmem p.1 (by rw [← g1]; exact List.mem_map_of_mem hp)
      have hresnd : ((solved.filterMap (·.2)).map Node.path).Nodup := by
        have hall : (solved.map (fun p => p.1.path)).Nodup := by
          have e : solved.map (fun p => p.1.path) = (solved.map (·.1)).map Node.path := by simp
          rw [e, g1]
          exact ((ho.2.2 indep).map _).nodup_iff.2 (hn.sublist (hindsub.map _))
        refine hall.sublist ?_
        clear * - hpath
        induction solved with
        | nil => exact .slnil
        | cons p l ih =>
          have ih := ih (fun q hq => hpath q (List.mem_cons_of_mem _ hq))
          cases hp : p.2 with
          | none => simpa [List.filterMap_cons, hp] using ih.cons _
          | some r =>
            simp only [List.filterMap_cons, hp, List.map_cons, hpath p (by simp) r hp]
            exact ih.cons_cons _
      have hrescan : ∀ r ∈ solved.filterMap (·.2), CanonicalPath r.path := by
        intro r hr
        obtain ⟨p, hp, hpr⟩ := List.mem_filterMap.1 hr
        rw [hpath p hp r hpr]
        exact hc _ (hpitems p hp)
      have hsort := (C15_sort_independent_of_order Node.path _ _ hrescan hresnd (hm.filterMap _)).1
      rw [hsort]
      have hf2 : List.Forall₂ Node.Steady (m.filterMap (·.2)) (solved'.filterMap (·.2)) := by
        clear * - hm'
        induction hm' with
        | nil => exact .nil
        | @cons a b l l' hab _ ih =>
          obtain ⟨a1, a2⟩ := a
          obtain ⟨b1, b2⟩ := b
          obtain ⟨rfl, hab⟩ := hab
          dsimp only at hab
          cases hab with
          | none => simpa using ih
          | some hab => simpa [List.filterMap_cons] using ⟨hab, ih⟩
      rcases (sortByPath_alike (key := Node.path) (key' := Node.path) (fun _ _ h => Node.Alike.path_eq (Node.Steady.alike h)) hf2).cases with
        ⟨e, e', h3, h4⟩ | ⟨rs, rs', h3, h4, h5⟩
      · rw [h3, h4]; exact ⟨.raise _ _, ht⟩
      rw [h3, h4]
      dsimp only
      cases hcod : sortByPath Node.path codep with
      | error e => exact ⟨.raise _ _, ht⟩
      | ok sorted =>
        dsimp only
        refine ⟨?_, ht⟩
        have hoth : items.filter (fun n => !((solved.filter (·.2.isSome)).map (·.1.path)).contains n.path) =
            items.filter (fun n => !((solved'.filter (·.2.isSome)).map (·.1.path)).contains n.path) := by
          have hm2 : ((m.filter (·.2.isSome)).map (·.1.path)) = ((solved'.filter (·.2.isSome)).map (·.1.path)) := by
            clear * - hm'
            induction hm' with
            | nil => rfl
            | @cons a b l l' hab _ ih =>
              obtain ⟨a1, a2⟩ := a
              obtain ⟨b1, b2⟩ := b
              obtain ⟨rfl, hab⟩ := hab
              dsimp only at hab
              cases hab with
              | none => simpa using ih
              | some hab => simpa using ih
          rw [← hm2]
          refine List.filter_congr (fun n _ => ?_)
          congr 1
          rw [Bool.eq_iff_iff, List.contains_iff_mem, List.contains_iff_mem]
          exact ((hm.filter _).map _).mem_iff
        rw [← hoth]
        have hsm : sorted.map (fun n => (n, n.solutions x o)) = sorted.map (fun n => (n, n.solutions x o')) :=
          List.map_congr_left (fun n hn => by rw [hsols n (hcodsub.subset ((sortByPath_perm hcod).mem_iff.1 hn))])
        rw [← hsm]
        refine countSolutions_alike hd (fun p hp s hs => ?_) h5 (fun s hs => hst s (List.mem_filter.1 hs).1)
        obtain ⟨n, hn, rfl⟩ := List.mem_map.1 hp
        exact Node.solutions_steady ho n (hst n (hcodsub.subset ((sortByPath_perm hcod).mem_iff.1 hn))) s hs

end Dp
