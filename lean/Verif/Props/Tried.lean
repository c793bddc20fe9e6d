import Verif.Props.LoadRun

/-
The search of a count rule leaves nothing out (C54).
-/
namespace Dp

/-! ### Generators that end normally -/

theorem Gen.append_clean {α : Type} {g h : Gen α} (he : (g.append h).err = none) :
    g.err = none ∧ h.err = none ∧ (g.append h).items = g.items ++ h.items := by
  unfold Gen.append at he ⊢
  split at he
  · cases he
  · rename_i h1
    simp only [h1]
    exact ⟨trivial, he, trivial⟩

theorem Gen.forList_all {α β : Type} {l : List α} {f : α → Gen β} (he : (Gen.forList l f).err = none) :
    ∀ a ∈ l, (f a).err = none ∧ ∀ b ∈ (f a).items, b ∈ (Gen.forList l f).items := by
  induction l with
  | nil => simp
  | cons a l ih =>
    unfold Gen.forList at he ⊢
    obtain ⟨h1, h2, h3⟩ := Gen.append_clean he
    rw [h3]
    intro c hc
    rcases List.mem_cons.1 hc with rfl | hc
    · exact ⟨h1, fun b hb => List.mem_append_left _ hb⟩
    · obtain ⟨h4, h5⟩ := ih h2 c hc
      exact ⟨h4, fun b hb => List.mem_append_right _ (h5 b hb)⟩

theorem Gen.bind_all {α β : Type} {g : Gen α} {f : α → Gen β} (he : (g.bind f).err = none) :
    g.err = none ∧ ∀ a ∈ g.items, (f a).err = none ∧ ∀ b ∈ (f a).items, b ∈ (g.bind f).items := by
  unfold Gen.bind at he ⊢
  obtain ⟨h1, h2, h3⟩ := Gen.append_clean he
  refine ⟨h2, fun a ha => ?_⟩
  obtain ⟨h4, h5⟩ := Gen.forList_all h1 a ha
  refine ⟨h4, fun b hb => ?_⟩
  rw [h3]
  exact List.mem_append_left _ (h5 b hb)

theorem Gen.orElse_left_clean {α : Type} {g h : Gen α} (he : (g.orElse h).err = none) : g.err = none := by
  unfold Gen.orElse at he
  split at he
  · assumption
  · exact he

theorem Gen.mem_orElse_left {α : Type} {g h : Gen α} {a : α} (ha : a ∈ g.items) : a ∈ (g.orElse h).items := by
  unfold Gen.orElse
  split
  · rename_i h1 _
    rw [h1] at ha
    cases ha
  · exact ha

theorem Gen.orElse_right {α : Type} {g h : Gen α} (h1 : g.items = []) (h2 : g.err = none) : g.orElse h = h := by
  unfold Gen.orElse
  rw [h1, h2]

theorem cartesianGen_all {α : Type} {gs : List (Gen α)} (he : (cartesianGen gs).err = none) {t : List α}
    (ht : List.Forall₂ (fun a (g : Gen α) => a ∈ g.items) t gs) : t ∈ (cartesianGen gs).items := by
  induction ht with
  | nil => simp [cartesianGen, Gen.one]
  | @cons a g t gs ha _ ih =>
    unfold cartesianGen at he ⊢
    obtain ⟨_, h2⟩ := Gen.bind_all he
    obtain ⟨h3, h4⟩ := h2 a ha
    refine h4 _ ?_
    simp only [Gen.map] at h3 ⊢
    exact List.mem_map_of_mem (ih h3)

theorem lazyProduct_all {α : Type} {gs : List (Gen α)} (he : (lazyProduct gs).err = none) {t : List α}
    (ht : List.Forall₂ (fun a (g : Gen α) => a ∈ g.items) t gs) : t ∈ (lazyProduct gs).items := by
  have hne : ∀ g ∈ gs, g.items ≠ [] := by
    intro g hg h0
    obtain ⟨a, _, h⟩ := forall₂_mem_left ht.flip hg
    rw [h0] at h
    cases h
  rw [lazyProduct_eq gs 1 (by simpa using hne)] at he ⊢
  simp only [List.replicate_one, List.flatten_cons, List.flatten_nil, List.append_nil] at he ⊢
  exact cartesianGen_all he ht

/-! ### Counts -/

theorem makeCombinations_all {d : CountData} {potential : List (Node × Gen Node)} {results others : List Node}
    {size : Nat} (he : (makeCombinations d potential results others size).err = none)
    {sel : List (Node × Gen Node)} (hsel : sel.Sublist potential) (hlen : sel.length = size) {sols : List Node}
    (hsols : List.Forall₂ (fun a (p : Node × Gen Node) => a ∈ p.2.items) sols sel) :
    ∃ l, sortByPath Node.path (sols ++ others.filter (fun n => !(sel.map (·.1.path)).contains n.path) ++ results) = .ok l ∧
      Node.count .solution { d with overridden := false } l ∈ (makeCombinations d potential results others size).items := by
  unfold makeCombinations at he ⊢
  obtain ⟨h1, h2⟩ := Gen.forList_all he sel (mem_combos.2 ⟨hsel, hlen⟩)
  obtain ⟨h3, h4⟩ := Gen.bind_all h1
  obtain ⟨h5, h6⟩ := h4 sols (lazyProduct_all h3 (List.forall₂_map_right_iff.2 hsols))
  have h7 := fun s hs => h2 _ (h6 s hs)
  revert h5 h7
  unfold countSolution
  split
  · intro h5; simp [Gen.raise] at h5
  · rename_i l hl
    intro _ h7
    exact ⟨l, hl, h7 _ (by simp [Gen.one])⟩

theorem makeCombinations_none {d : CountData} {potential : List (Node × Gen Node)} {results others : List Node}
    {size : Nat} (h : potential.length < size) : makeCombinations d potential results others size = .nil := by
  unfold makeCombinations
  have : combos size potential = [] := by
    rw [List.eq_nil_iff_forall_not_mem]
    intro c hc
    obtain ⟨h1, h2⟩ := mem_combos.1 hc
    have := h1.length_le
    omega
  rw [this]
  rfl

theorem Gen.forList_nil {α β : Type} {l : List α} {f : α → Gen β} (h : ∀ a ∈ l, f a = .nil) : Gen.forList l f = .nil := by
  induction l with
  | nil => rfl
  | cons a l ih =>
    unfold Gen.forList
    rw [h a List.mem_cons_self, ih (fun b hb => h b (List.mem_cons_of_mem _ hb))]
    rfl

/-- `sel` is a selection of children that the search tries: as many as asked for or more, or all there are if these are too
few. -/
theorem countSolutions_all {d : CountData} {nItems : Nat} {potential : List (Node × Gen Node)} {results others : List Node}
    (he : (countSolutions d nItems potential results others).err = none)
    {sel : List (Node × Gen Node)} (hsel : sel.Sublist potential) {sols : List Node}
    (hsols : List.Forall₂ (fun a (p : Node × Gen Node) => a ∈ p.2.items) sols sel)
    (hlen : (d.count ≤ sel.length ∧ sel.length ≤ nItems ∧ (d.atMost = true → sel.length = d.count)) ∨
      (sel = potential ∧ sel.length < d.count)) :
    ∃ l, sortByPath Node.path (sols ++ others.filter (fun n => !(sel.map (·.1.path)).contains n.path) ++ results) = .ok l ∧
      Node.count .solution { d with overridden := false } l ∈ (countSolutions d nItems potential results others).items := by
  unfold countSolutions at he ⊢
  have h1 := Gen.orElse_left_clean he
  have h2 := Gen.orElse_left_clean h1
  rcases hlen with ⟨h3, h4, h5⟩ | ⟨rfl, h3⟩
  · have hm : sel.length ∈ countSizes d nItems := by
      unfold countSizes
      simp only [List.mem_map, List.mem_range]
      refine ⟨sel.length - d.count, ?_, by omega⟩
      split
      · rename_i ham
        have := h5 ham
        omega
      · omega
    obtain ⟨h6, h7⟩ := Gen.forList_all h2 _ hm
    obtain ⟨l, h8, h9⟩ := makeCombinations_all h6 hsel rfl hsols
    exact ⟨l, h8, Gen.mem_orElse_left (Gen.mem_orElse_left (h7 _ h9))⟩
  · have hnil : Gen.forList (countSizes d nItems) (makeCombinations d sel results others) = .nil := by
      refine Gen.forList_nil (fun size hsize => makeCombinations_none ?_)
      unfold countSizes at hsize
      simp only [List.mem_map] at hsize
      obtain ⟨k, _, rfl⟩ := hsize
      omega
    have hor : ∀ h : Gen Node, Gen.nil.orElse h = h := fun h => Gen.orElse_right rfl rfl
    rw [hnil, hor] at he h1 ⊢
    cases sel with
    | nil =>
      cases hsols
      simp only [List.isEmpty_nil, if_true] at he ⊢
      rw [hor] at he ⊢
      revert he
      unfold countSolution
      split
      · intro he; simp [Gen.raise] at he
      · rename_i l hl
        intro _
        refine ⟨l, by simpa using hl, by simp [Gen.one]⟩
    | cons p sel =>
      simp only [List.isEmpty_cons, Bool.false_eq_true, if_false] at h1 ⊢
      obtain ⟨l, h8, h9⟩ := makeCombinations_all h1 (List.Sublist.refl _) rfl hsols
      exact ⟨l, h8, Gen.mem_orElse_left h9⟩

/-- A choice for a count rule: some of its children, each with a solution of its own. -/
structure Choice (x : Ctx) (o : Orders) (items : List Node) (chosen : List (Node × Node)) : Prop where
  children : (chosen.map Prod.fst).Sublist items
  potential : ∀ p ∈ chosen, p.1.hasPotential x = .ok true
  solutions : ∀ p ∈ chosen, p.2 ∈ (p.1.solutions x o).items

/-- The choice has a size that the rule allows: at least as many children as it asks for (and no more, if it says
'at most'), or all those that could be fulfilled if they are too few. -/
def RightSize (x : Ctx) (d : CountData) (items : List Node) (chosen : List (Node × Node)) : Prop :=
  (d.count ≤ chosen.length ∧ (d.atMost = true → chosen.length = d.count)) ∨
  (chosen.length < d.count ∧ ∀ i ∈ items, i.hasPotential x = .ok true → i ∈ chosen.map Prod.fst)

theorem filterE_ok {α : Type} {f : α → Except Err Bool} {l m : List α} (h : filterE f l = .ok m) :
    m = l.filter (fun a => match f a with | .ok b => b | .error _ => false) := by
  induction l generalizing m with
  | nil => cases h; rfl
  | cons a l ih =>
    unfold filterE at h
    split at h
    · cases h
    rename_i b hb
    split at h
    · cases h
    rename_i rest hrest
    rw [List.filter_cons, hb, ← ih hrest]
    exact (Except.ok.inj h).symm

/-- picking the chosen solution of every selected child -/
theorem choose_solutions {x : Ctx} {o : Orders} {chosen : List (Node × Node)}
    (hnd : (chosen.map (fun p => p.1.path)).Nodup) (hsol : ∀ p ∈ chosen, p.2 ∈ (p.1.solutions x o).items)
    {sel : List (Node × Gen Node)} (hsel : ∀ q ∈ sel, q.2 = q.1.solutions x o)
    (hperm : (sel.map Prod.fst).Perm (chosen.map Prod.fst)) :
    ∃ sols, List.Forall₂ (fun a (p : Node × Gen Node) => a ∈ p.2.items) sols sel ∧ sols.Perm (chosen.map Prod.snd) := by
  classical
  induction sel generalizing chosen with
  | nil =>
    have := hperm.length_eq
    simp only [List.length_map, List.length_nil] at this
    have : chosen = [] := List.length_eq_zero_iff.1 this.symm
    subst this
    exact ⟨[], .nil, by simp⟩
  | cons q sel ih =>
    have hq : q.1 ∈ chosen.map Prod.fst := hperm.mem_iff.1 (by simp)
    obtain ⟨p, hp, hpq⟩ := List.mem_map.1 hq
    obtain ⟨l1, l2, rfl⟩ := List.append_of_mem hp
    have hp1 : (sel.map Prod.fst).Perm ((l1 ++ l2).map Prod.fst) := by
      have h : (q.1 :: sel.map Prod.fst).Perm (q.1 :: (l1 ++ l2).map Prod.fst) := by
        refine hperm.trans ?_
        rw [← hpq]
        simp only [List.map_append, List.map_cons]
        exact List.perm_middle
      exact h.cons_inv
    obtain ⟨sols, h1, h2⟩ := ih (chosen := l1 ++ l2)
      (hnd.sublist (List.Sublist.map _ (List.Sublist.append_left (List.sublist_cons_self _ _) _)))
      (fun r hr => hsol r (by
        rcases List.mem_append.1 hr with hr | hr
        · exact List.mem_append_left _ hr
        · exact List.mem_append_right _ (List.mem_cons_of_mem _ hr)))
      (fun r hr => hsel r (List.mem_cons_of_mem _ hr)) hp1
    refine ⟨p.2 :: sols, .cons ?_ h1, ?_⟩
    · rw [hsel q List.mem_cons_self, ← hpq]
      exact hsol p hp
    · simp only [List.map_append, List.map_cons]
      refine (List.Perm.cons _ h2).trans ?_
      rw [List.map_append]
      exact List.perm_middle.symm

/-- the children with potential, sorted, with their solutions: a selection of them by path -/
theorem selection_perm {x : Ctx} {o : Orders} {items : List Node} (hd : (items.map Node.path).Nodup)
    {pot sorted : List (Node × Gen Node)}
    (hpot : filterE (fun p => p.1.hasPotential x) (items.zip (Node.solutionsList x o items)) = .ok pot)
    (hsorted : sortByPath (fun p : Node × Gen Node => p.1.path) pot = .ok sorted) {ch : List Node} (hch : ch.Sublist items)
    (hp : ∀ i ∈ ch, i.hasPotential x = .ok true) :
    ((sorted.filter (fun q => (ch.map Node.path).contains q.1.path)).map Prod.fst).Perm ch ∧
    (∀ i, i ∈ sorted.map Prod.fst ↔ i ∈ items ∧ i.hasPotential x = .ok true) ∧
    (∀ q ∈ sorted, q.2 = q.1.solutions x o) := by
  classical
  have hperm := sortByPath_perm hsorted
  have hzip : (items.zip (Node.solutionsList x o items)).map Prod.fst = items := by
    clear * -
    induction items with
    | nil => rfl
    | cons a l ih => simp [Node.solutionsList, ih]
  have hsub := (mem_filterE hpot).1
  have hpotItems : (pot.map Prod.fst).Sublist items := by
    have := hsub.map Prod.fst
    rwa [hzip] at this
  have hpotNd : ((pot.map Prod.fst).map Node.path).Nodup := hd.sublist (hpotItems.map _)
  have hmemPot : ∀ i, i ∈ pot.map Prod.fst ↔ i ∈ items ∧ i.hasPotential x = .ok true := by
    intro i
    constructor
    · intro hi
      obtain ⟨q, hq, rfl⟩ := List.mem_map.1 hi
      have h1 := ((mem_filterE hpot).2 q).1 hq
      exact ⟨(mem_solutionsList h1.1).1, h1.2⟩
    · rintro ⟨h1, h2⟩
      rw [← hzip] at h1
      obtain ⟨q, hq, rfl⟩ := List.mem_map.1 h1
      exact List.mem_map_of_mem (((mem_filterE hpot).2 q).2 ⟨hq, h2⟩)
  have hinj : ∀ a ∈ items, ∀ b ∈ items, a.path = b.path → a = b :=
    fun a ha b hb h => List.inj_on_of_nodup_map hd ha hb h
  refine ⟨?_, fun i => by rw [(hperm.map Prod.fst).mem_iff, hmemPot], fun q hq =>
    (mem_solutionsList (hsub.subset (hperm.mem_iff.1 hq))).2⟩
  refine ((hperm.filter _).map Prod.fst).trans ?_
  have hn1 : ((pot.filter (fun q => (ch.map Node.path).contains q.1.path)).map Prod.fst).Nodup :=
    (hpotNd.of_map).sublist ((List.filter_sublist).map _)
  have hn2 : ch.Nodup := (hd.sublist (hch.map Node.path)).of_map
  refine (List.perm_ext_iff_of_nodup hn1 hn2).2 (fun i => ?_)
  constructor
  · intro hi
    obtain ⟨q, hq, rfl⟩ := List.mem_map.1 hi
    obtain ⟨h1, h2⟩ := List.mem_filter.1 hq
    simp only [List.contains_eq_mem, decide_eq_true_eq] at h2
    obtain ⟨p, hp, hpe⟩ := List.mem_map.1 h2
    have := hinj p (hch.subset hp) q.1 (hpotItems.subset (List.mem_map_of_mem h1)) hpe
    rwa [← this]
  · intro hi
    obtain ⟨q, hq, hqe⟩ := List.mem_map.1 ((hmemPot i).2 ⟨hch.subset hi, hp i hi⟩)
    rw [← hqe]
    refine List.mem_map_of_mem (List.mem_filter.2 ⟨hq, ?_⟩)
    simp only [List.contains_eq_mem, decide_eq_true_eq]
    rw [hqe]
    exact List.mem_map_of_mem hi

/-- **C54.** If the search of a count rule that is not waived ends without an exception, it tries everything: for every
choice of children that could be fulfilled, of a size the rule allows, and every choice of a solution for each of them,
there is a solution of the count rule that has the chosen solutions for the chosen children and leaves all others as they
are. -/
theorem C54_every_choice_is_tried (x : Ctx) (o : Orders) (es : List Exc)
    (hx : x.exceptions = groupExceptions es) (st : Stage) (d : CountData) (items : List Node)
    (hw : ∀ e ∈ es, e.path = d.path → e.kind ≠ .override)
    (hd : (items.map Node.path).Nodup)
    (hclean : ((Node.count st d items).solutions x o).err = none)
    (chosen : List (Node × Node)) (hchoice : Choice x o items chosen) (hsize : RightSize x d items chosen) :
    ∃ l, Node.count .solution { d with overridden := false } l ∈ ((Node.count st d items).solutions x o).items ∧
      l.Perm (chosen.map Prod.snd ++ items.filter (fun i => !(chosen.map (fun p => p.1.path)).contains i.path)) := by
  classical
  have hw' : (getWaiveException x.exceptions d.path).isSome = false := by
    by_contra h
    obtain ⟨e, he, hp, hk⟩ := (getWaive_isSome es d.path).1 (by rw [← hx]; exact Bool.not_eq_false _ |>.mp h)
    exact hw e he hp hk
  simp only [Node.solutions, plainCountSolutions, hw', Bool.false_eq_true, if_false] at hclean ⊢
  split at hclean
  · simp [Gen.raise] at hclean
  rename_i pot hpot
  split at hclean
  · simp [Gen.raise] at hclean
  rename_i sorted hsorted
  let inSel : Node × Gen Node → Bool := fun q => (chosen.map (fun p => p.1.path)).contains q.1.path
  obtain ⟨hselPerm, hmem, hgen⟩ := selection_perm hd hpot hsorted hchoice.children (fun i hi => by
    obtain ⟨p, hp, rfl⟩ := List.mem_map.1 hi
    exact hchoice.potential p hp)
  have hchNd : (chosen.map (fun p => p.1.path)).Nodup := by
    have := hd.sublist (hchoice.children.map Node.path)
    rwa [List.map_map] at this
  have hin : sorted.filter (fun q => ((chosen.map Prod.fst).map Node.path).contains q.1.path) = sorted.filter inSel := by
    simp only [List.map_map, inSel]
    rfl
  rw [hin] at hselPerm
  obtain ⟨sols, hs1, hs2⟩ := choose_solutions (sel := sorted.filter inSel) hchNd hchoice.solutions
    (fun q hq => hgen q (List.mem_of_mem_filter hq)) hselPerm
  have hlenEq : (sorted.filter inSel).length = chosen.length := by
    have := hselPerm.length_eq
    simpa using this
  obtain ⟨l, h1, h2⟩ := countSolutions_all hclean (List.filter_sublist) hs1 (by
    rcases hsize with ⟨h1, h2⟩ | ⟨h1, h2⟩
    · left
      refine ⟨by omega, ?_, fun h => by rw [hlenEq]; exact h2 h⟩
      rw [hlenEq]
      have := hchoice.children.length_le
      simpa using this
    · right
      refine ⟨?_, by omega⟩
      rw [List.filter_eq_self]
      intro q hq
      have hq' := (hmem q.1).1 (List.mem_map_of_mem hq)
      obtain ⟨p, hp, hpe⟩ := List.mem_map.1 (h2 q.1 hq'.1 hq'.2)
      simp only [inSel, List.contains_eq_mem, decide_eq_true_eq]
      exact List.mem_map.2 ⟨p, hp, by rw [hpe]⟩)
  refine ⟨l, h2, (sortByPath_perm h1).trans ?_⟩
  rw [List.append_nil]
  refine hs2.append ?_
  have : ∀ i : Node, ((sorted.filter inSel).map (·.1.path)).contains i.path =
      (chosen.map (fun p => p.1.path)).contains i.path := by
    intro i
    have := hselPerm.map Node.path
    rw [List.map_map, List.map_map] at this
    simp only [List.contains_eq_mem]
    exact decide_eq_decide.2 this.mem_iff
  simp only [this]
  exact List.Perm.refl _

/-! ### The children of a count whose search ends normally -/

theorem cartesianGen_clean {α : Type} {gs : List (Gen α)} (hne : ∀ g ∈ gs, g.items ≠ [])
    (he : (cartesianGen gs).err = none) : ∀ g ∈ gs, g.err = none := by
  induction gs with
  | nil => simp
  | cons g gs ih =>
    unfold cartesianGen at he
    obtain ⟨h1, h2⟩ := Gen.bind_all he
    obtain ⟨a, ha⟩ := List.exists_mem_of_ne_nil _ (hne g List.mem_cons_self)
    have h3 := ih (fun g' hg' => hne g' (List.mem_cons_of_mem _ hg')) (by
      have := (h2 a ha).1
      simpa only [Gen.map] using this)
    intro g' hg'
    rcases List.mem_cons.1 hg' with rfl | hg'
    · exact h1
    · exact h3 g' hg'

theorem lazyProduct_clean {α : Type} {gs : List (Gen α)} (he : (lazyProduct gs).err = none) :
    ∀ g ∈ gs, g.items ≠ [] ∧ g.err = none := by
  have hne : ∀ g ∈ gs, g.items ≠ [] := by
    by_contra h
    push Not at h
    obtain ⟨g, hg, h0⟩ := h
    classical
    -- the first of them without items
    obtain ⟨pre, b, post, rfl, hpre, hb⟩ : ∃ pre b post, gs = pre ++ b :: post ∧ (∀ g' ∈ pre, g'.items ≠ []) ∧ b.items = [] := by
      clear he
      induction gs with
      | nil => cases hg
      | cons c gs ih =>
        by_cases hc : c.items = []
        · exact ⟨[], c, gs, rfl, by simp, hc⟩
        · rcases List.mem_cons.1 hg with rfl | hg
          · exact absurd h0 hc
          · obtain ⟨pre, b, post, rfl, h1, h2⟩ := ih hg
            refine ⟨c :: pre, b, post, rfl, ?_, h2⟩
            intro g' hg'
            rcases List.mem_cons.1 hg' with rfl | hg'
            · exact hc
            · exact h1 g' hg'
    rw [C13_empty_raises pre post b hpre hb] at he
    cases he
  intro g hg
  refine ⟨hne g hg, ?_⟩
  rw [lazyProduct_eq gs 1 (by simpa using hne)] at he
  simp only [List.replicate_one, List.flatten_cons, List.flatten_nil, List.append_nil] at he
  exact cartesianGen_clean hne he g hg

/-- If the search of a count ends without an exception, so do those of the children in a selection that it tries. -/
theorem count_children_clean {x : Ctx} {o : Orders} {st : Stage} {d : CountData} {items : List Node}
    (hw : (getWaiveException x.exceptions d.path).isSome = false) (hd : (items.map Node.path).Nodup)
    (hclean : ((Node.count st d items).solutions x o).err = none) {ch : List Node} (hch : ch.Sublist items)
    (hp : ∀ i ∈ ch, i.hasPotential x = .ok true) (hn : d.count ≤ ch.length) (ham : d.atMost = true → ch.length = d.count) :
    ∀ i ∈ ch, (i.solutions x o).err = none := by
  simp only [Node.solutions, plainCountSolutions, hw, Bool.false_eq_true, if_false] at hclean
  split at hclean
  · simp [Gen.raise] at hclean
  rename_i pot hpot
  split at hclean
  · simp [Gen.raise] at hclean
  rename_i sorted hsorted
  obtain ⟨hselPerm, _, hgen⟩ := selection_perm hd hpot hsorted hch hp
  unfold countSolutions at hclean
  have h2 := Gen.orElse_left_clean (Gen.orElse_left_clean hclean)
  have hlen : (sorted.filter (fun q => (ch.map Node.path).contains q.1.path)).length = ch.length := by
    have := hselPerm.length_eq
    simpa using this
  have hm : ch.length ∈ countSizes d items.length := by
    unfold countSizes
    simp only [List.mem_map, List.mem_range]
    have := hch.length_le
    refine ⟨ch.length - d.count, ?_, by omega⟩
    split
    · rename_i h
      have := ham h
      omega
    · omega
  obtain ⟨h6, _⟩ := Gen.forList_all h2 _ hm
  unfold makeCombinations at h6
  obtain ⟨h7, _⟩ := Gen.forList_all h6 _ (mem_combos.2 ⟨List.filter_sublist, hlen⟩)
  have h8 := lazyProduct_clean (Gen.bind_all h7).1
  intro i hi
  obtain ⟨q, hq, rfl⟩ := List.mem_map.1 (hselPerm.mem_iff.2 hi)
  rw [← hgen q (List.mem_of_mem_filter hq)]
  exact (h8 _ (List.mem_map_of_mem hq)).2

/-- a child of a count whose search ends without an exception has, or has not, potential -/
theorem count_potential_ok {x : Ctx} {o : Orders} {st : Stage} {d : CountData} {items : List Node}
    (hw : (getWaiveException x.exceptions d.path).isSome = false)
    (hclean : ((Node.count st d items).solutions x o).err = none) : ∀ i ∈ items, ∃ b, i.hasPotential x = .ok b := by
  simp only [Node.solutions, plainCountSolutions, hw, Bool.false_eq_true, if_false] at hclean
  split at hclean
  · simp [Gen.raise] at hclean
  rename_i pot hpot
  have hzip : (items.zip (Node.solutionsList x o items)).map Prod.fst = items := by
    clear * -
    induction items with
    | nil => rfl
    | cons a l ih => simp [Node.solutionsList, ih]
  intro i hi
  rw [← hzip] at hi
  obtain ⟨q, hq, rfl⟩ := List.mem_map.1 hi
  clear * - hpot hq
  generalize items.zip (Node.solutionsList x o items) = l at hpot hq
  induction l generalizing pot with
  | nil => cases hq
  | cons a l ih =>
    unfold filterE at hpot
    split at hpot
    · cases hpot
    rename_i b hb
    split at hpot
    · cases hpot
    rename_i rest hrest
    rcases List.mem_cons.1 hq with rfl | hq
    · exact ⟨b, hb⟩
    · exact ih _ hrest hq

/-! ### An example: two of three courses, one of which was not taken and one of which was taken twice -/

/-- a course rule inside a count -/
def triedCourse (i : String) (name : String) : CourseData :=
  { path := ["$", ".count", i, "*" ++ name], course := some name }
/-- the courses taken -/
def triedCtx : Ctx :=
  { transcript := [{ clbid := "1", identity := "A 1" }, { clbid := "2", identity := "B 1" }, { clbid := "3", identity := "B 1" }] }
/-- the children of the count -/
def triedItems : List Node :=
  [.course .rule (triedCourse "[0]" "A 1"), .course .rule (triedCourse "[1]" "C 1"),
    .course .rule (triedCourse "[2]" "B 1")]
/-- the solution with the course of the given identifier -/
def triedSol (i name k : String) : Node :=
  .course .solution (courseSolution (triedCourse i name) (some { clbid := k, identity := name }))
/-- two of the children -/
def triedRule : CountData := { path := ["$", ".count"], count := 2 }
/-- the first and the last child, the latter with the second of the two courses it could have -/
def triedChoice : List (Node × Node) :=
  [(.course .rule (triedCourse "[0]" "A 1"), triedSol "[0]" "A 1" "1"),
    (.course .rule (triedCourse "[2]" "B 1"), triedSol "[2]" "B 1" "3")]

/-- Non-trivial case for C54: the hypotheses hold of this choice. -/
example : ((Node.count .rule triedRule triedItems).solutions triedCtx .insertion).err = none ∧
    Choice triedCtx .insertion triedItems triedChoice ∧ RightSize triedCtx triedRule triedItems triedChoice ∧
    (triedItems.map Node.path).Nodup := by
  refine ⟨by decide +kernel, ⟨?_, ?_, ?_⟩, Or.inl ⟨by decide, by intro h; cases h⟩, by decide +kernel⟩
  · exact .cons_cons _ (.cons _ (.cons_cons _ .slnil))
  · intro p hp
    simp only [triedChoice, List.mem_cons, List.not_mem_nil, or_false] at hp
    rcases hp with rfl | rfl <;> decide +kernel
  · intro p hp
    simp only [triedChoice, List.mem_cons, List.not_mem_nil, or_false] at hp
    have hw : ∀ i name, (getWaiveException triedCtx.exceptions (triedCourse i name).path).isSome = false := fun _ _ => rfl
    have hin : ∀ i name, getInsertExceptions triedCtx.exceptions (triedCourse i name).path = [] := fun _ _ => rfl
    have h0 : (triedCtx.findCourses (triedCourse "[0]" "A 1")).filter (courseAcceptable (triedCourse "[0]" "A 1")) =
        [{ clbid := "1", identity := "A 1" }] := by decide +kernel
    have h2 : (triedCtx.findCourses (triedCourse "[2]" "B 1")).filter (courseAcceptable (triedCourse "[2]" "B 1")) =
        [{ clbid := "2", identity := "B 1" }, { clbid := "3", identity := "B 1" }] := by decide +kernel
    have ha : ∀ i name, (triedCourse i name).autoWaived = false := fun _ _ => rfl
    rcases hp with rfl | rfl
    · simp [Node.solutions, courseSolutions, courseInsertSolutions, Gen.map, Gen.append, Gen.nil, Gen.ofList, Gen.orElse,
        hw, hin, ha, h0, triedSol]
    · simp [Node.solutions, courseSolutions, courseInsertSolutions, Gen.map, Gen.append, Gen.nil, Gen.ofList, Gen.orElse,
        hw, hin, ha, h2, triedSol]

end Dp
