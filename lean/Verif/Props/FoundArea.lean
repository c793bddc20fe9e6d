import Verif.Props.Found
import Verif.Props.LoadRun
import Mathlib.Data.List.Flatten

/-
If a student can complete an area that asks for all of its items, the audit reports it as complete (C59).
-/
namespace Dp

/-! ### Claim tables -/

theorem ClaimTable.has_set {t : ClaimTable} {k k' : String} {v : List Claim} (h : ClaimTable.has (t.set k v) k' = true) :
    k = k' ∨ t.has k' = true := by
  induction t with
  | nil => left; simpa [ClaimTable.set, ClaimTable.has] using h
  | cons e t ih =>
    obtain ⟨k0, v0⟩ := e
    unfold ClaimTable.set at h
    split at h
    · right; simpa [ClaimTable.has] using h
    · simp only [ClaimTable.has, List.any_cons, Bool.or_eq_true] at h ⊢
      rcases h with h | h
      · exact .inr (.inl h)
      · rcases ih (by simpa [ClaimTable.has] using h) with h | h
        · exact .inl h
        · exact .inr (.inr (by simpa [ClaimTable.has] using h))

theorem mergeTables_has {a b : ClaimTable} {k : String} (h : ClaimTable.has (mergeTables a b) k = true) :
    a.has k = true ∨ b.has k = true := by
  unfold mergeTables at h
  induction b generalizing a with
  | nil => exact .inl h
  | cons e b ih =>
    simp only [List.foldl_cons] at h
    rcases ih h with h | h
    · rcases ClaimTable.has_set h with h | h
      · right; simp [ClaimTable.has, h]
      · exact .inl h
    · right
      simp only [ClaimTable.has, List.any_cons, Bool.or_eq_true]
      exact .inr (by simpa [ClaimTable.has] using h)

/-! ### The courses of a way to fulfil a rule -/

theorem Node.mem_liveLeavesList {l : Node} {ns : List Node} : l ∈ Node.liveLeavesList ns ↔ ∃ n ∈ ns, l ∈ n.liveLeaves := by
  induction ns with
  | nil => simp [Node.liveLeavesList]
  | cons n ns ih => simp [Node.liveLeavesList, ih]

/-- Each course of a way to fulfil a rule can be used by a rule in use in it. -/
theorem Fulfils.canUse {final : Bool} {x : Ctx} (hf : x.ForcedOk) {es : List Exc} {n : Node} {cs : List Course}
    (h : Fulfils final x es n cs) : ∀ c ∈ cs, ∃ leaf ∈ n.liveLeaves, CanUse x es leaf c := by
  induction h with
  | waived => simp
  | @course s d c hc hfc _ =>
    intro c' hc'
    rw [List.mem_singleton] at hc'
    subst hc'
    exact ⟨_, List.mem_singleton_self _, hc.notExcluded, .inl ⟨hfc, hc⟩⟩
  | @inserted s d c hc =>
    intro c' hc'
    rw [List.mem_singleton] at hc'
    subst hc'
    obtain ⟨hex, e, he, hp, k, forced, hk, hfc⟩ := hc
    have := (forcedCourseByClbid_ok hf hfc).1
    exact ⟨_, List.mem_singleton_self _, hex, .inr ⟨e, he, hp, forced, by rw [this]; exact hk⟩⟩
  | @query s d a recs sel cs hs hcl hl has hw hi hi2 hex hsel hsub hcr ham hfin =>
    intro c hc
    refine ⟨_, List.mem_singleton_self _, ?_⟩
    have hin : Item.course c ∈ sel := hsub.subset (List.mem_map_of_mem hc)
    have hrec : Item.course c ∈ recs ∧ ∀ p, d.where' = some p → p.apply (Item.course c).applyLeaf = .ok true := by
      cases hwh : d.where' with
      | none =>
        rw [hwh] at hsel
        simp only [SelectsItems] at hsel
        rw [hsel] at hin
        exact ⟨hin, by simp⟩
      | some p =>
        rw [hwh] at hsel
        obtain ⟨f, h1, h2⟩ := hsel
        rw [h2] at hin
        obtain ⟨h3, h4⟩ := List.mem_filter.1 hin
        refine ⟨h3, fun p' hp' => ?_⟩
        cases hp'
        rw [h1 _ h3, h4]
    rw [examines_data hs hex] at hrec
    unfold queryData at hrec
    rw [hs] at hrec
    obtain ⟨c', hc', he⟩ := List.mem_map.1 hrec.1
    cases he
    obtain ⟨h1, h2⟩ := List.mem_filter.1 hc'
    exact ⟨by simpa using h2, hs, .inl ⟨h1, hrec.2⟩⟩
  | @queries s d as recs sel kept cs hs hcl has hi hi2 hex hsel hk hcr hne hsub hlarge hmet hfin =>
    intro c hc
    refine ⟨_, List.mem_singleton_self _, ?_⟩
    have hin : Item.course c ∈ sel.map Item.course := List.mem_map_of_mem (hsub c hc).1
    have hrec : Item.course c ∈ recs ∧ ∀ p, d.where' = some p → p.apply (Item.course c).applyLeaf = .ok true := by
      cases hwh : d.where' with
      | none =>
        rw [hwh] at hsel
        simp only [SelectsItems] at hsel
        rw [hsel] at hin
        exact ⟨hin, by simp⟩
      | some p =>
        rw [hwh] at hsel
        obtain ⟨f, h1, h2⟩ := hsel
        rw [h2] at hin
        obtain ⟨h3, h4⟩ := List.mem_filter.1 hin
        refine ⟨h3, fun p' hp' => ?_⟩
        cases hp'
        rw [h1 _ h3, h4]
    rw [examines_data hs hex] at hrec
    unfold queryData at hrec
    rw [hs] at hrec
    obtain ⟨c', hc', he⟩ := List.mem_map.1 hrec.1
    cases he
    obtain ⟨h1, h2⟩ := List.mem_filter.1 hc'
    exact ⟨by simpa using h2, hs, .inl ⟨h1, hrec.2⟩⟩
  | @count s d items chosen _ _ hsub _ _ _ ih =>
    intro c hc
    obtain ⟨p, hp, hc⟩ := List.mem_flatMap.1 hc
    obtain ⟨leaf, h1, h2⟩ := ih p hp c hc
    exact ⟨leaf, Node.mem_liveLeavesList.2 ⟨p.1, hsub.subset (List.mem_map_of_mem hp), h1⟩, h2⟩
  | req _ _ ih => simpa [Node.liveLeaves, Node.liveLeavesOpt] using ih
  | condTrue hc _ ih => simpa only [Node.liveLeaves, hc] using ih
  | condFalse hc _ ih => simpa only [Node.liveLeaves, hc, Node.liveLeavesOpt] using ih
  | prof => simp

/-! ### Children that are solved by themselves -/

theorem bestLoop_tail {x : Ctx} {o : Orders} {e : Err} {ss : List Node} {best : Option (Node × Rat)}
    {inner : Option ClaimTable} {res : Option (Node × Rat) × Option ClaimTable}
    (h : bestLoop x o (some e) ss best inner = .ok res) :
    ∃ s ∈ ss, ∃ r t, s.audit x o [] = .ok (r, t) ∧ Complete r.status := by
  induction ss generalizing best inner with
  | nil => simp [bestLoop] at h
  | cons s ss ih =>
    unfold bestLoop at h
    split at h
    · cases h
    rename_i r t hr
    split at h
    · cases h
    rename_i rank m hrank
    dsimp only at h
    by_cases hc : r.status.inWaivedAndDone = true
    · exact ⟨s, List.mem_cons_self, r, t, hr, (wd_iff _).1 hc⟩
    · rw [if_neg hc] at h
      obtain ⟨s', hs', h1⟩ := ih h
      exact ⟨s', List.mem_cons_of_mem _ hs', h1⟩

/-- the best solution of a rule that can be completed -/
theorem findBest_fulfils {x : Ctx} {o : Orders} (ho : o.Lawful) {es : List Exc} (hes : x.exceptions = groupExceptions es)
    (hx : (x.transcript.map (·.clbid)).Nodup) {n : Node} (hr : n.Ready es) (hl : n.Loaded x) {cs : List Course}
    (h : Fulfils true x es n cs) (hnd : (cs.map (·.clbid)).Nodup) (hdate : ∀ c ∈ cs, c.Dated)
    {t t' : ClaimTable} {m : Bool} {best : Option Node} (hbest : findBest x o n t m = .ok (best, t')) :
    ∃ s ∈ (n.solutions x o).items, ∃ r t1, s.audit x o [] = .ok (r, t1) ∧ Complete r.status ∧ best = some r ∧
      (m = true → t' = mergeTables t t1) := by
  refine findBest_complete ?_ hbest
  cases he : (n.solutions x o).err with
  | none => exact C59_rule_found_partial true x o ho es hes hx n hr hl cs h hnd hdate he
  | some e =>
    unfold findBest at hbest
    dsimp only at hbest
    split at hbest
    · cases hbest
    rename_i b i hb
    rw [he] at hb
    exact bestLoop_tail hb

/-- the children that are solved by themselves, if each can be completed -/
theorem solveIndependent_fulfils {x : Ctx} {o : Orders} {ns : List Node} {t t' : ClaimTable}
    {solved : List (Node × Option Node)}
    (hall : ∀ n ∈ ns, ∀ t t' best, findBest x o n t true = .ok (best, t') →
      ∃ s ∈ (n.solutions x o).items, ∃ r t1, s.audit x o [] = .ok (r, t1) ∧ Complete r.status ∧ best = some r ∧
        t' = mergeTables t t1)
    (h : solveIndependent x o ns t = .ok (solved, t')) :
    solved.map (·.1) = ns ∧
    (∀ p ∈ solved, ∃ s ∈ (p.1.solutions x o).items, ∃ r t1, s.audit x o [] = .ok (r, t1) ∧ Complete r.status ∧ p.2 = some r) ∧
    ∀ k, ClaimTable.has t' k = true → t.has k = true ∨
      ∃ n ∈ ns, ∃ s ∈ (n.solutions x o).items, ∃ r t1, s.audit x o [] = .ok (r, t1) ∧ ClaimTable.has t1 k = true := by
  induction ns generalizing t solved with
  | nil =>
    simp only [solveIndependent] at h
    obtain ⟨rfl, rfl⟩ := Prod.mk.inj (Except.ok.inj h)
    exact ⟨rfl, by simp, fun k hk => .inl hk⟩
  | cons n ns ih =>
    simp only [solveIndependent] at h
    split at h
    · cases h
    rename_i r t1 h1
    split at h
    · cases h
    rename_i rs t2 h2
    obtain ⟨rfl, rfl⟩ := Prod.mk.inj (Except.ok.inj h)
    obtain ⟨s, hs, r', t3, h3, h4, h5, h6⟩ := hall n List.mem_cons_self _ _ _ h1
    obtain ⟨h7, h8, h9⟩ := ih (fun n hn => hall n (List.mem_cons_of_mem _ hn)) h2
    refine ⟨by simp [h7], ?_, ?_⟩
    · intro p hp
      rcases List.mem_cons.1 hp with rfl | hp
      · exact ⟨s, hs, r', t3, h3, h4, h5⟩
      · exact h8 p hp
    · intro k hk
      rcases h9 k hk with h | ⟨n', hn', h⟩
      · rw [h6] at h
        rcases mergeTables_has h with h | h
        · exact .inl h
        · exact .inr ⟨n, List.mem_cons_self, s, hs, r', t3, h3, h⟩
      · exact .inr ⟨n', List.mem_cons_of_mem _ hn', h⟩

theorem findIndependent_parts {x : Ctx} {items a b : List Node} (h : findIndependent x items = .ok (a, b)) :
    ∃ f : Node → Bool, a = items.filter (fun n => !f n) ∧ b = items.filter f := by
  unfold findIndependent at h
  split at h
  · cases h
  · split at h
    · obtain ⟨rfl, rfl⟩ := Prod.mk.inj (Except.ok.inj h)
      exact ⟨fun _ => false, by simp, by simp⟩
    · dsimp only at h
      obtain ⟨rfl, rfl⟩ := Prod.mk.inj (Except.ok.inj h)
      exact ⟨_, rfl, rfl⟩

/-- the children of a selection that the search tries are searched without an exception -/
theorem countSolutions_clean {d : CountData} {nItems : Nat} {potential : List (Node × Gen Node)} {results others : List Node}
    (he : (countSolutions d nItems potential results others).err = none)
    (hlen : (d.count ≤ potential.length ∧ potential.length ≤ nItems ∧ (d.atMost = true → potential.length = d.count)) ∨
      potential.length < d.count) : ∀ q ∈ potential, q.2.err = none := by
  unfold countSolutions at he
  have h1 := Gen.orElse_left_clean he
  have h2 := Gen.orElse_left_clean h1
  have key : (makeCombinations d potential results others potential.length).err = none →
      ∀ q ∈ potential, q.2.err = none := by
    intro h6 q hq
    unfold makeCombinations at h6
    obtain ⟨h7, _⟩ := Gen.forList_all h6 _ (mem_combos.2 ⟨List.Sublist.refl _, rfl⟩)
    exact ((lazyProduct_clean (Gen.bind_all h7).1) _ (List.mem_map_of_mem hq)).2
  rcases hlen with ⟨h3, h4, h5⟩ | h3
  · have hm : potential.length ∈ countSizes d nItems := by
      unfold countSizes
      simp only [List.mem_map, List.mem_range]
      refine ⟨potential.length - d.count, ?_, by omega⟩
      split
      · rename_i ham
        have := h5 ham
        omega
      · omega
    exact key (Gen.forList_all h2 _ hm).1
  · have hnil : Gen.forList (countSizes d nItems) (makeCombinations d potential results others) = .nil := by
      refine Gen.forList_nil (fun size hsize => makeCombinations_none ?_)
      unfold countSizes at hsize
      simp only [List.mem_map] at hsize
      obtain ⟨k, _, rfl⟩ := hsize
      omega
    have hor : ∀ h : Gen Node, Gen.nil.orElse h = h := fun h => Gen.orElse_right rfl rfl
    rw [hnil, hor] at h1
    cases potential with
    | nil => simp
    | cons p sel =>
      simp only [List.isEmpty_cons, Bool.false_eq_true, if_false] at h1
      exact key h1

/-- a count rule at the top yields a solution or raises an exception -/
theorem topCount_never_silent (x : Ctx) (o : Orders) (d : CountData) (items : List Node) (t : ClaimTable) :
    (topCountSolutions x o d items t).1.items ≠ [] ∨ (topCountSolutions x o d items t).1.err ≠ none := by
  unfold topCountSolutions plainCountSolutions
  repeat' split
  all_goals first
    | exact countSolutions_yields _ _ _ _ _
    | simp [Gen.raise, Gen.one]

/-! ### "All of" at the top -/

theorem filterE_all_ok {α : Type} {f : α → Except Err Bool} {l m : List α} (h : filterE f l = .ok m) :
    ∀ a ∈ l, ∃ b, f a = .ok b := by
  induction l generalizing m with
  | nil => simp
  | cons a l ih =>
    unfold filterE at h
    split at h
    · cases h
    rename_i b hb
    split at h
    · cases h
    rename_i rest hrest
    intro a' ha'
    rcases List.mem_cons.1 ha' with rfl | ha'
    · exact ⟨b, hb⟩
    · exact ih hrest a' ha'

/-- a solution for each of the chosen parts -/
theorem choose_fares {final : Bool} {x : Ctx} {o : Orders} {chosen : List (Node × List Course)}
    (hfind : ∀ p ∈ chosen, Finds final x o p.1 p.2) :
    ∃ sel : List (Node × List Course × Node), sel.map (fun q => (q.1, q.2.1)) = chosen ∧
      ∀ q ∈ sel, q.2.2 ∈ (q.1.solutions x o).items ∧ Fares final x o q.2.2 q.2.1 true := by
  induction chosen with
  | nil => exact ⟨[], rfl, by simp⟩
  | cons p chosen ih =>
    obtain ⟨sel, h1, h2⟩ := ih (fun q hq => hfind q (List.mem_cons_of_mem _ hq))
    obtain ⟨s, hs, hfa⟩ := hfind p List.mem_cons_self
    refine ⟨(p.1, p.2, s) :: sel, by simp [h1], fun q hq => ?_⟩
    rcases List.mem_cons.1 hq with rfl | hq
    · refine ⟨hs, fun t ht => ?_⟩
      obtain ⟨r, t', h3, h4, h5⟩ := hfa t ht
      exact ⟨r, t', h3, fun _ => h4, enough_not_failed h4, fun _ => h4, h5⟩
    · exact h2 q hq

/-- a course of the record that counts only once, in whatever way it is found -/
structure Single (x : Ctx) (es : List Exc) (c : Course) : Prop where
  taken : c ∈ x.transcript
  one : x.OneCourse c
  ordinary : Ordinary x es c.clbid

/-- A solution of a rule at the top that is complete, whether it is audited with the claims of the children that were solved
by themselves or without. -/
def TopFinds (x : Ctx) (o : Orders) (n : Node) : Prop :=
  ∃ s ∈ (n.topSolutions x o []).1.items, ∀ t, t = [] ∨ t = (n.topSolutions x o []).2 →
    ∃ r t', s.audit x o t = .ok (r, t') ∧ Complete r.status

theorem topCount_finds {x : Ctx} (hf : x.ForcedOk) (hx : (x.transcript.map (·.clbid)).Nodup)
    {es : List Exc} (hes : x.exceptions = groupExceptions es) {o : Orders} (ho : o.Lawful)
    {st : Stage} {d : CountData} {items : List Node} (hr : (Node.count st d items).Ready es)
    (hl : (Node.count st d items).Loaded x) (hfl : ∀ l ∈ Node.liveLeavesList items, l.LoadedFlags)
    (hflags : HonestFlags items) (hallof : d.count = items.length) {cs : List Course}
    (h : Fulfils true x es (.count st d items) cs) (hnd : (cs.map (·.clbid)).Nodup) (hdate : ∀ c ∈ cs, c.Dated)
    (hsingle : ∀ c ∈ cs, Single x es c) (hclean : (topCountSolutions x o d items []).1.err = none) :
    TopFinds x o (.count st d items) := by
  unfold TopFinds
  simp only [Node.topSolutions]
  by_cases hw : WaivedAt es d.path
  · have hw' := (waivedAt_iff hes).2 hw
    refine ⟨.count .solution { d with overridden := true } items, by simp [topCountSolutions, hw', Gen.one], fun t _ => ?_⟩
    refine ⟨.count .result { d with overridden := true } items, t, by simp [Node.audit], ?_⟩
    simp [Node.status, countStatus, Complete]
  cases h with
  | waived h => exact absurd h hw
  | count chosen haud hne hsub hn ham hall =>
  have hw' : (getWaiveException x.exceptions d.path).isSome = false := by
    by_contra hc
    exact hw ((waivedAt_iff hes).1 (Bool.not_eq_false _ |>.mp hc))
  have hch : chosen.map Prod.fst = items := hsub.eq_of_length_le (by simp; omega)
  have hd : (items.map Node.path).Nodup := (hr _ (Node.self_within _)).2.2.2
  have hchild : ∀ i ∈ items, i.Ready es ∧ i.Loaded x := by
    intro i hi
    refine ⟨fun m hm => hr m ?_, Node.loadedList_iff.1 hl.2.2 i hi⟩
    simp only [Node.within, List.mem_cons]
    exact .inr (Node.mem_withinList.2 ⟨i, hi, hm⟩)
  have hof : ∀ p ∈ chosen, p.1 ∈ items := by
    intro p hp
    rw [← hch]
    exact List.mem_map_of_mem hp
  have hpnd : ∀ p ∈ chosen, (p.2.map (·.clbid)).Nodup := by
    intro p hp
    rw [List.map_flatMap] at hnd
    exact (List.nodup_flatMap.1 hnd).1 p hp
  have hpdate : ∀ p ∈ chosen, ∀ c ∈ p.2, c.Dated := fun p hp c hc => hdate c (List.mem_flatMap.2 ⟨p, hp, hc⟩)
  -- all items have potential
  unfold topCountSolutions at hclean ⊢
  rw [if_neg (by simp [hw'])] at hclean ⊢
  split at hclean
  · simp [Gen.raise] at hclean
  rename_i pot hpot
  have hpe : pot = items := by
    rw [filterE_ok hpot, List.filter_eq_self]
    intro i hi
    rw [← hch] at hi
    obtain ⟨p, hp, rfl⟩ := List.mem_map.1 hi
    have h1 := Fulfils.potential hes hx (hall p hp)
    obtain ⟨b, hb⟩ := filterE_all_ok hpot p.1 (hof p hp)
    simp only [hb]
    cases b with
    | true => rfl
    | false => exact absurd hb h1
  subst hpe
  have hpne : ¬ (pot = [] ∨ d.audits ≠ []) := by
    rintro (h | h)
    · rw [h] at hch
      exact hne (by simpa using hch)
    · exact h haud
  rw [if_neg hpne] at hclean
  simp only [if_neg hpne]
  split at hclean
  · simp [Gen.raise] at hclean
  rename_i indep codep hind
  split at hclean
  · simp [Gen.raise] at hclean
  rename_i solved t1 hsolved
  split at hclean
  · simp [Gen.raise] at hclean
  rename_i results hresults
  dsimp only at hclean ⊢
  split at hclean
  · simp [Gen.raise] at hclean
  rename_i sorted hsorted
  simp only
  obtain ⟨f, hindep, hcodep⟩ := findIndependent_parts hind
  have hsorder : sorted.Perm codep := sortByPath_perm hsorted
  -- the children solved by themselves
  obtain ⟨hs1, hs2, hs3⟩ := solveIndependent_fulfils (by
    intro n hn t t' best hb
    have hn' : n ∈ pot := by
      have := (ho.2.2 indep).subset hn
      rw [hindep] at this
      exact List.mem_of_mem_filter this
    rw [← hch] at hn'
    obtain ⟨p, hp, rfl⟩ := List.mem_map.1 hn'
    obtain ⟨s, hs, r, t1, h1, h2, h3, h4⟩ := findBest_fulfils ho hes hx (hchild _ (hof p hp)).1 (hchild _ (hof p hp)).2 (hall p hp)
      (hpnd p hp) (hpdate p hp) hb
    exact ⟨s, hs, r, t1, h1, h2, h3, h4 rfl⟩) hsolved
  -- the others
  have hcodepItems : codep.length ≤ pot.length := by rw [hcodep]; exact List.length_filter_le _ _
  have hlen : (d.count ≤ (sorted.map (fun n => (n, n.solutions x o))).length ∧
      (sorted.map (fun n => (n, n.solutions x o))).length ≤ pot.length ∧
      (d.atMost = true → (sorted.map (fun n => (n, n.solutions x o))).length = d.count)) ∨
      (sorted.map (fun n => (n, n.solutions x o))).length < d.count := by
    have := hsorder.length_eq
    simp only [List.length_map]
    omega
  have hcc := countSolutions_clean hclean hlen
  obtain ⟨chosenS, hcs1, hcs2⟩ : ∃ w' : List (Node × List Course), w'.Perm (chosen.filter (fun p => f p.1)) ∧
      w'.map Prod.fst = sorted := by
    refine perm_map_lift ?_
    have : (chosen.filter (fun p => f p.1)).map Prod.fst = codep := by rw [hcodep, ← hch, List.filter_map]; rfl
    rw [this]
    exact hsorder
  have hcsub : ∀ p ∈ chosenS, p ∈ chosen ∧ p.1 ∈ sorted ∧ f p.1 = true := by
    intro p hp
    have := List.mem_filter.1 (hcs1.subset hp)
    exact ⟨this.1, by rw [← hcs2]; exact List.mem_map_of_mem hp, this.2⟩
  obtain ⟨sel, hsel1, hsel2⟩ := choose_fares (final := true) (x := x) (o := o) (chosen := chosenS) (by
    intro p hp
    obtain ⟨h1, h2, _⟩ := hcsub p hp
    exact (hall p h1).finds ho hes hx (hchild _ (hof p h1)).1 (hchild _ (hof p h1)).2
      (hcc _ (List.mem_map_of_mem (f := fun n => (n, n.solutions x o)) h2)) (hpnd p h1) (hpdate p h1))
  have hselFst : sel.map (·.1) = sorted := by
    rw [← hcs2, ← hsel1]; simp
  obtain ⟨l, hl1, hl2⟩ := countSolutions_all hclean (List.Sublist.refl _) (sols := sel.map (fun q => q.2.2)) (by
    rw [← hselFst]
    simp only [List.map_map]
    rw [List.forall₂_map_left_iff, List.forall₂_map_right_iff, List.forall₂_same]
    intro q hq
    exact (hsel2 q hq).1) (hlen.imp_right (fun h => ⟨rfl, h⟩))
  refine ⟨_, hl2, ?_⟩
  -- nothing is left out
  have hrest : (pot.filter (fun n => !((solved.filter (·.2.isSome)).map (·.1.path)).contains n.path)).filter
      (fun n => !((sorted.map (fun n => (n, n.solutions x o))).map (·.1.path)).contains n.path) = [] := by
    rw [List.filter_eq_nil_iff]
    intro n hn hc
    obtain ⟨hn1, hn2⟩ := List.mem_filter.1 hn
    cases hfn : f n with
    | true =>
      have : n ∈ sorted := hsorder.symm.subset (by rw [hcodep]; exact List.mem_filter.2 ⟨hn1, hfn⟩)
      simp only [List.map_map, List.contains_eq_mem, List.mem_map, Function.comp_apply, Bool.not_eq_eq_eq_not, Bool.not_true,
        decide_eq_false_iff_not] at hc
      exact hc ⟨n, this, rfl⟩
    | false =>
      have : n ∈ o.children indep := (ho.2.2 indep).symm.subset (by
        rw [hindep]; exact List.mem_filter.2 ⟨hn1, by simp [hfn]⟩)
      rw [← hs1] at this
      obtain ⟨p, hp, rfl⟩ := List.mem_map.1 this
      obtain ⟨s, _, r, _, _, _, h⟩ := hs2 p hp
      simp only [List.contains_eq_mem, List.mem_map, Bool.not_eq_eq_eq_not, Bool.not_true,
        decide_eq_false_iff_not] at hn2
      exact hn2 ⟨p, List.mem_filter.2 ⟨hp, by simp [h]⟩, rfl⟩
  rw [hrest, List.append_nil] at hl1
  have hresComplete : ∀ r ∈ results, r.stage = .result ∧ Complete r.status := by
    intro r hr'
    have := (sortByPath_perm hresults).subset hr'
    obtain ⟨p, hp, hpr⟩ := List.mem_filterMap.1 this
    obtain ⟨s, hs, r', t2, h1, h2, h3⟩ := hs2 p hp
    rw [h3] at hpr
    cases hpr
    exact ⟨Node.audit_stage (Node.solutions_stage hs) h1, h2⟩
  have hresLen : results.length = indep.length := by
    rw [(sortByPath_perm hresults).length_eq, ← (ho.2.2 indep).length_eq, ← hs1, List.length_map]
    clear * - hs2
    induction solved with
    | nil => rfl
    | cons p l ih =>
      obtain ⟨_, _, r, _, _, _, h⟩ := hs2 p List.mem_cons_self
      rw [List.filterMap_cons, h]
      simp [ih (fun q hq => hs2 q (List.mem_cons_of_mem _ hq))]
  have hw0 : l.Perm ((sel.map (fun q => (q.2.2, q.2.1, true)) ++ results.map (fun i => (i, ([] : List Course), true))).map
      Prod.fst) := by
    simpa [List.map_append, List.map_map, Function.comp_def] using sortByPath_perm hl1
  obtain ⟨w, hwp, hwm⟩ := perm_map_lift hw0
  have hflat : (w.flatMap (·.2.1)).Perm ((chosen.filter (fun p => f p.1)).flatMap Prod.snd) := by
    refine (hwp.flatMap_right _).trans (List.Perm.trans ?_ (hcs1.flatMap_right _))
    rw [List.flatMap_append, ← hsel1]
    have : List.flatMap (fun _ => ([] : List Course)) results = [] := by simp
    simp [List.flatMap_map, this]
  have hfares : ∀ p ∈ w, Fares true x o p.1 p.2.1 p.2.2 := by
    intro p hp
    rcases List.mem_append.1 (hwp.subset hp) with hp | hp
    · obtain ⟨q, hq, rfl⟩ := List.mem_map.1 hp
      exact (hsel2 q hq).2
    · obtain ⟨i, hi, rfl⟩ := List.mem_map.1 hp
      obtain ⟨h1, h2⟩ := hresComplete i hi
      intro t _
      exact ⟨i, t, Node.audit_of_not_solution (by rw [h1]; simp) t, fun _ => h2, enough_not_failed (final := true) h2,
        fun _ => h2, fun _ _ => rfl⟩
  have hflatNd : ((w.flatMap (·.2.1)).map (·.clbid)).Nodup := by
    refine ((hflat.map _).nodup_iff).2 (hnd.sublist ?_)
    exact (List.filter_sublist.flatMap _).map _
  intro t ht
  have hfree : ∀ c ∈ w.flatMap (·.2.1), ClaimTable.has t c.clbid = false := by
    intro c hc
    rcases ht with rfl | rfl
    · rfl
    by_contra hcon
    have hcon := Bool.not_eq_false _ |>.mp hcon
    obtain ⟨p, hp, hcp⟩ := List.mem_flatMap.1 (hflat.subset hc)
    obtain ⟨hp1, hp2⟩ := List.mem_filter.1 hp
    have hcs : c ∈ chosen.flatMap Prod.snd := List.mem_flatMap.2 ⟨p, hp1, hcp⟩
    have hsi := hsingle c hcs
    rcases hs3 _ hcon with h | ⟨n, hn, s, hs, r, t2, ha, hk⟩
    · cases h
    have hni : n ∈ indep := (ho.2.2 indep).subset hn
    have hnp : n ∈ pot := by rw [hindep] at hni; exact List.mem_of_mem_filter hni
    have hfl' : ∀ l ∈ n.liveLeaves, l.LoadedFlags := fun l hl => hfl l (Node.mem_liveLeavesList.2 ⟨n, hnp, hl⟩)
    obtain ⟨hg, h1, _⟩ := Node.counted hf hes ho hsi.ordinary (hchild n hnp).2 s hs _ _ _ ha ClaimTable.good_nil
    have hne0 : timesClaimed c.clbid r.exclusive ≠ 0 := by
      have := hg.ok _ hk
      intro h0
      rw [h0] at h1
      exact this (List.length_eq_zero_iff.1 h1)
    obtain ⟨la, hla, hca, hua⟩ := Node.wants_of_claimed hf hes ho hsi.one (hchild n hnp).2 hfl' s hs _ _ _ ha hne0
    have hflag : n.alwaysDisjoint = false := by
      cases h : n.alwaysDisjoint with
      | false => rfl
      | true => exact absurd hca (hflags n hnp h la hla)
    have hpc : p.1 ∈ codep := by rw [hcodep]; exact List.mem_filter.2 ⟨hof p hp1, hp2⟩
    exact C24_no_shared_course_partial x hx es hes pot indep codep hind n p.1 hni (hof p hp1)
      (findIndependent_paths hind hni hpc) (Or.inl hflag) c hsi.taken
      ⟨⟨la, hla, hua⟩, (hall p hp1).canUse hf c hcp⟩
  obtain ⟨rs, t', h1, h2, h3, h4⟩ := auditList_fares hfares hflatNd t hfree
  rw [hwm] at h1
  refine ⟨.count .result { d with overridden := false, audits := [] } rs, t', ?_, ?_⟩
  · simp only [Node.audit, Bool.false_eq_true, if_false, h1, haud, auditAssertions]
  · simp only [Node.status, statusList_eq]
    have hcount : pot.length ≤ ((rs.map Node.status).filter (·.passing)).length := by
      refine le_trans (le_of_eq ?_) h3
      have e1 := (hwp.filter (fun p => p.2.2)).length_eq
      rw [e1, List.filter_eq_self.2 (by
        intro p hp
        rcases List.mem_append.1 hp with hp | hp
        · obtain ⟨q, _, rfl⟩ := List.mem_map.1 hp; rfl
        · obtain ⟨q, _, rfl⟩ := List.mem_map.1 hp; rfl)]
      have e2 : sel.length = codep.length := by
        rw [← hsorder.length_eq, ← hselFst, List.length_map]
      rw [List.length_append, List.length_map, List.length_map, e2, hresLen, hcodep, hindep]
      exact List.length_eq_length_filter_add f
    have : Enough true (countStatus { d with overridden := false, audits := [] } (rs.map Node.status)) := by
      refine countStatus_enough_of rfl ?_ ?_ (by rw [← hallof] at hcount; exact hcount) ?_
      · intro hm
        obtain ⟨r, hr', he⟩ := List.mem_map.1 hm
        exact (h2 r hr').1 he
      · intro s hs
        obtain ⟨r, hr', rfl⟩ := List.mem_map.1 hs
        exact (h2 r hr').2
      · have hpl : 0 < pot.length := by
          rw [← hch, List.length_map]
          exact List.length_pos_of_ne_nil hne
        obtain ⟨s, hs⟩ := List.exists_mem_of_length_pos (lt_of_lt_of_le hpl hcount)
        rw [List.mem_filter] at hs
        exact ⟨s, hs.1, (passing_iff s).1 hs.2⟩
    simpa [Enough] using this

/-! ### Rules at the top -/

/-- the rule at the top of an area, if it is a count rule, asks for all of its items -/
inductive AsksForAll : Node → Prop where
  | course (s : Stage) (d : CourseData) : AsksForAll (.course s d)
  | query (s : Stage) (d : QueryData) : AsksForAll (.query s d)
  | count (s : Stage) (d : CountData) (items : List Node) : d.count = items.length → AsksForAll (.count s d items)
  | req (s : Stage) (d : ReqData) (r : Option Node) : AsksForAll (.req s d r)
  | condTrue (s : Stage) (d : CondData) (t : Node) (f : Option Node) : d.condition = some true → AsksForAll t →
      AsksForAll (.cond s d t f)
  | condFalse (s : Stage) (d : CondData) (t n : Node) : d.condition = some false → AsksForAll n →
      AsksForAll (.cond s d t (some n))
  | prof (s : Stage) (d : ProfData) (c : Option (Stage × CourseData)) : AsksForAll (.prof s d c)

theorem finds_top {x : Ctx} {o : Orders} {n : Node} {cs : List Course} (h : Finds true x o n cs)
    (ht : n.topSolutions x o [] = (n.solutions x o, [])) : TopFinds x o n := by
  obtain ⟨s, hs, h⟩ := h
  refine ⟨s, by rw [ht]; exact hs, fun t h' => ?_⟩
  rw [ht, or_self] at h'
  subst h'
  obtain ⟨r, t', h1, h2, _⟩ := h [] (fun _ _ => rfl)
  exact ⟨r, t', h1, h2⟩

theorem Fulfils.topFinds {x : Ctx} (hf : x.ForcedOk) (hx : (x.transcript.map (·.clbid)).Nodup)
    {es : List Exc} (hes : x.exceptions = groupExceptions es) {o : Orders} (ho : o.Lawful) {n : Node}
    (hall : AsksForAll n) (hr : n.Ready es) (hl : n.Loaded x) (hfl : ∀ l ∈ n.liveLeaves, l.LoadedFlags)
    (hflags : HonestFlags n.topChildren) {cs : List Course}
    (h : Fulfils true x es n cs) (hnd : (cs.map (·.clbid)).Nodup) (hdate : ∀ c ∈ cs, c.Dated)
    (hsingle : ∀ c ∈ cs, Single x es c) (hclean : (n.topSolutions x o []).1.err = none) : TopFinds x o n := by
  induction hall with
  | course s d => exact finds_top (h.finds ho hes hx hr hl hclean hnd hdate) rfl
  | query s d => exact finds_top (h.finds ho hes hx hr hl hclean hnd hdate) rfl
  | req s d r => exact finds_top (h.finds ho hes hx hr hl hclean hnd hdate) rfl
  | prof s d c => exact finds_top (h.finds ho hes hx hr hl hclean hnd hdate) rfl
  | count s d items hc => exact topCount_finds hf hx hes ho hr hl hfl hflags hc h hnd hdate hsingle hclean
  | condTrue s d t f hc _ ih =>
    have h' : Fulfils true x es t cs := by
      cases h with
      | waived _ hn => exact absurd rfl (hn s d t f)
      | condTrue _ h => exact h
      | condFalse hc' _ => rw [hc] at hc'; cases hc'
    simp only [Node.topSolutions, hc, Gen.map] at hclean
    obtain ⟨s', hs, h1⟩ := ih (fun m hm => hr m (by simp [Node.within, hm])) hl.2.2.1
      (by simpa only [Node.liveLeaves, hc] using hfl) (by simpa only [Node.topChildren, hc] using hflags) h' hclean
    refine ⟨.cond .solution d s' f, ?_, fun t0 ht => ?_⟩
    · simp only [Node.topSolutions, hc]
      exact Gen.mem_map.2 ⟨s', hs, rfl⟩
    · obtain ⟨r, t', h2, h3⟩ := h1 t0 (by simpa only [Node.topSolutions, hc] using ht)
      refine ⟨.cond .result d r f, t', by simp only [Node.audit, hc, h2], ?_⟩
      simpa [Node.status, hc] using h3
  | condFalse s d t n hc _ ih =>
    have h' : Fulfils true x es n cs := by
      cases h with
      | waived _ hn => exact absurd rfl (hn s d t (some n))
      | condTrue hc' _ => rw [hc] at hc'; cases hc'
      | condFalse _ h => exact h
    simp only [Node.topSolutions, hc, Gen.map, Node.topSolutionsOpt] at hclean
    obtain ⟨s', hs, h1⟩ := ih (fun m hm => hr m (by simp [Node.within, Node.withinOpt, hm])) hl.2.2.2
      (by simpa only [Node.liveLeaves, Node.liveLeavesOpt, hc] using hfl)
      (by simpa only [Node.topChildren, Node.topChildrenOpt, hc] using hflags) h' hclean
    refine ⟨.cond .solution d t (some s'), ?_, fun t0 ht => ?_⟩
    · simp only [Node.topSolutions, hc, Node.topSolutionsOpt]
      exact Gen.mem_map.2 ⟨s', hs, rfl⟩
    · obtain ⟨r, t', h2, h3⟩ := h1 t0 (by simpa only [Node.topSolutions, hc, Node.topSolutionsOpt] using ht)
      refine ⟨.cond .result d t (some r), t', by simp only [Node.audit, hc, Node.auditOpt, h2], ?_⟩
      simpa [Node.status, Node.statusOpt, hc] using h3

mutual
/-- A rule that yields no solution and raises no exception leaves the claims as they are. -/
theorem Node.top_silent {x : Ctx} {o : Orders} : ∀ (n : Node) (t : ClaimTable), (n.topSolutions x o t).1.items = [] →
    (n.topSolutions x o t).1.err = none → (n.topSolutions x o t).2 = t
  | .count s d items, t, h1, h2 => by
    rcases topCount_never_silent x o d items t with h | h
    · exact absurd h1 h
    · exact absurd h2 h
  | .cond s d th f, t, h1, h2 => by
    simp only [Node.topSolutions] at h1 h2 ⊢
    split at h1
    · rename_i hc
      simp only [hc] at h2 ⊢
      exact Node.top_silent th t (by simpa [Gen.map] using h1) (by simpa [Gen.map] using h2)
    · rename_i hc
      simp only [hc] at h2 ⊢
      exact Node.top_silentOpt d th f t h1 h2
    · rfl
  | .course .., _, _, _ => rfl
  | .query .., _, _, _ => rfl
  | .req .., _, _, _ => rfl
  | .prof .., _, _, _ => rfl
theorem Node.top_silentOpt {x : Ctx} {o : Orders} (d : CondData) (th : Node) : ∀ (f : Option Node) (t : ClaimTable),
    (match Node.topSolutionsOpt x o f t with
      | some (g, t') => (g.map (fun s => Node.cond .solution d th (some s)), t')
      | none => (.nil, t)).1.items = [] →
    (match Node.topSolutionsOpt x o f t with
      | some (g, t') => (g.map (fun s => Node.cond .solution d th (some s)), t')
      | none => (.nil, t)).1.err = none →
    (match Node.topSolutionsOpt x o f t with
      | some (g, t') => (g.map (fun s => Node.cond .solution d th (some s)), t')
      | none => (.nil, t)).2 = t
  | none, t, _, _ => rfl
  | some n, t, h1, h2 => by
    simp only [Node.topSolutionsOpt] at h1 h2 ⊢
    exact Node.top_silent n t (by simpa [Gen.map] using h1) (by simpa [Gen.map] using h2)
end

/-! ### Areas -/

theorem areaLoop_all {o : Orders} {a : Area} {st : Student} {es : List Exc} {tail : Option Err} {trs : List (List Course)}
    (he : (areaLoop o a st es tail trs []).err = none) {tr : List Course} (htr : tr ∈ trs) :
    (a.result.topSolutions (areaCtx a st es tr) o []).1.err = none ∧
    ∀ s ∈ (a.result.topSolutions (areaCtx a st es tr) o []).1.items, ∃ c, (c = [] ∨
      c = (a.result.topSolutions (areaCtx a st es tr) o []).2) ∧
      ⟨s, areaCtx a st es tr, c⟩ ∈ (areaLoop o a st es tail trs []).items := by
  induction trs with
  | nil => cases htr
  | cons tr0 trs ih =>
    unfold areaLoop at he ⊢
    dsimp only at he ⊢
    obtain ⟨h1, h2, h3⟩ := Gen.append_clean he
    rw [h3]
    have hnext : (transcriptSolutions o a st es [] tr0).2 = [] := by
      unfold transcriptSolutions at h1 ⊢
      dsimp only at h1 ⊢
      split at h1
      · rename_i err t' heq
        have := Node.top_silent (x := areaCtx a st es tr0) (o := o) a.result [] (by rw [heq]) (by rw [heq]; exact h1)
        rw [heq] at this
        exact this
      · rfl
    rw [hnext] at h2 ⊢
    rcases List.mem_cons.1 htr with rfl | htr
    · unfold transcriptSolutions at h1 ⊢
      dsimp only at h1 ⊢
      split at h1
      · rename_i err t' heq
        rw [heq]
        exact ⟨h1, by simp⟩
      · rename_i s0 ss err t' heq
        rw [heq]
        refine ⟨h1, fun s hs => ?_⟩
        rcases List.mem_cons.1 hs with rfl | hs
        · exact ⟨t', .inr rfl, by simp⟩
        · exact ⟨[], .inl rfl, by simp [hs]⟩
    · obtain ⟨h4, h5⟩ := ih h2 htr
      refine ⟨h4, fun s hs => ?_⟩
      obtain ⟨c, h6, h7⟩ := h5 s hs
      exact ⟨c, h6, List.mem_append_right _ h7⟩

/-- a run that does not examine all solutions up to the end of the search has found a complete one -/
theorem runLoop_tail {ρ : Type} (args : Args) (hp : args.Plain) (hstop : args.stopAfter = none) (e : Err) :
    ∀ (sols : List (Except Err (Outcome ρ))) (s : RunState ρ), (runLoop args (some e) sols s).err = none →
      ∃ out, Except.ok out ∈ sols ∧ Complete out.status := by
  obtain ⟨hpa, hpo, hae⟩ := hp
  intro sols
  induction sols with
  | nil => intro s h; simp [runLoop, Gen.raise] at h
  | cons sol sols ih =>
    intro s h
    unfold runLoop at h
    simp only [hpo, hae, ne_eq, not_true_eq_false, false_and, if_false, one_ne_zero, Int.emod_one, hpa, hstop,
      Option.any_none, Bool.false_eq_true] at h
    split at h
    · simp [Gen.raise] at h
    rename_i out
    split at h
    · rename_i hc
      exact ⟨out, List.mem_cons_self, (wd_iff _).1 hc⟩
    split at h
    · simp [Gen.raise] at h
    obtain ⟨_, h2, _⟩ := Gen.append_clean h
    obtain ⟨_, h3, _⟩ := Gen.append_clean h2
    obtain ⟨out', h4, h5⟩ := ih _ h3
    exact ⟨out', List.mem_cons_of_mem _ h4, h5⟩

/-- the rules of a loaded area as the audit expects them -/
theorem loadArea_ready {c : Constants} {templates : List (String × TemplateCourse)} {st : Student} {es : List Exc}
    {all : Bool} {spec : Dict} {a : Area} (hload : loadArea c templates st es all spec = .ok a) (htidy : TidyText st all spec)
    (hreal : ∀ m ∈ a.result.within, RealConditions m) : a.result.Ready es := by
  intro m hm
  refine ⟨(loadArea_fresh hload).1 m hm, hreal m hm, ?_⟩
  cases m with
  | count stage d items =>
    have hitems : (items.map Node.path).Sublist (Node.count stage d items).allPaths := by
      simp only [Node.allPaths]
      exact ((Node.paths_sublist items).trans (List.sublist_append_right _ _)).cons _
    have hsub := hitems.trans (Node.within_paths _ _ hm)
    refine ⟨?_, (loadArea_nodup hload htidy).sublist hsub⟩
    intro i hi
    exact (loadArea_canonical hload _ (hsub.subset (List.mem_map_of_mem hi))).2
  | _ => trivial

/-- a course of the student's that counts only once: it is the only one with its id, is not forced in by an exception and is
not listed as multicountable -/
structure CountsOnce (a : Area) (st : Student) (es : List Exc) (c : Course) : Prop where
  one : ∀ c' ∈ st.courses ++ st.coursesWithFailed, c'.clbid = c.clbid → c' = c
  notForced : ∀ e ∈ es, e.kind ≠ .insertion c.clbid true
  unlisted : a.multicountable.get? c.identity = none

/-- **C59, partial.** If the student can complete an area that is not a major and that asks for all of its items, then the
audit reports it as complete.  `tr` is one of the transcripts that the area's limits allow, `cs` are courses on it, each used
once.  The audit runs without options that cut it short or print solutions, and raises no exception.
Missing: areas that ask for some of their items only, for which it is false (`C59_independents_refuted`); majors, which
also need their common requirements; `disjoint: true` requirements that claim courses for themselves; courses that may count
several times; and what is missing in `C59_rule_found_partial`. -/
theorem C59_area_is_complete_partial (c : Constants) (templates : List (String × TemplateCourse)) (st : Student) (es : List Exc)
    (all : Bool) (spec : Dict) (a : Area) (hload : loadArea c templates st es all spec = .ok a) (htidy : TidyText st all spec)
    (hreal : ∀ m ∈ a.result.within, RealConditions m) (hkind : a.kind ≠ "major") (hall : AsksForAll a.result)
    (hflags : HonestFlags a.result.topChildren) (o : Orders) (ho : o.Lawful)
    (hids : (st.courses.map (·.clbid)).Nodup) (tr : List Course)
    (htr : tr ∈ (limitedTranscripts (o.limit []) a.limit st.courses (forcedClbids es)).items) (cs : List Course)
    (hcs : ∀ c ∈ cs, c ∈ tr ∧ c.Dated ∧ CountsOnce a st es c) (hnd : (cs.map (·.clbid)).Nodup)
    (hful : Fulfils true (areaCtx a st es tr) es a.result cs)
    (args : Args) (hp : args.Plain) (hest : args.estimateOnly = false) (hstop : args.stopAfter = none)
    (hok : (auditArea o a st es args).err = none) :
    ∃ r i n, (auditArea o a st es args).items.getLast? = some (.result r (some i) n n) ∧ Complete r.status := by
  have hsub := C10_only_input_courses _ (ho.1 []) _ _ _ _ htr
  have hone : ∀ c0 ∈ cs, (areaCtx a st es tr).OneCourse c0 := by
    intro c0 hc0 c hc
    refine (hcs c0 hc0).2.2.one c ?_
    rcases hc with hc | hc | ⟨k, hc⟩
    · exact List.mem_append_left _ (hsub.1 c hc)
    · exact List.mem_append_right _ hc
    · simp only [areaCtx, List.mem_map, List.mem_reverse, List.mem_filter] at hc
      obtain ⟨c', ⟨hc', _⟩, he⟩ := hc
      cases he
      exact List.mem_append_left _ hc'
  -- a complete solution
  have hexists : (∃ out, Except.ok out ∈ (a.solutions o st es).items.map (AreaSolution.outcome o a) ∧ Complete out.status) ∨
      ∃ s ∈ (a.solutions o st es).items, ∃ r, s.audit o a = .ok r ∧ Complete r.status := by
    cases he : (a.solutions o st es).err with
    | some e =>
      left
      unfold auditArea runAudit at hok
      split at hok
      · simp [Gen.raise] at hok
      rw [hest] at hok
      obtain ⟨_, h1, _⟩ := Gen.append_clean hok
      simp only [Bool.false_eq_true, if_false, Gen.map, he] at h1
      exact runLoop_tail args hp hstop e _ _ h1
    | none =>
      right
      unfold Area.solutions at he
      obtain ⟨h1, h2⟩ := areaLoop_all he htr
      have hl : a.result.Loaded (areaCtx a st es tr) :=
        Node.loaded_congr (x := { exceptions := groupExceptions es }) (y := areaCtx a st es tr) rfl _ (loadArea_loaded hload).1
      obtain ⟨s, hs, h3⟩ := hful.topFinds (areaCtx_forcedOk a st es tr)
        (clbids_nodup_of_subset hids (hsub.2 (Or.inr (List.Nodup.of_map _ hids))) hsub.1) rfl ho hall
        (loadArea_ready hload htidy hreal) hl
        (fun l hl => (loadArea_loaded hload).2 l (Node.liveLeaves_subset _ hl)) hflags hnd (fun c hc => (hcs c hc).2.1)
        (fun c hc => ⟨(hcs c hc).1, hone c hc, (hcs c hc).2.2.notForced, fun c' hc' hk => by
          rw [hone c hc c' hc' hk]; exact (hcs c hc).2.2.unlisted⟩) h1
      obtain ⟨tb, h4, h5⟩ := h2 s hs
      obtain ⟨r, t', h6, h7⟩ := h3 tb h4
      refine ⟨_, h5, ⟨a.kind, r, areaCtx a st es tr⟩, by simp only [AreaSolution.audit, h6, if_neg hkind], ?_⟩
      unfold AreaResult.status
      split
      · exact .inr rfl
      · exact h7
  have hne : (a.solutions o st es).items ≠ [] := by
    rcases hexists with ⟨out, h, _⟩ | ⟨s, h, _⟩
    · intro h0; rw [h0] at h; cases h
    · intro h0; rw [h0] at h; cases h
  obtain ⟨ex, i, b, hpre, hbest, hst, hlast⟩ := C21_area_audit o a st es args hp hest hok hne
  refine ⟨b.result, i, ex.length, hlast, ?_⟩
  have hout : ∀ out ∈ ex, out.status = out.result.status := by
    intro out hout
    have := hpre.subset (List.mem_map_of_mem hout)
    obtain ⟨s, _, hs⟩ := List.mem_map.1 this
    unfold AreaSolution.outcome at hs
    split at hs
    · cases hs
    split at hs
    · cases hs
    cases hs
    rfl
  have hex : ∃ p ∈ ex, Complete p.status := by
    rcases hst with h | ⟨out, h1, h2⟩ | ⟨n, h, _⟩
    · have heq := List.IsPrefix.eq_of_length hpre (by simpa using h)
      rcases hexists with ⟨out, h1, h2⟩ | ⟨s, h1, r, h2, h3⟩
      · rw [← heq] at h1
        obtain ⟨p, hp', he⟩ := List.mem_map.1 h1
        cases he
        exact ⟨_, hp', h2⟩
      · have h4 : s.outcome o a ∈ ex.map Except.ok := by rw [heq]; exact List.mem_map_of_mem h1
        obtain ⟨p, hp', he⟩ := List.mem_map.1 h4
        unfold AreaSolution.outcome at he
        rw [h2] at he
        dsimp only at he
        split at he
        · cases he
        cases he
        exact ⟨_, hp', h3⟩
    · exact ⟨out, List.mem_of_getLast? h1, h2⟩
    · rw [hstop] at h; cases h
  obtain ⟨_, hb, h | h⟩ := hbest
  · rw [← hout b (List.mem_of_getElem? hb)]
    exact h.1
  · obtain ⟨p, hp', h1⟩ := hex
    exact absurd h1 (h.1 p hp')

/-! ### A non-trivial case -/

/-- what the electives of `satisfiedText` ask for, as loaded -/
def satisfiedTwo : Assertion :=
  { path := ["$", ".count", "[1]", "%Electives", ".query", ".assertions", "[0]", ".assert"], dataType := .course,
    key := "count(courses)", op := .gte, expected := 2 }

/-- the electives of `satisfiedText`, as loaded -/
def satisfiedElectives : QueryData :=
  { path := ["$", ".count", "[1]", "%Electives", ".query"], source := .courses, dataType := .course,
    assertions := [.single satisfiedTwo],
    where' := some (.leaf { key := "subject", op := .eq, expected := .sc (.str "CSCI") }), excluded := ["1"] }

/-- the loaded rule of `satisfiedText` -/
def satisfiedRule : Node := .count .rule { path := ["$", ".count"], count := 2 } [
  .req .rule { path := ["$", ".count", "[0]", "%Core"], name := "Core" } (some
    (.count .rule { path := ["$", ".count", "[0]", "%Core", ".count"], count := 2 } [
      apartItem ["$", ".count", "[0]", "%Core", ".count", "[0]"] "CSCI 121",
      .count .rule { path := ["$", ".count", "[0]", "%Core", ".count", "[1]", ".count"], count := 1 } [
        apartItem ["$", ".count", "[0]", "%Core", ".count", "[1]", ".count", "[0]"] "CSCI 221",
        apartItem ["$", ".count", "[0]", "%Core", ".count", "[1]", ".count", "[1]"] "CSCI 251"]])),
  .req .rule { path := ["$", ".count", "[1]", "%Electives"], name := "Electives" } (some (.query .rule satisfiedElectives))]

set_option maxRecDepth 100000 in
theorem satisfied_loaded : (loadArea {} [] sampleTaken [] false satisfiedText).map (·.result) = .ok satisfiedRule := by
  rfl

/-- whether the audit of the area runs without an exception -/
def auditRuns (st : Student) (spec : Dict) : Bool :=
  match loadArea {} [] st [] false spec with
  | .ok a => (auditArea .insertion a st [] {}).err = none && a.kind ≠ "major" && a.multicountable.isEmpty && a.limit.isEmpty
  | .error _ => false

/-- The hypotheses of `C59_area_is_complete_partial` for the area `satisfiedText` and the four classes of `sampleTaken`: classes 1
and 2 fulfil the core, 3 and 4 the electives. -/
example : ∃ a : Area, loadArea {} [] sampleTaken [] false satisfiedText = .ok a ∧ a.kind ≠ "major" ∧ AsksForAll a.result ∧
    HonestFlags a.result.topChildren ∧ (∀ m ∈ a.result.within, RealConditions m) ∧
    sampleTaken.courses ∈ (limitedTranscripts .insertion a.limit sampleTaken.courses (forcedClbids [])).items ∧
    (∀ c ∈ sampleTaken.courses, c.Dated ∧ CountsOnce a sampleTaken [] c) ∧ (sampleTaken.courses.map (·.clbid)).Nodup ∧
    Fulfils true (areaCtx a sampleTaken [] sampleTaken.courses) [] a.result sampleTaken.courses ∧
    (auditArea .insertion a sampleTaken [] {}).err = none := by
  have h := satisfied_loaded
  have hruns : auditRuns sampleTaken satisfiedText = true := by decide +kernel
  unfold auditRuns at hruns
  cases hl : loadArea {} [] sampleTaken [] false satisfiedText with
  | error e => rw [hl] at h; cases h
  | ok a =>
    rw [hl] at h hruns
    have ha : a.result = satisfiedRule := Except.ok.inj h
    simp only [Bool.and_eq_true, decide_eq_true_eq, List.isEmpty_iff] at hruns
    obtain ⟨⟨⟨h1, h2⟩, h3⟩, h4⟩ := hruns
    refine ⟨a, rfl, h2, ?_, ?_, ?_, ?_, ?_, by decide, ?_, h1⟩
    · rw [ha]; exact .count _ _ _ rfl
    · rw [ha]
      intro i hi hd
      simp only [satisfiedRule, Node.topChildren, List.mem_cons, List.not_mem_nil, or_false] at hi
      rcases hi with rfl | rfl <;> cases hd
    · rw [ha]
      intro m hm c r t hd
      have : ∀ m ∈ satisfiedRule.within, ∀ b ∈ ownAssertions m, b = .single satisfiedTwo := by
        simp [satisfiedRule, Node.within, Node.withinList, Node.withinOpt, apartItem, ownAssertions, satisfiedElectives]
      cases this m hm _ hd
    · rw [h4]; simp [limitedTranscripts, Gen.one]
    · intro c hc
      refine ⟨?_, ?_, by simp, by rw [h3]; rfl⟩
      · have : c.isInProgress = false := by revert c; decide
        intro h; rw [this] at h; cases h
      · revert c; decide
    · rw [ha]
      have one : ∀ c ∈ sampleTaken.courses, ∀ p, Fulfils true (areaCtx a sampleTaken [] sampleTaken.courses) []
          (apartItem p c.identity) [c] := by
        intro c hc p
        have h3 : c.isStolaf = true ∧ c.isInProgress = false := by revert c; decide
        exact .course c (entitled_byName hc rfl h3.1) rfl (fun _ => h3.2)
      have core : Fulfils true (areaCtx a sampleTaken [] sampleTaken.courses) [] (.count .rule
          { path := ["$", ".count", "[0]", "%Core", ".count", "[1]", ".count"], count := 1 } [
          apartItem ["$", ".count", "[0]", "%Core", ".count", "[1]", ".count", "[0]"] "CSCI 221",
          apartItem ["$", ".count", "[0]", "%Core", ".count", "[1]", ".count", "[1]"] "CSCI 251"])
          ((sampleTaken.courses.drop 1).take 1) :=
        .count [(apartItem ["$", ".count", "[0]", "%Core", ".count", "[1]", ".count", "[1]"] "CSCI 251",
          (sampleTaken.courses.drop 1).take 1)] rfl (by simp) (by exact (List.Sublist.refl _).cons _) (by decide) (by simp) (by
            intro p hp
            rw [List.mem_singleton] at hp
            subst hp
            exact one { clbid := "2", identity := "CSCI 251", subject := "CSCI" } (by simp [sampleTaken]) _)
      have electives : Fulfils true (areaCtx a sampleTaken [] sampleTaken.courses) [] (.query .rule satisfiedElectives)
          (sampleTaken.courses.drop 2) := by
        have hrec : ((areaCtx a sampleTaken [] sampleTaken.courses).transcript.filter
            (fun c => !satisfiedElectives.excluded.contains c.clbid)).map Item.course =
            (sampleTaken.courses.drop 1).map .course := by
          congr 1
        refine .query satisfiedTwo _ ((sampleTaken.courses.drop 1).map .course) _ rfl rfl rfl rfl rfl (by simp) (by simp)
          (.courses rfl rfl) ?_ ?_ ?_ ?_ ?_
        · rw [hrec]
          refine ⟨fun _ => true, ?_, by simp⟩
          intro i hi
          obtain ⟨c, hc, rfl⟩ := List.mem_map.1 hi
          have : ∀ c ∈ sampleTaken.courses.drop 1,
            applyCourseLeaf c { key := "subject", op := .eq, expected := .sc (.str "CSCI") } = .ok true := by decide +kernel
          exact this c hc
        · exact (List.sublist_cons_self _ _).map _
        · intro i hi c hc
          subst hc
          obtain ⟨c', hc', he⟩ := List.mem_map.1 hi
          cases he
          have : ∀ c ∈ sampleTaken.courses.drop 1, 0 ≤ c.credits := by decide +kernel
          exact this c hc'
        · refine .courses 2 rfl (by decide +kernel) ?_ (by simp [satisfiedTwo]) (by simp [satisfiedTwo])
          simp only [NumHolds, satisfiedTwo]; decide +kernel
        · decide
      refine .count [(_, sampleTaken.courses.take 2), (_, sampleTaken.courses.drop 2)] rfl (by simp) (List.Sublist.refl _)
        (by decide) (by simp) ?_
      intro p hp
      simp only [List.mem_cons, List.not_mem_nil, or_false] at hp
      rcases hp with rfl | rfl
      · refine .req rfl (.count [(_, sampleTaken.courses.take 1), (_, (sampleTaken.courses.drop 1).take 1)] rfl (by simp)
          (List.Sublist.refl _) (by decide) (by simp) ?_)
        intro p hp
        simp only [List.mem_cons, List.not_mem_nil, or_false] at hp
        rcases hp with rfl | rfl
        · exact one { clbid := "1", identity := "CSCI 121", subject := "CSCI" } (by simp [sampleTaken]) _
        · exact core
      · exact .req rfl electives

end Dp
