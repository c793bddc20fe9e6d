import Verif.Props.SafeRule
import Verif.Model.Area

/-
When the search for solutions of a tree of rules, the audit of a solution, and the estimate do not raise.
-/
namespace Dp

/-! ### Trees that yield solutions, and trees that can be searched and audited -/

mutual
/-- The rule has at least one solution: on the way down through requirements that are not waived and the branches taken, no
conditional is met whose branch is missing. -/
def Node.Bears (x : Ctx) : Node → Prop
  | .req _ d r => (getWaiveException x.exceptions d.path).isSome = true ∨ Node.BearsReq x r
  | .cond _ d t f => match d.condition with
    | some true => t.Bears x
    | some false => Node.BearsElse x f
    | none => False
  | _ => True
/-- a requirement without a rule has a solution -/
def Node.BearsReq (x : Ctx) : Option Node → Prop
  | none => True
  | some n => n.Bears x
/-- a conditional without an else-branch has none -/
def Node.BearsElse (x : Ctx) : Option Node → Prop
  | none => False
  | some n => n.Bears x
end

/-- a proficiency rule, solution or result that can be audited -/
structure ProfSafe (x : Ctx) (look : Bool) (d : ProfData) (c : Option (Stage × CourseData)) : Prop where
  canonical : CanonicalPath d.path
  known : ∃ st, x.proficiencies.status d.proficiency false = .ok st
  course : ∀ q, c = some q → CourseSafe x look q.1 q.2

mutual
/-- a rule, solution or result that can be searched and audited -/
def Node.Safe (x : Ctx) (look : Bool) : Node → Prop
  | .course s d => CourseSafe x look s d
  | .query s d => QuerySafe x look s d
  | .count s d items => CanonicalPath d.path ∧ (s ≠ .result → ∀ b ∈ d.audits, b.Safe x .course) ∧
      (d.count = 1 → d.atMost = true → d.overridden = false → items ≠ []) ∧ Node.SafeList x look items
  | .req s d r => CanonicalPath d.path ∧ (s = .rule → existsBeneath x.exceptions d.path = true → (Node.req s d r).Bears x) ∧
      Node.SafeOpt x look r
  | .cond _ d t f => CanonicalPath d.path ∧ t.Safe x look ∧ Node.SafeOpt x look f
  | .prof _ d c => ProfSafe x look d c
/-- all children -/
def Node.SafeList (x : Ctx) (look : Bool) : List Node → Prop
  | [] => True
  | n :: ns => n.Safe x look ∧ Node.SafeList x look ns
/-- an optional child -/
def Node.SafeOpt (x : Ctx) (look : Bool) : Option Node → Prop
  | none => True
  | some n => n.Safe x look
end

theorem Node.safeList_iff {x : Ctx} {look : Bool} {ns : List Node} : Node.SafeList x look ns ↔ ∀ n ∈ ns, n.Safe x look := by
  induction ns with
  | nil => simp [Node.SafeList]
  | cons n ns ih => simp [Node.SafeList, ih]

theorem Node.Safe.canonical {x : Ctx} {look : Bool} {n : Node} (h : n.Safe x look) : CanonicalPath n.path := by
  cases n <;> simp only [Node.Safe] at h
  · exact CourseSafe.canonical h
  · exact QuerySafe.canonical h
  · exact h.1
  · exact h.1
  · exact h.1
  · exact ProfSafe.canonical h

/-! ### Sorting -/

theorem insertByPath_ok {α : Type} {key : α → Path} {a : α} (ha : CanonicalPath (key a)) : ∀ l : List α,
    (∀ b ∈ l, CanonicalPath (key b)) → ∃ l', insertByPath key a l = .ok l'
  | [], _ => ⟨[a], rfl⟩
  | b :: l, h => by
    obtain ⟨c, hc, _⟩ := C15_comparison_is_the_path_order (key a) (key b) ha (h b List.mem_cons_self)
    obtain ⟨l', hl'⟩ := insertByPath_ok ha l (fun b' h' => h b' (List.mem_cons_of_mem _ h'))
    unfold insertByPath
    simp only [hc, hl']
    split <;> exact ⟨_, rfl⟩

/-- sorting by path never raises on the paths that rules have -/
theorem sortByPath_ok {α : Type} {key : α → Path} : ∀ l : List α,
    (∀ b ∈ l, CanonicalPath (key b)) → ∃ l', sortByPath key l = .ok l'
  | [], _ => ⟨[], rfl⟩
  | a :: l, h => by
    obtain ⟨l', hl'⟩ := sortByPath_ok (key := key) l (fun b' h' => h b' (List.mem_cons_of_mem _ h'))
    unfold sortByPath
    simp only [hl']
    exact insertByPath_ok (h a List.mem_cons_self) l'
      (fun b hb => h b (List.mem_cons_of_mem _ ((sortByPath_perm hl').mem_iff.1 hb)))

/-! ### Potential and matches -/

mutual
theorem Node.potential_safe {x : Ctx} {look : Bool} : ∀ n : Node, n.Loaded x → n.Safe x look →
    ∃ b, n.hasPotential x = .ok b ∧ (b = true → n.Bears x)
  | .course s d, _, _ => ⟨_, rfl, fun _ => by simp [Node.Bears]⟩
  | .query s d, hl, h => by
    simp only [Node.Safe] at h
    simp only [Node.Loaded] at hl
    obtain ⟨b, hb⟩ := queryHasPotential_ok (h.ready (by rw [hl.1]; simp))
    exact ⟨b, by simp only [Node.hasPotential, hb], fun _ => by simp [Node.Bears]⟩
  | .count s d items, hl, h => by
    simp only [Node.Safe] at h
    simp only [Node.Loaded] at hl
    simp only [Node.hasPotential]
    split
    · exact ⟨true, rfl, fun _ => by simp [Node.Bears]⟩
    · obtain ⟨b, hb⟩ := Node.potential_safeList items hl.2.2 h.2.2.2
      exact ⟨b, hb, fun _ => by simp [Node.Bears]⟩
  | .req s d r, hl, h => by
    simp only [Node.Safe] at h
    simp only [Node.Loaded] at hl
    simp only [Node.hasPotential]
    split
    · rename_i he
      exact ⟨true, rfl, fun _ => h.2.1 hl.1 he⟩
    · split
      · exact ⟨false, rfl, fun h => by cases h⟩
      · obtain ⟨b, hb, hbb⟩ := Node.potential_safeOpt r hl.2.2 h.2.2
        refine ⟨b, hb, fun hbt => ?_⟩
        simp only [Node.Bears]
        right
        cases r with
        | none => simp [Node.BearsReq]
        | some n =>
          have := hbb hbt
          simpa [Node.BearsElse, Node.BearsReq] using this
  | .cond s d t f, hl, h => by
    simp only [Node.Safe] at h
    simp only [Node.Loaded] at hl
    simp only [Node.hasPotential, Node.Bears]
    cases d.condition with
    | none => exact ⟨false, rfl, fun h => by cases h⟩
    | some b =>
      cases b with
      | true => exact Node.potential_safe t hl.2.2.1 h.2.1
      | false => exact Node.potential_safeOpt f hl.2.2.2 h.2.2
  | .prof s d c, _, _ => ⟨true, rfl, fun _ => by simp [Node.Bears]⟩
theorem Node.potential_safeList {x : Ctx} {look : Bool} : ∀ ns : List Node, Node.LoadedList x ns → Node.SafeList x look ns →
    ∃ b, Node.anyPotential x ns = .ok b
  | [], _, _ => ⟨false, rfl⟩
  | n :: ns, hl, h => by
    simp only [Node.SafeList] at h
    simp only [Node.LoadedList] at hl
    obtain ⟨b, hb, _⟩ := Node.potential_safe n hl.1 h.1
    obtain ⟨b', hb'⟩ := Node.potential_safeList ns hl.2 h.2
    cases b
    · exact ⟨b', by simp only [Node.anyPotential, hb, hb']⟩
    · exact ⟨true, by simp only [Node.anyPotential, hb]⟩
theorem Node.potential_safeOpt {x : Ctx} {look : Bool} : ∀ n : Option Node, Node.LoadedOpt x n → Node.SafeOpt x look n →
    ∃ b, Node.optPotential x n = .ok b ∧ (b = true → Node.BearsElse x n)
  | none, _, _ => ⟨false, rfl, fun h => by cases h⟩
  | some n, hl, h => Node.potential_safe n hl h
end

mutual
theorem Node.matches_safe {x : Ctx} {look : Bool} (hx : x.Sound look) : ∀ n : Node, n.Loaded x → n.Safe x look →
    ∃ l, n.allMatches x = .ok l
  | .course s d, _, _ => ⟨_, rfl⟩
  | .query s d, hl, h => by
    simp only [Node.Safe] at h
    simp only [Node.Loaded] at hl
    obtain ⟨f, hf, _⟩ := queryFiltered_safe hx (h.ready (by rw [hl.1]; simp))
    exact ⟨f.data, by simp only [Node.allMatches, queryMatches, hf]⟩
  | .count s d items, hl, h => by
    simp only [Node.Safe] at h
    simp only [Node.Loaded] at hl
    exact Node.matches_safeList hx items hl.2.2 h.2.2.2
  | .req s d r, hl, h => by
    simp only [Node.Safe] at h
    simp only [Node.Loaded] at hl
    exact Node.matches_safeOpt hx r hl.2.2 h.2.2
  | .cond s d t f, hl, h => by
    simp only [Node.Safe] at h
    simp only [Node.Loaded] at hl
    simp only [Node.allMatches]
    cases d.condition with
    | none => exact ⟨_, rfl⟩
    | some b =>
      cases b with
      | true => exact Node.matches_safe hx t hl.2.2.1 h.2.1
      | false => exact Node.matches_safeOpt hx f hl.2.2.2 h.2.2
  | .prof s d c, _, _ => by
    cases c with
    | none => exact ⟨_, rfl⟩
    | some c => exact ⟨_, rfl⟩
theorem Node.matches_safeList {x : Ctx} {look : Bool} (hx : x.Sound look) : ∀ ns : List Node, Node.LoadedList x ns →
    Node.SafeList x look ns → ∃ l, Node.listMatches x ns = .ok l
  | [], _, _ => ⟨_, rfl⟩
  | n :: ns, hl, h => by
    simp only [Node.SafeList] at h
    simp only [Node.LoadedList] at hl
    obtain ⟨b, hb⟩ := Node.matches_safe hx n hl.1 h.1
    obtain ⟨b', hb'⟩ := Node.matches_safeList hx ns hl.2 h.2
    exact ⟨b ++ b', by simp only [Node.listMatches, hb, hb']⟩
theorem Node.matches_safeOpt {x : Ctx} {look : Bool} (hx : x.Sound look) : ∀ n : Option Node, Node.LoadedOpt x n →
    Node.SafeOpt x look n → ∃ l, Node.optMatches x n = .ok l
  | none, _, _ => ⟨_, rfl⟩
  | some n, hl, h => Node.matches_safe hx n hl h
end

/-! ### Solutions of counts -/

theorem cartesianGen_ok {α : Type} : ∀ gs : List (Gen α), (∀ g ∈ gs, g.err = none) → (cartesianGen gs).err = none
  | [], _ => rfl
  | g :: gs, h => by
    have ih := cartesianGen_ok gs (fun g' h' => h g' (List.mem_cons_of_mem _ h'))
    exact Gen.bind_clean (h g List.mem_cons_self) (fun a _ => ih)

theorem lazyProduct_ok {α : Type} {gs : List (Gen α)} (h : ∀ g ∈ gs, g.err = none ∧ g.items ≠ []) :
    (lazyProduct gs).err = none := by
  rw [lazyProduct_eq gs 1 (by simpa using fun g hg => (h g hg).2)]
  exact cartesianGen_ok _ (by simpa using fun g hg => (h g hg).1)

theorem countSolution_ok {d : CountData} {l : List Node} (h : ∀ n ∈ l, CanonicalPath n.path) :
    (countSolution d l).err = none := by
  obtain ⟨l', hl'⟩ := sortByPath_ok (key := Node.path) l h
  unfold countSolution
  rw [hl']
  rfl

theorem Gen.orElse_ok {α : Type} {g h : Gen α} (hg : g.err = none) (hh : h.err = none) : (g.orElse h).err = none := by
  unfold Gen.orElse
  split
  · exact hh
  · exact hg

/-- what the search of a rule needs to be -/
structure Searched (x : Ctx) (look : Bool) (g : Gen Node) : Prop where
  clean : g.err = none
  safe : ∀ s ∈ g.items, s.Safe x look

theorem makeCombinations_ok {x : Ctx} {look : Bool} {d : CountData} {potential : List (Node × Gen Node)}
    {results others : List Node} (hp : ∀ p ∈ potential, Searched x look p.2 ∧ p.2.items ≠ [])
    (hr : ∀ n ∈ results, n.Safe x look) (ho : ∀ n ∈ others, n.Safe x look) (size : Nat) :
    (makeCombinations d potential results others size).err = none := by
  unfold makeCombinations
  rw [Gen.forList_ok]
  intro selected hsel
  have hsub := (mem_combos.1 hsel).1
  refine Gen.bind_clean (lazyProduct_ok ?_) ?_
  · intro g hg
    obtain ⟨p, hpm, rfl⟩ := List.mem_map.1 hg
    obtain ⟨h1, h2⟩ := hp p (hsub.subset hpm)
    exact ⟨h1.clean, h2⟩
  · intro sols hsols
    have h2 := mem_lazyProduct hsols
    refine countSolution_ok (fun n hn => ?_)
    simp only [List.mem_append, List.mem_filter] at hn
    rcases hn with (hn | hn) | hn
    · obtain ⟨g, hg, hng⟩ := forall₂_mem_left h2 hn
      obtain ⟨p, hpm, rfl⟩ := List.mem_map.1 hg
      exact ((hp p (hsub.subset hpm)).1.safe n hng).canonical
    · exact (ho n hn.1).canonical
    · exact (hr n hn).canonical

theorem countSolutions_safe {x : Ctx} {look : Bool} {d : CountData} {nItems : Nat} {potential : List (Node × Gen Node)}
    {results others : List Node} (hc : CanonicalPath d.path) (ha : ∀ b ∈ d.audits, b.Safe x .course)
    (hp : ∀ p ∈ potential, Searched x look p.2 ∧ p.2.items ≠ [])
    (hr : ∀ n ∈ results, n.Safe x look) (ho : ∀ n ∈ others, n.Safe x look)
    (hne : d.count = 1 → d.atMost = true → others ++ results ≠ []) :
    Searched x look (countSolutions d nItems potential results others) ∧
      (countSolutions d nItems potential results others).items ≠ [] := by
  have hmk := fun size => makeCombinations_ok (d := d) hp hr ho size
  have hall : ∀ n ∈ others ++ results, n.Safe x look := by
    intro n hn
    rcases List.mem_append.1 hn with hn | hn
    · exact ho n hn
    · exact hr n hn
  have he : (countSolutions d nItems potential results others).err = none := by
    unfold countSolutions
    refine Gen.orElse_ok (Gen.orElse_ok ?_ ?_) (countSolution_ok (fun n hn => (hall n hn).canonical))
    · rw [Gen.forList_ok _ _ (fun size _ => hmk size)]
    · split
      · rfl
      · exact hmk _
  refine ⟨⟨he, ?_⟩, ?_⟩
  · intro s hs
    have mk : ∀ l l' : List Node, sortByPath Node.path l = .ok l' → (∀ n ∈ l, n.Safe x look) →
        (d.count = 1 → d.atMost = true → l ≠ []) → (Node.count .solution { d with overridden := false } l').Safe x look := by
      intro l l' hl h1 h2
      have hperm := sortByPath_perm hl
      simp only [Node.Safe]
      refine ⟨hc, fun _ => ha, fun q1 q2 _ h0 => h2 q1 q2 ?_, Node.safeList_iff.2 (fun n hn => h1 n (hperm.mem_iff.1 hn))⟩
      rw [h0] at hperm
      exact List.Perm.eq_nil hperm.symm
    rcases countSolutions_mem hs with ⟨selected, sols, hsub, _, h3, h4⟩ | hs
    · obtain ⟨l, hl, rfl⟩ := countSolution_mem h4
      refine mk _ _ hl ?_ ?_
      · intro n hn
        simp only [List.mem_append, List.mem_filter] at hn
        rcases hn with (hn | hn) | hn
        · obtain ⟨p, hpm, hng⟩ := forall₂_mem_left h3 hn
          exact (hp p (hsub.subset hpm)).1.safe n hng
        · exact ho n hn.1
        · exact hr n hn
      · intro q1 q2 h0
        simp only [List.append_eq_nil_iff] at h0
        obtain ⟨⟨h5, h6⟩, h7⟩ := h0
        subst h5
        cases h3
        apply hne q1 q2
        simpa [h7] using h6
    · obtain ⟨l, hl, rfl⟩ := countSolution_mem hs
      exact mk _ _ hl hall hne
  · rcases countSolutions_yields d nItems potential results others with h | h
    · exact h
    · exact absurd he h

theorem filterE_total {α : Type} {f : α → Except Err Bool} : ∀ l : List α, (∀ a ∈ l, ∃ b, f a = .ok b) →
    ∃ m, filterE f l = .ok m
  | [], _ => ⟨[], rfl⟩
  | a :: l, h => by
    obtain ⟨b, hb⟩ := h a List.mem_cons_self
    obtain ⟨m, hm⟩ := filterE_total l (fun a' h' => h a' (List.mem_cons_of_mem _ h'))
    exact ⟨_, by simp only [filterE, hb, hm]; rfl⟩

theorem Node.solutionsList_eq (x : Ctx) (o : Orders) (ns : List Node) :
    Node.solutionsList x o ns = ns.map (fun n => n.solutions x o) := by
  induction ns with
  | nil => rfl
  | cons n ns ih => simp [Node.solutionsList, ih]

theorem mem_zip_map {α β : Type} {f : α → β} {l : List α} {p : α × β} (h : p ∈ l.zip (l.map f)) : p.1 ∈ l ∧ p.2 = f p.1 := by
  induction l with
  | nil => simp at h
  | cons a l ih =>
    simp only [List.map_cons, List.zip_cons_cons, List.mem_cons] at h
    rcases h with rfl | h
    · simp
    · exact ⟨List.mem_cons_of_mem _ (ih h).1, (ih h).2⟩

/-- the search of a rule, as far as the audit needs it -/
structure SearchOk (x : Ctx) (o : Orders) (look : Bool) (n : Node) : Prop where
  searched : Searched x look (n.solutions x o)
  yields : n.Bears x → (n.solutions x o).items ≠ []

theorem plainCountSolutions_safe {x : Ctx} {o : Orders} {look : Bool} {s : Stage} {d : CountData} {items : List Node}
    (h : (Node.count s d items).Safe x look) (hl : (Node.count s d items).Loaded x)
    (hs : ∀ n ∈ items, SearchOk x o look n) :
    Searched x look (plainCountSolutions x d items (Node.solutionsList x o items)) ∧
    (plainCountSolutions x d items (Node.solutionsList x o items)).items ≠ [] := by
  simp only [Node.Safe] at h
  simp only [Node.Loaded] at hl
  obtain ⟨rfl, hov, hli⟩ := hl
  obtain ⟨h1, h2, h3, h4⟩ := h
  have h2 := h2 (by simp)
  rw [Node.safeList_iff] at h4
  rw [Node.loadedList_iff] at hli
  unfold plainCountSolutions
  split
  · refine ⟨⟨rfl, ?_⟩, by simp [Gen.one]⟩
    intro r hr
    simp only [Gen.one, List.mem_singleton] at hr
    subst hr
    simp only [Node.Safe]
    exact ⟨h1, fun _ => h2, fun _ _ h => by simp at h, Node.safeList_iff.2 h4⟩
  · rw [Node.solutionsList_eq]
    have hz : ∀ p ∈ items.zip (items.map (fun n => n.solutions x o)), p.1 ∈ items ∧ p.2 = p.1.solutions x o :=
      fun p hp => mem_zip_map hp
    obtain ⟨pot, hpot⟩ := filterE_total (f := fun p : Node × Gen Node => p.1.hasPotential x)
      (items.zip (items.map (fun n => n.solutions x o))) (fun p hp => by
        obtain ⟨b, hb, _⟩ := Node.potential_safe p.1 (hli _ (hz p hp).1) (h4 _ (hz p hp).1)
        exact ⟨b, hb⟩)
    have hpm : ∀ p ∈ pot, p.1 ∈ items ∧ p.2 = p.1.solutions x o ∧ p.1.Bears x := by
      intro p hp
      obtain ⟨q1, q2⟩ := ((mem_filterE hpot).2 p).1 hp
      obtain ⟨q3, q4⟩ := hz p q1
      obtain ⟨b, hb, hbb⟩ := Node.potential_safe p.1 (hli _ q3) (h4 _ q3)
      rw [hb] at q2
      exact ⟨q3, q4, hbb (by simpa using q2)⟩
    obtain ⟨sorted, hsort⟩ := sortByPath_ok (key := fun p : Node × Gen Node => p.1.path) pot
      (fun p hp => (h4 _ (hpm p hp).1).canonical)
    simp only [hpot, hsort]
    refine countSolutions_safe h1 h2 ?_ (by simp) h4 ?_
    · intro p hp
      obtain ⟨q1, q2, q3⟩ := hpm p ((sortByPath_perm hsort).mem_iff.1 hp)
      rw [q2]
      exact ⟨(hs _ q1).searched, (hs _ q1).yields q3⟩
    · intro q1 q2
      simpa using h3 q1 q2 hov

theorem profSolutions_safe {x : Ctx} {look : Bool} (hx : x.Sound look) {d : ProfData} {c : Option (Stage × CourseData)}
    (h : ProfSafe x look d c) : Searched x look (profSolutions x d c) ∧ (profSolutions x d c).items ≠ [] := by
  have mk : ∀ (d' : ProfData) (c' : Option (Stage × CourseData)), d'.path = d.path → d'.proficiency = d.proficiency →
      (∀ q, c' = some q → CourseSafe x look q.1 q.2) → (Node.prof .solution d' c').Safe x look := by
    intro d' c' h1 h2 h3
    simp only [Node.Safe]
    exact ⟨h1 ▸ h.canonical, h2 ▸ h.known, h3⟩
  have one : ∀ n : Node, n.Safe x look → Searched x look (Gen.one n) ∧ (Gen.one n).items ≠ [] := by
    intro n hn
    refine ⟨⟨rfl, fun s hs => ?_⟩, by simp [Gen.one]⟩
    simp only [Gen.one, List.mem_singleton] at hs
    exact hs ▸ hn
  unfold profSolutions
  split
  · exact one _ (mk _ _ rfl rfl h.course)
  · split
    · exact one _ (mk _ _ rfl rfl (by simp))
    · rename_i st cd
      have hcd := h.course _ rfl
      obtain ⟨_, h2⟩ := courseSolutions_clean hcd.inserts
      split
      · rename_i r rs hr
        refine one _ (mk _ _ rfl rfl ?_)
        intro q hq
        cases hq
        exact courseSolutions_safe hx hcd r (by rw [hr]; exact List.mem_cons_self)
      · rename_i h0
        exact absurd h0 h2

theorem Searched.map {x : Ctx} {look : Bool} {g : Gen Node} (h : Searched x look g) {f : Node → Node}
    (hf : ∀ n, n.Safe x look → (f n).Safe x look) : Searched x look (g.map f) := by
  refine ⟨h.clean, fun s hs => ?_⟩
  obtain ⟨n, hn, rfl⟩ := Gen.mem_map.1 hs
  exact hf n (h.safe n hn)

theorem Gen.map_ne_nil {α β : Type} {g : Gen α} {f : α → β} (h : g.items ≠ []) : (g.map f).items ≠ [] := by
  simpa [Gen.map] using h

mutual
/-- the search of a rule raises nothing -/
theorem Node.solutions_safe {x : Ctx} {look : Bool} (hx : x.Sound look) {o : Orders} (ho : o.Lawful) : ∀ n : Node,
    n.Loaded x → n.Safe x look → SearchOk x o look n
  | .course s d, _, h => by
    simp only [Node.Safe] at h
    obtain ⟨h1, h2⟩ := courseSolutions_clean (x := x) (d := d) h.inserts
    refine ⟨⟨?_, ?_⟩, fun _ => ?_⟩
    · simpa [Node.solutions, Gen.map] using h1
    · intro r hr
      simp only [Node.solutions] at hr
      obtain ⟨r', hr', rfl⟩ := Gen.mem_map.1 hr
      simp only [Node.Safe]
      exact courseSolutions_safe hx h r' hr'
    · simpa [Node.solutions, Gen.map] using h2
  | .query s d, hl, h => by
    simp only [Node.Safe] at h
    simp only [Node.Loaded] at hl
    obtain ⟨h1, h2, h3⟩ := querySolutions_clean hx ho h (by rw [hl.1]; simp)
    refine ⟨⟨?_, ?_⟩, fun _ => ?_⟩
    · simpa [Node.solutions, Gen.map] using h1
    · intro r hr
      simp only [Node.solutions] at hr
      obtain ⟨r', hr', rfl⟩ := Gen.mem_map.1 hr
      simp only [Node.Safe]
      exact (h3 r' hr').1
    · simpa [Node.solutions, Gen.map] using h2
  | .count s d items, hl, h => by
    have hsafe := h
    have hload := hl
    simp only [Node.Safe] at h
    simp only [Node.Loaded] at hl
    obtain ⟨q1, q2⟩ := plainCountSolutions_safe hsafe hload (Node.solutions_safeList hx ho items hl.2.2 h.2.2.2)
    exact ⟨by simpa only [Node.solutions] using q1, fun _ => by simpa only [Node.solutions] using q2⟩
  | .req s d r, hl, h => by
    simp only [Node.Safe] at h
    simp only [Node.Loaded] at hl
    have mk : ∀ b r', Node.SafeOpt x look r' → (reqSolution d b r').Safe x look := by
      intro b r' hr'
      simp only [reqSolution, Node.Safe]
      exact ⟨h.1, by simp, hr'⟩
    have one : ∀ n : Node, n.Safe x look → Searched x look (Gen.one n) := by
      intro n hn
      refine ⟨rfl, fun s hs => ?_⟩
      simp only [Gen.one, List.mem_singleton] at hs
      exact hs ▸ hn
    have ih := Node.solutions_safeOpt hx ho r hl.2.2 h.2.2
    constructor
    · simp only [Node.solutions]
      split
      · exact one _ (mk _ _ h.2.2)
      · cases r with
        | none => exact one _ (mk _ _ (by simp [Node.SafeOpt]))
        | some n =>
          simp only [Node.solutionsOpt]
          exact (ih n rfl).searched.map (fun n' hn' => mk _ _ (by simpa [Node.SafeOpt] using hn'))
    · intro hb
      simp only [Node.solutions]
      split
      · simp [Gen.one]
      · rename_i hw
        cases r with
        | none => simp [Node.solutionsOpt, Gen.one]
        | some n =>
          simp only [Node.solutionsOpt]
          simp only [Node.Bears, Node.BearsReq] at hb
          exact Gen.map_ne_nil ((ih n rfl).yields (hb.resolve_left hw))
  | .cond s d t f, hl, h => by
    simp only [Node.Safe] at h
    simp only [Node.Loaded] at hl
    have iht := Node.solutions_safe hx ho t hl.2.2.1 h.2.1
    have ihf := Node.solutions_safeOpt hx ho f hl.2.2.2 h.2.2
    have nilOk : Searched x look Gen.nil := ⟨rfl, by simp [Gen.nil]⟩
    rcases hc : d.condition with _ | b
    · exact ⟨by simp only [Node.solutions, hc]; exact nilOk, by simp [Node.Bears, hc]⟩
    · cases b with
      | true =>
        refine ⟨?_, fun hb => ?_⟩
        · simp only [Node.solutions, hc]
          exact iht.searched.map (fun n hn => by simp only [Node.Safe]; exact ⟨h.1, hn, h.2.2⟩)
        · simp only [Node.solutions, hc]
          simp only [Node.Bears, hc] at hb
          exact Gen.map_ne_nil (iht.yields hb)
      | false =>
        cases f with
        | none => exact ⟨by simp only [Node.solutions, hc, Node.solutionsOpt]; exact nilOk, by simp [Node.Bears, hc, Node.BearsElse]⟩
        | some n =>
          refine ⟨?_, fun hb => ?_⟩
          · simp only [Node.solutions, hc, Node.solutionsOpt]
            exact (ihf n rfl).searched.map (fun n hn => by
              simp only [Node.Safe, Node.SafeOpt]
              exact ⟨h.1, h.2.1, hn⟩)
          · simp only [Node.solutions, hc, Node.solutionsOpt]
            simp only [Node.Bears, hc, Node.BearsElse] at hb
            exact Gen.map_ne_nil ((ihf n rfl).yields hb)
  | .prof s d c, _, h => by
    simp only [Node.Safe] at h
    obtain ⟨h1, h2⟩ := profSolutions_safe hx h
    exact ⟨by simpa only [Node.solutions] using h1, fun _ => by simpa only [Node.solutions] using h2⟩
theorem Node.solutions_safeList {x : Ctx} {look : Bool} (hx : x.Sound look) {o : Orders} (ho : o.Lawful) : ∀ ns : List Node,
    Node.LoadedList x ns → Node.SafeList x look ns → ∀ n ∈ ns, SearchOk x o look n
  | [], _, _ => by simp
  | n :: ns, hl, h => by
    simp only [Node.SafeList] at h
    simp only [Node.LoadedList] at hl
    have h1 := Node.solutions_safe hx ho n hl.1 h.1
    intro m hm
    rcases List.mem_cons.1 hm with rfl | hm
    · exact h1
    · exact Node.solutions_safeList hx ho ns hl.2 h.2 m hm
theorem Node.solutions_safeOpt {x : Ctx} {look : Bool} (hx : x.Sound look) {o : Orders} (ho : o.Lawful) : ∀ n : Option Node,
    Node.LoadedOpt x n → Node.SafeOpt x look n → ∀ m, n = some m → SearchOk x o look m
  | none, _, _ => by simp
  | some n, hl, h => by
    intro m hm
    cases hm
    exact Node.solutions_safe hx ho n hl h
end

/-! ### Audits -/

mutual
theorem Node.claims_safe {x : Ctx} {look : Bool} : ∀ n : Node, n.Safe x look → ∀ cl ∈ n.claims, x.Knows cl.course
  | .course s d, h => by
    simp only [Node.Safe] at h
    exact courseClaims_knows h
  | .query s d, h => by
    simp only [Node.Safe] at h
    intro cl hcl
    simp only [Node.claims, queryClaims] at hcl
    split at hcl
    · exact h.claims cl hcl
    · simp at hcl
  | .count s d items, h => by
    simp only [Node.Safe] at h
    exact Node.claims_safeList items h.2.2.2
  | .req s d r, h => by
    simp only [Node.Safe] at h
    intro cl hcl
    simp only [Node.claims] at hcl
    split at hcl
    · simp at hcl
    · exact Node.claims_safeOpt r h.2.2 cl hcl
  | .cond s d t f, h => by
    simp only [Node.Safe] at h
    intro cl hcl
    simp only [Node.claims] at hcl
    split at hcl
    · exact Node.claims_safe t h.2.1 cl hcl
    · exact Node.claims_safeOpt f h.2.2 cl hcl
    · simp at hcl
  | .prof s d c, h => by
    simp only [Node.Safe] at h
    intro cl hcl
    simp only [Node.claims, profClaims] at hcl
    split at hcl
    · exact courseClaims_knows (h.course _ rfl) cl hcl
    · simp at hcl
theorem Node.claims_safeList {x : Ctx} {look : Bool} : ∀ ns : List Node, Node.SafeList x look ns →
    ∀ cl ∈ Node.claimsList ns, x.Knows cl.course
  | [], _ => by simp [Node.claimsList]
  | n :: ns, h => by
    simp only [Node.SafeList] at h
    intro cl hcl
    simp only [Node.claimsList, List.mem_append] at hcl
    rcases hcl with hcl | hcl
    · exact Node.claims_safe n h.1 cl hcl
    · exact Node.claims_safeList ns h.2 cl hcl
theorem Node.claims_safeOpt {x : Ctx} {look : Bool} : ∀ n : Option Node, Node.SafeOpt x look n →
    ∀ cl ∈ Node.claimsOpt n, x.Knows cl.course
  | none, _ => by simp [Node.claimsOpt]
  | some n, h => Node.claims_safe n h
end

theorem matched_safe {x : Ctx} {look : Bool} {n : Node} (h : n.Safe x look) : ∀ c ∈ n.matched, x.Knows c := by
  intro c hc
  simp only [Node.matched, matchedOf, List.mem_dedup, List.mem_map, List.mem_filter] at hc
  obtain ⟨cl, ⟨hcl, _⟩, rfl⟩ := hc
  exact Node.claims_safe n h cl hcl

theorem matchedItems_safe {x : Ctx} {look : Bool} {o : Orders} (ho : o.Lawful) {rs : List Node}
    (h : ∀ r ∈ rs, r.Safe x look) : ∀ i ∈ matchedItems o rs, x.Holds .course i := by
  intro i hi
  simp only [matchedItems, List.mem_flatMap, List.mem_map] at hi
  obtain ⟨r, hr, c, hc, rfl⟩ := hi
  exact matched_safe (h r hr) c ((ho.2.1 r.path r.matched).mem_iff.1 hc)

/-- what an audit gives -/
def AuditsSafely (x : Ctx) (look : Bool) (e : Except Err (Node × ClaimTable)) : Prop :=
  ∃ r t', e = .ok (r, t') ∧ r.Safe x look ∧ TableOk x look t'

mutual
/-- the audit of a solution raises nothing -/
theorem Node.audit_safe {x : Ctx} {look : Bool} (hx : x.Sound look) {o : Orders} (ho : o.Lawful) : ∀ n : Node,
    n.Safe x look → ∀ t, TableOk x look t → AuditsSafely x look (n.audit x o t)
  | .course s d, h, t, ht => by
    cases s with
    | solution =>
      simp only [Node.Safe] at h
      obtain ⟨d', t', h1, h2, h3, _⟩ := courseAudit_safe h ht
      exact ⟨.course .result d', t', by simp only [Node.audit, h1], by simpa only [Node.Safe] using h2, h3⟩
    | rule => exact ⟨_, _, by simp only [Node.audit], h, ht⟩
    | result => exact ⟨_, _, by simp only [Node.audit], h, ht⟩
  | .query s d, h, t, ht => by
    cases s with
    | solution =>
      simp only [Node.Safe] at h
      obtain ⟨d', t', h1, h2, h3, _⟩ := queryAudit_safe hx h ht
      exact ⟨.query .result d', t', by simp only [Node.audit, h1], by simpa only [Node.Safe] using h2, h3⟩
    | rule => exact ⟨_, _, by simp only [Node.audit], h, ht⟩
    | result => exact ⟨_, _, by simp only [Node.audit], h, ht⟩
  | .count s d items, h, t, ht => by
    cases s with
    | solution =>
      simp only [Node.Safe] at h
      simp only [Node.audit]
      split
      · refine ⟨_, _, rfl, ?_, ht⟩
        simp only [Node.Safe]
        exact ⟨h.1, by simp, h.2.2.1, h.2.2.2⟩
      · obtain ⟨rs, t', h1, h2, h3, h4⟩ := Node.audit_safeList hx ho items h.2.2.2 t ht
        have hrs := Node.safeList_iff.1 h2
        obtain ⟨as, has⟩ := auditAssertions_safe hx (matchedItems_safe ho hrs) d.audits (h.2.1 (by simp))
        simp only [h1, has]
        refine ⟨_, _, rfl, ?_, h4⟩
        simp only [Node.Safe]
        refine ⟨h.1, by simp, fun q1 q2 q3 q4 => h.2.2.1 q1 q2 q3 ?_, h2⟩
        rw [q4] at h3
        exact List.length_eq_zero_iff.1 h3.symm
    | rule => exact ⟨_, _, by simp only [Node.audit], h, ht⟩
    | result => exact ⟨_, _, by simp only [Node.audit], h, ht⟩
  | .req s d r, h, t, ht => by
    cases s with
    | solution =>
      simp only [Node.Safe] at h
      simp only [Node.audit]
      split
      · refine ⟨_, _, rfl, ?_, ht⟩
        simp only [Node.Safe]
        exact ⟨h.1, by simp, h.2.2⟩
      · obtain ⟨r', t', h1, h2, h3⟩ := Node.audit_safeOpt hx ho r h.2.2 t ht
        simp only [h1]
        refine ⟨_, _, rfl, ?_, h3⟩
        simp only [Node.Safe]
        exact ⟨h.1, by simp, h2⟩
    | rule => exact ⟨_, _, by simp only [Node.audit], h, ht⟩
    | result => exact ⟨_, _, by simp only [Node.audit], h, ht⟩
  | .cond s d th f, h, t, ht => by
    cases s with
    | solution =>
      simp only [Node.Safe] at h
      simp only [Node.audit]
      split
      · obtain ⟨r', t', h1, h2, h3⟩ := Node.audit_safe hx ho th h.2.1 t ht
        simp only [h1]
        refine ⟨_, _, rfl, ?_, h3⟩
        simp only [Node.Safe]
        exact ⟨h.1, h2, h.2.2⟩
      · obtain ⟨r', t', h1, h2, h3⟩ := Node.audit_safeOpt hx ho f h.2.2 t ht
        simp only [h1]
        refine ⟨_, _, rfl, ?_, h3⟩
        simp only [Node.Safe]
        exact ⟨h.1, h.2.1, h2⟩
      · refine ⟨_, _, rfl, ?_, ht⟩
        simp only [Node.Safe]
        exact h
    | rule => exact ⟨_, _, by simp only [Node.audit], h, ht⟩
    | result => exact ⟨_, _, by simp only [Node.audit], h, ht⟩
  | .prof s d c, h, t, ht => by
    cases s with
    | solution =>
      simp only [Node.Safe] at h
      simp only [Node.audit, profAudit]
      split
      · refine ⟨_, _, rfl, ?_, ht⟩
        simp only [Node.Safe]
        exact ⟨h.canonical, h.known, h.course⟩
      · obtain ⟨st, hst⟩ := h.known
        simp only [hst]
        split
        · rename_i cd
          obtain ⟨d', t', h1, h2, h3, _⟩ := courseAudit_safe (h.course _ rfl) ht
          simp only [h1]
          refine ⟨_, _, rfl, ?_, h3⟩
          simp only [Node.Safe]
          refine ⟨h.canonical, h.known, fun q hq => ?_⟩
          cases hq
          exact h2
        · refine ⟨_, _, rfl, ?_, ht⟩
          simp only [Node.Safe]
          exact ⟨h.canonical, h.known, h.course⟩
    | rule => exact ⟨_, _, by simp only [Node.audit], h, ht⟩
    | result => exact ⟨_, _, by simp only [Node.audit], h, ht⟩
theorem Node.audit_safeList {x : Ctx} {look : Bool} (hx : x.Sound look) {o : Orders} (ho : o.Lawful) : ∀ ns : List Node,
    Node.SafeList x look ns → ∀ t, TableOk x look t →
    ∃ rs t', Node.auditList x o ns t = .ok (rs, t') ∧ Node.SafeList x look rs ∧ rs.length = ns.length ∧ TableOk x look t'
  | [], h, t, ht => ⟨[], t, rfl, h, rfl, ht⟩
  | n :: ns, h, t, ht => by
    simp only [Node.SafeList] at h
    obtain ⟨r, t1, h1, h2, h3⟩ := Node.audit_safe hx ho n h.1 t ht
    obtain ⟨rs, t2, q1, q2, q3, q4⟩ := Node.audit_safeList hx ho ns h.2 t1 h3
    refine ⟨r :: rs, t2, by simp only [Node.auditList, h1, q1], ?_, by simp [q3], q4⟩
    simp only [Node.SafeList]
    exact ⟨h2, q2⟩
theorem Node.audit_safeOpt {x : Ctx} {look : Bool} (hx : x.Sound look) {o : Orders} (ho : o.Lawful) : ∀ n : Option Node,
    Node.SafeOpt x look n → ∀ t, TableOk x look t →
    ∃ r t', Node.auditOpt x o n t = .ok (r, t') ∧ Node.SafeOpt x look r ∧ TableOk x look t'
  | none, h, t, ht => ⟨none, t, rfl, h, ht⟩
  | some n, h, t, ht => by
    obtain ⟨r, t', h1, h2, h3⟩ := Node.audit_safe hx ho n h t ht
    exact ⟨some r, t', by simp only [Node.auditOpt, h1], h2, h3⟩
end

/-! ### Ranks -/

theorem countRank_ok {d : CountData} {ranks : List (Rat × Rat)} (h : d.count = 1 → d.atMost = true → ranks ≠ []) :
    ∃ r, countRank d ranks = .ok r := by
  unfold countRank
  split
  · exact ⟨_, rfl⟩
  · dsimp only
    split
    · rename_i e he
      split at he
      · cases he
      · split at he
        · rename_i hc
          have := h hc.1 hc.2
          cases hr : ranks with
          | nil => exact absurd hr this
          | cons a l => rw [hr] at he; simp [pyMax] at he
        · cases he
    · exact ⟨_, rfl⟩

mutual
/-- the rank of a result raises nothing -/
theorem Node.rank_safe {x : Ctx} {look : Bool} : ∀ n : Node, n.Safe x look → ∃ r, n.rank = .ok r
  | .course s d, _ => ⟨_, rfl⟩
  | .query s d, _ => ⟨_, rfl⟩
  | .count s d items, h => by
    simp only [Node.Safe] at h
    simp only [Node.rank]
    split
    · exact ⟨_, rfl⟩
    · rename_i hov
      obtain ⟨rs, h1, h2⟩ := Node.rank_safeList items h.2.2.2
      simp only [h1]
      refine countRank_ok (fun q1 q2 q3 => h.2.2.1 q1 q2 (by simpa using hov) ?_)
      rw [q3] at h2
      exact List.length_eq_zero_iff.1 h2.symm
  | .req s d r, h => by
    simp only [Node.Safe] at h
    simp only [Node.rank]
    split
    · exact ⟨_, rfl⟩
    · split
      · exact ⟨_, rfl⟩
      · cases r with
        | none => exact ⟨_, rfl⟩
        | some n =>
          obtain ⟨⟨r, m⟩, hr⟩ := Node.rank_safeOpt (some n) h.2.2 n rfl
          simp only [Node.rankReq, hr]
          split <;> exact ⟨_, rfl⟩
  | .cond s d t f, h => by
    simp only [Node.Safe] at h
    simp only [Node.rank]
    split
    · exact Node.rank_safe t h.2.1
    · cases f with
      | none => exact ⟨_, rfl⟩
      | some n => exact Node.rank_safeOpt (some n) h.2.2 n rfl
    · exact ⟨_, rfl⟩
  | .prof s d c, _ => ⟨_, rfl⟩
theorem Node.rank_safeList {x : Ctx} {look : Bool} : ∀ ns : List Node, Node.SafeList x look ns →
    ∃ rs, Node.rankList ns = .ok rs ∧ rs.length = ns.length
  | [], _ => ⟨[], rfl, rfl⟩
  | n :: ns, h => by
    simp only [Node.SafeList] at h
    obtain ⟨r, hr⟩ := Node.rank_safe n h.1
    obtain ⟨rs, hrs, hl⟩ := Node.rank_safeList ns h.2
    exact ⟨r :: rs, by simp only [Node.rankList, hr, hrs], by simp [hl]⟩
theorem Node.rank_safeOpt {x : Ctx} {look : Bool} : ∀ n : Option Node, Node.SafeOpt x look n →
    ∀ m, n = some m → ∃ r, m.rank = .ok r
  | none, _ => by simp
  | some n, h => by
    intro m hm
    cases hm
    exact Node.rank_safe n h
end


/-! ### The best solution -/

theorem TableOk.set {x : Ctx} {look : Bool} {t : ClaimTable} (h : TableOk x look t) {k : String} {v : List Claim}
    (hk : look = true → x.Listed k) : TableOk x look (t.set k v) := by
  intro hl k' hk'
  have hmem : ∀ t : ClaimTable, k' ∈ (t.set k v).map (·.1) → k' = k ∨ k' ∈ t.map (·.1) := by
    intro t
    induction t with
    | nil => simp [ClaimTable.set]
    | cons e t ih =>
      obtain ⟨a, b⟩ := e
      unfold ClaimTable.set
      split
      · intro q
        exact Or.inr (by simpa using q)
      · intro q
        simp only [List.map_cons, List.mem_cons] at q ⊢
        rcases q with q | q
        · exact Or.inr (Or.inl q)
        · rcases ih q with q | q
          · exact Or.inl q
          · exact Or.inr (Or.inr q)
  rcases hmem t hk' with rfl | h'
  · exact hk hl
  · exact h hl k' h'

theorem TableOk.merge {x : Ctx} {look : Bool} {a b : ClaimTable} (ha : TableOk x look a) (hb : TableOk x look b) :
    TableOk x look (mergeTables a b) := by
  unfold mergeTables
  induction b generalizing a with
  | nil => exact ha
  | cons e b ih =>
    rw [List.foldl_cons]
    refine ih (ha.set (fun hl => hb hl e.1 (by simp))) (fun hl k hk => hb hl k ?_)
    simp only [List.map_cons, List.mem_cons]
    exact Or.inr hk

theorem bestLoop_safe {x : Ctx} {look : Bool} (hx : x.Sound look) {o : Orders} (ho : o.Lawful) : ∀ (ss : List Node)
    (best : Option (Node × Rat)) (inner : Option ClaimTable), (∀ s ∈ ss, s.Safe x look) →
    (∀ b, best = some b → b.1.Safe x look) → (∀ i, inner = some i → TableOk x look i) →
    ((best.isSome ∧ inner.isSome) ∨ ss ≠ []) →
    ∃ b i, bestLoop x o none ss best inner = .ok (some b, some i) ∧ b.1.Safe x look ∧ TableOk x look i
  | [], best, inner, _, hb, hi, hne => by
    obtain ⟨h1, h2⟩ := hne.resolve_right (by simp)
    obtain ⟨b, rfl⟩ := Option.isSome_iff_exists.1 h1
    obtain ⟨i, rfl⟩ := Option.isSome_iff_exists.1 h2
    exact ⟨b, i, rfl, hb b rfl, hi i rfl⟩
  | s :: ss, best, inner, hs, hb, hi, _ => by
    obtain ⟨r, t, h1, h2, h3⟩ := Node.audit_safe hx ho s (hs s List.mem_cons_self) [] (TableOk.nil x look)
    obtain ⟨⟨rank, m⟩, h4⟩ := Node.rank_safe r h2
    unfold bestLoop
    simp only [h1, h4]
    split
    · exact ⟨(r, rank), t, rfl, h2, h3⟩
    · refine bestLoop_safe hx ho ss _ _ (fun s' h' => hs s' (List.mem_cons_of_mem _ h')) ?_ ?_ (Or.inl ⟨rfl, rfl⟩)
      · intro b hb'
        simp only [Option.some.injEq] at hb'
        subst hb'
        split
        · exact h2
        · split
          · exact h2
          · exact hb _ rfl
      · intro i hi'
        cases hi'
        exact h3

/-- the best solution of a rule is found -/
theorem findBest_safe {x : Ctx} {look : Bool} (hx : x.Sound look) {o : Orders} (ho : o.Lawful) {n : Node}
    (hl : n.Loaded x) (h : n.Safe x look) (hb : n.Bears x) {t : ClaimTable} (ht : TableOk x look t) (merge : Bool) :
    ∃ r t', findBest x o n t merge = .ok (some r, t') ∧ r.Safe x look ∧ TableOk x look t' := by
  obtain ⟨⟨q1, q2⟩, q3⟩ := Node.solutions_safe hx ho n hl h
  obtain ⟨b, i, h1, h2, h3⟩ := bestLoop_safe hx ho (n.solutions x o).items none none q2 (by simp) (by simp) (Or.inr (q3 hb))
  unfold findBest
  simp only [q1, h1]
  cases merge with
  | true => exact ⟨b.1, _, rfl, h2, ht.merge h3⟩
  | false => exact ⟨b.1, _, rfl, h2, ht⟩

theorem solveIndependent_safe {x : Ctx} {look : Bool} (hx : x.Sound look) {o : Orders} (ho : o.Lawful) : ∀ (ns : List Node),
    (∀ n ∈ ns, n.Loaded x ∧ n.Safe x look ∧ n.Bears x) → ∀ t, TableOk x look t →
    ∃ rs t', solveIndependent x o ns t = .ok (rs, t') ∧ TableOk x look t' ∧ rs.map (·.1) = ns ∧
      ∀ p ∈ rs, ∃ r, p.2 = some r ∧ r.Safe x look
  | [], _, t, ht => ⟨[], t, rfl, ht, rfl, by simp⟩
  | n :: ns, h, t, ht => by
    obtain ⟨a1, a2, a3⟩ := h n List.mem_cons_self
    obtain ⟨r, t1, h1, h2, h3⟩ := findBest_safe hx ho a1 a2 a3 ht true
    obtain ⟨rs, t2, q1, q2, q3, q4⟩ := solveIndependent_safe hx ho ns (fun m hm => h m (List.mem_cons_of_mem _ hm)) t1 h3
    refine ⟨(n, some r) :: rs, t2, by simp only [solveIndependent, h1, q1], q2, by simp [q3], ?_⟩
    intro p hp
    rcases List.mem_cons.1 hp with rfl | hp
    · exact ⟨r, rfl, h2⟩
    · exact q4 p hp

theorem matchTable_safe {x : Ctx} {look : Bool} (hx : x.Sound look) : ∀ ns : List Node,
    (∀ n ∈ ns, n.Loaded x ∧ n.Safe x look) → ∃ t, matchTable x ns = .ok t
  | [], _ => ⟨[], rfl⟩
  | n :: ns, h => by
    obtain ⟨l, hl⟩ := Node.matches_safe hx n (h n List.mem_cons_self).1 (h n List.mem_cons_self).2
    obtain ⟨t, ht⟩ := matchTable_safe hx ns (fun m hm => h m (List.mem_cons_of_mem _ hm))
    exact ⟨(n, l) :: t, by simp only [matchTable, hl, ht]⟩

theorem findIndependent_safe {x : Ctx} {look : Bool} (hx : x.Sound look) {ns : List Node}
    (h : ∀ n ∈ ns, n.Loaded x ∧ n.Safe x look) :
    ∃ i c, findIndependent x ns = .ok (i, c) ∧ (∀ n ∈ i, n ∈ ns) ∧ (∀ n ∈ c, n ∈ ns) := by
  obtain ⟨t, ht⟩ := matchTable_safe hx ns h
  unfold findIndependent
  simp only [ht]
  split
  · exact ⟨ns, [], rfl, fun _ h => h, by simp⟩
  · exact ⟨_, _, rfl, fun n hn => (List.mem_filter.1 hn).1, fun n hn => (List.mem_filter.1 hn).1⟩

/-- the search of a topmost count raises nothing -/
theorem topCountSolutions_safe {x : Ctx} {look : Bool} (hx : x.Sound look) {o : Orders} (ho : o.Lawful) {s : Stage}
    {d : CountData} {items : List Node} (hl : (Node.count s d items).Loaded x) (h : (Node.count s d items).Safe x look)
    {t : ClaimTable} (ht : TableOk x look t) :
    Searched x look (topCountSolutions x o d items t).1 ∧ (topCountSolutions x o d items t).1.items ≠ [] ∧
      TableOk x look (topCountSolutions x o d items t).2 := by
  have hload := hl
  have hsafe := h
  simp only [Node.Loaded] at hl
  simp only [Node.Safe] at h
  have hli := Node.loadedList_iff.1 hl.2.2
  have hsi := Node.safeList_iff.1 h.2.2.2
  have hplain := plainCountSolutions_safe (o := o) hsafe hload (Node.solutions_safeList hx ho items hl.2.2 h.2.2.2)
  have haud := h.2.1 (by rw [hl.1]; simp)
  unfold topCountSolutions
  split
  · refine ⟨⟨rfl, fun r hr => ?_⟩, by simp [Gen.one], ht⟩
    simp only [Gen.one, List.mem_singleton] at hr
    subst hr
    simp only [Node.Safe]
    exact ⟨h.1, fun _ => haud, by simp, h.2.2.2⟩
  · obtain ⟨pot, hpot⟩ := filterE_total (f := fun n : Node => n.hasPotential x) items (fun n hn => by
      obtain ⟨b, hb, _⟩ := Node.potential_safe n (hli n hn) (hsi n hn)
      exact ⟨b, hb⟩)
    have hpm : ∀ n ∈ pot, n ∈ items ∧ n.Bears x := by
      intro n hn
      obtain ⟨q1, q2⟩ := ((mem_filterE hpot).2 n).1 hn
      obtain ⟨b, hb, hbb⟩ := Node.potential_safe n (hli n q1) (hsi n q1)
      rw [hb] at q2
      exact ⟨q1, hbb (by simpa using q2)⟩
    simp only [hpot]
    split
    · exact ⟨hplain.1, hplain.2, ht⟩
    · obtain ⟨ind, cod, h1, h2, h3⟩ := findIndependent_safe hx (ns := pot)
        (fun n hn => ⟨hli n (hpm n hn).1, hsi n (hpm n hn).1⟩)
      obtain ⟨solved, t', q1, q2, q3, q4⟩ := solveIndependent_safe hx ho (o.children ind) (fun n hn => by
        have hm := hpm n (h2 n ((ho.2.2 ind).mem_iff.1 hn))
        exact ⟨hli n hm.1, hsi n hm.1, hm.2⟩) t ht
      simp only [h1, q1]
      have hres : ∀ r ∈ solved.filterMap (·.2), r.Safe x look := by
        intro r hr
        obtain ⟨p, hp, hpr⟩ := List.mem_filterMap.1 hr
        obtain ⟨r', h4, h5⟩ := q4 p hp
        rw [h4] at hpr
        cases hpr
        exact h5
      obtain ⟨results, hsort⟩ := sortByPath_ok (key := Node.path) _ (fun n hn => (hres n hn).canonical)
      obtain ⟨sorted, hsort2⟩ := sortByPath_ok (key := Node.path) cod (fun n hn => (hsi n (hpm n (h3 n hn)).1).canonical)
      simp only [hsort, hsort2]
      have hperm := sortByPath_perm hsort
      obtain ⟨z1, z2⟩ := countSolutions_safe (nItems := items.length)
        (potential := sorted.map (fun n => (n, n.solutions x o))) (results := results)
        (others := items.filter (fun n => !((solved.filter (·.2.isSome)).map (·.1.path)).contains n.path)) h.1 haud (by
          intro p hp
          obtain ⟨n, hn, rfl⟩ := List.mem_map.1 hp
          have hm := hpm n (h3 n ((sortByPath_perm hsort2).mem_iff.1 hn))
          have := Node.solutions_safe hx ho n (hli n hm.1) (hsi n hm.1)
          exact ⟨this.searched, this.yields hm.2⟩)
        (fun n hn => hres n (hperm.mem_iff.1 hn)) (fun n hn => hsi n (List.mem_filter.1 hn).1) (by
          intro c1 c2 h0
          obtain ⟨h5, h6⟩ := List.append_eq_nil_iff.1 h0
          apply h.2.2.1 c1 c2 hl.2.1
          have hsolved : solved = [] := by
            cases hsd : solved with
            | nil => rfl
            | cons p ps =>
              obtain ⟨r, hr, _⟩ := q4 p (by rw [hsd]; exact List.mem_cons_self)
              have hin : r ∈ solved.filterMap (·.2) :=
                List.mem_filterMap.2 ⟨p, by rw [hsd]; exact List.mem_cons_self, hr⟩
              rw [← hperm.mem_iff, h6] at hin
              simp at hin
          rw [hsolved] at h5
          simpa using h5)
      exact ⟨z1, z2, q2⟩

mutual
/-- the search of a topmost rule raises nothing -/
theorem Node.topSolutions_safe {x : Ctx} {look : Bool} (hx : x.Sound look) {o : Orders} (ho : o.Lawful) : ∀ n : Node,
    n.Loaded x → n.Safe x look → ∀ t, TableOk x look t →
    Searched x look (n.topSolutions x o t).1 ∧ TableOk x look (n.topSolutions x o t).2
  | .count s d items, hl, h, t, ht => by
    have := topCountSolutions_safe hx ho hl h ht
    simp only [Node.topSolutions]
    exact ⟨this.1, this.2.2⟩
  | .cond s d th f, hl, h, t, ht => by
    simp only [Node.Safe] at h
    simp only [Node.Loaded] at hl
    have iht := Node.topSolutions_safe hx ho th hl.2.2.1 h.2.1 t ht
    have ihf := Node.topSolutions_safeOpt hx ho f hl.2.2.2 h.2.2 t ht
    simp only [Node.topSolutions]
    have nilOk : Searched x look Gen.nil := ⟨rfl, by simp [Gen.nil]⟩
    split
    · exact ⟨iht.1.map (fun n hn => by simp only [Node.Safe]; exact ⟨h.1, hn, h.2.2⟩), iht.2⟩
    · split
      · rename_i g t' hg
        obtain ⟨q1, q2⟩ := ihf (g, t') hg
        exact ⟨q1.map (fun n hn => by simp only [Node.Safe, Node.SafeOpt]; exact ⟨h.1, h.2.1, hn⟩), q2⟩
      · exact ⟨nilOk, ht⟩
    · exact ⟨nilOk, ht⟩
  | .course s d, hl, h, t, ht => ⟨(Node.solutions_safe hx ho _ hl h).searched, ht⟩
  | .query s d, hl, h, t, ht => ⟨(Node.solutions_safe hx ho _ hl h).searched, ht⟩
  | .req s d r, hl, h, t, ht => ⟨(Node.solutions_safe hx ho _ hl h).searched, ht⟩
  | .prof s d c, hl, h, t, ht => ⟨(Node.solutions_safe hx ho _ hl h).searched, ht⟩
theorem Node.topSolutions_safeOpt {x : Ctx} {look : Bool} (hx : x.Sound look) {o : Orders} (ho : o.Lawful) : ∀ n : Option Node,
    Node.LoadedOpt x n → Node.SafeOpt x look n → ∀ t, TableOk x look t → ∀ p, Node.topSolutionsOpt x o n t = some p →
    Searched x look p.1 ∧ TableOk x look p.2
  | none, _, _, _, _ => by simp [Node.topSolutionsOpt]
  | some n, hl, h, t, ht => by
    have := Node.topSolutions_safe hx ho n hl h t ht
    intro p hp
    simp only [Node.topSolutionsOpt, Option.some.injEq] at hp
    exact hp ▸ this
end

/-! ### Estimates -/

theorem sumE_total : ∀ l : List (Except Err Int), (∀ e ∈ l, ∃ n, e = .ok n) → ∃ n, sumE l = .ok n
  | [], _ => ⟨0, rfl⟩
  | e :: l, h => by
    obtain ⟨n, rfl⟩ := h e List.mem_cons_self
    obtain ⟨m, hm⟩ := sumE_total l (fun e' h' => h e' (List.mem_cons_of_mem _ h'))
    exact ⟨n + m, by simp only [sumE, hm]⟩

theorem seqE_total {α : Type} : ∀ l : List (Except Err α), (∀ e ∈ l, ∃ n, e = .ok n) → ∃ n, seqE l = .ok n
  | [], _ => ⟨[], rfl⟩
  | e :: l, h => by
    obtain ⟨n, rfl⟩ := h e List.mem_cons_self
    obtain ⟨m, hm⟩ := seqE_total l (fun e' h' => h e' (List.mem_cons_of_mem _ h'))
    exact ⟨n :: m, by simp only [seqE, hm]⟩

theorem countCombinations_total {potential : List (Node × Except Err Int)} (h : ∀ p ∈ potential, ∃ n, p.2 = .ok n)
    (size : Nat) : ∃ n, countCombinations potential size = .ok n := by
  unfold countCombinations
  refine sumE_total _ (fun e he => ?_)
  obtain ⟨sel, hsel, rfl⟩ := List.mem_map.1 he
  obtain ⟨es, hes⟩ := seqE_total (sel.map (·.2)) (fun e he => by
    obtain ⟨p, hp, rfl⟩ := List.mem_map.1 he
    exact h p ((mem_combos.1 hsel).1.subset hp))
  exact ⟨_, by rw [hes]⟩

theorem countEstimate_total {d : CountData} {nItems : Nat} {potential : List (Node × Except Err Int)}
    (h : ∀ p ∈ potential, ∃ n, p.2 = .ok n) : ∃ n, countEstimate d nItems potential = .ok n := by
  obtain ⟨n, hn⟩ := sumE_total ((countSizes d nItems).map (countCombinations potential)) (fun e he => by
    obtain ⟨s, _, rfl⟩ := List.mem_map.1 he
    exact countCombinations_total h s)
  obtain ⟨m, hm⟩ := countCombinations_total h potential.length
  unfold countEstimate
  simp only [hn, hm]
  split
  · rename_i e he
    split at he <;> cases he
  · exact ⟨_, rfl⟩

theorem plainCountEstimate_total {x : Ctx} {look : Bool} {d : CountData} {items : List Node}
    (hli : ∀ n ∈ items, n.Loaded x ∧ n.Safe x look) {ests : Node → Except Err Int} (he : ∀ n ∈ items, ∃ m, ests n = .ok m) :
    ∃ n, plainCountEstimate x d items (items.map ests) = .ok n := by
  unfold plainCountEstimate
  split
  · exact ⟨1, rfl⟩
  · obtain ⟨pot, hpot⟩ := filterE_total (f := fun p : Node × Except Err Int => p.1.hasPotential x)
      (items.zip (items.map ests)) (fun p hp => by
        obtain ⟨h1, h2⟩ := hli _ (mem_zip_map hp).1
        obtain ⟨b, hb, _⟩ := Node.potential_safe p.1 h1 h2
        exact ⟨b, hb⟩)
    have hpm : ∀ p ∈ pot, p.1 ∈ items ∧ p.2 = ests p.1 := fun p hp => mem_zip_map (((mem_filterE hpot).2 p).1 hp).1
    obtain ⟨sorted, hsort⟩ := sortByPath_ok (key := fun p : Node × Except Err Int => p.1.path) pot
      (fun p hp => (hli _ (hpm p hp).1).2.canonical)
    simp only [hpot, hsort]
    refine countEstimate_total (fun p hp => ?_)
    obtain ⟨h1, h2⟩ := hpm p ((sortByPath_perm hsort).mem_iff.1 hp)
    rw [h2]
    exact he _ h1

theorem Node.estimateList_eq (x : Ctx) (o : Orders) (ns : List Node) :
    Node.estimateList x o ns = ns.map (fun n => n.estimate x o) := by
  induction ns with
  | nil => rfl
  | cons n ns ih => simp [Node.estimateList, ih]

mutual
/-- the estimate of a rule raises nothing -/
theorem Node.estimate_safe {x : Ctx} {look : Bool} (hx : x.Sound look) {o : Orders} (ho : o.Lawful) : ∀ n : Node,
    n.Loaded x → n.Safe x look → ∃ m, n.estimate x o = .ok m
  | .course s d, _, _ => ⟨1, rfl⟩
  | .query s d, hl, h => by
    simp only [Node.Safe] at h
    simp only [Node.Loaded] at hl
    simp only [Node.estimate]
    exact queryEstimate_ok hx ho (h.ready (by rw [hl.1]; simp))
  | .count s d items, hl, h => by
    simp only [Node.Safe] at h
    simp only [Node.Loaded] at hl
    have ih := Node.estimate_safeList hx ho items hl.2.2 h.2.2.2
    simp only [Node.estimate, Node.estimateList_eq]
    have hli := Node.loadedList_iff.1 hl.2.2
    have hsi := Node.safeList_iff.1 h.2.2.2
    exact plainCountEstimate_total (fun n hn => ⟨hli n hn, hsi n hn⟩) ih
  | .req s d r, hl, h => by
    simp only [Node.Safe] at h
    simp only [Node.Loaded] at hl
    have ih := Node.estimate_safeOpt hx ho r hl.2.2 h.2.2
    simp only [Node.estimate]
    split
    · exact ⟨1, rfl⟩
    · split
      · exact ⟨1, rfl⟩
      · rename_i e he
        exact ih e he
  | .cond s d t f, hl, h => by
    simp only [Node.Safe] at h
    simp only [Node.Loaded] at hl
    have iht := Node.estimate_safe hx ho t hl.2.2.1 h.2.1
    have ihf := Node.estimate_safeOpt hx ho f hl.2.2.2 h.2.2
    simp only [Node.estimate]
    split
    · exact iht
    · split
      · rename_i e he
        exact ihf e he
      · exact ⟨0, rfl⟩
    · exact ⟨0, rfl⟩
  | .prof s d c, _, _ => ⟨1, rfl⟩
theorem Node.estimate_safeList {x : Ctx} {look : Bool} (hx : x.Sound look) {o : Orders} (ho : o.Lawful) : ∀ ns : List Node,
    Node.LoadedList x ns → Node.SafeList x look ns → ∀ n ∈ ns, ∃ m, n.estimate x o = .ok m
  | [], _, _ => by simp
  | n :: ns, hl, h => by
    simp only [Node.SafeList] at h
    simp only [Node.LoadedList] at hl
    have h1 := Node.estimate_safe hx ho n hl.1 h.1
    intro m hm
    rcases List.mem_cons.1 hm with rfl | hm
    · exact h1
    · exact Node.estimate_safeList hx ho ns hl.2 h.2 m hm
theorem Node.estimate_safeOpt {x : Ctx} {look : Bool} (hx : x.Sound look) {o : Orders} (ho : o.Lawful) : ∀ n : Option Node,
    Node.LoadedOpt x n → Node.SafeOpt x look n → ∀ e, Node.estimateOpt x o n = some e → ∃ m, e = .ok m
  | none, _, _ => by simp [Node.estimateOpt]
  | some n, hl, h => by
    have := Node.estimate_safe hx ho n hl h
    intro e he
    simp only [Node.estimateOpt, Option.some.injEq] at he
    exact he ▸ this
end

theorem topCountEstimate_safe {x : Ctx} {look : Bool} (hx : x.Sound look) {o : Orders} (ho : o.Lawful) {s : Stage}
    {d : CountData} {items : List Node} (hl : (Node.count s d items).Loaded x) (h : (Node.count s d items).Safe x look) :
    ∃ m, topCountEstimate x o d items = .ok m := by
  simp only [Node.Safe] at h
  simp only [Node.Loaded] at hl
  have ih := Node.estimate_safeList hx ho items hl.2.2 h.2.2.2
  have hli := Node.loadedList_iff.1 hl.2.2
  have hsi := Node.safeList_iff.1 h.2.2.2
  unfold topCountEstimate
  split
  · exact ⟨1, rfl⟩
  · obtain ⟨pot, hpot⟩ := filterE_total (f := fun n : Node => n.hasPotential x) items (fun n hn => by
      obtain ⟨b, hb, _⟩ := Node.potential_safe n (hli n hn) (hsi n hn)
      exact ⟨b, hb⟩)
    have hpm : ∀ n ∈ pot, n ∈ items := fun n hn => (((mem_filterE hpot).2 n).1 hn).1
    simp only [hpot]
    split
    · rw [Node.estimateList_eq]
      exact plainCountEstimate_total (fun n hn => ⟨hli n hn, hsi n hn⟩) ih
    · obtain ⟨ind, cod, h1, h2, h3⟩ := findIndependent_safe hx (ns := pot)
        (fun n hn => ⟨hli n (hpm n hn), hsi n (hpm n hn)⟩)
      obtain ⟨sorted, hsort2⟩ := sortByPath_ok (key := Node.path) cod (fun n hn => (hsi n (hpm n (h3 n hn))).canonical)
      simp only [h1, hsort2]
      refine countEstimate_total (fun p hp => ?_)
      obtain ⟨n, hn, rfl⟩ := List.mem_map.1 hp
      exact ih n (hpm n (h3 n ((sortByPath_perm hsort2).mem_iff.1 hn)))

mutual
/-- the estimate of the topmost rule raises nothing -/
theorem Node.topEstimate_safe {x : Ctx} {look : Bool} (hx : x.Sound look) {o : Orders} (ho : o.Lawful) : ∀ n : Node,
    n.Loaded x → n.Safe x look → ∃ m, n.topEstimate x o = .ok m
  | .count s d items, hl, h => by
    simp only [Node.topEstimate]
    exact topCountEstimate_safe hx ho hl h
  | .cond s d t f, hl, h => by
    simp only [Node.Safe] at h
    simp only [Node.Loaded] at hl
    have iht := Node.topEstimate_safe hx ho t hl.2.2.1 h.2.1
    have ihf := Node.topEstimate_safeOpt hx ho f hl.2.2.2 h.2.2
    simp only [Node.topEstimate]
    split
    · exact iht
    · split
      · rename_i e he
        exact ihf e he
      · exact ⟨0, rfl⟩
    · exact ⟨0, rfl⟩
  | .course s d, hl, h => Node.estimate_safe hx ho _ hl h
  | .query s d, hl, h => Node.estimate_safe hx ho _ hl h
  | .req s d r, hl, h => Node.estimate_safe hx ho _ hl h
  | .prof s d c, hl, h => Node.estimate_safe hx ho _ hl h
theorem Node.topEstimate_safeOpt {x : Ctx} {look : Bool} (hx : x.Sound look) {o : Orders} (ho : o.Lawful) : ∀ n : Option Node,
    Node.LoadedOpt x n → Node.SafeOpt x look n → ∀ e, Node.topEstimateOpt x o n = some e → ∃ m, e = .ok m
  | none, _, _ => by simp [Node.topEstimateOpt]
  | some n, hl, h => by
    have := Node.topEstimate_safe hx ho n hl h
    intro e he
    simp only [Node.topEstimateOpt, Option.some.injEq] at he
    exact he ▸ this
end

end Dp
