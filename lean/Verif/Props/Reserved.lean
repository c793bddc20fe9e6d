import Verif.Props.Satisfied
import Mathlib.Data.List.Nodup

/-
Classes that an area asks for by name are kept from its query rules (C53).
-/
namespace Dp

/-! ### Specification -/

/-- `Needs n d`: whoever fulfils the rule `n` has to fulfil the course rule `d`, which is `n` itself, one of the items of a
count rule that needs all of its items, or is reached through requirements, conditions that are decided, and proficiencies.
(What a course rule must not use is left out of `d`.) -/
inductive Needs : Node → CourseData → Prop
  | course {s d} : Needs (.course s d) { d with excluded := [] }
  | count {s d items n c} : d.count = items.length → n ∈ items → Needs n c → Needs (.count s d items) c
  | req {s d n c} : Needs n c → Needs (.req s d (some n)) c
  | thenPart {s d t f c} : d.condition = some true → Needs t c → Needs (.cond s d t f) c
  | elsePart {s d t f c} : d.condition = some false → Needs f c → Needs (.cond s d t (some f)) c
  | proficiency {s d s' c} : Needs (.prof s d (some (s', c))) { c with excluded := [] }

/-- the course is the one that the rule names -/
def IsNamed (d : CourseData) (c : Course) : Prop :=
  (∀ k, d.clbid = some k → c.clbid = k) ∧ (d.clbid = none → RuleMatches d c)

/-- `k` is the student's only class that the course rule names, those aside that an exception inserts there -/
def OnlyClass (st : Student) (es : List Exc) (d : CourseData) (k : String) : Prop :=
  d.fromClaimed = false ∧ (∃ c ∈ st.courses, c.clbid = k ∧ IsNamed d c) ∧ ¬ InsertedBy es d.path k ∧
  ∀ c ∈ st.courses, IsNamed d c → c.clbid ≠ k → InsertedBy es d.path c.clbid

/-- the class is kept for a course rule that the area needs -/
def Reserved (st : Student) (es : List Exc) (n : Node) (k : String) : Prop := ∃ d, Needs n d ∧ OnlyClass st es d k

/-! ### What is needed does not depend on what is excluded -/

theorem needs_course {s : Stage} {d c : CourseData} : Needs (.course s d) c ↔ c = { d with excluded := [] } := by
  constructor
  · intro h; cases h; rfl
  · rintro rfl; exact .course

theorem needs_query {s : Stage} {d : QueryData} {c : CourseData} : ¬ Needs (.query s d) c := by
  intro h; cases h

theorem needs_count {s : Stage} {d : CountData} {items : List Node} {c : CourseData} :
    Needs (.count s d items) c ↔ d.count = items.length ∧ ∃ n ∈ items, Needs n c := by
  constructor
  · intro h; cases h with
    | count h1 h2 h3 => exact ⟨h1, _, h2, h3⟩
  · rintro ⟨h1, n, h2, h3⟩; exact .count h1 h2 h3

theorem needs_req {s : Stage} {d : ReqData} {r : Option Node} {c : CourseData} :
    Needs (.req s d r) c ↔ ∃ n ∈ r, Needs n c := by
  constructor
  · intro h; cases h with
    | req h => exact ⟨_, rfl, h⟩
  · rintro ⟨n, hn, h⟩; cases hn; exact .req h

theorem needs_cond {s : Stage} {d : CondData} {t : Node} {f : Option Node} {c : CourseData} :
    Needs (.cond s d t f) c ↔ (d.condition = some true ∧ Needs t c) ∨ (d.condition = some false ∧ ∃ n ∈ f, Needs n c) := by
  constructor
  · intro h; cases h with
    | thenPart h1 h2 => exact Or.inl ⟨h1, h2⟩
    | elsePart h1 h2 => exact Or.inr ⟨h1, _, rfl, h2⟩
  · rintro (⟨h1, h2⟩ | ⟨h1, n, hn, h2⟩)
    · exact .thenPart h1 h2
    · cases hn; exact .elsePart h1 h2

theorem needs_prof {s : Stage} {d : ProfData} {q : Option (Stage × CourseData)} {c : CourseData} :
    Needs (.prof s d q) c ↔ ∃ p ∈ q, c = { p.2 with excluded := [] } := by
  constructor
  · intro h; cases h; exact ⟨_, rfl, rfl⟩
  · rintro ⟨p, hp, rfl⟩; cases hp; exact .proficiency

mutual
theorem Node.exclude_needs (ks : List String) (c : CourseData) : ∀ n : Node, Needs (n.exclude ks) c ↔ Needs n c
  | .course s d => Iff.rfl
  | .query s d => ⟨fun h => absurd h needs_query, fun h => absurd h needs_query⟩
  | .count s d items => by
    simp only [Node.exclude, needs_count, Node.exclude_needsList ks c items]
    have : (Node.excludeList ks items).length = items.length := by
      induction items with
      | nil => rfl
      | cons n ns ih => simp [Node.excludeList, ih]
    rw [this]
  | .req s d r => by simp only [Node.exclude, needs_req, Node.exclude_needsOpt ks c r]
  | .cond s d t f => by simp only [Node.exclude, needs_cond, Node.exclude_needs ks c t, Node.exclude_needsOpt ks c f]
  | .prof s d q => Iff.rfl
theorem Node.exclude_needsList (ks : List String) (c : CourseData) : ∀ ns : List Node,
    (∃ n ∈ Node.excludeList ks ns, Needs n c) ↔ ∃ n ∈ ns, Needs n c
  | [] => by simp [Node.excludeList]
  | n :: ns => by simp [Node.excludeList, Node.exclude_needs ks c n, Node.exclude_needsList ks c ns]
theorem Node.exclude_needsOpt (ks : List String) (c : CourseData) : ∀ n : Option Node,
    (∃ m ∈ Node.excludeOpt ks n, Needs m c) ↔ ∃ m ∈ n, Needs m c
  | none => by simp [Node.excludeOpt]
  | some n => by simp [Node.excludeOpt, Node.exclude_needs ks c n]
end

mutual
theorem Node.applyBlock_needs (p : Path) (k : String) (c : CourseData) : ∀ n : Node, Needs (n.applyBlock p k) c ↔ Needs n c
  | .course s d => by
    simp only [Node.applyBlock, needs_course]
    split <;> rfl
  | .query s d => ⟨fun h => absurd h needs_query, fun h => absurd h needs_query⟩
  | .count s d items => by
    simp only [Node.applyBlock, needs_count, Node.applyBlock_needsList p k c items]
    have : (Node.applyBlockList p k items).length = items.length := by
      induction items with
      | nil => rfl
      | cons n ns ih => simp [Node.applyBlockList, ih]
    rw [this]
  | .req s d r => by simp only [Node.applyBlock, needs_req, Node.applyBlock_needsOpt p k c r]
  | .cond s d t f => by
    simp only [Node.applyBlock, needs_cond, Node.applyBlock_needs p k c t, Node.applyBlock_needsOpt p k c f]
  | .prof s d q => Iff.rfl
theorem Node.applyBlock_needsList (p : Path) (k : String) (c : CourseData) : ∀ ns : List Node,
    (∃ n ∈ Node.applyBlockList p k ns, Needs n c) ↔ ∃ n ∈ ns, Needs n c
  | [] => by simp [Node.applyBlockList]
  | n :: ns => by simp [Node.applyBlockList, Node.applyBlock_needs p k c n, Node.applyBlock_needsList p k c ns]
theorem Node.applyBlock_needsOpt (p : Path) (k : String) (c : CourseData) : ∀ n : Option Node,
    (∃ m ∈ Node.applyBlockOpt p k n, Needs m c) ↔ ∃ m ∈ n, Needs m c
  | none => by simp [Node.applyBlockOpt]
  | some n => by simp [Node.applyBlockOpt, Node.applyBlock_needs p k c n]
end

theorem applyBlocks_needs (es : List Exc) (c : CourseData) (n : Node) : Needs (applyBlocks es n) c ↔ Needs n c := by
  induction es generalizing n with
  | nil => rfl
  | cons e es ih =>
    rw [applyBlocks_cons, ih]
    split
    · exact Node.applyBlock_needs _ _ c n
    · rfl

/-! ### Freshly loaded rules exclude nothing -/

theorem Built.nothing_excluded {env : Env} {kids : Dict} {ems : List Dict} {p : Path} {y : Y} {o : Option Node}
    (h : Built env kids ems p y o) : ∀ n, o = some n → ∀ l ∈ n.leaves, l.excludedOf = [] := by
  induction h with
  | prof hk h =>
    intro n hn
    cases hn
    obtain ⟨name, c, _, _, rfl, hc⟩ := loadProficiency_inv h
    intro l hl
    simp only [Node.leaves] at hl
    cases c with
    | none => simp at hl
    | some q =>
      obtain ⟨h1, cd, _, h2⟩ := hc q rfl
      simp only [Option.toList_some, List.map_cons, List.map_nil, List.mem_singleton] at hl
      subst hl
      obtain ⟨_, _, _, _, _, _, _, _, _, _, _, _, _, _, _, _, _, _, _, _, _, _, _, _, _, _, _, _, _, _, _, _, _, _, _, _, _, _, h6⟩ :=
        loadCourse_inv h2
      exact h6
  | course hk h =>
    intro n hn
    cases hn
    intro l hl
    simp only [Node.leaves, List.mem_singleton] at hl
    subst hl
    obtain ⟨_, _, _, _, _, _, _, _, _, _, _, _, _, _, _, _, _, _, _, _, _, _, _, _, _, _, _, _, _, _, _, _, _, _, _, _, _, _, h6⟩ :=
      loadCourse_inv h
    exact h6
  | query hk h =>
    intro n hn
    cases hn
    obtain ⟨src, w, lim, as, allow, failed, _, _, _, _, _, _, _, _, _, _, _, hr⟩ := loadQuery_inv h
    intro l hl
    simp only [Node.leaves, List.mem_singleton] at hl
    subst hl
    rw [hr]; rfl
  | @cond _ _ p d _ _ _ t f _ hk _ _ _ hyt hbt hbf hno _ iht ihf =>
    intro n hn
    split at hn
    · cases hn
    · cases hn
      simp only [Node.leaves, List.mem_append]
      rintro l (hl | hl)
      · exact iht t rfl l hl
      · cases hf : f with
        | none => rw [hf] at hl; simp [Node.leavesOpt] at hl
        | some f' =>
          rw [hf] at hl
          cases ho : Dict.opt d "$else" with
          | none => rw [hno ho] at hf; cases hf
          | some yf => exact ihf yf ho f' hf l hl
  | @count _ ems p d kids' listed expanded emItems inserts audits _ _ parts hk _ hlist hexp hem hins haud _ hparts hb _ _ _ ih =>
    intro n hn
    cases hn
    simp only [Node.leaves]
    refine Node.leavesList_filterMap (fun t ht n hn => ?_)
    obtain ⟨i, hi⟩ := List.mem_iff_getElem?.1 ht
    obtain ⟨y, o⟩ := t
    exact ih i y o hi n hn
  | @req kids _ p d name body rd r hn _ hnone _ hb hex hpath hname hov _ _ _ _ _ _ ih =>
    intro n hn'
    cases hn'
    simp only [Node.leaves]
    intro l hl
    cases hr : r with
    | none => rw [hr] at hl; simp [Node.leavesOpt] at hl
    | some r' =>
      rw [hr] at hl
      cases ho : Dict.opt body "result" with
      | none => rw [hnone ho] at hr; cases hr
      | some yr =>
        obtain ⟨own, hown, _⟩ := hex yr ho
        exact ih yr own ho hown r' hr l hl

/-! ### The required courses -/

theorem insertedAt_path {es : List Exc} {p : Path} {k : String} :
    k ∈ (getInsertExceptions (groupExceptions es) p).filterMap Exc.insertClbid ↔ InsertedBy es p k := by
  rw [(C07_exact_path_first_wins es p).1]
  simp only [List.mem_filterMap, List.mem_filter, Bool.and_eq_true, beq_iff_eq]
  constructor
  · rintro ⟨e, ⟨he, h1, h2⟩, h3⟩
    unfold Exc.insertClbid at h3
    split at h3
    · rename_i k' f hk
      cases h3
      exact ⟨e, he, h2, f, hk⟩
    · cases h3
  · rintro ⟨e, he, hp, f, hk⟩
    exact ⟨e, ⟨he, by simp [Exc.isInsertion, hk], hp⟩, by simp [Exc.insertClbid, hk]⟩

theorem courseRequired_iff {st : Student} {es : List Exc} (hnd : (st.courses.map (·.clbid)).Nodup) {d : CourseData}
    (hd : d.excluded = []) (k : String) :
    k ∈ (courseRequired (loadCtx st es) d).map (·.clbid) ↔ OnlyClass st es d k := by
  have hfind : ∀ c, c ∈ (loadCtx st es).findCourses d ↔ c ∈ st.courses ∧ IsNamed d c := by
    intro c
    constructor
    · intro h
      obtain ⟨h1, h2, h3⟩ := findCourses_spec h
      exact ⟨h1, h2, h3⟩
    · rintro ⟨h1, h2, h3⟩
      unfold Ctx.findCourses
      cases hk : d.clbid with
      | none => exact List.mem_filter.2 ⟨h1, filter_matches_of (h3 hk)⟩
      | some k' =>
        have := h2 k' hk
        dsimp only
        rw [← this, findCourseByClbid_of_nodup (x := loadCtx st es) hnd h1]
        simp
  have hfn : ((loadCtx st es).findCourses d).Nodup := by
    unfold Ctx.findCourses
    split
    · cases (loadCtx st es).findCourseByClbid _ <;> simp
    · exact (List.Nodup.of_map _ hnd).filter _
  unfold courseRequired
  by_cases hfc : d.fromClaimed = true
  · rw [if_pos hfc]
    simp only [List.map_nil, List.not_mem_nil, false_iff]
    rintro ⟨h, _⟩
    rw [hfc] at h; cases h
  rw [if_neg hfc]
  have hfc : d.fromClaimed = false := by simpa using hfc
  dsimp only
  -- only the courses found count
  have hm : (courseMatches (loadCtx st es) d).filter (fun c =>
        !((getInsertExceptions (loadCtx st es).exceptions d.path).filterMap Exc.insertClbid).contains c.clbid) =
      ((loadCtx st es).findCourses d).filter (fun c =>
        !((getInsertExceptions (loadCtx st es).exceptions d.path).filterMap Exc.insertClbid).contains c.clbid) := by
    unfold courseMatches
    rw [List.filter_append, hd, hfc]
    have : ((((getInsertExceptions (loadCtx st es).exceptions d.path).filterMap Exc.insertClbid).filter
        (fun k => !([] : List String).contains k)).filterMap (loadCtx st es).findCourseByClbid).filter (fun c =>
        !((getInsertExceptions (loadCtx st es).exceptions d.path).filterMap Exc.insertClbid).contains c.clbid) = [] := by
      rw [List.filter_eq_nil_iff]
      intro c hc
      obtain ⟨k', hk', hc⟩ := List.mem_filterMap.1 hc
      have := (findCourseByClbid_some hc).2
      rw [this]
      simpa using (List.mem_filter.1 hk').1
    rw [this]
    simp
  rw [hm]
  generalize hl : ((loadCtx st es).findCourses d).filter (fun c =>
    !((getInsertExceptions (loadCtx st es).exceptions d.path).filterMap Exc.insertClbid).contains c.clbid) = l
  have hmem : ∀ c, c ∈ l ↔ c ∈ st.courses ∧ IsNamed d c ∧ ¬ InsertedBy es d.path c.clbid := by
    intro c
    rw [← hl, List.mem_filter, hfind]
    have : (!((getInsertExceptions (loadCtx st es).exceptions d.path).filterMap Exc.insertClbid).contains c.clbid) = true ↔
        ¬ InsertedBy es d.path c.clbid := by
      rw [← insertedAt_path]
      simp only [Bool.not_eq_true', List.contains_eq_mem, decide_eq_false_iff_not]
      rfl
    rw [this, and_assoc]
  have hln : l.Nodup := by rw [← hl]; exact hfn.filter _
  have hinj : ∀ a ∈ st.courses, ∀ b ∈ st.courses, a.clbid = b.clbid → a = b := fun a ha b hb h =>
    List.inj_on_of_nodup_map hnd ha hb h
  constructor
  · intro h
    match hl' : l, h with
    | [c], h =>
      simp only [List.map_cons, List.map_nil, List.mem_singleton] at h
      subst h
      obtain ⟨h1, h2, h3⟩ := (hmem c).1 (by simp)
      refine ⟨hfc, ⟨c, h1, rfl, h2⟩, h3, ?_⟩
      intro c' hc' hn hne
      by_contra hni
      have := (hmem c').2 ⟨hc', hn, hni⟩
      simp only [List.mem_singleton] at this
      exact hne (by rw [this])
    | [], h => simp at h
    | _ :: _ :: _, h => simp at h
  · rintro ⟨_, ⟨c, hc, hk, hn⟩, hni, honly⟩
    subst hk
    have hcl : c ∈ l := (hmem c).2 ⟨hc, hn, hni⟩
    have hsing : ∀ c' ∈ l, c' = c := by
      intro c' hc'
      obtain ⟨h1, h2, h3⟩ := (hmem c').1 hc'
      by_contra hne
      exact h3 (honly c' h1 h2 (fun h => hne (hinj _ h1 _ hc h)))
    have : l = [c] := by
      match l, hcl, hsing, hln with
      | [a], _, hs, _ => rw [hs a (by simp)]
      | a :: b :: l, _, hs, hn =>
        exfalso
        have e1 := hs a (by simp)
        have e2 := hs b (by simp)
        rw [e1, e2] at hn
        simp at hn
    rw [this]
    simp

mutual
theorem Node.required_iff {st : Student} {es : List Exc} (hnd : (st.courses.map (·.clbid)).Nodup) (k : String) :
    ∀ n : Node, (∀ l ∈ n.leaves, l.excludedOf = []) →
      (k ∈ (n.requiredCourses (loadCtx st es)).map (·.clbid) ↔ Reserved st es n k)
  | .course s d, h => by
    have hd : d.excluded = [] := h (.course s d) (by simp [Node.leaves])
    simp only [Node.requiredCourses, Reserved, needs_course, exists_eq_left]
    rw [courseRequired_iff hnd hd]
    rfl
  | .query s d, _ => by simp [Node.requiredCourses, Reserved, needs_query]
  | .count s d items, h => by
    simp only [Node.requiredCourses, Reserved, needs_count]
    by_cases hc : d.count = items.length
    · rw [if_neg (by simpa using hc)]
      simp only [hc, true_and]
      exact Node.required_iffList hnd k items h
    · rw [if_pos hc]
      simp [hc]
  | .req s d r, h => by
    simp only [Node.requiredCourses, Reserved, needs_req]
    exact Node.required_iffOpt hnd k r h
  | .cond s d t f, h => by
    simp only [Node.leaves, List.mem_append] at h
    simp only [Node.requiredCourses, Reserved, needs_cond]
    split
    · rename_i hc
      rw [Node.required_iff hnd k t (fun l hl => h l (Or.inl hl))]
      simp [hc, Reserved]
    · rename_i hc
      rw [Node.required_iffOpt hnd k f (fun l hl => h l (Or.inr hl))]
      simp [hc]
    · rename_i hc
      simp [hc]
  | .prof s d q, h => by
    simp only [Node.requiredCourses, Reserved, needs_prof]
    cases q with
    | none => simp
    | some p =>
      obtain ⟨s', cd⟩ := p
      have hd : cd.excluded = [] := h (.course s' cd) (by simp [Node.leaves])
      simp only [Option.mem_def, Option.some.injEq, exists_eq_left']
      rw [courseRequired_iff hnd hd, exists_eq_left]
      rfl
theorem Node.required_iffList {st : Student} {es : List Exc} (hnd : (st.courses.map (·.clbid)).Nodup) (k : String) :
    ∀ ns : List Node, (∀ l ∈ Node.leavesList ns, l.excludedOf = []) →
      (k ∈ (Node.listRequired (loadCtx st es) ns).map (·.clbid) ↔ ∃ d, (∃ n ∈ ns, Needs n d) ∧ OnlyClass st es d k)
  | [], _ => by simp [Node.listRequired]
  | n :: ns, h => by
    simp only [Node.leavesList, List.mem_append] at h
    have h1 := Node.required_iff (es := es) hnd k n (fun l hl => h l (Or.inl hl))
    have h2 := Node.required_iffList (es := es) hnd k ns (fun l hl => h l (Or.inr hl))
    simp only [Node.listRequired, List.map_append, List.mem_append, h1, h2]
    simp only [Reserved, List.mem_cons]
    constructor
    · rintro (⟨d, h3, h4⟩ | ⟨d, ⟨m, hm, h3⟩, h4⟩)
      · exact ⟨d, ⟨n, Or.inl rfl, h3⟩, h4⟩
      · exact ⟨d, ⟨m, Or.inr hm, h3⟩, h4⟩
    · rintro ⟨d, ⟨m, rfl | hm, h3⟩, h4⟩
      · exact Or.inl ⟨d, h3, h4⟩
      · exact Or.inr ⟨d, ⟨m, hm, h3⟩, h4⟩
theorem Node.required_iffOpt {st : Student} {es : List Exc} (hnd : (st.courses.map (·.clbid)).Nodup) (k : String) :
    ∀ r : Option Node, (∀ l ∈ Node.leavesOpt r, l.excludedOf = []) →
      (k ∈ (Node.optRequired (loadCtx st es) r).map (·.clbid) ↔ ∃ d, (∃ n ∈ r, Needs n d) ∧ OnlyClass st es d k)
  | none, _ => by simp [Node.optRequired]
  | some n, h => by
    simp only [Node.leavesOpt] at h
    simp only [Node.optRequired, Node.required_iff hnd k n h, Reserved, Option.mem_def, Option.some.injEq, exists_eq_left']
end

/-! ### What is excluded from a query -/

mutual
theorem Node.exclude_own (ks : List String) : ∀ n : Node, (n.exclude ks).ownLeaves = n.ownLeaves.map (Node.exclude ks)
  | .course s d => rfl
  | .query s d => rfl
  | .count s d items => by simp only [Node.exclude, Node.ownLeaves]; exact Node.exclude_ownList ks items
  | .req s d r => by simp only [Node.exclude, Node.ownLeaves]; exact Node.exclude_ownOpt ks r
  | .cond s d t f => by
    simp only [Node.exclude, Node.ownLeaves, List.map_append, Node.exclude_own ks t, Node.exclude_ownOpt ks f]
  | .prof s d c => rfl
theorem Node.exclude_ownList (ks : List String) : ∀ ns : List Node,
    Node.ownLeavesList (Node.excludeList ks ns) = (Node.ownLeavesList ns).map (Node.exclude ks)
  | [] => rfl
  | n :: ns => by
    simp only [Node.excludeList, Node.ownLeavesList, List.map_append, Node.exclude_own ks n, Node.exclude_ownList ks ns]
theorem Node.exclude_ownOpt (ks : List String) : ∀ n : Option Node,
    Node.ownLeavesOpt (Node.excludeOpt ks n) = (Node.ownLeavesOpt n).map (Node.exclude ks)
  | none => rfl
  | some n => by simp only [Node.excludeOpt, Node.ownLeavesOpt]; exact Node.exclude_own ks n
end

mutual
theorem Node.own_leaves : ∀ n : Node, ∀ l ∈ n.ownLeaves, l ∈ n.leaves
  | .course s d => by simp [Node.ownLeaves, Node.leaves]
  | .query s d => by simp [Node.ownLeaves, Node.leaves]
  | .count s d items => by simp only [Node.ownLeaves, Node.leaves]; exact Node.own_leavesList items
  | .req s d r => by simp only [Node.ownLeaves, Node.leaves]; exact Node.own_leavesOpt r
  | .cond s d t f => by
    simp only [Node.ownLeaves, Node.leaves, List.mem_append]
    rintro l (h | h)
    · exact Or.inl (Node.own_leaves t l h)
    · exact Or.inr (Node.own_leavesOpt f l h)
  | .prof s d c => by simp [Node.ownLeaves]
theorem Node.own_leavesList : ∀ ns : List Node, ∀ l ∈ Node.ownLeavesList ns, l ∈ Node.leavesList ns
  | [] => by simp [Node.ownLeavesList]
  | n :: ns => by
    simp only [Node.ownLeavesList, Node.leavesList, List.mem_append]
    rintro l (h | h)
    · exact Or.inl (Node.own_leaves n l h)
    · exact Or.inr (Node.own_leavesList ns l h)
theorem Node.own_leavesOpt : ∀ n : Option Node, ∀ l ∈ Node.ownLeavesOpt n, l ∈ Node.leavesOpt n
  | none => by simp [Node.ownLeavesOpt]
  | some n => by simp only [Node.ownLeavesOpt, Node.leavesOpt]; exact Node.own_leaves n
end

/-- what the blocks make of a query -/
theorem applyBlocks_query (es : List Exc) (s : Stage) (d : QueryData) :
    ∃ ks, applyBlocks es (.query s d) = .query s { d with excluded := d.excluded ++ ks } ∧
      ∀ k, k ∈ ks ↔ ∃ e ∈ es, e.path = d.path ∧ e.kind = .block k := by
  induction es generalizing d with
  | nil => exact ⟨[], by simp [applyBlocks], by simp⟩
  | cons e es ih =>
    rw [applyBlocks_cons]
    split
    · rename_i k0 hk0
      simp only [Node.applyBlock]
      by_cases hp : d.path = e.path
      · rw [if_pos hp]
        obtain ⟨ks, h1, h2⟩ := ih { d with excluded := d.excluded ++ [k0] }
        refine ⟨k0 :: ks, by rw [h1]; simp, ?_⟩
        intro k
        simp only [List.mem_cons, h2, exists_eq_or_imp, hk0, hp, true_and]
        constructor
        · rintro (rfl | h)
          · exact Or.inl rfl
          · exact Or.inr h
        · rintro (h | h)
          · cases h; exact Or.inl rfl
          · exact Or.inr h
      · rw [if_neg hp]
        obtain ⟨ks, h1, h2⟩ := ih d
        refine ⟨ks, h1, ?_⟩
        intro k
        simp only [h2, List.mem_cons, exists_eq_or_imp]
        constructor
        · exact Or.inr
        · rintro (⟨h, _⟩ | h)
          · exact absurd h.symm hp
          · exact h
    · rename_i hnb
      obtain ⟨ks, h1, h2⟩ := ih d
      refine ⟨ks, h1, ?_⟩
      intro k
      simp only [h2, List.mem_cons, exists_eq_or_imp]
      constructor
      · exact Or.inr
      · rintro (⟨_, h⟩ | h)
        · exact absurd h (hnb k)
        · exact h

/-! ### The properties -/

/-- **C53.**  In an area loaded from any text, a query rule is kept from exactly these classes: those that are the student's
only class for a course rule that the area needs, and those that an exception blocks at the query. -/
theorem C53_kept_from_queries (c : Constants) (templates : List (String × TemplateCourse)) (st : Student) (es : List Exc)
    (all : Bool) (spec : Dict) (a : Area) (hload : loadArea c templates st es all spec = .ok a)
    (hnd : (st.courses.map (·.clbid)).Nodup) (s : Stage) (d : QueryData) (hq : .query s d ∈ a.result.leaves) (k : String) :
    k ∈ d.excluded ↔ Reserved st es a.result k ∨ ∃ e ∈ es, e.path = d.path ∧ e.kind = .block k := by
  obtain ⟨_, _, _, _, rule, _, _, _, _, _, _, hb, hres, _⟩ := loadArea_inv hload
  have hex := hb.nothing_excluded rule rfl
  have hreq := Node.required_iff (es := es) hnd k rule hex
  have hneeds : Reserved st es a.result k ↔ Reserved st es rule k := by
    unfold Reserved
    simp only [hres, prepareRule, applyBlocks_needs, Node.exclude_needs]
  rw [hneeds, ← hreq]
  rw [hres] at hq
  rcases Node.leaves_split _ _ hq with hown | ⟨_, _, h, _⟩
  · unfold prepareRule at hown
    rw [applyBlocks_own, Node.exclude_own, List.map_map] at hown
    obtain ⟨leaf, hleaf, he⟩ := List.mem_map.1 hown
    simp only [Function.comp] at he
    rcases Node.ownLeaves_kind _ leaf hleaf with ⟨s0, d0, rfl⟩ | ⟨s0, d0, rfl⟩
    · exfalso
      have : ∀ (es : List Exc) (d : CourseData), ∃ d', applyBlocks es (.course s0 d) = .course s0 d' := by
        intro es
        induction es with
        | nil => exact fun d => ⟨d, rfl⟩
        | cons e es ih =>
          intro d
          rw [applyBlocks_cons]
          split
          · exact ih _
          · exact ih _
      obtain ⟨d', hd'⟩ := this es d0
      simp only [Node.exclude] at he
      rw [hd'] at he
      cases he
    · have h0 : d0.excluded = [] := hex _ (Node.own_leaves _ _ hleaf)
      simp only [Node.exclude] at he
      obtain ⟨ks, h1, h2⟩ := applyBlocks_query es s0
        { d0 with excluded := d0.excluded ++ (rule.requiredCourses (loadCtx st es)).map (·.clbid) }
      rw [h1] at he
      cases he
      simp only [h0, List.nil_append, List.mem_append, h2]
  · cases h

/-- **C53**, seen from the result: whatever the audit of any solution of the area counts at a query rule is no class that
the area needs for a course rule as the student's only one, not even if an exception inserts it at the query. -/
theorem C53_reserved_class_is_not_counted (c : Constants) (templates : List (String × TemplateCourse)) (st : Student)
    (es : List Exc) (all : Bool) (spec : Dict) (a : Area) (hload : loadArea c templates st es all spec = .ok a)
    (hnd : (st.courses.map (·.clbid)).Nodup) (o : Orders) (ho : o.Lawful)
    (s : AreaSolution) (hs : s ∈ (a.solutions o st es).items) (r : AreaResult) (ha : s.audit o a = .ok r)
    (cl : Claim) (hc : cl ∈ r.claims) :
    (∃ st' d, Node.query st' d ∈ a.result.leaves ∧ cl.claimedBy = d.path ∧ ¬ Reserved st es a.result cl.course.clbid) ∨
    (∃ st' d, Node.course st' d ∈ a.result.leaves ∧ cl.claimedBy = d.path) := by
  obtain ⟨leaf, hleaf, _, h2, h3, _⟩ := C26_loaded_area c templates st es all spec a hload o ho s hs r ha cl hc
  rcases Node.leaves_kind _ leaf hleaf with ⟨s0, d0, rfl⟩ | ⟨s0, d0, rfl⟩
  · exact Or.inr ⟨s0, d0, hleaf, h2⟩
  · refine Or.inl ⟨s0, d0, hleaf, h2, fun hr => h3 ?_⟩
    exact (C53_kept_from_queries c templates st es all spec a hload hnd s0 d0 hleaf _).2 (Or.inl hr)

/-- what the queries of an area are kept from, and what its solutions claim -/
def keptAndClaimed (st : Student) (es : List Exc) (spec : Dict) : Option (List (List String) × List (List String)) :=
  match loadArea {} [] st es false spec with
  | .ok a => some (a.result.leaves.filterMap (fun l => match l with | .query _ d => some d.excluded | _ => none),
      (a.solutions .insertion st es).items.filterMap (fun s => match s.audit .insertion a with
        | .ok r => some (r.claims.map (·.course.clbid))
        | .error _ => none))
  | .error _ => none

/-- the core course 121, and one elective in computer science -/
def reservedText : Dict :=
  [("name", .str "Statistics"), ("type", .str "concentration"), ("code", .str "900"),
   ("result", .map [("all", .list [.map [("course", .str "CSCI 121")],
      .map [("from", .str "courses"), ("where", .map [("subject", .map [("$eq", .str "CSCI")])]),
        ("assert", .map [("count(courses)", .map [("$gte", .int 1)])])]])])]

/-- Class 1 is the only class that the course rule names; the elective is class 2. -/
example : keptAndClaimed { sampleTaken with courses := sampleTaken.courses.take 2 } [] reservedText =
    some ([["1"]], [["1", "2"]]) := by decide +kernel

/-- With two classes of that course neither is kept from the elective. -/
example : keptAndClaimed { sampleTaken with courses := sampleTaken.courses.take 1 ++
      [{ clbid := "5", identity := "CSCI 121", subject := "CSCI" }] } [] reservedText =
    some ([[]], [["1"], ["1", "5"], ["1", "5"], ["5", "1"], ["5"], ["5", "1"]]) := by decide +kernel

/-- A class kept for a course rule may be of no use at all: blocked at the course rule, class 1 counts nowhere, though the
elective could use it. -/
theorem C53_kept_in_vain_refuted : keptAndClaimed { sampleTaken with courses := sampleTaken.courses.take 1 }
      [⟨["$", ".count", "[0]", "*CSCI 121"], .block "1"⟩] reservedText = some ([["1"]], [[]]) := by decide +kernel

end Dp
