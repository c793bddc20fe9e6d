import Verif.Props.DiscoverTests

/-
The courses that the index of `dp/bin/discover.py` lists for an area, against the rules of the area and against what
an audit claims.
-/
namespace Dp

/-- a course rule that the area asks for without a condition: beneath counts and requirements only, or the course of a
proficiency -/
inductive OpenCourse : Node → CourseData → Prop
  | self (s d) : OpenCourse (.course s d) d
  | prof (s d t e) : OpenCourse (.prof s d (some (t, e))) e
  | item (s c items n d) : n ∈ items → OpenCourse n d → OpenCourse (.count s c items) d
  | result (s c n d) : OpenCourse n d → OpenCourse (.req s c (some n)) d

/-- a text or an empty text, which is as good as none -/
def NotGiven (o : Option String) : Prop := o = none ∨ o = some ""

/-- the rule asks for the course `s`, and for nothing more special: `s` is its crsid or, if it has none, its course -/
structure CourseData.AsksFor (hidden : Path → Bool) (d : CourseData) (s : String) : Prop where
  institution : NotGiven d.institution
  clbid : NotGiven d.clbid
  ap : NotGiven d.ap
  name : NotGiven d.name
  shown : hidden d.path = false
  text : s ≠ ""
  asks : d.crsid = some s ∨ (NotGiven d.crsid ∧ d.course = some s)

theorem filled_iff {o : Option String} : filled o = false ↔ NotGiven o := by
  cases o with
  | none => simp [filled, NotGiven]
  | some s => simp [filled, NotGiven]

theorem mem_mentioned {hidden : Path → Bool} {d : CourseData} {s : String} :
    s ∈ d.mentioned hidden ↔ d.AsksFor hidden s := by
  unfold CourseData.mentioned
  constructor
  · intro h
    split at h
    · cases h
    split at h
    · cases h
    split at h
    · cases h
    rename_i h1 h2 h3
    simp only [Bool.or_eq_true, not_or, Bool.not_eq_true] at h2
    obtain ⟨⟨⟨hi, hc⟩, ha⟩, hn⟩ := h2
    have h3 : hidden d.path = false := by simpa using h3
    split at h
    · rename_i hf
      have hcrs : d.crsid = some s := by simpa using h
      exact ⟨filled_iff.1 hi, filled_iff.1 hc, filled_iff.1 ha, filled_iff.1 hn, h3,
        by rintro rfl; rw [hcrs] at hf; simp [filled] at hf, .inl hcrs⟩
    · rename_i hf
      have hcrs : d.course = some s := by simpa using h
      have hf : filled d.crsid = false := by simpa using hf
      refine ⟨filled_iff.1 hi, filled_iff.1 hc, filled_iff.1 ha, filled_iff.1 hn, h3, ?_, .inr ⟨filled_iff.1 hf, hcrs⟩⟩
      rintro rfl
      apply h1
      rw [hf, hcrs]
      rfl
  · rintro ⟨hi, hc, ha, hn, hs, ht, hasks⟩
    rw [if_neg, if_neg, if_neg]
    · rcases hasks with h | ⟨h, h'⟩
      · have : filled d.crsid = true := by rw [h]; simpa [filled] using ht
        rw [if_pos this]; simp [h]
      · rw [filled_iff.2 h]; simp [h']
    · simp [hs]
    · simp [filled_iff.2 hi, filled_iff.2 hc, filled_iff.2 ha, filled_iff.2 hn]
    · rcases hasks with h | ⟨h, h'⟩
      · simp [h, filled, ht]
      · simp [h', filled, ht]

mutual
theorem Node.mem_mentioned {hidden : Path → Bool} : ∀ (n : Node) (s : String),
    s ∈ n.mentioned hidden ↔ ∃ d, OpenCourse n d ∧ d.AsksFor hidden s
  | .course st d, s => by
    simp only [Node.mentioned, Dp.mem_mentioned]
    exact ⟨fun h => ⟨d, .self _ _, h⟩, fun ⟨_, h, h'⟩ => by cases h; exact h'⟩
  | .prof st d none, s => by
    simp only [Node.mentioned, List.not_mem_nil, false_iff]
    rintro ⟨_, h, -⟩
    cases h
  | .prof st d (some (t, e)), s => by
    simp only [Node.mentioned, Dp.mem_mentioned]
    exact ⟨fun h => ⟨e, .prof _ _ _ _, h⟩, fun ⟨_, h, h'⟩ => by cases h; exact h'⟩
  | .count st d items, s => by
    simp only [Node.mentioned, Node.mem_mentionedList items s]
    exact ⟨fun ⟨n, hn, e, h, h'⟩ => ⟨e, .item _ _ _ n _ hn h, h'⟩,
      fun ⟨e, h, h'⟩ => by cases h; rename_i n hn h; exact ⟨n, hn, e, h, h'⟩⟩
  | .req st d none, s => by
    simp only [Node.mentioned, Node.mentionedOpt, List.not_mem_nil, false_iff]
    rintro ⟨_, h, -⟩
    cases h
  | .req st d (some n), s => by
    simp only [Node.mentioned, Node.mentionedOpt, Node.mem_mentioned n s]
    exact ⟨fun ⟨e, h, h'⟩ => ⟨e, .result _ _ _ _ h, h'⟩, fun ⟨e, h, h'⟩ => by cases h; exact ⟨e, by assumption, h'⟩⟩
  | .query st d, s => by
    simp only [Node.mentioned, List.not_mem_nil, false_iff]
    rintro ⟨_, h, -⟩
    cases h
  | .cond st d t f, s => by
    simp only [Node.mentioned, List.not_mem_nil, false_iff]
    rintro ⟨_, h, -⟩
    cases h
theorem Node.mem_mentionedList {hidden : Path → Bool} : ∀ (ns : List Node) (s : String),
    s ∈ Node.mentionedList hidden ns ↔ ∃ n ∈ ns, ∃ d, OpenCourse n d ∧ d.AsksFor hidden s
  | [], s => by simp [Node.mentionedList]
  | n :: ns, s => by
    simp only [Node.mentionedList, List.mem_append, Node.mem_mentioned n s, Node.mem_mentionedList ns s,
      List.mem_cons, exists_eq_or_imp]
end

/-- **C97**, exactly: the index lists the course `s` for an area if and only if one of the area's course rules, not
beneath a condition, asks for `s` and for nothing more special, and is not marked as hidden. -/
theorem C97_listed_exactly (hidden : Path → Bool) (code : String) (spec : Dict) (a : Area)
    (_h : discoverArea spec = .ok a) (s : String) :
    (∃ r ∈ a.courseRefs hidden code, r = courseRef code s) ↔ ∃ d, OpenCourse a.result d ∧ d.AsksFor hidden s := by
  have hinj : ∀ s', courseRef code s' = courseRef code s → s' = s := by
    intro s' h
    unfold courseRef at h
    split at h <;> split at h <;> simp_all
  rw [← Node.mem_mentioned]
  unfold Area.courseRefs
  constructor
  · rintro ⟨r, hr, rfl⟩
    obtain ⟨s', hs', he⟩ := List.mem_map.1 hr
    exact hinj _ he ▸ hs'
  · intro hs
    exact ⟨_, List.mem_map_of_mem hs, rfl⟩

/-! ### The tree loaded for a student against the tree loaded by the index -/

/-- the same course rule, but for the classes excluded from it -/
def SameRule (d e : CourseData) : Prop := d = { e with excluded := d.excluded }

theorem SameRule.refl (d : CourseData) : SameRule d d := rfl

theorem SameRule.trans {a b c : CourseData} (h1 : SameRule a b) (h2 : SameRule b c) : SameRule a c := by
  unfold SameRule at *
  rw [h1, h2]

theorem SameRule.symm {a b : CourseData} (h1 : SameRule a b) : SameRule b a := by
  unfold SameRule at *
  rw [h1]

theorem SameRule.asks {hidden : Path → Bool} {d e : CourseData} {s : String} (h : SameRule d e)
    (ha : d.AsksFor hidden s) : e.AsksFor hidden s := by
  unfold SameRule at h
  rw [h] at ha
  exact ⟨ha.institution, ha.clbid, ha.ap, ha.name, ha.shown, ha.text, ha.asks⟩

theorem excludeList_map (k : List String) (ns : List Node) : Node.excludeList k ns = ns.map (·.exclude k) := by
  induction ns with
  | nil => rfl
  | cons n ns ih => simp [Node.excludeList, ih]

theorem applyBlockList_map (p : Path) (k : String) (ns : List Node) :
    Node.applyBlockList p k ns = ns.map (·.applyBlock p k) := by
  induction ns with
  | nil => rfl
  | cons n ns ih => simp [Node.applyBlockList, ih]

theorem open_exclude {k : List String} {n : Node} {d : CourseData} (h : OpenCourse n d) : OpenCourse (n.exclude k) d := by
  induction h with
  | self => exact .self _ _
  | prof => exact .prof _ _ _ _
  | item s c items n d hn _ ih =>
    simp only [Node.exclude, excludeList_map]
    exact .item _ _ _ _ _ (List.mem_map_of_mem hn) ih
  | result s c n d _ ih => exact .result _ _ _ _ ih

theorem exclude_open {k : List String} {m : Node} {d : CourseData} (h : OpenCourse m d) :
    ∀ n : Node, m = n.exclude k → OpenCourse n d := by
  induction h with
  | self s d =>
    intro n hn
    cases n <;> simp only [Node.exclude, reduceCtorEq] at hn
    cases hn
    exact .self _ _
  | prof s d t e =>
    intro n hn
    cases n <;> simp only [Node.exclude, reduceCtorEq] at hn
    cases hn
    exact .prof _ _ _ _
  | item s c items n d hn _ ih =>
    intro m hm
    cases m <;> simp only [Node.exclude, reduceCtorEq] at hm
    rename_i its
    injection hm with h1 h2 h3
    rw [h3, excludeList_map] at hn
    obtain ⟨m, hm, rfl⟩ := List.mem_map.1 hn
    exact .item _ _ _ m _ hm (ih m rfl)
  | result s c n d _ ih =>
    intro m hm
    cases m <;> simp only [Node.exclude, reduceCtorEq] at hm
    rename_i r
    injection hm with h1 h2 h3
    cases r with
    | none => simp [Node.excludeOpt] at h3
    | some r =>
      simp only [Node.excludeOpt, Option.some.injEq] at h3
      exact .result _ _ _ _ (ih r h3)

theorem open_applyBlock {p : Path} {k : String} {n : Node} {d : CourseData} (h : OpenCourse n d) :
    ∃ e, OpenCourse (n.applyBlock p k) e ∧ SameRule e d := by
  induction h with
  | self s d =>
    refine ⟨_, .self _ _, ?_⟩
    split
    · rfl
    · exact SameRule.refl _
  | prof s d t e => exact ⟨e, .prof _ _ _ _, SameRule.refl _⟩
  | item s c items n d hn _ ih =>
    obtain ⟨e, h1, h2⟩ := ih
    refine ⟨e, ?_, h2⟩
    simp only [Node.applyBlock, applyBlockList_map]
    exact .item _ _ _ _ _ (List.mem_map_of_mem hn) h1
  | result s c n d _ ih =>
    obtain ⟨e, h1, h2⟩ := ih
    exact ⟨e, .result _ _ _ _ h1, h2⟩

theorem applyBlock_open {p : Path} {k : String} {m : Node} {d : CourseData} (h : OpenCourse m d) :
    ∀ n : Node, m = n.applyBlock p k → ∃ e, OpenCourse n e ∧ SameRule d e := by
  induction h with
  | self s d =>
    intro n hn
    cases n <;> simp only [Node.applyBlock, reduceCtorEq] at hn
    injection hn with h1 h2
    refine ⟨_, .self _ _, ?_⟩
    rw [h2]
    split
    · rfl
    · exact SameRule.refl _
  | prof s d t e =>
    intro n hn
    cases n <;> simp only [Node.applyBlock, reduceCtorEq] at hn
    cases hn
    exact ⟨e, .prof _ _ _ _, SameRule.refl _⟩
  | item s c items n d hn _ ih =>
    intro m hm
    cases m <;> simp only [Node.applyBlock, reduceCtorEq] at hm
    injection hm with h1 h2 h3
    rw [h3, applyBlockList_map] at hn
    obtain ⟨m, hm, rfl⟩ := List.mem_map.1 hn
    obtain ⟨e, h1, h2⟩ := ih m rfl
    exact ⟨e, .item _ _ _ m _ hm h1, h2⟩
  | result s c n d _ ih =>
    intro m hm
    cases m <;> simp only [Node.applyBlock, reduceCtorEq] at hm
    rename_i r
    injection hm with h1 h2 h3
    cases r with
    | none => simp [Node.applyBlockOpt] at h3
    | some r =>
      simp only [Node.applyBlockOpt, Option.some.injEq] at h3
      obtain ⟨e, h1, h2⟩ := ih r h3
      exact ⟨e, .result _ _ _ _ h1, h2⟩

theorem open_blocks {es : List Exc} {n : Node} {d : CourseData} (h : OpenCourse n d) :
    ∃ e, OpenCourse (applyBlocks es n) e ∧ SameRule e d := by
  induction es generalizing n d with
  | nil => exact ⟨d, h, SameRule.refl _⟩
  | cons x es ih =>
    rw [applyBlocks_cons]
    split
    · obtain ⟨e, h1, h2⟩ := open_applyBlock (p := x.path) h
      obtain ⟨f, h3, h4⟩ := ih h1
      exact ⟨f, h3, h4.trans h2⟩
    · exact ih h

theorem blocks_open {es : List Exc} {n : Node} {d : CourseData} (h : OpenCourse (applyBlocks es n) d) :
    ∃ e, OpenCourse n e ∧ SameRule d e := by
  induction es generalizing n with
  | nil => exact ⟨d, h, SameRule.refl _⟩
  | cons x es ih =>
    rw [applyBlocks_cons] at h
    split at h
    · obtain ⟨e, h1, h2⟩ := ih h
      obtain ⟨f, h3, h4⟩ := applyBlock_open h1 _ rfl
      exact ⟨f, h3, h2.trans h4⟩
    · exact ih h

theorem prepare_open {x : Ctx} {es : List Exc} {n : Node} {d : CourseData} (h : OpenCourse (prepareRule x es n) d) :
    ∃ e, OpenCourse n e ∧ SameRule d e := by
  obtain ⟨e, h1, h2⟩ := blocks_open h
  exact ⟨e, exclude_open h1 _ rfl, h2⟩

theorem open_prepare {x : Ctx} {es : List Exc} {n : Node} {d : CourseData} (h : OpenCourse n d) :
    ∃ e, OpenCourse (prepareRule x es n) e ∧ SameRule e d := open_blocks (open_exclude h)

theorem insertedItems_shape {x : Ctx} : ∀ {es : List Exc} {ys : List Y}, insertedItems x es = .ok ys → ∀ y ∈ ys,
    ∃ a b c, y = .map [("course", .str a), ("clbid", .str b), ("allow_claimed", .bool c), ("inserted", .bool true)] := by
  intro es
  induction es with
  | nil => intro ys h; simp [insertedItems] at h; subst h; simp
  | cons e es ih =>
    intro ys h
    unfold insertedItems at h
    split at h
    · simp only [ld_bind_ok] at h
      obtain ⟨c, -, rest, hrest, h⟩ := h
      cases h
      intro y hy
      rcases List.mem_cons.1 hy with rfl | hy
      · exact ⟨_, _, _, rfl⟩
      · exact ih hrest y hy
    · exact ih h

theorem inserted_course (a b : String) (c : Bool) :
    ruleKind [("course", .str a), ("clbid", .str b), ("allow_claimed", .bool c), ("inserted", .bool true)] = .course := by
  rfl

theorem inserted_flag {a b : String} {c : Bool} {p : Path} {r : CourseData}
    (h : loadCourseRule [("course", .str a), ("clbid", .str b), ("allow_claimed", .bool c), ("inserted", .bool true)] p =
      .ok r) : r.inserted = true := by
  unfold loadCourseRule at h
  simp only [ld_bind_ok] at h
  obtain ⟨_, _, _, _, _, _, _, _, _, _, _, _, _, _, _, _, ins, hins, h⟩ := h
  obtain ⟨_, _, _, _, _, _, _, _, _, _, _, _, _, _, _, _, _, _, _, _, _, _, _, _, _, _, _, _, h⟩ := h
  cases h
  have : ins = true := by
    have : Dict.flag [("course", Y.str a), ("clbid", .str b), ("allow_claimed", .bool c), ("inserted", .bool true)]
      "inserted" false = .ok true := rfl
    rw [this] at hins
    exact (Except.ok.inj hins).symm
  exact this

theorem refersTo_once {kids d b b' : Dict} {n n' : String} (h : RefersTo kids d n b) (h' : RefersTo kids d n' b') :
    n = n' ∧ b = b' := by
  rcases h with ⟨k, h1, h2⟩ | ⟨k, h1, h2⟩ <;> rcases h' with ⟨k', h1', h2'⟩ | ⟨k', h1', h2'⟩
  · rw [h1] at h1'
    injection h1' with h1'
    injection h1' with h1'
    exact ⟨h1', by rw [h2, h2']⟩
  · rw [k] at k'; cases k'
  · rw [k] at k'; cases k'
  · rw [h1] at h1'
    injection h1' with h1'
    injection h1' with h1'
    subst h1'
    rw [h2] at h2'
    injection h2' with h2'
    injection h2' with h2'
    exact ⟨rfl, h2'⟩

theorem refersTo_kind {kids d b : Dict} {n : String} (h : RefersTo kids d n b) :
    ruleKind d = .inline ∨ ruleKind d = .reference := by
  rcases h with ⟨k, -⟩ | ⟨k, -⟩
  · exact .inl k
  · exact .inr k

/-- a course rule that is loaded for a student, and that no exception has inserted, is also loaded by the index -/
theorem built_open {env1 env2 : Env} (ht : env1.templates = env2.templates)
    (hi : ∀ p, getInsertExceptions env1.ctx.exceptions p = []) {kids : Dict} {ems : List Dict} {p : Path} {y : Y}
    {o2 : Option Node} (h2 : Built env2 kids ems p y o2) : ems = [] → ∀ o1, Built env1 kids [] p y o1 → ∀ n2, o2 = some n2 →
      ∀ d, OpenCourse n2 d → d.inserted = false → ∃ n1, o1 = some n1 ∧ OpenCourse n1 d := by
  induction h2 with
  | prof hk hl =>
    rintro - o1 h1 n2 hn e ho -
    cases hn
    cases h1 with
    | prof hk' hl' =>
      rw [hl] at hl'
      cases hl'
      exact ⟨_, rfl, ho⟩
    | req hr => rcases refersTo_kind hr with h | h <;> simp [hk] at h
    | _ => simp_all
  | course hk hl =>
    rintro - o1 h1 n2 hn e ho -
    cases hn
    cases h1 with
    | course hk' hl' =>
      rw [hl] at hl'
      cases hl'
      exact ⟨_, rfl, ho⟩
    | req hr => rcases refersTo_kind hr with h | h <;> simp [hk] at h
    | _ => simp_all
  | query hk hl =>
    rintro - o1 h1 n2 hn e ho -
    cases hn
    cases ho
  | cond =>
    rintro - o1 h1 n2 hn e ho -
    split at hn
    · cases hn
    · cases hn
      cases ho
  | @count kids ems p d kids' listed expanded emItems inserts audits atMost cnt parts hk _ hci hex hae hin _ _ hparts hbs _ _ _ ih =>
    rintro rfl o1 h1 n2 hn e ho hne
    cases hn
    cases ho with
    | item _ _ _ n _ hn ho =>
    obtain ⟨⟨y, o⟩, hy, ho'⟩ := List.mem_filterMap.1 hn
    simp only at ho'
    subst ho'
    obtain ⟨i, hi'⟩ := List.mem_iff_getElem?.1 hy
    simp only [addEmphases, Except.ok.injEq, Prod.mk.injEq] at hae
    obtain ⟨rfl, rfl⟩ := hae
    cases h1 with
    | @count _ _ _ _ kids1 listed1 expanded1 emItems1 inserts1 audits1 atMost1 cnt1 parts1 hk1 _ hci1 hex1 hae1 hin1 _ _ hparts1 hb1 =>
      simp only [addEmphases, Except.ok.injEq, Prod.mk.injEq] at hae1
      obtain ⟨rfl, rfl⟩ := hae1
      rw [hi] at hin1
      simp only [insertedItems, Except.ok.injEq] at hin1
      subst hin1
      rw [hci] at hci1
      cases hci1
      rw [ht, hex] at hex1
      cases hex1
      have hyi : (expanded ++ [] ++ inserts)[i]? = some y := by
        rw [← hparts, List.getElem?_map, hi']
        rfl
      simp only [List.append_nil] at hyi hparts1
      by_cases hlt : i < expanded.length
      · rw [List.getElem?_append_left hlt, ← hparts1, List.getElem?_map] at hyi
        cases hp1 : parts1[i]? with
        | none => rw [hp1] at hyi; cases hyi
        | some q =>
          obtain ⟨y1, o1⟩ := q
          rw [hp1] at hyi
          simp only [Option.map_some, Option.some.injEq] at hyi
          subst hyi
          obtain ⟨n1, rfl, hopen⟩ := ih i y1 (some n) hi' rfl o1 (hb1 i y1 o1 hp1) n rfl e ho hne
          refine ⟨_, rfl, .item _ _ _ n1 _ ?_ hopen⟩
          exact List.mem_filterMap.2 ⟨_, List.mem_of_getElem? hp1, rfl⟩
      · rw [List.getElem?_append_right (by omega)] at hyi
        obtain ⟨a, b, c, rfl⟩ := insertedItems_shape hin y (List.mem_of_getElem? hyi)
        exfalso
        have hb := hbs i _ _ hi'
        generalize hz : (some n : Option Node) = z at hb
        cases hb with
        | course hk' hl' =>
          cases hz
          cases ho
          rw [inserted_flag hl'] at hne
          cases hne
        | req hr => rcases refersTo_kind hr with h | h <;> simp [inserted_course] at h
        | _ => simp_all [inserted_course]
    | req hr => rcases refersTo_kind hr with h | h <;> simp [hk] at h
    | _ => simp_all
  | @req kids ems p d name body rd r hr _ hnone hsome _ hown _ _ _ _ _ _ _ _ _ ih =>
    rintro rfl o1 h1 n2 hn e ho hne
    cases hn
    cases ho with
    | result _ _ n _ ho =>
    cases h1 with
    | @req _ _ _ _ name1 body1 rd1 r1 hr1 _ hnone1 hsome1 hb1 hown1 =>
      obtain ⟨rfl, rfl⟩ := refersTo_once hr hr1
      cases hres : body.opt "result" with
      | none => cases hnone hres
      | some yr =>
        obtain ⟨own, hd, -⟩ := hown yr hres
        obtain ⟨n1, rfl, hopen⟩ := ih yr own hres hd rfl r1 (hb1 yr own hres hd) n rfl e ho hne
        exact ⟨_, rfl, .result _ _ _ _ hopen⟩
    | _ => rcases refersTo_kind hr with h | h <;> simp_all

mutual
theorem leaf_open {s : Stage} {d : CourseData} : ∀ n : Node, (∀ m ∈ n.within, m.isCond = false) →
    Node.course s d ∈ n.leaves → OpenCourse n d
  | .course s' d', _, h => by
    simp only [Node.leaves, List.mem_singleton] at h
    cases h
    exact .self _ _
  | .query _ _, _, h => by simp [Node.leaves] at h
  | .count _ _ items, hc, h => by
    simp only [Node.leaves] at h
    simp only [Node.within, List.mem_cons, forall_eq_or_imp] at hc
    obtain ⟨n, hn, ho⟩ := leaf_openList items hc.2 h
    exact .item _ _ _ n _ hn ho
  | .req _ _ none, _, h => by simp [Node.leaves, Node.leavesOpt] at h
  | .req _ _ (some n), hc, h => by
    simp only [Node.leaves, Node.leavesOpt] at h
    simp only [Node.within, Node.withinOpt, List.mem_cons, forall_eq_or_imp] at hc
    exact .result _ _ _ _ (leaf_open n hc.2 h)
  | .cond _ _ _ _, hc, _ => by
    have := hc _ (by simp only [Node.within]; exact List.mem_cons_self)
    simp [Node.isCond] at this
  | .prof _ _ none, _, h => by simp [Node.leaves] at h
  | .prof _ _ (some (t, e)), _, h => by
    simp only [Node.leaves, Option.toList_some, List.map_cons, List.map_nil, List.mem_singleton] at h
    cases h
    exact .prof _ _ _ _
theorem leaf_openList {s : Stage} {d : CourseData} : ∀ ns : List Node, (∀ m ∈ Node.withinList ns, m.isCond = false) →
    Node.course s d ∈ Node.leavesList ns → ∃ n ∈ ns, OpenCourse n d
  | [], _, h => by simp [Node.leavesList] at h
  | n :: ns, hc, h => by
    simp only [Node.leavesList, Node.withinList, List.mem_append] at *
    rcases h with h | h
    · exact ⟨n, by simp, leaf_open n (fun m hm => hc m (.inl hm)) h⟩
    · obtain ⟨n', hn', ho⟩ := leaf_openList ns (fun m hm => hc m (.inr hm)) h
      exact ⟨n', by simp [hn'], ho⟩
end

/-- a course rule that asks for a course by its name or its crsid only, and is not marked as hidden -/
structure CourseData.Ordinary (hidden : Path → Bool) (d : CourseData) : Prop where
  institution : d.institution = none
  clbid : d.clbid = none
  ap : d.ap = none
  name : d.name = none
  shown : hidden d.path = false
  notEmpty : d.course ≠ some "" ∧ d.crsid ≠ some ""
  given : d.course ≠ none ∨ d.crsid ≠ none

theorem ordinary_asks {hidden : Path → Bool} {d : CourseData} (h : d.Ordinary hidden) :
    ∃ s, d.AsksFor hidden s ∧ (d.crsid = some s ∨ d.course = some s) := by
  obtain ⟨h1, h2, h3, h4, h5, ⟨h6, h6'⟩, h7⟩ := h
  cases hc : d.crsid with
  | some s => exact ⟨s, ⟨.inl h1, .inl h2, .inl h3, .inl h4, h5, by rintro rfl; exact h6' hc, .inl hc⟩, .inl rfl⟩
  | none =>
    cases hd : d.course with
    | none => simp [hc, hd] at h7
    | some s =>
      exact ⟨s, ⟨.inl h1, .inl h2, .inl h3, .inl h4, h5, by rintro rfl; exact h6 hd, .inr ⟨.inl hc, hd⟩⟩, .inr rfl⟩

/-- **C97** (partial): whatever course an audit of the area claims for a course rule, for any student, is in the index
of the area, by its name or its crsid, unless an exception has put the class or the rule there.  Missing: areas with a
conditional rule, for which it is false (`C97_conditional_refuted`), areas with emphases, students with templates, and
rules that ask for a class, a test, a name or another institution, which the index leaves out on purpose. -/
theorem C97_claimed_course_is_listed_partial (hidden : Path → Bool) (spec : Dict) (i : Area)
    (hindex : discoverArea spec = .ok i) (hems : spec.dict "emphases" = .ok [])
    (c : Constants) (st : Student) (es : List Exc) (all : Bool) (a : Area) (hload : loadArea c [] st es all spec = .ok a)
    (hcond : ∀ n ∈ a.result.within, n.isCond = false)
    (o : Orders) (ho : o.Lawful)
    (s : AreaSolution) (hs : s ∈ (a.solutions o st es).items) (r : AreaResult) (ha : s.audit o a = .ok r)
    (cl : Claim) (hc : cl ∈ r.claims) :
    ∃ leaf ∈ a.result.leaves, cl.claimedBy = leaf.path ∧
      ∀ stage d, leaf = .course stage d → d.Ordinary hidden → d.inserted = false →
        ¬ InsertedBy es leaf.path cl.course.clbid →
        cl.course.identity ∈ i.result.mentioned hidden ∨ cl.course.crsid ∈ i.result.mentioned hidden := by
  obtain ⟨leaf, hleaf, -, hby, -, hent⟩ := C26_loaded_area c [] st es all spec a hload o ho s hs r ha cl hc
  refine ⟨leaf, hleaf, hby, ?_⟩
  rintro stage d rfl hord hins hnot
  have hent : CourseEntitled s.ctx d cl.course := hent.resolve_right hnot
  obtain ⟨_, hcrs, hcourse, -⟩ := hent.byFilters hord.clbid
  obtain ⟨em1, dec1, ch1, data1, rule1, _, _, he1, hd1, hc1, hr1, hb1, hres1, _⟩ := loadArea_inv hindex
  obtain ⟨em2, dec2, ch2, data2, rule2, _, _, he2, hd2, hc2, hr2, hb2, hres2, _⟩ := loadArea_inv hload
  rw [hems] at he1 he2
  cases he1
  cases he2
  rw [hc1] at hc2
  cases hc2
  rw [hr1] at hr2
  cases hr2
  have hdec : ∀ (st : Student) (all : Bool) (l : List Dict), declaredEmphases st [] all = .ok l → l = [] := by
    intro st all l h
    simp [declaredEmphases, mapE] at h
    exact h
  have h1 := hdec _ _ _ hd1
  have h2 := hdec _ _ _ hd2
  subst h1
  subst h2
  have hopen := leaf_open _ hcond hleaf
  rw [hres2] at hopen
  obtain ⟨e, hopen, hsame⟩ := prepare_open hopen
  have hne : e.inserted = false := by
    unfold SameRule at hsame
    rw [hsame] at hins
    exact hins
  obtain ⟨n1, hn1, hopen1⟩ := built_open (env1 := ⟨loadCtx {} [], {}, []⟩) (env2 := ⟨loadCtx st es, c, []⟩) rfl
    (fun p => rfl) hb2 rfl _ hb1 rule2 rfl e hopen hne
  cases hn1
  obtain ⟨f, hopen1, hsame1⟩ := open_prepare (x := loadCtx {} []) (es := []) hopen1
  rw [← hres1] at hopen1
  obtain ⟨t, hasks, ht⟩ := ordinary_asks hord
  have hmem : t ∈ i.result.mentioned hidden :=
    (Node.mem_mentioned _ _).2 ⟨f, hopen1, hsame1.symm.asks (hsame.asks hasks)⟩
  rcases ht with ht | ht
  · right; rw [hcrs t ht]; exact hmem
  · left; rw [(hcourse t ht).1]; exact hmem

/-! ### Non-trivial cases -/

/-- the courses that the index lists for an area -/
def indexedCourses (hidden : Path → Bool) (spec : Dict) : Option (List String) :=
  match discoverArea spec with
  | .ok a => some (a.result.mentioned hidden)
  | .error _ => none

/-- an area with a choice beneath a requirement, a course by its crsid, and the course of a proficiency; the test and
the class of another institution are left out -/
def mixedArea : Dict := oneRule (.map [("any", .list [
  .map [("name", .str "Core"), ("result", .map [("count", .int 1), ("of", .list [.map [("course", .str "CSCI 121")],
    .map [("crsid", .str "0000012345")]])])],
  .map [("proficiency", .str "guitar"), ("course", .map [("course", .str "MUSIC 100")])],
  .map [("ap", .str "Calculus AB")],
  .map [("course", .str "BIO 100"), ("institution", .str "Elsewhere")],
  .map [("course", .str "CSCI 251"), ("grade", .str "C")]])])

example : indexedCourses (fun _ => false) mixedArea = some ["CSCI 121", "0000012345", "MUSIC 100", "CSCI 251"] ∧
    indexedCourses (fun p => p == ["$", ".count", "[0]", ".count", "[4]", "*CSCI 251(grade >= C)"]) mixedArea =
      some ["CSCI 121", "0000012345", "MUSIC 100"] ∧
    auditedClaims sampleTaken [] mixedArea ≠ some [] ∧ auditedClaims sampleTaken [] mixedArea ≠ none := by
  refine ⟨?_, ?_, ?_, ?_⟩ <;> decide +kernel

/-- an area with two emphases, of which a student declares one at most: the index has the courses of both -/
def emphasesArea : Dict := oneRule (.map [("course", .str "CSCI 121")]) ++ [("emphases", .map [
  ("1", .map [("name", .str "Theory"), ("result", .map [("all", .list [.map [("course", .str "MATH 252")]])])]),
  ("2", .map [("name", .str "Systems"), ("result", .map [("all", .list [.map [("name", .str "Networks"),
    ("result", .map [("course", .str "CSCI 273")])]])])])])]

example : indexedCourses (fun _ => false) emphasesArea = some ["CSCI 121", "MATH 252", "CSCI 273"] := by decide +kernel

/-- a course for the students who have another one, and for the others a third -/
def choosingArea : Dict := oneRule (.map [("$if", .map [("has-course", .str "CSCI 251")]),
  ("$then", .map [("course", .str "CSCI 121")]), ("$else", .map [("course", .str "CSCI 125")])])

/-- **C97**, refuted for conditional rules: a course that an audit claims for a course rule, by its name, is not in the
index, which is empty. -/
theorem C97_conditional_refuted : ∃ (spec : Dict) (i : Area), discoverArea spec = .ok i ∧
    i.result.mentioned (fun _ => false) = [] ∧ ∃ (st : Student) (a : Area), loadArea {} [] st [] false spec = .ok a ∧
      ∃ s ∈ (a.solutions .insertion st []).items, ∃ r, s.audit .insertion a = .ok r ∧ ∃ cl ∈ r.claims,
        cl.course.clbid = "1" ∧ cl.claimedBy = ["$", ".count", "[0]", ".cond", "/t", "*CSCI 121"] := by
  have h1 : indexedCourses (fun _ => false) choosingArea = some [] := by decide +kernel
  have h2 : auditedClaims sampleTaken [] choosingArea =
      some [[("1", ["$", ".count", "[0]", ".cond", "/t", "*CSCI 121"])]] := by decide +kernel
  unfold indexedCourses at h1
  split at h1
  · rename_i i hi
    refine ⟨choosingArea, i, hi, Option.some.inj h1, sampleTaken, ?_⟩
    unfold auditedClaims at h2
    split at h2
    · rename_i a ha
      refine ⟨a, ha, ?_⟩
      have h2 := Option.some.inj h2
      have hm : [(("1", ["$", ".count", "[0]", ".cond", "/t", "*CSCI 121"]) : String × Path)] ∈
          [[(("1", ["$", ".count", "[0]", ".cond", "/t", "*CSCI 121"]) : String × Path)]] := by simp
      rw [← h2] at hm
      obtain ⟨s, hs, he⟩ := List.mem_map.1 hm
      refine ⟨s, hs, ?_⟩
      split at he
      · rename_i r hr
        refine ⟨r, hr, ?_⟩
        have : (("1", ["$", ".count", "[0]", ".cond", "/t", "*CSCI 121"]) : String × Path) ∈
          r.claims.map (fun c => (c.course.clbid, c.claimedBy)) := by rw [he]; simp
        obtain ⟨cl, hcl, hpair⟩ := List.mem_map.1 this
        exact ⟨cl, hcl, (Prod.mk.inj hpair).1, (Prod.mk.inj hpair).2⟩
      · cases he
    · cases h2
  · cases h1

end Dp
