import Verif.Props.Discover
import Verif.Props.MeetsArea

/-
What the index of `dp/bin/discover.py` says about an area: the attributes that its filters test, and the courses that
its rules ask for.
-/
namespace Dp

/-! ### Attributes -/

/-- the two records of a course differ in nothing but attributes that are not among `listed` -/
structure SameBut (listed : List String) (c c' : Course) : Prop where
  rest : c' = { c with attributes := c'.attributes }
  attributes : ∀ b ∈ listed, b ∈ c.attributes ↔ b ∈ c'.attributes

/-- attributes are tested by the key `attributes`, and compared with texts -/
def PredLeaf.PlainAttribute (l : PredLeaf) : Prop :=
  l.key ≠ "attribute" ∧ (l.key = "attributes" → (∃ s, l.expected = .sc (.str s)) ∨ ∃ vs, l.expected = .tup vs)

theorem applyCourse_congr {c c' : Course} (hrest : c' = { c with attributes := c'.attributes }) {l : PredLeaf}
    (h1 : l.key ≠ "attribute") (h2 : l.key ≠ "attributes") : applyCourseLeaf c l = applyCourseLeaf c' l := by
  rw [hrest]
  unfold applyCourseLeaf
  have e1 : (l.key == "attributes") = false := by simpa using h2
  have e2 : (l.key == "attribute") = false := by simpa using h1
  simp only [e1, e2, Bool.or_self, Bool.false_eq_true, if_false]

theorem scalarEq_str (s t : String) : applyScalar .eq (.str s) (.str t) = .ok (s == t) := by
  simp [applyScalar, Sc.isStr, Sc.pyEq]

theorem scalarNeq_str (s t : String) : applyScalar .neq (.str s) (.str t) = .ok (!(s == t)) := by
  simp [applyScalar, Sc.isStr, Sc.pyEq]

theorem anyE_eq (l : List String) (t : String) :
    anyE (fun v => applyScalar .eq v (.str t)) (l.map .str) = .ok (decide (t ∈ l)) := by
  induction l with
  | nil => rfl
  | cons a l ih =>
    simp only [List.map_cons, anyE, scalarEq_str]
    by_cases h : a = t
    · simp [h]
    · have e : (a == t) = false := by simpa using h
      have h' : ¬ t = a := fun e => h e.symm
      simp [e, ih, h']

theorem allE_neq (l : List String) (t : String) :
    allE (fun v => applyScalar .neq v (.str t)) (l.map .str) = .ok (!decide (t ∈ l)) := by
  induction l with
  | nil => rfl
  | cons a l ih =>
    simp only [List.map_cons, allE, scalarNeq_str]
    by_cases h : a = t
    · simp [h]
    · have e : (a == t) = false := by simpa using h
      have h' : ¬ t = a := fun e => h e.symm
      simp [e, ih, h']

/-- comparing the attributes of a course with one text tells whether it is among them -/
theorem leftTuple_str (op : Operator) (l l' : List String) (t : String) (h : t ∈ l ↔ t ∈ l') :
    applyLeftTuple op (l.map .str) (.str t) = applyLeftTuple op (l'.map .str) (.str t) := by
  have heq : ∀ l : List String, applyLeftTuple .eq (l.map .str) (.str t) = .ok (decide (t ∈ l)) := by
    intro l
    unfold applyLeftTuple
    match l with
    | [] => rfl
    | [x] =>
      simp only [List.map_cons, List.map_nil, scalarEq_str, List.mem_singleton]
      by_cases hx : x = t
      · subst hx; simp
      · have h' : ¬ t = x := fun e => hx e.symm
        simp [hx, h']
    | x :: y :: l => exact anyE_eq (x :: y :: l) t
  cases op
  case eq => rw [heq, heq]; simp [h]
  case neq => simp only [applyLeftTuple, allE_neq, h]
  case in' => simp only [applyLeftTuple, anyE_eq, h]
  case nin => simp only [applyLeftTuple, allE_neq, h]
  all_goals rfl

theorem tuples_str (op : Operator) (l l' : List String) (vs : List Sc)
    (h : ∀ b ∈ vs.map Sc.pyStr, b ∈ l ↔ b ∈ l') :
    applyTuples op (l.map .str) vs = applyTuples op (l'.map .str) vs := by
  have key : ∀ l : List String, ((l.map Sc.str).isEmpty || vs.isEmpty) = true →
      (l.map Sc.str).any (fun x => vs.any (fun y => x.pyStr == y.pyStr)) = false := by
    intro l hl
    simp only [Bool.or_eq_true, List.isEmpty_iff, List.map_eq_nil_iff] at hl
    rcases hl with rfl | rfl <;> simp
  have hval : ∀ l : List String, op = .in' → applyTuples op (l.map .str) vs =
      .ok ((l.map Sc.str).any (fun x => vs.any (fun y => x.pyStr == y.pyStr))) := by
    intro l hop
    unfold applyTuples
    simp only [hop, ne_eq, not_true_eq_false, if_false]
    split
    · rename_i he; rw [key l he]
    · rfl
  by_cases hop : op = .in'
  · rw [hval l hop, hval l' hop]
    congr 1
    rw [Bool.eq_iff_iff]
    simp only [List.any_map, List.any_eq_true, Function.comp, beq_iff_eq, Sc.pyStr]
    constructor
    · rintro ⟨x, hx, y, hy, rfl⟩
      exact ⟨_, (h _ (List.mem_map_of_mem hy)).1 hx, y, hy, rfl⟩
    · rintro ⟨x, hx, y, hy, rfl⟩
      exact ⟨_, (h _ (List.mem_map_of_mem hy)).2 hx, y, hy, rfl⟩
  · simp [applyTuples, hop]

theorem leaf_sameBut {l : PredLeaf} (hl : l.PlainAttribute) {c c' : Course}
    (h : SameBut (Pred.leaf l).buckets c c') : applyCourseLeaf c l = applyCourseLeaf c' l := by
  by_cases hk : l.key = "attributes"
  · have e : ∀ c : Course, applyCourseLeaf c l = l.compare (.tup (c.attributes.map .str)) := by
      intro c
      unfold applyCourseLeaf
      simp [hk]
    rw [e, e]
    unfold PredLeaf.compare
    have hb := h.attributes
    simp only [Pred.buckets, hk, beq_self_eq_true, if_true] at hb
    rcases hl.2 hk with ⟨s, hs⟩ | ⟨vs, hvs⟩
    · rw [hs] at hb ⊢
      simp only [applyOperator, attributeValues, List.mem_singleton, forall_eq] at hb ⊢
      rw [leftTuple_str l.op _ _ s hb]
    · rw [hvs] at hb ⊢
      exact tuples_str l.op _ _ vs hb
  · exact applyCourse_congr h.rest hl.1 hk

theorem SameBut.mono {l l' : List String} {c c' : Course} (h : SameBut l c c') (hl : ∀ b ∈ l', b ∈ l) : SameBut l' c c' :=
  ⟨h.rest, fun b hb => h.attributes b (hl b hb)⟩

mutual
theorem Pred.sameBut : ∀ (p : Pred) (c c' : Course), (∀ l ∈ p.leaves, l.PlainAttribute) → SameBut p.buckets c c' →
    p.applyCourse c = p.applyCourse c'
  | .and ps, c, c', hl, h => by
    simp only [Pred.leaves, Pred.buckets, Pred.applyCourse, Pred.apply] at *
    exact Pred.sameButAll ps c c' hl h
  | .or ps, c, c', hl, h => by
    simp only [Pred.leaves, Pred.buckets, Pred.applyCourse, Pred.apply] at *
    exact Pred.sameButAny ps c c' hl h
  | .not p, c, c', hl, h => by
    simp only [Pred.leaves, Pred.buckets, Pred.applyCourse, Pred.apply] at *
    have := Pred.sameBut p c c' hl h
    simp only [Pred.applyCourse] at this
    rw [this]
  | .cond r t e, c, c', hl, h => by
    simp only [Pred.leaves, Pred.buckets, Pred.applyCourse, Pred.apply, List.mem_append] at *
    have h1 := Pred.sameBut t c c' (fun l hl' => hl l (.inl hl')) (h.mono (fun b hb => List.mem_append_left _ hb))
    have h2 := Pred.sameButElse e c c' (fun l hl' => hl l (.inr hl')) (h.mono (fun b hb => List.mem_append_right _ hb))
    simp only [Pred.applyCourse] at h1
    rw [h1, h2]
  | .leaf l, c, c', hl, h => by
    simp only [Pred.applyCourse, Pred.apply]
    exact leaf_sameBut (hl l (by simp [Pred.leaves])) h
theorem Pred.sameButAll : ∀ (ps : List Pred) (c c' : Course), (∀ l ∈ Pred.leavesAll ps, l.PlainAttribute) →
    SameBut (Pred.bucketsList ps) c c' → Pred.applyAll (applyCourseLeaf c) ps = Pred.applyAll (applyCourseLeaf c') ps
  | [], _, _, _, _ => rfl
  | p :: ps, c, c', hl, h => by
    simp only [Pred.leavesAll, Pred.bucketsList, Pred.applyAll, List.mem_append] at *
    have h1 := Pred.sameBut p c c' (fun l hl' => hl l (.inl hl')) (h.mono (fun b hb => List.mem_append_left _ hb))
    have h2 := Pred.sameButAll ps c c' (fun l hl' => hl l (.inr hl')) (h.mono (fun b hb => List.mem_append_right _ hb))
    simp only [Pred.applyCourse] at h1
    rw [h1, h2]
theorem Pred.sameButAny : ∀ (ps : List Pred) (c c' : Course), (∀ l ∈ Pred.leavesAll ps, l.PlainAttribute) →
    SameBut (Pred.bucketsList ps) c c' → Pred.applyAny (applyCourseLeaf c) ps = Pred.applyAny (applyCourseLeaf c') ps
  | [], _, _, _, _ => rfl
  | p :: ps, c, c', hl, h => by
    simp only [Pred.leavesAll, Pred.bucketsList, Pred.applyAny, List.mem_append] at *
    have h1 := Pred.sameBut p c c' (fun l hl' => hl l (.inl hl')) (h.mono (fun b hb => List.mem_append_left _ hb))
    have h2 := Pred.sameButAny ps c c' (fun l hl' => hl l (.inr hl')) (h.mono (fun b hb => List.mem_append_right _ hb))
    simp only [Pred.applyCourse] at h1
    rw [h1, h2]
theorem Pred.sameButElse : ∀ (e : Option Pred) (c c' : Course), (∀ l ∈ Pred.leavesElse e, l.PlainAttribute) →
    SameBut (Pred.bucketsOpt e) c c' → Pred.applyElse (applyCourseLeaf c) e = Pred.applyElse (applyCourseLeaf c') e
  | none, _, _, _, _ => rfl
  | some p, c, c', hl, h => by
    simp only [Pred.leavesElse, Pred.bucketsOpt, Pred.applyElse] at *
    have := Pred.sameBut p c c' hl h
    simpa only [Pred.applyCourse] using this
end

/-- the filters of an assertion, of whatever branch -/
def AnyAssertion.tests : AnyAssertion → List Pred
  | .single a => a.where'.toList
  | .cond _ t f => t.where'.toList ++ (match f with | none => [] | some f => f.where'.toList)
  | .dyn _ _ t => t.where'.toList

/-- the filters of a query: its own, those of its limits and those of its assertions -/
def QueryData.tests (d : QueryData) : List Pred :=
  d.where'.toList ++ d.limit.map (·.where') ++ d.assertions.flatMap AnyAssertion.tests

/-- all filters that the rules of an area may apply to courses, and those of its limits -/
def Area.tests (a : Area) : List Pred :=
  a.limit.map (·.where') ++ a.result.within.flatMap (fun n => match n with
    | .query _ d => d.tests
    | .count _ d _ => d.audits.flatMap AnyAssertion.tests
    | _ => [])

theorem opt_buckets {o : Option Pred} {p : Pred} (hp : p ∈ o.toList) {b : String} (hb : b ∈ p.buckets) :
    b ∈ Pred.bucketsOpt o := by
  cases o with
  | none => simp at hp
  | some q => simp only [Option.toList_some, List.mem_singleton] at hp; subst hp; exact hb

theorem AnyAssertion.tests_buckets {a : AnyAssertion} {p : Pred} (hp : p ∈ a.tests) {b : String} (hb : b ∈ p.buckets) :
    b ∈ a.buckets := by
  cases a with
  | single a => exact opt_buckets hp hb
  | dyn c r t => exact opt_buckets hp hb
  | cond c t f =>
    simp only [AnyAssertion.tests, List.mem_append] at hp
    simp only [AnyAssertion.buckets, List.mem_append]
    rcases hp with hp | hp
    · exact .inl (opt_buckets hp hb)
    · right
      cases f with
      | none => simp at hp
      | some f => exact opt_buckets hp hb

theorem QueryData.tests_buckets {d : QueryData} {p : Pred} (hp : p ∈ d.tests) {b : String} (hb : b ∈ p.buckets) :
    b ∈ d.buckets := by
  unfold QueryData.tests at hp
  unfold QueryData.buckets
  simp only [List.mem_append, List.mem_map, List.mem_flatMap] at hp ⊢
  rcases hp with (hp | ⟨l, hl, rfl⟩) | ⟨a, ha, hp⟩
  · exact .inl (.inr (opt_buckets hp hb))
  · exact .inl (.inl ⟨l, hl, hb⟩)
  · exact .inr ⟨a, ha, AnyAssertion.tests_buckets hp hb⟩

mutual
theorem Node.query_buckets : ∀ n : Node, (∀ m ∈ n.within, m.isCond = false) → ∀ s d, Node.query s d ∈ n.within →
    ∀ b ∈ d.buckets, b ∈ n.buckets
  | .course s d, h, s', d', hm, b, hb => by simp [Node.within] at hm
  | .query s d, h, s', d', hm, b, hb => by
    simp only [Node.within, List.mem_singleton, Node.query.injEq] at hm
    obtain ⟨rfl, rfl⟩ := hm
    exact hb
  | .count s d items, h, s', d', hm, b, hb => by
    simp only [Node.within, List.mem_cons, reduceCtorEq, false_or] at hm h
    simp only [Node.buckets]
    exact Node.query_bucketsList items (fun m hm => h m (.inr hm)) s' d' hm b hb
  | .req s d r, h, s', d', hm, b, hb => by
    simp only [Node.within, List.mem_cons, reduceCtorEq, false_or] at hm h
    simp only [Node.buckets]
    exact Node.query_bucketsOpt r (fun m hm => h m (.inr hm)) s' d' hm b hb
  | .cond s d t f, h, s', d', hm, b, hb => by
    have := h (.cond s d t f) (by simp [Node.within])
    simp [Node.isCond] at this
  | .prof s d c, h, s', d', hm, b, hb => by
    simp only [Node.within, List.mem_cons, reduceCtorEq, false_or, List.mem_map] at hm
    obtain ⟨_, _, hm⟩ := hm
    cases hm
theorem Node.query_bucketsList : ∀ ns : List Node, (∀ m ∈ Node.withinList ns, m.isCond = false) → ∀ s d,
    Node.query s d ∈ Node.withinList ns → ∀ b ∈ d.buckets, b ∈ Node.bucketsList ns
  | [], h, s', d', hm, b, hb => by simp [Node.withinList] at hm
  | n :: ns, h, s', d', hm, b, hb => by
    simp only [Node.withinList, List.mem_append, Node.bucketsList] at *
    rcases hm with hm | hm
    · exact .inl (Node.query_buckets n (fun m hm => h m (.inl hm)) s' d' hm b hb)
    · exact .inr (Node.query_bucketsList ns (fun m hm => h m (.inr hm)) s' d' hm b hb)
theorem Node.query_bucketsOpt : ∀ n : Option Node, (∀ m ∈ Node.withinOpt n, m.isCond = false) → ∀ s d,
    Node.query s d ∈ Node.withinOpt n → ∀ b ∈ d.buckets, b ∈ Node.bucketsOpt n
  | none, h, s', d', hm, b, hb => by simp [Node.withinOpt] at hm
  | some n, h, s', d', hm, b, hb => by
    simp only [Node.withinOpt, Node.bucketsOpt] at *
    exact Node.query_buckets n h s' d' hm b hb
end

/-- **C96** (partial): what a filter of an area says about a course does not depend on attributes that the index does
not list for the area.  Missing: areas with a conditional rule or with an assertion about a count rule that has a filter,
and tests by the key `attribute` or of a number, for which it is false (`C96_conditional_refuted`,
`C96_audit_refuted`, `C96_key_refuted`, `C96_number_refuted`). -/
theorem C96_attributes_are_listed_partial (spec : Dict) (a : Area) (_h : discoverArea spec = .ok a)
    (hcond : ∀ n ∈ a.result.within, n.isCond = false)
    (haudit : ∀ s d items, Node.count s d items ∈ a.result.within → ∀ u ∈ d.audits, u.tests = [])
    (p : Pred) (hp : p ∈ a.tests) (hplain : ∀ l ∈ p.leaves, l.PlainAttribute)
    (c c' : Course) (hsame : SameBut a.buckets c c') : p.applyCourse c = p.applyCourse c' := by
  refine Pred.sameBut p c c' hplain (hsame.mono (fun b hb => ?_))
  unfold Area.tests at hp
  unfold Area.buckets
  simp only [List.mem_append, List.mem_map, List.mem_flatMap] at hp ⊢
  rcases hp with ⟨l, hl, rfl⟩ | ⟨n, hn, hp⟩
  · exact .inl ⟨l, hl, hb⟩
  · right
    cases n with
    | query s d => exact Node.query_buckets _ hcond s d hn b (QueryData.tests_buckets hp hb)
    | count s d items =>
      simp only [List.mem_flatMap] at hp
      obtain ⟨u, hu, hp⟩ := hp
      rw [haudit s d items hn u hu] at hp
      cases hp
    | course => cases hp
    | req => cases hp
    | cond => cases hp
    | prof => cases hp

/-- an attribute is listed only if some filter of the area names it -/
theorem Pred.bucket_named : ∀ (p : Pred) (b : String), b ∈ p.buckets →
    ∃ l ∈ p.leaves, l.key = "attributes" ∧ b ∈ attributeValues l.expected
  | .and ps, b, hb => by simp only [Pred.buckets, Pred.leaves] at *; exact list ps b hb
  | .or ps, b, hb => by simp only [Pred.buckets, Pred.leaves] at *; exact list ps b hb
  | .not p, b, hb => by simp only [Pred.buckets, Pred.leaves] at *; exact Pred.bucket_named p b hb
  | .cond r t e, b, hb => by
    simp only [Pred.buckets, Pred.leaves, List.mem_append] at *
    rcases hb with hb | hb
    · obtain ⟨l, hl, h⟩ := Pred.bucket_named t b hb
      exact ⟨l, .inl hl, h⟩
    · cases e with
      | none => simp [Pred.bucketsOpt] at hb
      | some q =>
        obtain ⟨l, hl, h⟩ := Pred.bucket_named q b hb
        exact ⟨l, .inr hl, h⟩
  | .leaf l, b, hb => by
    simp only [Pred.buckets] at hb
    split at hb
    · rename_i h
      exact ⟨l, by simp [Pred.leaves], by simpa using h, hb⟩
    · cases hb
where
  list : ∀ (ps : List Pred) (b : String), b ∈ Pred.bucketsList ps →
      ∃ l ∈ Pred.leavesAll ps, l.key = "attributes" ∧ b ∈ attributeValues l.expected
    | [], b, hb => by simp [Pred.bucketsList] at hb
    | p :: ps, b, hb => by
      simp only [Pred.bucketsList, Pred.leavesAll, List.mem_append] at *
      rcases hb with hb | hb
      · obtain ⟨l, hl, h⟩ := Pred.bucket_named p b hb
        exact ⟨l, .inl hl, h⟩
      · obtain ⟨l, hl, h⟩ := list ps b hb
        exact ⟨l, .inr hl, h⟩

theorem toList_buckets {o : Option Pred} {b : String} (hb : b ∈ Pred.bucketsOpt o) : ∃ p ∈ o.toList, b ∈ p.buckets := by
  cases o with
  | none => simp [Pred.bucketsOpt] at hb
  | some p => exact ⟨p, by simp, hb⟩

theorem AnyAssertion.buckets_tests {a : AnyAssertion} {b : String} (hb : b ∈ a.buckets) : ∃ p ∈ a.tests, b ∈ p.buckets := by
  cases a with
  | single a => exact toList_buckets hb
  | dyn c r t => exact toList_buckets hb
  | cond c t f =>
    simp only [AnyAssertion.tests, AnyAssertion.buckets, List.mem_append] at *
    rcases hb with hb | hb
    · obtain ⟨p, hp, h⟩ := toList_buckets hb
      exact ⟨p, .inl hp, h⟩
    · cases f with
      | none => simp at hb
      | some f =>
        obtain ⟨p, hp, h⟩ := toList_buckets hb
        exact ⟨p, .inr hp, h⟩

theorem QueryData.buckets_tests {d : QueryData} {b : String} (hb : b ∈ d.buckets) : ∃ p ∈ d.tests, b ∈ p.buckets := by
  unfold QueryData.buckets at hb
  unfold QueryData.tests
  simp only [List.mem_append, List.mem_map, List.mem_flatMap] at hb ⊢
  rcases hb with (⟨l, hl, hb⟩ | hb) | ⟨a, ha, hb⟩
  · exact ⟨_, .inl (.inr ⟨l, hl, rfl⟩), hb⟩
  · obtain ⟨p, hp, h⟩ := toList_buckets hb
    exact ⟨p, .inl (.inl hp), h⟩
  · obtain ⟨p, hp, h⟩ := AnyAssertion.buckets_tests hb
    exact ⟨p, .inr ⟨a, ha, hp⟩, h⟩

mutual
theorem Node.bucket_query : ∀ (n : Node) (b : String), b ∈ n.buckets → ∃ s d, Node.query s d ∈ n.within ∧ b ∈ d.buckets
  | .query s d, b, hb => ⟨s, d, by simp [Node.within], hb⟩
  | .count s d items, b, hb => by
    simp only [Node.buckets] at hb
    obtain ⟨s', d', h, h'⟩ := Node.bucket_queryList items b hb
    exact ⟨s', d', by simp [Node.within, h], h'⟩
  | .req s d r, b, hb => by
    simp only [Node.buckets] at hb
    obtain ⟨s', d', h, h'⟩ := Node.bucket_queryOpt r b hb
    exact ⟨s', d', by simp [Node.within, h], h'⟩
  | .course _ _, b, hb => by simp [Node.buckets] at hb
  | .prof _ _ _, b, hb => by simp [Node.buckets] at hb
  | .cond _ _ _ _, b, hb => by simp [Node.buckets] at hb
theorem Node.bucket_queryList : ∀ (ns : List Node) (b : String), b ∈ Node.bucketsList ns →
    ∃ s d, Node.query s d ∈ Node.withinList ns ∧ b ∈ d.buckets
  | [], b, hb => by simp [Node.bucketsList] at hb
  | n :: ns, b, hb => by
    simp only [Node.bucketsList, Node.withinList, List.mem_append] at *
    rcases hb with hb | hb
    · obtain ⟨s', d', h, h'⟩ := Node.bucket_query n b hb
      exact ⟨s', d', .inl h, h'⟩
    · obtain ⟨s', d', h, h'⟩ := Node.bucket_queryList ns b hb
      exact ⟨s', d', .inr h, h'⟩
theorem Node.bucket_queryOpt : ∀ (n : Option Node) (b : String), b ∈ Node.bucketsOpt n →
    ∃ s d, Node.query s d ∈ Node.withinOpt n ∧ b ∈ d.buckets
  | none, b, hb => by simp [Node.bucketsOpt] at hb
  | some n, b, hb => Node.bucket_query n b hb
end

/-- **C96**: nothing is listed in vain: for every attribute that the index lists for an area, one of the area's filters
compares the attributes of a course with it. -/
theorem C96_nothing_else (spec : Dict) (a : Area) (_h : discoverArea spec = .ok a) (b : String) (hb : b ∈ a.buckets) :
    ∃ p ∈ a.tests, ∃ l ∈ p.leaves, l.key = "attributes" ∧
      (l.expected = .sc (.str b) ∨ ∃ vs, l.expected = .tup vs ∧ ∃ v ∈ vs, v.pyStr = b) := by
  have hex : ∃ p ∈ a.tests, b ∈ p.buckets := by
    unfold Area.buckets at hb
    unfold Area.tests
    simp only [List.mem_append, List.mem_flatMap] at hb ⊢
    rcases hb with ⟨l, hl, hb⟩ | hb
    · exact ⟨_, .inl (List.mem_map_of_mem hl), hb⟩
    · obtain ⟨s, d, h, h'⟩ := Node.bucket_query _ b hb
      obtain ⟨p, hp, hpb⟩ := QueryData.buckets_tests h'
      exact ⟨p, .inr ⟨_, h, hp⟩, hpb⟩
  obtain ⟨p, hp, hpb⟩ := hex
  obtain ⟨l, hl, hk, hv⟩ := Pred.bucket_named p b hpb
  refine ⟨p, hp, l, hl, hk, ?_⟩
  cases hv' : l.expected with
  | tup vs =>
    rw [hv'] at hv
    simp only [attributeValues, List.mem_map] at hv
    exact .inr ⟨vs, rfl, hv⟩
  | sc v =>
    rw [hv'] at hv
    left
    cases v <;> simp_all [attributeValues]

/-! ### Non-trivial cases -/

/-- an area with one rule -/
def oneRule (rule : Y) : Dict :=
  [("name", .str "Writing"), ("type", .str "concentration"), ("code", .str "700"), ("result", .map [("all", .list [rule])])]

/-- a query for two courses that fit the filter -/
def queryFor (w : Y) : Y :=
  .map [("from", .str "courses"), ("where", w), ("assert", .map [("count(courses)", .map [("$gte", .int 2)])])]

/-- a class with attributes -/
def classWith (l : List String) : Course := { clbid := "1", identity := "WRIT 100", attributes := l }

/-- the attributes listed for an area, and what its filters say about a class -/
def listedAndTested (spec : Dict) (c : Course) : Option (List String × List (Option Bool)) :=
  match discoverArea spec with
  | .ok a => some (a.buckets, a.tests.map (fun p => (p.applyCourse c).toOption))
  | .error _ => none

/-- a filter for either of two attributes, but not a third -/
def writingArea : Dict := oneRule (queryFor (.map [("$and", .list [
  clause "attributes" "$in" (.list [.str "writ_basic", .str "writ_more"]), .map [("$not", clause "attributes" "$eq" (.str "writ_no"))]])]))

/-- All three are listed, and a fourth attribute makes no difference, while each of the three may. -/
example : listedAndTested writingArea (classWith ["writ_more"]) = some (["writ_basic", "writ_more", "writ_no"], [some true]) ∧
    listedAndTested writingArea (classWith ["other", "writ_more"]) = some (["writ_basic", "writ_more", "writ_no"], [some true]) ∧
    listedAndTested writingArea (classWith []) = some (["writ_basic", "writ_more", "writ_no"], [some false]) ∧
    listedAndTested writingArea (classWith ["writ_more", "writ_no"]) =
      some (["writ_basic", "writ_more", "writ_no"], [some false]) := by
  refine ⟨?_, ?_, ?_, ?_⟩ <;> decide +kernel

theorem listed_refuted {spec : Dict} {c c' : Course} {l l' : List (Option Bool)}
    (h1 : listedAndTested spec c = some ([], l)) (h2 : listedAndTested spec c' = some ([], l')) (hne : l ≠ l') :
    ∃ a, discoverArea spec = .ok a ∧ a.buckets = [] ∧ ∃ p ∈ a.tests, p.applyCourse c ≠ p.applyCourse c' := by
  unfold listedAndTested at h1 h2
  split at h1
  · rename_i a ha
    rw [ha] at h2
    simp only [Option.some.injEq, Prod.mk.injEq] at h1 h2
    refine ⟨a, ha, h1.1, ?_⟩
    by_contra hn
    push Not at hn
    apply hne
    rw [← h1.2, ← h2.2]
    exact List.map_congr_left (fun p hp => by rw [hn p hp])
  · cases h1

/-- **C96**, refuted for conditional rules: the index passes over them. -/
theorem C96_conditional_refuted : ∃ (spec : Dict) (a : Area), discoverArea spec = .ok a ∧ a.buckets = [] ∧
    ∃ p ∈ a.tests, p.applyCourse (classWith ["writ_basic"]) ≠ p.applyCourse (classWith []) := by
  refine ⟨oneRule (.map [("$if", .map [("has-course", .str "WRIT 111")]),
    ("$then", queryFor (clause "attributes" "$eq" (.str "writ_basic"))),
    ("$else", .map [("course", .str "WRIT 111")])]), ?_⟩
  exact listed_refuted (l := [some true]) (l' := [some false]) (by decide +kernel) (by decide +kernel) (by decide)

/-- **C96**, refuted for the assertions of a count rule: the index passes over them too. -/
theorem C96_audit_refuted : ∃ (spec : Dict) (a : Area), discoverArea spec = .ok a ∧ a.buckets = [] ∧
    ∃ p ∈ a.tests, p.applyCourse (classWith ["writ_basic"]) ≠ p.applyCourse (classWith []) := by
  refine ⟨oneRule (.map [("any", .list [.map [("course", .str "WRIT 111")], .map [("course", .str "WRIT 211")]]),
    ("audit", .map [("where", clause "attributes" "$eq" (.str "writ_basic")),
      ("assert", .map [("count(courses)", .map [("$gte", .int 1)])])])]), ?_⟩
  exact listed_refuted (l := [some true]) (l' := [some false]) (by decide +kernel) (by decide +kernel) (by decide)

/-- **C96**, refuted for the other name of the key. -/
theorem C96_key_refuted : ∃ (spec : Dict) (a : Area), discoverArea spec = .ok a ∧ a.buckets = [] ∧
    ∃ p ∈ a.tests, p.applyCourse (classWith ["writ_basic"]) ≠ p.applyCourse (classWith []) := by
  refine ⟨oneRule (queryFor (clause "attribute" "$eq" (.str "writ_basic"))), ?_⟩
  exact listed_refuted (l := [some true]) (l' := [some false]) (by decide +kernel) (by decide +kernel) (by decide)

/-- **C96**, refuted for an attribute that is written as a number. -/
theorem C96_number_refuted : ∃ (spec : Dict) (a : Area), discoverArea spec = .ok a ∧ a.buckets = [] ∧
    ∃ p ∈ a.tests, p.applyCourse (classWith ["100"]) ≠ p.applyCourse (classWith []) := by
  refine ⟨oneRule (queryFor (clause "attributes" "$eq" (.int 100))), ?_⟩
  exact listed_refuted (l := [some true]) (l' := [some false]) (by decide +kernel) (by decide +kernel) (by decide)

end Dp
