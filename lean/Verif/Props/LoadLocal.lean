import Verif.Props.LoadArea

/-
A value exception changes the expected number of the assertion at its path, and nothing else of
the loaded area (C49).
-/
namespace Dp

/-! ### Specification -/

/-- the assertion, with the number if it is the one at the path -/
def Assertion.expecting (p : Path) (v : Rat) (a : Assertion) : Assertion :=
  if a.path = p then { a with expected := v } else a

/-- the same for the parts of an assertion -/
def AnyAssertion.expecting (p : Path) (v : Rat) : AnyAssertion → AnyAssertion
  | .single a => .single (a.expecting p v)
  | .cond b t f => .cond b (t.expecting p v) (f.map (Assertion.expecting p v))
  | .dyn c r t => .dyn c r (t.expecting p v)

mutual
/-- the same for all assertions of a rule: those of queries and those of count rules -/
def Node.expecting (p : Path) (v : Rat) : Node → Node
  | .course s d => .course s d
  | .query s d => .query s { d with assertions := d.assertions.map (AnyAssertion.expecting p v) }
  | .count s d items =>
    .count s { d with audits := d.audits.map (AnyAssertion.expecting p v) } (Node.expectingList p v items)
  | .req s d r => .req s d (Node.expectingOpt p v r)
  | .cond s d t f => .cond s d (t.expecting p v) (Node.expectingOpt p v f)
  | .prof s d c => .prof s d c
/-- of all rules -/
def Node.expectingList (p : Path) (v : Rat) : List Node → List Node
  | [] => []
  | n :: ns => n.expecting p v :: Node.expectingList p v ns
/-- of an optional rule -/
def Node.expectingOpt (p : Path) (v : Rat) : Option Node → Option Node
  | none => none
  | some n => some (n.expecting p v)
end

/-- the same for an area -/
def Area.expecting (p : Path) (v : Rat) (a : Area) : Area :=
  { a with result := a.result.expecting p v, commonRules := Node.expectingList p v a.commonRules }

/-! ### Helper lemmas -/

/-- the contexts differ in the number expected at one path only -/
structure OneValue (x x' : Ctx) (p : Path) (v : Rat) : Prop where
  rest : { x' with exceptions := x.exceptions } = x
  waive : ∀ q, getWaiveException x'.exceptions q = getWaiveException x.exceptions q
  inserts : ∀ q, getInsertExceptions x'.exceptions q = getInsertExceptions x.exceptions q
  value : ∀ q r, overrideValue x'.exceptions q r = if q = p then v else overrideValue x.exceptions q r

theorem OneValue.fact {x x' : Ctx} {p : Path} {v : Rat} (h : OneValue x x' p v) (k s : String) :
    x'.fact k s = x.fact k s := by
  obtain ⟨e, w, _, _⟩ := h
  cases x; cases x'
  simp only [Ctx.mk.injEq] at e
  simp only at w
  obtain ⟨rfl, rfl, rfl, rfl, rfl, -, rfl, rfl, rfl, rfl⟩ := e
  simp only [Ctx.fact, hasWaiveForConditional, w]

theorem OneValue.forced {x x' : Ctx} {p : Path} {v : Rat} (h : OneValue x x' p v) (k : String) :
    x'.forcedCourseByClbid k = x.forcedCourseByClbid k := by
  obtain ⟨e, w, _, _⟩ := h
  cases x; cases x'
  simp only [Ctx.mk.injEq] at e
  obtain ⟨rfl, rfl, rfl, rfl, rfl, -, rfl, rfl, rfl, rfl⟩ := e
  rfl

mutual
theorem OneValue.cond {x x' : Ctx} {p : Path} {v : Rat} (h : OneValue x x' p v) : ∀ y, loadCond x' y = loadCond x y
  | .map [(k, .list l)] => by simp only [loadCond, OneValue.conds h l]
  | .map [(k, .str s)] => by simp only [loadCond, h.fact]
  | .map [(k, .null)] => by simp only [loadCond]
  | .map [(k, .bool b)] => by simp only [loadCond]
  | .map [(k, .int b)] => by simp only [loadCond]
  | .map [(k, .float b)] => by simp only [loadCond]
  | .map [(k, .map d)] => by simp only [loadCond, OneValue.cond h (.map d)]
  | .map [] => by simp only [loadCond]
  | .map (a :: b :: l) => by simp only [loadCond]
  | .null => by simp only [loadCond]
  | .bool _ => by simp only [loadCond]
  | .int _ => by simp only [loadCond]
  | .float _ => by simp only [loadCond]
  | .str _ => by simp only [loadCond]
  | .list _ => by simp only [loadCond]
theorem OneValue.conds {x x' : Ctx} {p : Path} {v : Rat} (h : OneValue x x' p v) :
    ∀ l, loadConds x' l = loadConds x l
  | [] => rfl
  | y :: ys => by simp only [loadConds, OneValue.cond h y, OneValue.conds h ys]
end

theorem mapE_congr {α β : Type} {f g : α → Except Err β} (h : ∀ a, f a = g a) : ∀ l, mapE f l = mapE g l
  | [] => rfl
  | a :: as => by simp only [mapE, h, mapE_congr h as]

theorem OneValue.pred {x x' : Ctx} {p : Path} {v : Rat} (h : OneValue x x' p v) (c : Constants) (m : DataType) :
    ∀ n y, loadPred x' c m n y = loadPred x c m n y := by
  intro n
  induction n with
  | zero => intro y; rfl
  | succ n ih => intro y; simp only [loadPred, h.cond, mapE_congr ih, ih]

theorem OneValue.optFilter {x x' : Ctx} {p : Path} {v : Rat} (h : OneValue x x' p v) (c : Constants) (m : DataType)
    (o : Option Y) : loadOptFilter x' c m o = loadOptFilter x c m o := by
  cases o <;> simp only [loadOptFilter, loadFilter, h.pred]

theorem OneValue.limits {x x' : Ctx} {p : Path} {v : Rat} (h : OneValue x x' p v) (c : Constants)
    (o : Option Y) : loadLimits x' c o = loadLimits x c o := by
  have : ∀ y, loadLimit x' c y = loadLimit x c y := by
    intro y; simp only [loadLimit, loadFilter, h.pred]
  cases o <;> simp only [loadLimits, mapE_congr this]

theorem OneValue.changes {x x' : Ctx} {p : Path} {v : Rat} (h : OneValue x x' p v) : ∀ l q,
    applyChanges x' q l = applyChanges x q l
  | [], q => rfl
  | y :: ys, q => by
    have : ∀ q, applyChange x' q y = applyChange x q y := by intro q; simp only [applyChange, h.cond]
    simp only [applyChanges, this, OneValue.changes h ys]

theorem map_bind' {α β γ : Type} (g : β → γ) (m : Except Err α) (f : α → Except Err β) :
    Except.map g (m >>= f) = m >>= fun a => Except.map g (f a) := by
  cases m <;> rfl

theorem bind_map' {α β γ : Type} (g : α → β) (m : Except Err α) (f : β → Except Err γ) :
    Except.map g m >>= f = m >>= fun a => f (g a) := by
  cases m <;> rfl

theorem bind_congr' {α β : Type} (m : Except Err α) {f g : α → Except Err β} (h : ∀ a, f a = g a) :
    (m >>= f) = (m >>= g) := by
  cases m with
  | error e => rfl
  | ok a => exact h a

theorem OneValue.single {x x' : Ctx} {p : Path} {v : Rat} (h : OneValue x x' p v) (c : Constants) (t : DataType)
    (q : Path) (y : Y) : loadSingle x' c t q y = (loadSingle x c t q y).map (Assertion.expecting p v) := by
  unfold loadSingle
  simp only [map_bind', h.optFilter, h.changes, h.waive, h.value]
  refine bind_congr' _ fun data => bind_congr' _ fun w => bind_congr' _ fun _ => bind_congr' _ fun _ =>
    bind_congr' _ fun yb => bind_congr' _ fun body => ?_
  split
  · simp only [map_bind']
    refine bind_congr' _ fun _ => bind_congr' _ fun d => bind_congr' _ fun r => ?_
    obtain ⟨op, raw⟩ := r
    simp only [map_bind']
    refine bind_congr' _ fun _ => bind_congr' _ fun _ => bind_congr' _ fun ch => bind_congr' _ fun wr => bind_congr' _ fun cd =>
      bind_congr' _ fun am => bind_congr' _ fun tr => bind_congr' _ fun _ => ?_
    simp only [Except.map, Assertion.expecting]
    by_cases hp : q ++ [".assert"] = p <;> simp only [hp, if_true, if_false]
  · rfl

theorem OneValue.assertion {x x' : Ctx} {p : Path} {v : Rat} (h : OneValue x x' p v) (c : Constants) (t : DataType)
    (q : Path) (y : Y) : loadAssertion x' c t q y = (loadAssertion x c t q y).map (AnyAssertion.expecting p v) := by
  unfold loadAssertion
  simp only [map_bind', h.cond, h.single]
  refine bind_congr' _ fun data => ?_
  split
  · simp only [map_bind', bind_map']
    refine bind_congr' _ fun yi => bind_congr' _ fun b => bind_congr' _ fun yt => bind_congr' _ fun a => ?_
    cases data.opt "$else" with
    | none => rfl
    | some ye =>
      simp only
      cases loadSingle x c t (q ++ ["/f"]) ye <;> rfl
  · simp only [map_bind', bind_map']
    exact bind_congr' _ fun a => rfl

theorem OneValue.anyAssertion {x x' : Ctx} {p : Path} {v : Rat} (h : OneValue x x' p v) (c : Constants) (t : DataType)
    (q : Path) (y : Y) : loadAnyAssertion x' c t q y = (loadAnyAssertion x c t q y).map (AnyAssertion.expecting p v) := by
  unfold loadAnyAssertion
  simp only [map_bind', h.single, h.assertion]
  refine bind_congr' _ fun data => ?_
  split
  · simp only [map_bind', bind_map']
    exact bind_congr' _ fun _ => bind_congr' _ fun yw => bind_congr' _ fun cd => bind_congr' _ fun yt => bind_congr' _ fun a => rfl
  · rfl

theorem mapIdxE_map {α β : Type} {f f' : Nat → α → Except Err β} {g : β → β} (h : ∀ i a, f' i a = (f i a).map g) :
    ∀ l i, mapIdxE f' i l = (mapIdxE f i l).map (List.map g)
  | [], i => rfl
  | a :: as, i => by
    simp only [mapIdxE, map_bind', h, bind_map', mapIdxE_map h as]
    exact bind_congr' _ fun b => bind_congr' _ fun bs => rfl

/-- how a rule is loaded in the two contexts -/
def SameButOne (p : Path) (v : Rat) (load load' : Loader) : Prop :=
  ∀ kids q y, load' kids q y = (load kids q y).map (Option.map (Node.expecting p v))

mutual
theorem Node.expecting_names (p : Path) (v : Rat) : ∀ n : Node, (n.expecting p v).requirementNames = n.requirementNames
  | .course _ _ => rfl
  | .query _ _ => rfl
  | .count _ _ items => by simp only [Node.expecting, Node.requirementNames, Node.expecting_namesList p v items]
  | .req _ _ _ => rfl
  | .cond _ d t f => by
    simp only [Node.expecting, Node.requirementNames, Node.expecting_names p v t, Node.expecting_namesOpt p v f]
  | .prof _ _ _ => rfl
theorem Node.expecting_namesList (p : Path) (v : Rat) : ∀ ns : List Node,
    Node.requirementNames.namesList (Node.expectingList p v ns) = Node.requirementNames.namesList ns
  | [] => rfl
  | n :: ns => by
    simp only [Node.expectingList, Node.requirementNames.namesList, Node.expecting_names p v n, Node.expecting_namesList p v ns]
theorem Node.expecting_namesOpt (p : Path) (v : Rat) : ∀ n : Option Node,
    Node.requirementNames.namesOpt (Node.expectingOpt p v n) = Node.requirementNames.namesOpt n
  | none => rfl
  | some n => by simp only [Node.expectingOpt, Node.requirementNames.namesOpt, Node.expecting_names p v n]
end

theorem expectingOpt_eq (p : Path) (v : Rat) (o : Option Node) : Node.expectingOpt p v o = o.map (Node.expecting p v) := by
  cases o <;> rfl

theorem expectingList_eq (p : Path) (v : Rat) (l : List Node) : Node.expectingList p v l = l.map (Node.expecting p v) := by
  induction l with
  | nil => rfl
  | cons a as ih => simp only [Node.expectingList, ih, List.map_cons]

theorem SameButOne.requirement {p : Path} {v : Rat} {load load' : Loader} (h : SameButOne p v load load') (name : String)
    (d : Dict) (q : Path) : loadRequirement load' name d q = (loadRequirement load name d q).map (Node.expecting p v) := by
  have hr : ∀ q, loadReqResult load' d q = (loadReqResult load d q).map (Option.map (Node.expecting p v)) := by
    intro q
    unfold loadReqResult
    cases d.opt "result" with
    | none => rfl
    | some y =>
      simp only [map_bind', h _ _ _, bind_map']
      refine bind_congr' _ fun own => bind_congr' _ fun o => ?_
      cases o with
      | none => rfl
      | some n =>
        simp only [Option.map_some, map_bind', Node.expecting_names]
        exact bind_congr' _ fun _ => rfl
  unfold loadRequirement
  simp only [map_bind', hr, bind_map', Option.isSome_map]
  refine bind_congr' _ fun _ => bind_congr' _ fun r => bind_congr' _ fun au => bind_congr' _ fun _ => bind_congr' _ fun _ =>
    bind_congr' _ fun _ => bind_congr' _ fun _ => bind_congr' _ fun _ => bind_congr' _ fun _ => bind_congr' _ fun _ => ?_
  simp only [Except.map, Node.expecting, expectingOpt_eq]

theorem SameButOne.conditional {x x' : Ctx} {p : Path} {v : Rat} (hx : OneValue x x' p v) {load load' : Loader}
    (h : SameButOne p v load load') (kids d : Dict) (q : Path) :
    loadConditional x' load' kids d q = (loadConditional x load kids d q).map (Option.map (Node.expecting p v)) := by
  unfold loadConditional
  simp only [map_bind', hx.cond, h _ _ _, bind_map', hx.waive]
  refine bind_congr' _ fun _ => bind_congr' _ fun yi => bind_congr' _ fun b => bind_congr' _ fun yt => bind_congr' _ fun t => ?_
  cases t with
  | none => rfl
  | some t =>
    simp only [Option.map_some, map_bind']
    have hf : (match d.opt "$else" with
        | none => .ok none
        | some y => (load kids (q ++ [".cond"] ++ ["/f"]) y).map (Option.map (Node.expecting p v))) =
        ((match d.opt "$else" with
        | none => .ok none
        | some y => load kids (q ++ [".cond"] ++ ["/f"]) y) : Except Err (Option Node)).map
          (Option.map (Node.expecting p v)) := by
      cases d.opt "$else" <;> rfl
    refine (congrArg (fun m => m >>= _) hf).trans ?_
    simp only [bind_map']
    refine bind_congr' _ fun f => bind_congr' _ fun hide => ?_
    simp only [Except.map]
    split
    · rfl
    · simp only [Option.map_some, Node.expecting, expectingOpt_eq]

theorem OneValue.query {x x' : Ctx} {p : Path} {v : Rat} (h : OneValue x x' p v) (c : Constants)
    (ts : List (String × TemplateCourse)) (d : Dict) (q : Path) :
    loadQuery ⟨x', c, ts⟩ d q = (loadQuery ⟨x, c, ts⟩ d q).map
      (fun r => { r with assertions := r.assertions.map (AnyAssertion.expecting p v) }) := by
  have ha : ∀ t q, loadQueryAssertions ⟨x', c, ts⟩ t q d =
      (loadQueryAssertions ⟨x, c, ts⟩ t q d).map (List.map (AnyAssertion.expecting p v)) := by
    intro t q
    unfold loadQueryAssertions
    cases d.get? "assert" with
    | some a =>
      simp only [map_bind', h.anyAssertion, bind_map']
      exact bind_congr' _ fun _ => rfl
    | none =>
      simp only [map_bind']
      exact bind_congr' _ fun l => mapIdxE_map (fun i a => h.anyAssertion c t _ a) l 0
  unfold loadQuery
  simp only [map_bind', h.optFilter, h.limits, h.waive, ha, bind_map', List.isEmpty_map]
  refine bind_congr' _ fun _ => bind_congr' _ fun _ => bind_congr' _ fun _ => bind_congr' _ fun _ => bind_congr' _ fun _ =>
    bind_congr' _ fun _ => bind_congr' _ fun _ => bind_congr' _ fun _ => bind_congr' _ fun _ => bind_congr' _ fun _ =>
    bind_congr' _ fun _ => bind_congr' _ fun _ => rfl

theorem OneValue.audits {x x' : Ctx} {p : Path} {v : Rat} (h : OneValue x x' p v) (c : Constants)
    (ts : List (String × TemplateCourse)) (q : Path) (d : Dict) :
    loadAudits ⟨x', c, ts⟩ q d = (loadAudits ⟨x, c, ts⟩ q d).map (List.map (AnyAssertion.expecting p v)) := by
  unfold loadAudits
  cases d.opt "audit" with
  | none => rfl
  | some y =>
    simp only [map_bind', h.assertion]
    refine bind_congr' _ fun a => ?_
    cases a.get? "all" with
    | none =>
      simp only [map_bind', bind_map']
      exact bind_congr' _ fun _ => rfl
    | some w =>
      simp only [map_bind']
      exact bind_congr' _ fun l => mapIdxE_map (fun i a => rfl) l 0

theorem SameButOne.items {p : Path} {v : Rat} {load load' : Loader} (h : SameButOne p v load load') (kids : Dict)
    (q : Path) : ∀ l i, loadItems load' kids q i l = (loadItems load kids q i l).map (List.map (Node.expecting p v))
  | [], i => rfl
  | y :: ys, i => by
    simp only [loadItems, map_bind', h _ _ _, bind_map', SameButOne.items h kids q ys]
    refine bind_congr' _ fun _ => bind_congr' _ fun o => bind_congr' _ fun l => ?_
    cases o <;> rfl

theorem OneValue.inserted {x x' : Ctx} {p : Path} {v : Rat} (h : OneValue x x' p v) : ∀ es,
    insertedItems x' es = insertedItems x es
  | [] => rfl
  | e :: es => by
    unfold insertedItems
    cases e.kind <;> simp only [h.forced, OneValue.inserted h es]

theorem SameButOne.count {x x' : Ctx} {p : Path} {v : Rat} (hx : OneValue x x' p v) {load load' : Loader}
    (h : SameButOne p v load load') (c : Constants) (ts : List (String × TemplateCourse)) (kids : Dict)
    (ems : List Dict) (d : Dict) (q : Path) :
    loadCount ⟨x', c, ts⟩ load' kids ems d q =
      (loadCount ⟨x, c, ts⟩ load kids ems d q).map (Node.expecting p v) := by
  unfold loadCount
  simp only [map_bind']
  refine bind_congr' _ fun _ => bind_congr' _ fun _ => bind_congr' _ fun r => ?_
  obtain ⟨kids', items⟩ := r
  simp only [map_bind', hx.inserted, hx.inserts, hx.audits, h.items, bind_map', List.length_map]
  refine bind_congr' _ fun _ => bind_congr' _ fun _ => bind_congr' _ fun _ => bind_congr' _ fun _ => bind_congr' _ fun _ =>
    bind_congr' _ fun _ => bind_congr' _ fun _ => bind_congr' _ fun _ => ?_
  simp only [Except.map, Node.expecting, expectingList_eq]

theorem OneValue.rule {x x' : Ctx} {p : Path} {v : Rat} (h : OneValue x x' p v) (c : Constants)
    (ts : List (String × TemplateCourse)) : ∀ n kids ems q y,
    loadRule ⟨x', c, ts⟩ n kids ems q y =
      (loadRule ⟨x, c, ts⟩ n kids ems q y).map (Option.map (Node.expecting p v)) := by
  intro n
  induction n with
  | zero => intros; rfl
  | succ n ih =>
    intro kids ems q y
    have hl : SameButOne p v (fun kids p y => loadRule ⟨x, c, ts⟩ n kids [] p y)
        (fun kids p y => loadRule ⟨x', c, ts⟩ n kids [] p y) := fun kids q y => ih kids [] q y
    unfold loadRule
    simp only [map_bind']
    refine bind_congr' _ fun d => bind_congr' _ fun _ => ?_
    split
    · simp only [map_bind']
      cases hr : loadProficiency d q with
      | error e => rfl
      | ok r =>
        have : r.expecting p v = r := by
          unfold loadProficiency at hr
          simp only [ld_bind_ok] at hr
          obtain ⟨_, _, _, _, _, _, _, _, hr⟩ := hr
          cases hr
          rfl
        show Except.ok (some r) = Except.ok (some (r.expecting p v))
        rw [this]
    split
    · simp only [map_bind']
      exact bind_congr' _ fun _ => rfl
    split
    · simp only [map_bind', h.query, bind_map']
      exact bind_congr' _ fun _ => rfl
    split
    · exact SameButOne.conditional h hl kids d q
    split
    · simp only [map_bind', SameButOne.count h hl, bind_map']
      exact bind_congr' _ fun _ => rfl
    split
    · simp only [map_bind', hl.requirement, bind_map']
      exact bind_congr' _ fun _ => bind_congr' _ fun _ => bind_congr' _ fun _ => rfl
    split
    · simp only [map_bind', hl.requirement, bind_map']
      exact bind_congr' _ fun _ => bind_congr' _ fun _ => bind_congr' _ fun _ => bind_congr' _ fun _ =>
        bind_congr' _ fun _ => rfl
    · rfl

mutual
theorem Node.expecting_exclude (p : Path) (v : Rat) (ks : List String) : ∀ n : Node,
    (n.expecting p v).exclude ks = (n.exclude ks).expecting p v
  | .course _ _ => rfl
  | .query _ _ => rfl
  | .count _ _ items => by simp only [Node.expecting, Node.exclude, Node.expecting_excludeList p v ks items]
  | .req _ _ r => by simp only [Node.expecting, Node.exclude, Node.expecting_excludeOpt p v ks r]
  | .cond _ _ t f => by
    simp only [Node.expecting, Node.exclude, Node.expecting_exclude p v ks t, Node.expecting_excludeOpt p v ks f]
  | .prof _ _ _ => rfl
theorem Node.expecting_excludeList (p : Path) (v : Rat) (ks : List String) : ∀ ns : List Node,
    Node.excludeList ks (Node.expectingList p v ns) = Node.expectingList p v (Node.excludeList ks ns)
  | [] => rfl
  | n :: ns => by
    simp only [Node.expectingList, Node.excludeList, Node.expecting_exclude p v ks n, Node.expecting_excludeList p v ks ns]
theorem Node.expecting_excludeOpt (p : Path) (v : Rat) (ks : List String) : ∀ n : Option Node,
    Node.excludeOpt ks (Node.expectingOpt p v n) = Node.expectingOpt p v (Node.excludeOpt ks n)
  | none => rfl
  | some n => by simp only [Node.expectingOpt, Node.excludeOpt, Node.expecting_exclude p v ks n]
end

mutual
theorem Node.expecting_block (p : Path) (v : Rat) (q : Path) (k : String) : ∀ n : Node,
    (n.expecting p v).applyBlock q k = (n.applyBlock q k).expecting p v
  | .course _ _ => rfl
  | .query _ d => by
    simp only [Node.expecting, Node.applyBlock]
    by_cases h : d.path = q <;> simp only [h, if_true, if_false]
  | .count _ _ items => by simp only [Node.expecting, Node.applyBlock, Node.expecting_blockList p v q k items]
  | .req _ _ r => by simp only [Node.expecting, Node.applyBlock, Node.expecting_blockOpt p v q k r]
  | .cond _ _ t f => by
    simp only [Node.expecting, Node.applyBlock, Node.expecting_block p v q k t, Node.expecting_blockOpt p v q k f]
  | .prof _ _ _ => rfl
theorem Node.expecting_blockList (p : Path) (v : Rat) (q : Path) (k : String) : ∀ ns : List Node,
    Node.applyBlockList q k (Node.expectingList p v ns) = Node.expectingList p v (Node.applyBlockList q k ns)
  | [] => rfl
  | n :: ns => by
    simp only [Node.expectingList, Node.applyBlockList, Node.expecting_block p v q k n, Node.expecting_blockList p v q k ns]
theorem Node.expecting_blockOpt (p : Path) (v : Rat) (q : Path) (k : String) : ∀ n : Option Node,
    Node.applyBlockOpt q k (Node.expectingOpt p v n) = Node.expectingOpt p v (Node.applyBlockOpt q k n)
  | none => rfl
  | some n => by simp only [Node.expectingOpt, Node.applyBlockOpt, Node.expecting_block p v q k n]
end

theorem expecting_blocks (p : Path) (v : Rat) : ∀ (es : List Exc) (n : Node),
    applyBlocks es (n.expecting p v) = (applyBlocks es n).expecting p v
  | [], n => rfl
  | e :: es, n => by
    have ih := expecting_blocks p v es
    unfold applyBlocks at ih ⊢
    simp only [List.foldl_cons]
    cases e.kind <;> simp only [ih, Node.expecting_block]

theorem OneValue.required {x x' : Ctx} {p : Path} {v : Rat} (h : OneValue x x' p v) (d : CourseData) :
    courseRequired x' d = courseRequired x d := by
  obtain ⟨e, _, w, _⟩ := h
  cases x; cases x'
  simp only [Ctx.mk.injEq] at e
  simp only at w
  obtain ⟨rfl, rfl, rfl, rfl, rfl, -, rfl, rfl, rfl, rfl⟩ := e
  simp only [courseRequired, courseMatches, w]
  rfl

mutual
theorem OneValue.requiredCourses {x x' : Ctx} {p : Path} {v : Rat} (h : OneValue x x' p v) : ∀ n : Node,
    (n.expecting p v).requiredCourses x' = n.requiredCourses x
  | .course _ d => by simp only [Node.expecting, Node.requiredCourses, h.required]
  | .query _ _ => by simp only [Node.expecting, Node.requiredCourses]
  | .count _ _ items => by
    simp only [Node.expecting, Node.requiredCourses, OneValue.requiredList h items]
    simp only [expectingList_eq, List.length_map]
  | .req _ _ r => by simp only [Node.expecting, Node.requiredCourses, OneValue.requiredOpt h r]
  | .cond _ d t f => by
    simp only [Node.expecting, Node.requiredCourses, OneValue.requiredCourses h t, OneValue.requiredOpt h f]
  | .prof _ _ none => by simp only [Node.expecting, Node.requiredCourses]
  | .prof _ _ (some (_, d)) => by simp only [Node.expecting, Node.requiredCourses, h.required]
theorem OneValue.requiredList {x x' : Ctx} {p : Path} {v : Rat} (h : OneValue x x' p v) : ∀ ns : List Node,
    Node.listRequired x' (Node.expectingList p v ns) = Node.listRequired x ns
  | [] => rfl
  | n :: ns => by
    simp only [Node.expectingList, Node.listRequired, OneValue.requiredCourses h n, OneValue.requiredList h ns]
theorem OneValue.requiredOpt {x x' : Ctx} {p : Path} {v : Rat} (h : OneValue x x' p v) : ∀ n : Option Node,
    Node.optRequired x' (Node.expectingOpt p v n) = Node.optRequired x n
  | none => rfl
  | some n => by simp only [Node.expectingOpt, Node.optRequired, OneValue.requiredCourses h n]
end

/-- the contexts of two lists of exceptions -/
theorem oneValue_ctx (st : Student) (p : Path) (v : Rat) (es es' : List Exc)
    (hi : es'.filter (·.isInsertion) = es.filter (·.isInsertion))
    (ho : es'.filter (·.isOverride) = es.filter (·.isOverride))
    (hv : ∀ q, es'.find? (fun e => e.path == q && e.isValue) =
      if q = p then some ⟨p, .value v⟩ else es.find? (fun e => e.path == q && e.isValue)) :
    OneValue (loadCtx st es) (loadCtx st es') p v := by
  have hf : ∀ (l : List Exc) q, l.find? (fun e => e.path == q && e.isOverride) =
      (l.filter (·.isOverride)).find? (fun e => e.path == q) := by
    intro l q
    rw [List.find?_filter]
    congr 1
    funext e
    cases e.isOverride <;> simp [beq_eq_decide]
  have hg : ∀ (l : List Exc) q, l.filter (fun e => e.isInsertion && e.path == q) =
      (l.filter (·.isInsertion)).filter (fun e => e.path == q) := by
    intro l q
    rw [List.filter_filter]
    congr 1
    funext e
    simp [Bool.and_comm]
  refine ⟨rfl, fun q => ?_, fun q => ?_, fun q r => ?_⟩
  · simp only [loadCtx, (C07_exact_path_first_wins _ q).2.2.1, hf, ho]
  · simp only [loadCtx, (C07_exact_path_first_wins _ q).1, hg, hi]
  · simp only [loadCtx, overrideValue, (C07_exact_path_first_wins _ q).2.2.2, hv]
    by_cases h : q = p <;> simp [h]

theorem OneValue.common {x x' : Ctx} {p : Path} {v : Rat} (h : OneValue x x' p v) (c : Constants)
    (ts : List (String × TemplateCourse)) (name : String) (spec : Y) (i : Nat) :
    loadCommon ⟨x', c, ts⟩ name spec i = (loadCommon ⟨x, c, ts⟩ name spec i).map (Node.expecting p v) := by
  unfold loadCommon
  simp only [map_bind', h.rule, bind_map']
  refine bind_congr' _ fun o => ?_
  cases o <;> rfl

theorem OneValue.commonRules {x x' : Ctx} {p : Path} {v : Rat} (h : OneValue x x' p v) (c : Constants)
    (ts : List (String × TemplateCourse)) (degree dept : Option String) (others : List AreaPointer) (code : String) :
    prepareCommonRules ⟨x', c, ts⟩ degree dept others code =
      (prepareCommonRules ⟨x, c, ts⟩ degree dept others code).map (Node.expectingList p v) := by
  unfold prepareCommonRules
  simp only [map_bind', h.common, bind_map']
  refine bind_congr' _ fun _ => bind_congr' _ fun _ => ?_
  split
  · rfl
  · simp only [map_bind']
    exact bind_congr' _ fun _ => rfl

theorem oneValue_area (c : Constants) (ts : List (String × TemplateCourse)) (st : Student) (p : Path)
    (v : Rat) (es es' : List Exc) (h : OneValue (loadCtx st es) (loadCtx st es') p v)
    (hb : ∀ m, applyBlocks es' m = applyBlocks es m) (all : Bool) (spec : Dict) :
    loadArea c ts st es' all spec = (loadArea c ts st es all spec).map (Area.expecting p v) := by
  unfold loadArea loadAreaRules
  simp only [map_bind']
  refine bind_congr' _ fun em => bind_congr' _ fun _ => bind_congr' _ fun _ => bind_congr' _ fun _ =>
    bind_congr' _ fun _ => bind_congr' _ fun _ => ?_
  simp only [h.rule, bind_map']
  refine bind_congr' _ fun o => ?_
  cases o with
  | none => rfl
  | some n =>
    simp only [Option.map_some, map_bind', h.limits, h.commonRules, bind_map']
    refine bind_congr' _ fun _ => bind_congr' _ fun _ => bind_congr' _ fun _ => bind_congr' _ fun _ =>
      bind_congr' _ fun _ => bind_congr' _ fun _ => bind_congr' _ fun _ => ?_
    simp only [Except.map, Area.expecting, Bool.false_eq_true, if_false, prepareRule, h.requiredCourses]
    rw [Node.expecting_exclude, hb, expecting_blocks]

theorem blocks_of_value (p : Path) (v : Rat) (es₁ es₂ : List Exc) (m : Node) :
    applyBlocks (es₁ ++ ⟨p, .value v⟩ :: es₂) m = applyBlocks (es₁ ++ es₂) m := by
  simp only [applyBlocks, List.foldl_append, List.foldl_cons]

theorem find_path_congr {q p : Path} {l : List Exc} (h : q ≠ p) (v : Rat) (l' : List Exc) :
    (l ++ ⟨p, .value v⟩ :: l').find? (fun e => e.path == q && e.isValue) =
      (l ++ l').find? (fun e => e.path == q && e.isValue) := by
  have : (p == q) = false := by simpa using fun e => h e.symm
  simp [List.find?_append, this]

/-! ### The property -/

/-- **C49**: loading an area with one more value exception gives the area loaded without it, except that the
assertion at exactly the path of the exception expects the value.  In particular loading succeeds in both cases or
fails in both, with the same error, and an exception at a path without an assertion changes nothing.  (There is
only one assertion at the path, by C48.) -/
theorem C49_value_exception_is_local (c : Constants) (ts : List (String × TemplateCourse)) (st : Student) (p : Path)
    (v : Rat) (es₁ es₂ : List Exc) (hfirst : ∀ w, ⟨p, .value w⟩ ∉ es₁) (all : Bool) (spec : Dict) :
    loadArea c ts st (es₁ ++ ⟨p, .value v⟩ :: es₂) all spec =
      (loadArea c ts st (es₁ ++ es₂) all spec).map (Area.expecting p v) := by
  refine oneValue_area c ts st p v _ _ (oneValue_ctx st p v _ _ ?_ ?_ fun q => ?_) (blocks_of_value p v es₁ es₂) all spec
  · simp [Exc.isInsertion]
  · simp [Exc.isOverride]
  · by_cases h : q = p
    · subst h
      have : es₁.find? (fun e => e.path == q && e.isValue) = none := by
        rw [List.find?_eq_none]
        rintro ⟨q', k⟩ he hq
        simp only [Exc.isValue, Bool.and_eq_true, beq_iff_eq] at hq
        obtain ⟨rfl, hk⟩ := hq
        cases k <;> simp at hk
        exact hfirst _ he
      have hk : (⟨q, .value v⟩ : Exc).isValue = true := rfl
      simp [List.find?_append, this, hk]
    · rw [find_path_congr h, if_neg h]

/-- **C49**: of several value exceptions at one path the first decides; a later one has no effect. -/
theorem C49_later_value_has_no_effect (c : Constants) (ts : List (String × TemplateCourse)) (st : Student) (p : Path)
    (v w : Rat) (es₁ es₂ : List Exc) (hw : ⟨p, .value w⟩ ∈ es₁) (all : Bool) (spec : Dict) :
    loadArea c ts st (es₁ ++ ⟨p, .value v⟩ :: es₂) all spec = loadArea c ts st (es₁ ++ es₂) all spec := by
  obtain ⟨w', hw'⟩ : ∃ w', es₁.find? (fun e => e.path == p && e.isValue) = some ⟨p, .value w'⟩ := by
    cases hf : es₁.find? (fun e => e.path == p && e.isValue) with
    | none =>
      rw [List.find?_eq_none] at hf
      exact absurd (by simp [Exc.isValue]) (hf _ hw)
    | some e =>
      have := List.find?_some hf
      obtain ⟨q', k⟩ := e
      simp only [Exc.isValue, Bool.and_eq_true, beq_iff_eq] at this
      obtain ⟨rfl, hk⟩ := this
      cases k <;> simp at hk
      exact ⟨_, rfl⟩
  have h1 := oneValue_area c ts st p w' (es₁ ++ es₂) (es₁ ++ ⟨p, .value v⟩ :: es₂)
    (oneValue_ctx st p w' _ _ (by simp [Exc.isInsertion]) (by simp [Exc.isOverride]) fun q => by
      by_cases h : q = p
      · subst h; simp [List.find?_append, hw']
      · rw [find_path_congr h, if_neg h]) (blocks_of_value p v es₁ es₂) all spec
  have h2 := oneValue_area c ts st p w' (es₁ ++ es₂) (es₁ ++ es₂)
    (oneValue_ctx st p w' _ _ rfl rfl fun q => by
      by_cases h : q = p
      · subst h; simp [List.find?_append, hw']
      · rw [if_neg h]) (fun _ => rfl) all spec
  rw [h1, ← h2]

/-- the numbers expected by an assertion -/
def AnyAssertion.numbers : AnyAssertion → List (Path × Rat)
  | .single a => [(a.path, a.expected)]
  | .cond _ t f => (t.path, t.expected) :: (f.toList.map (fun a => (a.path, a.expected)))
  | .dyn _ _ t => [(t.path, t.expected)]

mutual
/-- the numbers expected by the assertions of a rule -/
def Node.numbers : Node → List (Path × Rat)
  | .course _ _ => []
  | .query _ d => d.assertions.flatMap AnyAssertion.numbers
  | .count _ d items => d.audits.flatMap AnyAssertion.numbers ++ Node.numbersList items
  | .req _ _ r => Node.numbersOpt r
  | .cond _ _ t f => t.numbers ++ Node.numbersOpt f
  | .prof _ _ _ => []
/-- of all rules -/
def Node.numbersList : List Node → List (Path × Rat)
  | [] => []
  | n :: ns => n.numbers ++ Node.numbersList ns
/-- of an optional rule -/
def Node.numbersOpt : Option Node → List (Path × Rat)
  | none => []
  | some n => n.numbers
end

/-- Non-trivial case: the electives of the sample area need two courses, with the exception five; a second
exception, and one at the path of the query, have no effect, and the numbers of the common requirements stay. -/
example : ((loadArea {} [] sampleStudent
      [⟨["$", ".count", "[1]", "%Electives", ".query"], .value 9⟩,
       ⟨["$", ".count", "[1]", "%Electives", ".query", ".assertions", "[0]", ".assert"], .value 5⟩,
       ⟨["$", ".count", "[1]", "%Electives", ".query", ".assertions", "[0]", ".assert"], .value 7⟩]
      false sampleText).toOption.map
        (fun a => (a.result.numbers, (Node.numbersList a.commonRules).map (·.2)))) =
      some ([(["$", ".count", "[1]", "%Electives", ".query", ".assertions", "[0]", ".assert"], 5)], [6, 1, 21]) ∧
    ((loadArea {} [] sampleStudent [] false sampleText).toOption.map
        (fun a => (a.result.numbers, (Node.numbersList a.commonRules).map (·.2)))) =
      some ([(["$", ".count", "[1]", "%Electives", ".query", ".assertions", "[0]", ".assert"], 2)], [6, 1, 21]) := by
  decide +kernel

end Dp
