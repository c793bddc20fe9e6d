import Verif.Model.LazyProduct
import Mathlib.Tactic.Common

/-
Property C13: `lazy_product` is the Cartesian product.
-/
namespace Dp
variable {α β γ : Type}

/-! ### Generator algebra -/
namespace Gen

@[simp] theorem append_nil (g : Gen α) : g.append nil = g := by
  obtain ⟨l, e⟩ := g; cases e <;> simp [append, nil]

@[simp] theorem nil_append (g : Gen α) : nil.append g = g := by
  obtain ⟨l, e⟩ := g; simp [append, nil]

theorem append_assoc (a b c : Gen α) : (a.append b).append c = a.append (b.append c) := by
  obtain ⟨la, ea⟩ := a; obtain ⟨lb, eb⟩ := b; obtain ⟨lc, ec⟩ := c
  cases ea <;> cases eb <;> simp [append]

theorem forList_append (l l' : List α) (f : α → Gen β) :
    forList (l ++ l') f = (forList l f).append (forList l' f) := by
  induction l with
  | nil => simp [forList]
  | cons a l ih => simp [forList, ih, append_assoc]

theorem map_append (f : α → β) (a b : Gen α) : (a.append b).map f = (a.map f).append (b.map f) := by
  obtain ⟨la, ea⟩ := a; obtain ⟨lb, eb⟩ := b
  cases ea <;> simp [append, map]

theorem bind_append (a b : Gen α) (f : α → Gen β) :
    (a.append b).bind f = (a.bind f).append (b.bind f) := by
  obtain ⟨la, ea⟩ := a; obtain ⟨lb, eb⟩ := b
  cases ea with
  | none =>
    show ((forList (la ++ lb) f).append ⟨[], eb⟩) =
      (((forList la f).append nil).append ((forList lb f).append ⟨[], eb⟩))
    rw [append_nil, forList_append, append_assoc]
  | some e =>
    simp only [append, bind]
    cases h : (forList la f).err <;> simp

@[simp] theorem one_bind (a : α) (f : α → Gen β) : (one a).bind f = f a := by
  simp only [one, bind, forList]
  rw [append_nil]
  exact append_nil _

theorem map_map (f : α → β) (g : β → γ) (a : Gen α) : (a.map f).map g = a.map (g ∘ f) := by
  simp [map]

theorem forList_bind (l : List α) (f : α → Gen β) (g : β → Gen γ) :
    (forList l f).bind g = forList l (fun x => (f x).bind g) := by
  induction l with
  | nil => simp [forList, bind, nil, append]
  | cons a l ih => simp [forList, bind_append, ih]

theorem bind_assoc (a : Gen α) (f : α → Gen β) (g : β → Gen γ) :
    (a.bind f).bind g = a.bind (fun x => (f x).bind g) := by
  conv_lhs => rw [bind.eq_def a, bind_append, forList_bind]
  obtain ⟨l, e⟩ := a
  simp [bind, forList]

theorem map_eq_bind (f : α → β) (a : Gen α) : a.map f = a.bind (fun x => one (f x)) := by
  obtain ⟨l, e⟩ := a
  have h : ∀ l : List α, forList l (fun x => one (f x)) = ⟨l.map f, none⟩ := by
    intro l
    induction l with
    | nil => rfl
    | cons a l ih => rw [forList, ih]; simp [one, append]
  simp [map, bind, h, append]

theorem map_bind (f : α → Gen β) (g : β → γ) (a : Gen α) :
    (a.bind f).map g = a.bind (fun x => (f x).map g) := by
  simp only [map_eq_bind, bind_assoc]

theorem bind_map (f : α → β) (g : β → Gen γ) (a : Gen α) :
    (a.map f).bind g = a.bind (fun x => g (f x)) := by
  rw [map_eq_bind, bind_assoc]; simp

theorem ofList_map (l : List α) (f : α → β) : (ofList l).map f = ofList (l.map f) := rfl

theorem bind_ofList (l : List α) (f : α → List β) :
    (ofList l).bind (fun a => ofList (f a)) = ofList (l.flatMap f) := by
  have h : ∀ l : List α, forList l (fun a => ofList (f a)) = ofList (l.flatMap f) := by
    intro l
    induction l with
    | nil => rfl
    | cons a l ih => rw [forList, ih]; simp [ofList, append]
  show (forList l _).append nil = _
  rw [h, append_nil]

end Gen

/-! ### Specification -/

/-- The Cartesian product in `itertools.product` order: the last coordinate
varies fastest. -/
def cartesian : List (List α) → List (List α)
  | [] => [[]]
  | l :: ls => l.flatMap (fun a => (cartesian ls).map (fun t => a :: t))

/-- The same for generators that may raise part way. -/
def cartesianGen : List (Gen α) → Gen (List α)
  | [] => .one []
  | g :: gs => g.bind (fun a => (cartesianGen gs).map (fun t => a :: t))

/-! ### The loop refines the specification -/

/-- Everything still to be yielded, current tuple first, columns last first. -/
def outFrom : List (Cell α) → Gen (List α)
  | [] => .one []
  | c :: cs =>
    (Gen.map (fun x => x :: cs.map (·.val)) ⟨c.val :: c.rem, c.full.err⟩).append
      (Gen.bind ⟨(outFrom cs).items.tail, (outFrom cs).err⟩ (fun t => c.full.map (fun x => x :: t)))

theorem outFrom_head (cells : List (Cell α)) :
    ∃ l, (outFrom cells).items = cells.map (·.val) :: l := by
  induction cells with
  | nil => exact ⟨[], rfl⟩
  | cons c cs ih =>
    simp only [outFrom, Gen.append, Gen.map]
    cases c.full.err <;> simp

theorem outFrom_eq (cells : List (Cell α)) :
    outFrom cells = (Gen.one (cells.map (·.val))).append
      ⟨(outFrom cells).items.tail, (outFrom cells).err⟩ := by
  obtain ⟨l, hl⟩ := outFrom_head cells
  generalize outFrom cells = g at *
  obtain ⟨i, e⟩ := g
  simp only at hl
  subst hl
  simp [Gen.one, Gen.append]

/-- Every column's iterator function yields something. -/
def CellsOk (cells : List (Cell α)) : Prop := ∀ c ∈ cells, c.full.items ≠ []

theorem startCell_ok {g : Gen α} (h : g.items ≠ []) :
    ∃ x xs, g.items = x :: xs ∧ startCell g = .ok ⟨g, x, xs⟩ := by
  unfold startCell
  cases hi : g.items with
  | nil => exact absurd hi h
  | cons x xs => exact ⟨x, xs, rfl, rfl⟩

theorem advance_spec (cells : List (Cell α)) (hok : CellsOk cells) :
    match advance cells with
    | .cont cells' => outFrom cells = (Gen.one (cells.map (·.val))).append (outFrom cells') ∧
        turnsLeft cells' < turnsLeft cells ∧ CellsOk cells'
    | .done => outFrom cells = Gen.one (cells.map (·.val))
    | .error e => outFrom cells = ⟨[cells.map (·.val)], some e⟩ := by
  induction cells with
  | nil => simp [advance, outFrom]
  | cons c cs ih =>
    have hokc : c.full.items ≠ [] := hok c List.mem_cons_self
    have ih := ih (fun c' h' => hok c' (List.mem_cons_of_mem _ h'))
    obtain ⟨full, val, rem⟩ := c
    cases rem with
    | cons x xs =>
      simp only [advance]
      refine ⟨?_, ?_, ?_⟩
      · simp only [outFrom, ← Gen.append_assoc]
        congr 1
      · simp [turnsLeft]
      · intro c' h'
        rcases List.mem_cons.1 h' with rfl | h'
        · exact hokc
        · exact hok c' (List.mem_cons_of_mem _ h')
    | nil =>
      simp only [advance]
      cases he : full.err with
      | some e => simp [outFrom, he, Gen.map, Gen.append]
      | none =>
        obtain ⟨x, xs, hitems, hstart⟩ := startCell_ok hokc
        simp only at hstart hitems
        simp only [hstart]
        have hfirst : ∀ t : List α,
            full.map (fun y => y :: t) = Gen.map (fun y => y :: t) ⟨x :: xs, full.err⟩ := by
          intro t; simp only [Gen.map, hitems]
        cases hadv : advance cs with
        | cont cs' =>
          rw [hadv] at ih
          obtain ⟨h1, h2, h3⟩ := ih
          simp only
          refine ⟨?_, ?_, ?_⟩
          · obtain ⟨l', hl'⟩ := outFrom_head cs'
            have htail : (⟨(outFrom cs).items.tail, (outFrom cs).err⟩ : Gen (List α)) = outFrom cs' := by
              rw [h1]; simp [Gen.one, Gen.append]
            simp only [outFrom, htail, he]
            conv_lhs => rw [outFrom_eq cs', Gen.bind_append, Gen.one_bind, hfirst, he]
            simp [Gen.map, Gen.one, Gen.append]
          · simp only [turnsLeft, List.length_nil, Nat.zero_add]
            rw [hitems]
            simp only [List.length_cons]
            have : (xs.length + 1) * (turnsLeft cs' + 1) ≤ (xs.length + 1) * turnsLeft cs :=
              Nat.mul_le_mul_left _ h2
            rw [Nat.mul_add] at this
            omega
          · intro c' h'
            rcases List.mem_cons.1 h' with rfl | h'
            · exact hokc
            · exact h3 c' h'
        | done =>
          rw [hadv] at ih
          simp only at ih ⊢
          simp [outFrom, ih, he, Gen.one, Gen.map, Gen.append, Gen.bind, Gen.forList, Gen.nil]
        | error e =>
          rw [hadv] at ih
          simp only at ih ⊢
          simp [outFrom, ih, he, Gen.map, Gen.append, Gen.bind, Gen.forList, Gen.nil]

theorem lazyLoop_spec (fuel : Nat) : ∀ cells : List (Cell α), CellsOk cells →
    turnsLeft cells < fuel → lazyLoop fuel cells = (outFrom cells).map List.reverse := by
  induction fuel with
  | zero => intro cells _ h; omega
  | succ fuel ih =>
    intro cells hok hlt
    have hs := advance_spec cells hok
    unfold lazyLoop
    cases hadv : advance cells with
    | cont cells' =>
      rw [hadv] at hs
      obtain ⟨h1, h2, h3⟩ := hs
      simp only
      rw [ih cells' h3 (by omega), h1, Gen.map_append]
      rfl
    | done => rw [hadv] at hs; simp only at hs ⊢; rw [hs]; rfl
    | error e => rw [hadv] at hs; simp only at hs ⊢; rw [hs]; rfl

/-- product with the columns listed last first -/
def prodRev : List (Gen α) → Gen (List α)
  | [] => .one []
  | g :: gs => (prodRev gs).bind (fun t => g.map (fun x => x :: t))

theorem outFrom_start (cells : List (Cell α))
    (h : ∀ c ∈ cells, c.full.items = c.val :: c.rem) :
    outFrom cells = prodRev (cells.map (·.full)) := by
  induction cells with
  | nil => rfl
  | cons c cs ih =>
    have ih := ih (fun c' h' => h c' (List.mem_cons_of_mem _ h'))
    have hc := h c List.mem_cons_self
    simp only [List.map_cons, prodRev, ← ih]
    conv_rhs => rw [outFrom_eq cs, Gen.bind_append, Gen.one_bind]
    simp only [outFrom]
    rw [← hc]

theorem cartesianGen_snoc (gs : List (Gen α)) (g : Gen α) :
    cartesianGen (gs ++ [g]) = (cartesianGen gs).bind (fun t => g.map (fun x => t ++ [x])) := by
  induction gs with
  | nil =>
    simp only [List.nil_append, cartesianGen, Gen.one_bind]
    rw [Gen.map_eq_bind (fun x => [x])]
    rfl
  | cons h gs ih =>
    simp only [List.cons_append, cartesianGen, ih, Gen.bind_assoc, Gen.map_bind, Gen.map_map,
      Gen.bind_map]
    rfl

theorem prodRev_reverse (gs : List (Gen α)) :
    (prodRev gs).map List.reverse = cartesianGen gs.reverse := by
  induction gs with
  | nil => rfl
  | cons g gs ih =>
    simp only [prodRev, List.reverse_cons, cartesianGen_snoc, ← ih, Gen.bind_map, Gen.map_bind,
      Gen.map_map]
    congr 1
    funext t
    congr 1
    funext x
    simp

theorem startCells_ok (gs : List (Gen α)) : ∀ acc, (∀ g ∈ gs, g.items ≠ []) →
    ∃ cells : List (Cell α), startCells acc gs = .ok (cells.reverse ++ acc) ∧ cells.map (·.full) = gs ∧
      ∀ c ∈ cells, c.full.items = c.val :: c.rem := by
  induction gs with
  | nil => intro acc _; exact ⟨[], rfl, rfl, by simp⟩
  | cons g gs ih =>
    intro acc h
    obtain ⟨x, xs, hi, hs⟩ := startCell_ok (h g List.mem_cons_self)
    obtain ⟨cells, h1, h2, h3⟩ := ih (⟨g, x, xs⟩ :: acc) (fun g' h' => h g' (List.mem_cons_of_mem _ h'))
    refine ⟨⟨g, x, xs⟩ :: cells, ?_, by simp [h2], ?_⟩
    · simp [startCells, hs, h1]
    · intro c hc
      rcases List.mem_cons.1 hc with rfl | hc
      · exact hi
      · exact h3 c hc

theorem startCells_error (gs : List (Gen α)) : ∀ acc pre g post, gs = pre ++ g :: post →
    (∀ g' ∈ pre, g'.items ≠ []) → g.items = [] →
    startCells acc gs = .error (g.err.getD .runtimeError) := by
  induction gs with
  | nil => intro acc pre g post h; simp at h
  | cons g0 gs ih =>
    intro acc pre g post heq hpre hg
    cases pre with
    | nil =>
      simp only [List.nil_append, List.cons.injEq] at heq
      obtain ⟨rfl, rfl⟩ := heq
      simp [startCells, startCell, hg]
    | cons p pre =>
      simp only [List.cons_append, List.cons.injEq] at heq
      obtain ⟨rfl, rfl⟩ := heq
      obtain ⟨x, xs, hi, hs⟩ := startCell_ok (hpre g0 List.mem_cons_self)
      simp only [startCells, hs]
      exact ih _ pre g post rfl (fun g' h' => hpre g' (List.mem_cons_of_mem _ h')) hg

/-- The loop is the nested product, also for generators that raise part way. -/
theorem lazyProduct_eq (funcs : List (Gen α)) (rep : Nat)
    (h : ∀ g ∈ (List.replicate rep funcs).flatten, g.items ≠ []) :
    lazyProduct funcs rep = cartesianGen (List.replicate rep funcs).flatten := by
  obtain ⟨cells, h1, h2, h3⟩ := startCells_ok _ [] h
  unfold lazyProduct
  rw [h1]
  simp only [List.append_nil]
  have h3' : ∀ c ∈ cells.reverse, c.full.items = c.val :: c.rem := by
    intro c hc; exact h3 c (List.mem_reverse.1 hc)
  rw [lazyLoop_spec _ _ (by intro c hc; rw [h3' c hc]; simp) (by omega),
    outFrom_start _ h3', prodRev_reverse, ← List.map_reverse, List.reverse_reverse, h2]

theorem cartesianGen_ofList (ls : List (List α)) :
    cartesianGen (ls.map Gen.ofList) = Gen.ofList (cartesian ls) := by
  induction ls with
  | nil => rfl
  | cons l ls ih => simp only [List.map_cons, cartesianGen, cartesian, ih, Gen.ofList_map, Gen.bind_ofList]

theorem lazyProduct_ofList (ls : List (List α)) (h : ∀ l ∈ ls, l ≠ []) :
    lazyProduct (ls.map Gen.ofList) = Gen.ofList (cartesian ls) := by
  rw [lazyProduct_eq]
  · simp [cartesianGen_ofList]
  · intro g hg
    simp only [List.replicate_one, List.flatten_cons, List.flatten_nil, List.append_nil,
      List.mem_map] at hg
    obtain ⟨l, hl, rfl⟩ := hg
    exact h l hl

/-! ### C13 -/

/-- C13. With non-empty sequences, `lazy_product` yields exactly the Cartesian
product in `itertools.product` order and then ends normally. -/
theorem C13_lazy_product_is_cartesian (ls : List (List α)) (rep : Nat) (h : ∀ l ∈ ls, l ≠ []) :
    lazyProduct (ls.map Gen.ofList) rep = ⟨cartesian (List.replicate rep ls).flatten, none⟩ := by
  rw [lazyProduct_eq]
  · rw [show (List.replicate rep (ls.map Gen.ofList)).flatten =
      (List.replicate rep ls).flatten.map Gen.ofList by simp [List.map_flatten], cartesianGen_ofList]
    rfl
  · intro g hg
    simp only [List.mem_flatten, List.mem_replicate] at hg
    obtain ⟨_, ⟨_, rfl⟩, hg⟩ := hg
    obtain ⟨l, hl, rfl⟩ := List.mem_map.1 hg
    exact h l hl

/-- C13, the tuples: one choice from every sequence. -/
theorem C13_members (ls : List (List α)) (t : List α) :
    t ∈ cartesian ls ↔ List.Forall₂ (fun a l => a ∈ l) t ls := by
  induction ls generalizing t with
  | nil =>
    simp only [cartesian, List.mem_singleton]
    constructor
    · rintro rfl; exact .nil
    · intro h; cases h; rfl
  | cons l ls ih =>
    simp only [cartesian, List.mem_flatMap, List.mem_map]
    constructor
    · rintro ⟨a, ha, t', ht', rfl⟩
      exact .cons ha ((ih t').1 ht')
    · intro h
      cases h with
      | cons ha ht => exact ⟨_, ha, _, (ih _).2 ht, rfl⟩

/-- C13, how many tuples: the product of the lengths. -/
theorem C13_count (ls : List (List α)) :
    (cartesian ls).length = (ls.map List.length).foldr (· * ·) 1 := by
  induction ls with
  | nil => rfl
  | cons l ls ih =>
    have : ∀ l' : List α, (l'.flatMap (fun a => (cartesian ls).map (fun t => a :: t))).length =
        l'.length * (cartesian ls).length := by
      intro l'
      induction l' with
      | nil => simp
      | cons a l' ih' => simp only [List.flatMap_cons, List.length_append, List.length_map, ih',
          List.length_cons, Nat.add_mul, Nat.one_mul]; omega
    simp [cartesian, this, ih]

/-- C13, each tuple once and in lexicographic order: if every sequence is in
strictly increasing order (for instance the positions 0,1,2,...), then so are
the tuples, lexicographically. -/
theorem C13_lexicographic (r : α → α → Prop) (ls : List (List α))
    (h : ∀ l ∈ ls, l.Pairwise r) : (cartesian ls).Pairwise (List.Lex r) := by
  induction ls with
  | nil => simp [cartesian]
  | cons l ls ih =>
    have ih := ih (fun l' h' => h l' (List.mem_cons_of_mem _ h'))
    have hl := h l List.mem_cons_self
    simp only [cartesian]
    clear h
    induction l with
    | nil => simp
    | cons a l ihl =>
      rw [List.flatMap_cons, List.pairwise_append]
      refine ⟨?_, ihl (List.pairwise_cons.1 hl).2, ?_⟩
      · rw [List.pairwise_map]
        exact ih.imp (fun h => List.Lex.cons h)
      · intro t ht u hu
        obtain ⟨t', _, rfl⟩ := List.mem_map.1 ht
        obtain ⟨b, hb, hu⟩ := List.mem_flatMap.1 hu
        obtain ⟨u', _, rfl⟩ := List.mem_map.1 hu
        exact List.Lex.rel ((List.pairwise_cons.1 hl).1 b hb)

/-- C13, empty input: the call raises before yielding anything (RuntimeError,
unless an iterator itself raised first). -/
theorem C13_empty_raises (pre post : List (Gen α)) (g : Gen α)
    (hpre : ∀ g' ∈ pre, g'.items ≠ []) (hg : g.items = []) :
    lazyProduct (pre ++ g :: post) = ⟨[], some (g.err.getD .runtimeError)⟩ := by
  unfold lazyProduct
  simp only [List.replicate_one, List.flatten_cons, List.flatten_nil, List.append_nil]
  rw [startCells_error _ [] pre g post rfl hpre hg]
  rfl

/-- Non-trivial case for C13: two columns, and a repeated one. -/
example : lazyProduct ([[1, 2], [10, 20, 30]].map Gen.ofList) =
    ⟨[[1, 10], [1, 20], [1, 30], [2, 10], [2, 20], [2, 30]], none⟩ := by decide
example : lazyProduct ([[0, 1]].map Gen.ofList) 2 = ⟨[[0, 0], [0, 1], [1, 0], [1, 1]], none⟩ := by decide
example : lazyProduct [Gen.ofList [1, 2], Gen.ofList ([] : List Nat)] = ⟨[], some .runtimeError⟩ := by decide

end Dp
