import Verif.Props.Reserved
import Verif.Props.LazyProduct
import Verif.Props.Comb
import Mathlib.Tactic.Linarith

/-
The estimated number of solutions (C62).
-/
namespace Dp

/-! ### Lengths of generators -/

namespace Gen
variable {α β : Type}

theorem length_append_le (g h : Gen α) : (g.append h).items.length ≤ g.items.length + h.items.length := by
  unfold append
  split <;> simp

theorem length_forList_le (l : List α) (f : α → Gen β) :
    (forList l f).items.length ≤ (l.map (fun a => (f a).items.length)).sum := by
  induction l with
  | nil => simp [forList, nil]
  | cons a l ih =>
    simp only [forList, List.map_cons, List.sum_cons]
    exact le_trans (length_append_le _ _) (by omega)

theorem length_bind_le (g : Gen α) (f : α → Gen β) :
    (g.bind f).items.length ≤ (g.items.map (fun a => (f a).items.length)).sum := by
  unfold bind
  refine le_trans (length_append_le _ _) ?_
  simpa using length_forList_le g.items f

theorem length_map (g : Gen α) (f : α → β) : (g.map f).items.length = g.items.length := by simp [map]

theorem length_bind_one_le (g : Gen α) (f : α → Gen β) (h : ∀ a, (f a).items.length ≤ 1) :
    (g.bind f).items.length ≤ g.items.length := by
  refine le_trans (length_bind_le g f) ?_
  induction g.items with
  | nil => simp
  | cons a l ih => simp only [List.map_cons, List.sum_cons, List.length_cons]; have := h a; omega

theorem length_orElse_le (g h : Gen α) (n : Nat) (hg : g.items.length ≤ n) (hh : h.items.length ≤ n) :
    (g.orElse h).items.length ≤ n := by
  unfold orElse
  split <;> assumption

/-- a generator gives something or raises -/
def Live (g : Gen α) : Prop := g.items ≠ [] ∨ g.err ≠ none

theorem Live.append {g h : Gen α} (hg : g.Live) : (g.append h).Live := by
  unfold Gen.append
  cases he : g.err with
  | none =>
    rcases hg with hg | hg
    · exact Or.inl (by simp [hg])
    · exact absurd he hg
  | some e => exact Or.inr (by simp)

theorem Live.append_right {g h : Gen α} (hh : h.Live) : (g.append h).Live := by
  unfold Gen.append
  cases he : g.err with
  | none =>
    rcases hh with hh | hh
    · exact Or.inl (by simp [hh])
    · exact Or.inr (by simpa using hh)
  | some e => exact Or.inr (by simp)

theorem Live.forList {l : List α} {f : α → Gen β} {a : α} (ha : a ∈ l) (hf : (f a).Live) : (forList l f).Live := by
  induction l with
  | nil => cases ha
  | cons b l ih =>
    rcases List.mem_cons.1 ha with rfl | ha
    · exact hf.append
    · exact (ih ha).append_right

theorem Live.bind {g : Gen α} {f : α → Gen β} (hg : g.Live) (hf : ∀ a, (f a).Live) : (g.bind f).Live := by
  unfold Gen.bind
  by_cases hi : g.items = []
  · rcases hg with hg | hg
    · exact absurd hi hg
    · exact Live.append_right (Or.inr hg)
  · obtain ⟨a, ha⟩ := List.exists_mem_of_ne_nil _ hi
    exact (Live.forList ha (hf a)).append

theorem Live.orElse {g h : Gen α} (hg : g.Live) : g.orElse h = g := by
  unfold Gen.orElse
  split
  · rename_i h1 h2
    rcases hg with hg | hg
    · exact absurd h1 hg
    · exact absurd h2 hg
  · rfl

end Gen

/-! ### Products -/

theorem lazyLoop_length {α : Type} (fuel : Nat) (cells : List (Cell α)) : (lazyLoop fuel cells).items.length ≤ fuel := by
  induction fuel generalizing cells with
  | zero => simp [lazyLoop, Gen.raise]
  | succ n ih =>
    unfold lazyLoop
    split
    · rename_i cells' _
      refine le_trans (Gen.length_append_le _ _) ?_
      have := ih cells'
      simp only [Gen.one, List.length_singleton]
      omega
    · simp [Gen.one]
    · simp

theorem startCells_turns {α : Type} (gs : List (Gen α)) : ∀ acc cells, startCells acc gs = .ok cells →
    turnsLeft cells + 1 = (turnsLeft acc + 1) * (gs.map (fun g => g.items.length)).prod := by
  induction gs with
  | nil => intro acc cells h; cases h; simp
  | cons g gs ih =>
    intro acc cells h
    unfold startCells at h
    split at h
    · rename_i c hc
      rw [ih _ _ h]
      unfold startCell at hc
      split at hc
      · rename_i y ys hi
        cases hc
        simp only [turnsLeft, hi, List.length_cons, List.map_cons, List.prod_cons]
        ring
      · cases hc
    · cases h

theorem lazyProduct_length_le {α : Type} (gs : List (Gen α)) :
    (lazyProduct gs).items.length ≤ (gs.map (fun g => g.items.length)).prod := by
  unfold lazyProduct
  simp only [List.replicate_one, List.flatten_cons, List.flatten_nil, List.append_nil]
  split
  · simp [Gen.raise]
  · rename_i cells hc
    refine le_trans (lazyLoop_length _ _) ?_
    rw [startCells_turns gs [] cells hc]
    simp [turnsLeft]

theorem lazyProduct_live {α : Type} (gs : List (Gen α)) : (lazyProduct gs).Live := by
  unfold lazyProduct
  split
  · exact Or.inr (by simp [Gen.raise])
  · unfold lazyLoop
    split
    · exact Gen.Live.append (Or.inl (by simp [Gen.one]))
    · exact Or.inl (by simp [Gen.one])
    · exact Or.inl (by simp)

theorem combos_map {α β : Type} (f : α → β) (k : Nat) (l : List α) :
    combos k (l.map f) = (combos k l).map (List.map f) := by
  induction l generalizing k with
  | nil => cases k <;> simp [combos]
  | cons a l ih =>
    cases k with
    | zero => simp [combos]
    | succ k =>
      simp only [List.map_cons, combos, ih, List.map_append, List.map_map]
      rfl

theorem mult_eq_prod (l : List Int) : mult l = l.prod := by
  unfold mult
  suffices h : ∀ a : Int, l.foldl (· * ·) a = a * l.prod by simpa using h 1
  induction l with
  | nil => simp
  | cons b l ih => intro a; simp only [List.foldl_cons, ih, List.prod_cons]; ring

theorem sumE_le {α : Type} (l : List α) (f : α → Except Err Int) (g : α → Nat)
    (h : ∀ a ∈ l, ∀ e, f a = .ok e → (g a : Int) ≤ e) (e : Int) (he : sumE (l.map f) = .ok e) :
    ((l.map g).sum : Int) ≤ e := by
  induction l generalizing e with
  | nil => cases he; simp
  | cons a l ih =>
    rw [List.map_cons] at he
    cases h1 : f a with
    | error e => rw [h1] at he; cases he
    | ok n =>
      rw [h1] at he
      unfold sumE at he
      split at he
      · cases he
      · rename_i m hm
        cases he
        have h3 := h a (by simp) n h1
        have h4 := ih (fun b hb => h b (by simp [hb])) m hm
        simp only [List.map_cons, List.sum_cons, Nat.cast_add]
        omega

theorem seqE_prod {α : Type} (l : List α) (f : α → Except Err Int) (g : α → Nat)
    (h : ∀ a ∈ l, ∀ e, f a = .ok e → (g a : Int) ≤ e) (es : List Int) (he : seqE (l.map f) = .ok es) :
    ((l.map g).prod : Int) ≤ es.prod := by
  induction l generalizing es with
  | nil => cases he; simp
  | cons a l ih =>
    rw [List.map_cons] at he
    cases h1 : f a with
    | error e => rw [h1] at he; cases he
    | ok n =>
      rw [h1] at he
      unfold seqE at he
      split at he
      · cases he
      · rename_i m hm
        cases he
        have h3 := h a (by simp) n h1
        have h4 := ih (fun b hb => h b (by simp [hb])) m hm
        simp only [List.map_cons, List.prod_cons, Nat.cast_mul]
        exact mul_le_mul h3 h4 (by positivity) (le_trans (by positivity) h3)

/-! ### Count rules -/

theorem countSolution_length (d : CountData) (items : List Node) : (countSolution d items).items.length ≤ 1 := by
  unfold countSolution
  split <;> simp [Gen.raise, Gen.one]

theorem countSolution_live (d : CountData) (items : List Node) : (countSolution d items).Live := by
  unfold countSolution
  split
  · exact Or.inr (by simp [Gen.raise])
  · exact Or.inl (by simp [Gen.one])

theorem combinations_le (d : CountData) (L : List Node) (sol : Node → Gen Node) (est : Node → Except Err Int)
    (h : ∀ n ∈ L, ∀ e, est n = .ok e → ((sol n).items.length : Int) ≤ e) (results others : List Node) (size : Nat)
    (e : Int) (he : countCombinations (L.map (fun n => (n, est n))) size = .ok e) :
    ((makeCombinations d (L.map (fun n => (n, sol n))) results others size).items.length : Int) ≤ e := by
  unfold countCombinations at he
  unfold makeCombinations
  rw [combos_map, List.map_map] at he
  rw [combos_map]
  refine le_trans (Int.ofNat_le.2 (Gen.length_forList_le _ _)) ?_
  rw [List.map_map]
  refine sumE_le (combos size L) _ _ ?_ e he
  intro sel hsel e' he'
  simp only [Function.comp, List.map_map] at he' ⊢
  split at he'
  · cases he'
  · rename_i es hes
    cases he'
    refine le_trans (Int.ofNat_le.2 (Gen.length_bind_one_le _ _ (fun _ => countSolution_length _ _))) ?_
    refine le_trans (Int.ofNat_le.2 (lazyProduct_length_le _)) ?_
    rw [mult_eq_prod, List.map_map]
    exact seqE_prod sel _ _ (fun n hn => h n ((mem_combos.1 hsel).1.subset hn)) es hes

theorem sumE_zero_of_empty {α : Type} (l : List α) (f : α → Except Err Int) (h : ∀ a ∈ l, f a = .ok 0) :
    sumE (l.map f) = .ok 0 := by
  induction l with
  | nil => rfl
  | cons a l ih =>
    rw [List.map_cons, h a (by simp)]
    unfold sumE
    rw [ih (fun b hb => h b (by simp [hb]))]
    rfl

theorem combinations_live (d : CountData) (L : List Node) (sol : Node → Gen Node) (est : Node → Except Err Int)
    (results others : List Node) (sizes : List Nat) (e : Int)
    (he : sumE (sizes.map (countCombinations (L.map (fun n => (n, est n))))) = .ok e) (h0 : e ≠ 0) :
    (Gen.forList sizes (makeCombinations d (L.map (fun n => (n, sol n))) results others)).Live := by
  by_cases hall : ∀ size ∈ sizes, combos size L = []
  · exfalso
    rw [sumE_zero_of_empty] at he
    · cases he; exact h0 rfl
    · intro size hs
      unfold countCombinations
      rw [combos_map, hall size hs]
      rfl
  · push Not at hall
    obtain ⟨size, hs, hne⟩ := hall
    refine Gen.Live.forList hs ?_
    unfold makeCombinations
    rw [combos_map]
    obtain ⟨sel, hsel⟩ := List.exists_mem_of_ne_nil _ hne
    refine Gen.Live.forList (List.mem_map_of_mem hsel) ?_
    exact (lazyProduct_live _).bind (fun _ => countSolution_live _ _)

theorem count_le (d : CountData) (nItems : Nat) (L : List Node) (sol : Node → Gen Node) (est : Node → Except Err Int)
    (h : ∀ n ∈ L, ∀ e, est n = .ok e → ((sol n).items.length : Int) ≤ e) (results others : List Node) (e : Int)
    (he : countEstimate d nItems (L.map (fun n => (n, est n))) = .ok e) :
    1 ≤ e ∧ ((countSolutions d nItems (L.map (fun n => (n, sol n))) results others).items.length : Int) ≤ e := by
  unfold countEstimate at he
  split at he
  · cases he
  · rename_i acc hacc
    have hfirst : ((Gen.forList (countSizes d nItems)
        (makeCombinations d (L.map (fun n => (n, sol n))) results others)).items.length : Int) ≤ acc := by
      refine le_trans (Int.ofNat_le.2 (Gen.length_forList_le _ _)) ?_
      exact sumE_le _ _ _ (fun size _ e' he' => combinations_le d L sol est h results others size e' he') acc hacc
    unfold countSolutions
    by_cases h0 : acc = 0
    · subst h0
      have hnil : (Gen.forList (countSizes d nItems)
          (makeCombinations d (L.map (fun n => (n, sol n))) results others)).items.length = 0 := by omega
      by_cases hL : L = []
      · subst hL
        simp only [List.map_nil, ne_eq, not_true_eq_false, and_false, if_false, if_true] at he
        cases he
        refine ⟨le_refl _, ?_⟩
        refine (Int.ofNat_le (n := 1)).2 ?_
        refine Gen.length_orElse_le _ _ 1 (Gen.length_orElse_le _ _ 1 ?_ (by simp [Gen.nil])) (countSolution_length _ _)
        simp only [List.map_nil] at hnil
        omega
      · simp only [List.map_eq_nil_iff, hL, ne_eq, not_false_eq_true, and_self, if_true] at he
        split at he
        · cases he
        · rename_i n hn
          simp only [List.length_map] at hn
          have hsecond := combinations_le d L sol est h results others L.length n hn
          have hone : ∀ k : Int, 1 ≤ k → n ≤ k → (((Gen.forList (countSizes d nItems)
              (makeCombinations d (L.map (fun n => (n, sol n))) results others)).orElse
              (if (L.map (fun n => (n, sol n))).isEmpty then .nil
                else makeCombinations d (L.map (fun n => (n, sol n))) results others
                  (L.map (fun n => (n, sol n))).length)).orElse
              (countSolution d (others ++ results))).items.length ≤ k := by
            intro k h1 h2
            obtain ⟨m, rfl⟩ := Int.eq_ofNat_of_zero_le (a := k) (by omega)
            refine Int.ofNat_le.2 ?_
            refine Gen.length_orElse_le _ _ m (Gen.length_orElse_le _ _ m (by omega) ?_) ?_
            · rw [if_neg (by simp [hL]), List.length_map]
              omega
            · have := countSolution_length d (others ++ results)
              omega
          simp only [Except.ok.injEq] at he
          subst he
          split
          · exact ⟨le_refl _, hone _ (le_refl _) (by omega)⟩
          · have : 1 ≤ n := by omega
            exact ⟨this, hone _ this (le_refl _)⟩
    · simp only [h0, false_and, if_false] at he
      cases he
      refine ⟨by omega, ?_⟩
      have hlive := combinations_live d L sol est results others _ _ hacc h0
      rw [hlive.orElse, hlive.orElse]
      exact hfirst

theorem filterE_pairs {β : Type} (f : Node → Except Err Bool) (g : Node → β) (l : List Node) :
    filterE (fun p => f p.1) (l.map (fun n => (n, g n))) =
      (match filterE f l with | .error e => .error e | .ok m => .ok (m.map (fun n => (n, g n)))) := by
  induction l with
  | nil => rfl
  | cons a l ih =>
    simp only [List.map_cons, filterE, ih]
    cases f a with
    | error e => rfl
    | ok b =>
      cases filterE f l with
      | error e => rfl
      | ok m => cases b <;> rfl

theorem insertByPath_pairs {β : Type} (g : Node → β) (n : Node) (l : List Node) :
    insertByPath (fun p : Node × β => p.1.path) (n, g n) (l.map (fun n => (n, g n))) =
      (match insertByPath Node.path n l with | .error e => .error e | .ok m => .ok (m.map (fun n => (n, g n)))) := by
  induction l with
  | nil => rfl
  | cons a l ih =>
    simp only [List.map_cons, insertByPath, ih]
    cases comparePaths n.path a.path with
    | error e => rfl
    | ok c =>
      dsimp only
      split
      · rfl
      · cases insertByPath Node.path n l <;> rfl

theorem sortByPath_pairs {β : Type} (g : Node → β) (l : List Node) :
    sortByPath (fun p : Node × β => p.1.path) (l.map (fun n => (n, g n))) =
      (match sortByPath Node.path l with | .error e => .error e | .ok m => .ok (m.map (fun n => (n, g n)))) := by
  induction l with
  | nil => rfl
  | cons a l ih =>
    simp only [List.map_cons, sortByPath, ih]
    cases sortByPath Node.path l with
    | error e => rfl
    | ok m => exact insertByPath_pairs g a m

theorem zip_solutions (x : Ctx) (o : Orders) (l : List Node) :
    l.zip (Node.solutionsList x o l) = l.map (fun n => (n, n.solutions x o)) := by
  induction l with
  | nil => rfl
  | cons a l ih => simp [Node.solutionsList, ih]

theorem zip_estimates (x : Ctx) (o : Orders) (l : List Node) :
    l.zip (Node.estimateList x o l) = l.map (fun n => (n, n.estimate x o)) := by
  induction l with
  | nil => rfl
  | cons a l ih => simp [Node.estimateList, ih]

theorem plainCount_le (x : Ctx) (o : Orders) (d : CountData) (items : List Node)
    (h : ∀ n ∈ items, ∀ e, n.estimate x o = .ok e → ((n.solutions x o).items.length : Int) ≤ e) (e : Int)
    (he : plainCountEstimate x d items (Node.estimateList x o items) = .ok e) :
    1 ≤ e ∧ ((plainCountSolutions x d items (Node.solutionsList x o items)).items.length : Int) ≤ e := by
  unfold plainCountEstimate at he
  unfold plainCountSolutions
  split at he
  · rename_i hw
    rw [if_pos hw]
    cases he
    simp [Gen.one]
  · rename_i hw
    rw [if_neg hw, zip_solutions, filterE_pairs (fun n => n.hasPotential x)]
    rw [zip_estimates, filterE_pairs (fun n => n.hasPotential x)] at he
    cases hf : filterE (fun n => n.hasPotential x) items with
    | error e => rw [hf] at he; cases he
    | ok pot =>
      rw [hf] at he
      simp only [sortByPath_pairs] at he ⊢
      cases hs : sortByPath Node.path pot with
      | error e => rw [hs] at he; cases he
      | ok sorted =>
        rw [hs] at he
        refine count_le d items.length sorted _ _ (fun n hn => h n ?_) [] items e he
        exact ((mem_filterE hf).2 n).1 ((sortByPath_perm hs).mem_iff.1 hn) |>.1

/-! ### Query rules -/

theorem combosInt_le {α : Type} (l : List α) (n : Int) : ((combosInt l n).items.length : Int) ≤ ncr l.length n := by
  unfold combosInt
  split
  · rename_i hn
    have : (min n ((l.length : Int) - n)).toNat = 0 := by omega
    simp only [ncr, this, fallingProd, risingProd, Gen.raise, List.length_nil]
    decide
  · rename_i hn
    obtain ⟨m, rfl⟩ := Int.eq_ofNat_of_zero_le (a := n) (by omega)
    simp only [Gen.ofList, Int.toNat_natCast]
    by_cases hm : m ≤ l.length
    · rw [(C14_ncr_counts_combinations l m hm).1]
    · rw [(C14_out_of_range l.length m (by omega)).1, combos_length, Nat.choose_eq_zero_of_lt (by omega)]
      decide

theorem allCombos_le {α : Type} (l : List α) : ((allCombos l).length : Int) = sumNcr l.length := by
  unfold allCombos sumNcr
  rw [List.length_flatMap]
  have : ∀ k, k ≤ l.length → (((List.range k).map (fun n => (combos (n + 1) l).length)).sum : Int) =
      ((List.range k).map (fun n : Nat => ncr l.length (n + 1))).sum := by
    intro k
    induction k with
    | zero => simp
    | succ k ih =>
      intro hk
      rw [List.range_succ, List.map_append, List.map_append, List.sum_append, List.sum_append, Nat.cast_add, ih (by omega)]
      have h1 := (C14_ncr_counts_combinations l (k + 1) hk).1
      simp only [List.map_cons, List.map_nil, List.sum_cons, List.sum_nil, add_zero]
      rw [← h1]
      simp
  exact this _ (le_refl _)

theorem courseSet_le (as : List AnyAssertion) (items : List Course) (e : Int) (he : estimateCourseSet as items = .ok e) :
    ((iterateCourseSet as items).items.length : Int) ≤ e := by
  unfold estimateCourseSet at he
  unfold iterateCourseSet
  dsimp only at he ⊢
  split at he
  · rename_i a ha
    rw [ha]
    dsimp only
    split at he
    · cases he
    · cases he
      unfold countShortcut
      refine le_trans (Int.ofNat_le.2 (Gen.length_bind_le _ _)) ?_
      induction (inputSizeRange a items.length).items with
      | nil => simp
      | cons n ns ih =>
        simp only [List.map_cons, List.sum_cons, Nat.cast_add]
        have := combosInt_le items n
        omega
  · rename_i ha
    rw [ha]
    dsimp only
    split at he
    · rename_i b hb
      rw [hb]
      dsimp only
      cases he
      unfold sumShortcut
      split
      · simp [Gen.one]
      · rw [← allCombos_le]
        exact Int.ofNat_le.2 (List.length_filter_le _ _)
    · rename_i hb
      rw [hb]
      cases he
      dsimp only
      rw [← allCombos_le]
      exact le_refl _

theorem sets_le (d : QueryData) (f : List Course → Nat)
    (hf : ∀ s n, (if d.source = .courses then estimateCourseSet d.assertions s else .ok 1) = .ok n →
      (f s : Int) ≤ (if d.attemptClaims then 0 else 1) + n)
    (sets : List (List Course)) (e : Int) (he : estimateSets d sets = .ok e) : ((sets.map f).sum : Int) ≤ e := by
  induction sets generalizing e with
  | nil => cases he; simp
  | cons s ss ih =>
    unfold estimateSets at he
    split at he
    · cases he
    · rename_i n hn
      split at he
      · cases he
      · rename_i m hm
        cases he
        have h1 := hf s n hn
        have h2 := ih m hm
        simp only [List.map_cons, List.sum_cons, Nat.cast_add]
        omega

theorem sets_nonneg (d : QueryData) (sets : List (List Course)) (e : Int) (he : estimateSets d sets = .ok e) : 0 ≤ e := by
  refine le_trans ?_ (sets_le d (fun _ => 0) ?_ sets e he)
  · positivity
  · intro s n hn
    have : 0 ≤ n := by
      split at hn
      · exact le_trans (by positivity) (courseSet_le _ _ _ hn)
      · cases hn; decide
    split <;> simp <;> omega

theorem query_pos (x : Ctx) (o : Orders) (d : QueryData) (e : Int) (he : queryEstimate x o d = .ok e) : 1 ≤ e := by
  unfold queryEstimate at he
  split at he
  · cases he; decide
  · split at he
    · cases he
    · rename_i f hf
      dsimp only at he
      split at he
      · cases he
      · rename_i n hn
        have h0 : 0 ≤ n := by
          split at hn
          · split at hn
            · cases hn
            · split at hn
              · cases hn
              · cases hn
              · rename_i heq _
                cases hn
                exact sets_nonneg d _ _ heq
          · cases hn; decide
        simp only [Except.ok.injEq] at he
        subst he
        split <;> omega

theorem query_le (x : Ctx) (o : Orders) (d : QueryData) (hd : d.overridden = (getWaiveException x.exceptions d.path).isSome)
    (e : Int) (he : queryEstimate x o d = .ok e) : ((querySolutions x o d).items.length : Int) ≤ e := by
  have hpos := query_pos x o d e he
  unfold querySolutions
  split
  · simpa [Gen.one] using hpos
  · rename_i hov
    rw [hd] at hov
    unfold queryEstimate at he
    rw [if_neg hov] at he
    cases hf : queryFiltered x d with
    | error e => simp only [Gen.raise, List.length_nil, Nat.cast_zero]; omega
    | ok f =>
      rw [hf] at he
      dsimp only at he ⊢
      split
      · simpa [Gen.one] using hpos
      · rename_i hsrc
        simp only [hsrc, true_or, if_true] at he
        cases hc : itemCourses f.data with
        | error e => simp only [Gen.raise, List.length_nil, Nat.cast_zero]; omega
        | ok courses =>
          rw [hc] at he
          dsimp only at he ⊢
          obtain ⟨m, rfl⟩ := Int.eq_ofNat_of_zero_le (a := e) (by omega)
          refine Int.ofNat_le.2 (Gen.length_orElse_le _ _ m ?_ (by simp only [Gen.one, List.length_singleton]; omega))
          refine Int.ofNat_le.1 ?_
          have key : ∀ n, estimateSets d (limitedTranscripts (o.limit d.path) d.limit courses f.forceInserted).items = .ok n →
              ((queryCourseSolutions (o.limit d.path) d f courses).items.length : Int) ≤ n := by
            intro n hn
            refine le_trans (Int.ofNat_le.2 (Gen.length_bind_le _ _)) ?_
            refine sets_le d _ ?_ _ n hn
            intro s n hn
            rw [if_pos hsrc] at hn
            have h1 := courseSet_le _ _ _ hn
            cases hat : d.attemptClaims with
            | true =>
              simp only [Bool.not_true, Bool.false_eq_true, if_false, Gen.length_map, if_true]
              omega
            | false =>
              simp only [Bool.not_false, if_true, Gen.one, List.length_singleton, Bool.false_eq_true, if_false]
              omega
          split at he
          · cases he
          · rename_i n hn
            split at hn
            · cases hn
            · cases hn
            · rename_i heq _
              cases hn
              have := key _ heq
              simp only [Except.ok.injEq] at he
              split at he <;> omega
      · simpa [Gen.one] using hpos

/-! ### Trees -/

/-- the rule comes down to a conditional that has no part for the case at hand -/
inductive Branchless (x : Ctx) : Node → Prop
  | noElse {s d t} : d.condition = some false → Branchless x (.cond s d t none)
  | undecided {s d t f} : d.condition = none → Branchless x (.cond s d t f)
  | thenPart {s d t f} : d.condition = some true → Branchless x t → Branchless x (.cond s d t f)
  | elsePart {s d t n} : d.condition = some false → Branchless x n → Branchless x (.cond s d t (some n))
  | req {s d n} : (getWaiveException x.exceptions d.path).isSome = false → Branchless x n → Branchless x (.req s d (some n))

theorem count_pos (d : CountData) (nItems : Nat) (L : List Node) (est : Node → Except Err Int)
    (h : ∀ n ∈ L, ∀ e, est n = .ok e → 0 ≤ e) (e : Int)
    (he : countEstimate d nItems (L.map (fun n => (n, est n))) = .ok e) : 1 ≤ e :=
  (count_le d nItems L (fun _ => .nil) est (fun n hn e he => by simpa [Gen.nil] using h n hn e he) [] [] e he).1

mutual
theorem Node.estimate_pos (x : Ctx) (o : Orders) : (n : Node) → (e : Int) → n.estimate x o = .ok e →
    0 ≤ e ∧ (¬ Branchless x n → 1 ≤ e)
  | .course _ _, e, h => by rw [Node.estimate] at h; cases h; simp
  | .query _ d, e, h => by
    rw [Node.estimate] at h
    have := query_pos x o d e h
    exact ⟨by omega, fun _ => this⟩
  | .count _ d items, e, h => by
    rw [Node.estimate] at h
    have : 1 ≤ e := by
      unfold plainCountEstimate at h
      split at h
      · cases h; decide
      · rw [zip_estimates, filterE_pairs (fun n => n.hasPotential x)] at h
        cases hf : filterE (fun n => n.hasPotential x) items with
        | error e => rw [hf] at h; cases h
        | ok pot =>
          rw [hf] at h
          simp only [sortByPath_pairs] at h
          cases hs : sortByPath Node.path pot with
          | error e => rw [hs] at h; cases h
          | ok sorted =>
            rw [hs] at h
            refine count_pos d items.length sorted _ (fun n hn e he => ?_) e h
            exact Node.estimateList_pos x o items n
              (((mem_filterE hf).2 n).1 ((sortByPath_perm hs).mem_iff.1 hn)).1 e he
    exact ⟨by omega, fun _ => this⟩
  | .req s d none, e, h => by
    rw [Node.estimate] at h
    split at h
    · cases h; simp
    · simp only [Node.estimateOpt] at h; cases h; simp
  | .req s d (some n), e, h => by
    rw [Node.estimate] at h
    split at h
    · cases h; simp
    · rename_i hw
      simp only [Node.estimateOpt] at h
      obtain ⟨h1, h2⟩ := Node.estimate_pos x o n e h
      exact ⟨h1, fun hb => h2 fun hn => hb (.req (by simpa using hw) hn)⟩
  | .cond s d t none, e, h => by
    rw [Node.estimate] at h
    split at h
    · rename_i hc
      obtain ⟨h1, h2⟩ := Node.estimate_pos x o t e h
      exact ⟨h1, fun hb => h2 fun hn => hb (.thenPart hc hn)⟩
    · rename_i hc
      simp only [Node.estimateOpt] at h; cases h
      exact ⟨by decide, fun hb => absurd (.noElse hc) hb⟩
    · rename_i hc
      cases h
      exact ⟨by decide, fun hb => absurd (.undecided hc) hb⟩
  | .cond s d t (some f), e, h => by
    rw [Node.estimate] at h
    split at h
    · rename_i hc
      obtain ⟨h1, h2⟩ := Node.estimate_pos x o t e h
      exact ⟨h1, fun hb => h2 fun hn => hb (.thenPart hc hn)⟩
    · rename_i hc
      simp only [Node.estimateOpt] at h
      obtain ⟨h1, h2⟩ := Node.estimate_pos x o f e h
      exact ⟨h1, fun hb => h2 fun hn => hb (.elsePart hc hn)⟩
    · rename_i hc
      cases h
      exact ⟨by decide, fun hb => absurd (.undecided hc) hb⟩
  | .prof _ _ _, e, h => by rw [Node.estimate] at h; cases h; simp
theorem Node.estimateList_pos (x : Ctx) (o : Orders) : (ns : List Node) → (n : Node) → n ∈ ns → (e : Int) →
    n.estimate x o = .ok e → 0 ≤ e
  | [], _, hn, _, _ => nomatch hn
  | m :: ms, n, hn, e, h => by
    rcases List.mem_cons.1 hn with hm | hn
    · rw [hm] at h
      exact (Node.estimate_pos x o m e h).1
    · exact Node.estimateList_pos x o ms n hn e h
end

/-- a course rule that gives no two solutions -/
def AtMostOne (x : Ctx) (leaf : Node) : Prop := ∀ s d, leaf = .course s d → (courseSolutions x d).items.length ≤ 1

theorem profSolutions_le (x : Ctx) (d : ProfData) (c : Option (Stage × CourseData)) : (profSolutions x d c).items.length ≤ 1 := by
  unfold profSolutions
  split
  · simp [Gen.one]
  · split
    · simp [Gen.one]
    · split <;> simp [Gen.one, Gen.raise]

mutual
theorem Node.estimate_le (x : Ctx) (o : Orders) : (n : Node) → n.Loaded x → (∀ l ∈ n.leaves, AtMostOne x l) → (e : Int) →
    n.estimate x o = .ok e → ((n.solutions x o).items.length : Int) ≤ e
  | .course s d, _, hs, e, h => by
    rw [Node.estimate] at h
    cases h
    rw [Node.solutions, Gen.length_map]
    exact_mod_cast hs (.course s d) (by simp [Node.leaves]) s d rfl
  | .query s d, hl, _, e, h => by
    rw [Node.estimate] at h
    rw [Node.solutions, Gen.length_map]
    exact query_le x o d hl.2.2.2.2.2.2 e h
  | .count _ d items, hl, hs, e, h => by
    rw [Node.estimate] at h
    rw [Node.solutions]
    refine (plainCount_le x o d items (fun n hn e he => ?_) e h).2
    exact Node.estimateList_le x o items hl.2.2 hs n hn e he
  | .req s d none, hl, _, e, h => by
    rw [Node.estimate] at h
    rw [Node.solutions]
    split at h
    · rename_i hw; cases h; simp [hw, Gen.one]
    · rename_i hw; simp only [Node.estimateOpt] at h; cases h; simp [hw, Node.solutionsOpt, Gen.one]
  | .req s d (some n), hl, hs, e, h => by
    rw [Node.estimate] at h
    rw [Node.solutions]
    split at h
    · rename_i hw; cases h; simp [hw, Gen.one]
    · rename_i hw
      simp only [Node.estimateOpt] at h
      simp only [hw, Bool.false_eq_true, if_false, Node.solutionsOpt, Gen.length_map]
      exact Node.estimate_le x o n hl.2.2 hs e h
  | .cond s d t none, hl, hs, e, h => by
    rw [Node.estimate] at h
    rw [Node.solutions]
    split at h
    · rename_i hc
      rw [hc]
      simp only [Gen.length_map]
      exact Node.estimate_le x o t hl.2.2.1 (fun l hm => hs l (by simp [Node.leaves, hm])) e h
    · rename_i hc
      rw [hc]
      simp only [Node.estimateOpt] at h; cases h
      simp [Node.solutionsOpt, Gen.nil]
    · rename_i hc
      rw [hc]
      cases h
      simp [Gen.nil]
  | .cond s d t (some f), hl, hs, e, h => by
    rw [Node.estimate] at h
    rw [Node.solutions]
    split at h
    · rename_i hc
      rw [hc]
      simp only [Gen.length_map]
      exact Node.estimate_le x o t hl.2.2.1 (fun l hm => hs l (by simp [Node.leaves, hm])) e h
    · rename_i hc
      rw [hc]
      simp only [Node.estimateOpt] at h
      simp only [Node.solutionsOpt, Gen.length_map]
      exact Node.estimate_le x o f hl.2.2.2 (fun l hm => hs l (by simp [Node.leaves, Node.leavesOpt, hm])) e h
    · rename_i hc
      rw [hc]
      cases h
      simp [Gen.nil]
  | .prof _ d c, _, _, e, h => by
    rw [Node.estimate] at h
    cases h
    rw [Node.solutions]
    exact_mod_cast profSolutions_le x d c
theorem Node.estimateList_le (x : Ctx) (o : Orders) : (ns : List Node) → Node.LoadedList x ns →
    (∀ l ∈ Node.leavesList ns, AtMostOne x l) → (n : Node) → n ∈ ns → (e : Int) →
    n.estimate x o = .ok e → ((n.solutions x o).items.length : Int) ≤ e
  | [], _, _, _, hn, _, _ => nomatch hn
  | m :: ms, hl, hs, n, hn, e, h => by
    rcases List.mem_cons.1 hn with hm | hn
    · rw [hm] at h ⊢
      exact Node.estimate_le x o m hl.1 (fun l hm => hs l (by simp [Node.leavesList, hm])) e h
    · exact Node.estimateList_le x o ms hl.2 (fun l hm => hs l (by simp [Node.leavesList, hm])) n hn e h
end

/-! ### The top of an area -/

theorem topCount_pos (x : Ctx) (o : Orders) (d : CountData) (items : List Node) (e : Int)
    (h : topCountEstimate x o d items = .ok e) : 1 ≤ e := by
  unfold topCountEstimate at h
  split at h
  · cases h; decide
  · split at h
    · cases h
    · split at h
      · have := (Node.estimate_pos x o (.count .rule d items) e (by rw [Node.estimate]; exact h)).2
        exact this (fun hb => nomatch hb)
      · split at h
        · cases h
        · split at h
          · cases h
          · rename_i sorted _
            exact count_pos d items.length sorted _ (fun n _ e he => (Node.estimate_pos x o n e he).1) e h

mutual
theorem Node.topEstimate_pos (x : Ctx) (o : Orders) : (n : Node) → (e : Int) → n.topEstimate x o = .ok e →
    0 ≤ e ∧ (¬ Branchless x n → 1 ≤ e)
  | .count _ d items, e, h => by
    rw [Node.topEstimate] at h
    have := topCount_pos x o d items e h
    exact ⟨by omega, fun _ => this⟩
  | .cond s d t none, e, h => by
    rw [Node.topEstimate] at h
    split at h
    · rename_i hc
      obtain ⟨h1, h2⟩ := Node.topEstimate_pos x o t e h
      exact ⟨h1, fun hb => h2 fun hn => hb (.thenPart hc hn)⟩
    · rename_i hc
      simp only [Node.topEstimateOpt] at h; cases h
      exact ⟨by decide, fun hb => absurd (.noElse hc) hb⟩
    · rename_i hc
      cases h
      exact ⟨by decide, fun hb => absurd (.undecided hc) hb⟩
  | .cond s d t (some f), e, h => by
    rw [Node.topEstimate] at h
    split at h
    · rename_i hc
      obtain ⟨h1, h2⟩ := Node.topEstimate_pos x o t e h
      exact ⟨h1, fun hb => h2 fun hn => hb (.thenPart hc hn)⟩
    · rename_i hc
      simp only [Node.topEstimateOpt] at h
      obtain ⟨h1, h2⟩ := Node.topEstimate_pos x o f e h
      exact ⟨h1, fun hb => h2 fun hn => hb (.elsePart hc hn)⟩
    · rename_i hc
      cases h
      exact ⟨by decide, fun hb => absurd (.undecided hc) hb⟩
  | .course s d, e, h => by rw [Node.topEstimate] at h; exact Node.estimate_pos x o _ e h
  | .query s d, e, h => by rw [Node.topEstimate] at h; exact Node.estimate_pos x o _ e h
  | .req s d r, e, h => by rw [Node.topEstimate] at h; exact Node.estimate_pos x o _ e h
  | .prof s d c, e, h => by rw [Node.topEstimate] at h; exact Node.estimate_pos x o _ e h
end

theorem topCount_le (x : Ctx) (o : Orders) (d : CountData) (items : List Node) (t : ClaimTable)
    (hl : Node.LoadedList x items) (hs : ∀ l ∈ Node.leavesList items, AtMostOne x l) (e : Int)
    (h : topCountEstimate x o d items = .ok e) : ((topCountSolutions x o d items t).1.items.length : Int) ≤ e := by
  have hpos := topCount_pos x o d items e h
  unfold topCountEstimate at h
  unfold topCountSolutions
  split at h
  · rename_i hw
    rw [if_pos hw]
    simpa [Gen.one] using hpos
  · rename_i hw
    rw [if_neg hw]
    cases hf : filterE (fun n => n.hasPotential x) items with
    | error e => rw [hf] at h; cases h
    | ok pot =>
      rw [hf] at h
      dsimp only at h ⊢
      split at h
      · rename_i hp
        rw [if_pos hp]
        exact (plainCount_le x o d items (fun n hn e he => Node.estimateList_le x o items hl hs n hn e he) e h).2
      · rename_i hp
        rw [if_neg hp]
        cases hi : findIndependent x pot with
        | error e => rw [hi] at h; cases h
        | ok p =>
          obtain ⟨indep, codep⟩ := p
          rw [hi] at h
          dsimp only at h ⊢
          have hraise : ∀ (er : Err) (t : ClaimTable), (((Gen.raise er, t) : Gen Node × ClaimTable).1.items.length : Int) ≤ e := by
            intro er t
            simp only [Gen.raise, List.length_nil, Nat.cast_zero]
            omega
          split
          · exact hraise _ _
          · split
            · exact hraise _ _
            · cases hso : sortByPath Node.path codep with
              | error e => rw [hso] at h; cases h
              | ok sorted =>
                rw [hso] at h
                dsimp only at h ⊢
                refine (count_le d items.length sorted _ _ (fun n hn => ?_) _ _ e h).2
                have hn := (sortByPath_perm hso).mem_iff.1 hn
                have hn : n ∈ items := by
                  exact ((mem_filterE hf).2 n).1 ((findIndependent_subset hi).2.subset hn) |>.1
                exact Node.estimateList_le x o items hl hs n hn

mutual
theorem Node.topEstimate_le (x : Ctx) (o : Orders) (t : ClaimTable) : (n : Node) → n.Loaded x →
    (∀ l ∈ n.leaves, AtMostOne x l) → (e : Int) → n.topEstimate x o = .ok e →
    ((n.topSolutions x o t).1.items.length : Int) ≤ e
  | .count _ d items, hl, hs, e, h => by
    rw [Node.topEstimate] at h
    rw [Node.topSolutions]
    exact topCount_le x o d items t hl.2.2 hs e h
  | .cond s d th none, hl, hs, e, h => by
    rw [Node.topEstimate] at h
    rw [Node.topSolutions]
    split at h
    · rename_i hc
      rw [hc]
      simp only [Gen.length_map]
      exact Node.topEstimate_le x o t th hl.2.2.1 (fun l hm => hs l (by simp [Node.leaves, hm])) e h
    · rename_i hc
      rw [hc]
      simp only [Node.topEstimateOpt] at h; cases h
      simp [Node.topSolutionsOpt, Gen.nil]
    · rename_i hc
      rw [hc]
      cases h
      simp [Gen.nil]
  | .cond s d th (some f), hl, hs, e, h => by
    rw [Node.topEstimate] at h
    rw [Node.topSolutions]
    split at h
    · rename_i hc
      rw [hc]
      simp only [Gen.length_map]
      exact Node.topEstimate_le x o t th hl.2.2.1 (fun l hm => hs l (by simp [Node.leaves, hm])) e h
    · rename_i hc
      rw [hc]
      simp only [Node.topEstimateOpt] at h
      simp only [Node.topSolutionsOpt, Gen.length_map]
      exact Node.topEstimate_le x o t f hl.2.2.2 (fun l hm => hs l (by simp [Node.leaves, Node.leavesOpt, hm])) e h
    · rename_i hc
      rw [hc]
      cases h
      simp [Gen.nil]
  | .course s d, hl, hs, e, h => by
    rw [Node.topEstimate] at h; rw [Node.topSolutions]; exact Node.estimate_le x o _ hl hs e h
  | .query s d, hl, hs, e, h => by
    rw [Node.topEstimate] at h; rw [Node.topSolutions]; exact Node.estimate_le x o _ hl hs e h
  | .req s d r, hl, hs, e, h => by
    rw [Node.topEstimate] at h; rw [Node.topSolutions]; exact Node.estimate_le x o _ hl hs e h
  | .prof s d c, hl, hs, e, h => by
    rw [Node.topEstimate] at h; rw [Node.topSolutions]; exact Node.estimate_le x o _ hl hs e h
end

/-- no class is inserted at the course rule, and the student has at most one class that it names -/
def Unambiguous (st : Student) (es : List Exc) (d : CourseData) : Prop :=
  (∀ k, ¬ InsertedBy es d.path k) ∧ ∀ c ∈ st.courses, ∀ c' ∈ st.courses, IsNamed d c → IsNamed d c' → c = c'

theorem length_le_one_of_eq {α : Type} [DecidableEq α] {l : List α} (hnd : l.Nodup) (h : ∀ a ∈ l, ∀ b ∈ l, a = b) :
    l.length ≤ 1 := by
  match l, hnd, h with
  | [], _, _ => simp
  | [_], _, _ => simp
  | a :: b :: l, hnd, h =>
    have := h a (by simp) b (by simp)
    simp [this] at hnd

theorem unambiguous_single {st : Student} {es : List Exc} {d : CourseData} (h : Unambiguous st es d) (a : Area)
    (tr : List Course) (htr : ∀ c ∈ tr, c ∈ st.courses) (hnd : tr.Nodup) :
    (courseSolutions (areaCtx a st es tr) d).items.length ≤ 1 := by
  unfold courseSolutions
  split
  · simp [Gen.one]
  · have hins : courseInsertSolutions (areaCtx a st es tr) d (getInsertExceptions (areaCtx a st es tr).exceptions d.path) = .nil := by
      have : ∀ l : List Exc, (∀ k, k ∉ l.filterMap Exc.insertClbid) → courseInsertSolutions (areaCtx a st es tr) d l = .nil := by
        intro l
        induction l with
        | nil => intro _; rfl
        | cons e l ih =>
          intro hk
          unfold courseInsertSolutions
          have hl := ih (fun k hm => hk k (by
            rw [List.mem_filterMap] at hm ⊢
            obtain ⟨e', he', h2⟩ := hm
            exact ⟨e', by simp [he'], h2⟩))
          split
          · rename_i k f hkind
            exact absurd (List.mem_filterMap.2 ⟨e, by simp, by simp [Exc.insertClbid, hkind]⟩) (hk k)
          · exact hl
      exact this _ (fun k hk => h.1 k (insertedAt_path.1 hk))
    rw [hins]
    refine Gen.length_orElse_le _ _ 1 ?_ (by simp [Gen.one])
    refine le_trans (Gen.length_append_le _ _) ?_
    simp only [Gen.nil, List.length_nil, Gen.ofList, List.length_map, Nat.zero_add]
    refine length_le_one_of_eq ((?_ : List.Nodup _).filter _) ?_
    · unfold Ctx.findCourses
      split
      · cases (areaCtx a st es tr).findCourseByClbid _ <;> simp
      · exact hnd.filter _
    · intro c hc c' hc'
      obtain ⟨h1, h2⟩ := findCourses_spec (List.mem_filter.1 hc).1
      obtain ⟨h1', h2'⟩ := findCourses_spec (List.mem_filter.1 hc').1
      exact h.2 c (htr c h1) c' (htr c' h1') h2 h2'

theorem areaLoop_length (o : Orders) (a : Area) (st : Student) (es : List Exc) (tail : Option Err) (n : List Course → Nat)
    (trs : List (List Course)) (h : ∀ tr ∈ trs, ∀ t, (a.result.topSolutions (areaCtx a st es tr) o t).1.items.length ≤ n tr)
    (t : ClaimTable) : (areaLoop o a st es tail trs t).items.length ≤ (trs.map n).sum := by
  induction trs generalizing t with
  | nil => simp [areaLoop]
  | cons tr trs ih =>
    unfold areaLoop
    dsimp only
    refine le_trans (Gen.length_append_le _ _) ?_
    simp only [List.map_cons, List.sum_cons]
    refine Nat.add_le_add ?_ (ih (fun tr' h' => h tr' (by simp [h'])) _)
    have := h tr (by simp) t
    unfold transcriptSolutions
    dsimp only
    split
    · simp
    · rename_i s ss err t' heq
      rw [heq] at this
      simpa using this

/-- **C62.**  The estimate of an area is never negative; and it is at least the number of selections of the transcript
that keep the limits of the area (thus at least one, where there is one), unless the rule of the area comes down to a conditional
that asks for nothing in the case at hand. -/
theorem C62_positive_partial (a : Area) (st : Student) (es : List Exc) (o : Orders) (e : Int)
    (he : a.estimate o st es = .ok e) :
    0 ≤ e ∧ (¬ Branchless { exceptions := groupExceptions es } a.result →
      ((limitedTranscripts (o.limit []) a.limit st.courses (forcedClbids es)).items.length : Int) ≤ e) := by
  unfold Area.estimate at he
  dsimp only at he
  split at he
  · cases he
  · cases he
  · rename_i n hn _
    cases he
    constructor
    · have := sumE_le _ _ (fun _ => 0) (fun tr _ e' he' => by
        simpa using (Node.topEstimate_pos (areaCtx a st es tr) o a.result e' he').1) _ hn
      exact le_trans (by positivity) this
    · intro hb
      have hb' : ∀ tr, ¬ Branchless (areaCtx a st es tr) a.result := by
        intro tr h
        refine hb ?_
        generalize a.result = r at h
        clear hb hn
        induction h with
        | noElse h => exact .noElse h
        | undecided h => exact .undecided h
        | thenPart h _ ih => exact .thenPart h ih
        | elsePart h _ ih => exact .elsePart h ih
        | req h _ ih => exact .req h ih
      have := sumE_le _ _ (fun _ => 1) (fun tr _ e' he' => by
        simpa using (Node.topEstimate_pos (areaCtx a st es tr) o a.result e' he').2 (hb' tr)) _ hn
      simpa using this

/-- **C62**, upper bound: if each course rule names at most one class of the student and no class is inserted at it, then an audit
has at most as many solutions to look at as the estimate says.  Partial: without this the number can be greater
(`C62_too_small_refuted`). -/
theorem C62_bounds_the_solutions_partial (c : Constants) (templates : List (String × TemplateCourse)) (st : Student)
    (es : List Exc) (all : Bool) (spec : Dict) (a : Area) (hload : loadArea c templates st es all spec = .ok a)
    (hnd : st.courses.Nodup) (hone : ∀ s d, Node.course s d ∈ a.result.leaves → Unambiguous st es d)
    (o : Orders) (ho : o.Lawful) (e : Int) (he : a.estimate o st es = .ok e) :
    ((a.solutions o st es).items.length : Int) ≤ e := by
  unfold Area.estimate at he
  dsimp only at he
  split at he
  · cases he
  · cases he
  · rename_i n hn _
    cases he
    have hl := (loadArea_loaded hload).1
    have hpos : ∀ tr ∈ (limitedTranscripts (o.limit []) a.limit st.courses (forcedClbids es)).items,
        ∀ e', a.result.topEstimate (areaCtx a st es tr) o = .ok e' →
        ∀ t, ((a.result.topSolutions (areaCtx a st es tr) o t).1.items.length : Int) ≤ e' := by
      intro tr htr e' he' t
      obtain ⟨h1, h2⟩ := C10_only_input_courses _ (ho.1 []) _ _ _ _ htr
      refine Node.topEstimate_le (areaCtx a st es tr) o t a.result (Node.loaded_congr
        (x := { exceptions := groupExceptions es }) (y := areaCtx a st es tr) rfl a.result hl) ?_ e' he'
      rintro l hm s d rfl
      exact unambiguous_single (hone s d hm) a tr h1 (h2 (Or.inr hnd))
    -- the number of solutions of a transcript, whatever the claims it starts with
    let f : List Course → Nat := fun tr =>
      match a.result.topEstimate (areaCtx a st es tr) o with
      | .ok e' => e'.toNat
      | .error _ => 0
    have hok : ∀ l : List (List Course), ∀ n, sumE (l.map fun tr => a.result.topEstimate (areaCtx a st es tr) o) = .ok n →
        ∀ tr ∈ l, ∃ e', a.result.topEstimate (areaCtx a st es tr) o = .ok e' := by
      intro l
      induction l with
      | nil => simp
      | cons tr l ih =>
        intro n hn
        rw [List.map_cons] at hn
        cases h1 : a.result.topEstimate (areaCtx a st es tr) o with
        | error e => rw [h1] at hn; cases hn
        | ok m =>
          rw [h1] at hn
          unfold sumE at hn
          split at hn
          · cases hn
          · rename_i k hk
            intro tr' h'
            rcases List.mem_cons.1 h' with rfl | h'
            · exact ⟨m, h1⟩
            · exact ih k hk tr' h'
    have hlen := areaLoop_length o a st es (limitedTranscripts (o.limit []) a.limit st.courses (forcedClbids es)).err f
      _ (fun tr htr t => by
        obtain ⟨e', he'⟩ := hok _ _ hn tr htr
        have := hpos tr htr e' he' t
        simp only [f, he']
        omega) []
    have hsum := sumE_le _ _ f (fun tr htr e' he' => by
      have := (Node.topEstimate_pos (areaCtx a st es tr) o a.result e' he').1
      simp only [f, he']
      omega) _ hn
    unfold Area.solutions
    exact le_trans (Int.ofNat_le.2 hlen) hsum

/-! ### Non-trivial cases -/

/-- the estimate of an area read from a text, and the number of its solutions -/
def estimateAndCount (st : Student) (es : List Exc) (spec : Dict) : Option (Int × Nat) :=
  match loadArea {} [] st es false spec with
  | .ok a => match a.estimate .insertion st es with
    | .ok e => some (e, (a.solutions .insertion st es).items.length)
    | .error _ => none
  | .error _ => none

open LimitText in
/-- a course by name, or at least two of any, of three classes: the bound is met -/
example : estimateAndCount student [] (area [] (.map [("any", .list [.map [("course", .str "CSCI 121")], query []])])) =
    some (9, 9) := by decide +kernel

open LimitText in
/-- **C62**, not in general: a course rule counts as one, also if several classes of the student fit it, as here two. -/
theorem C62_too_small_refuted : estimateAndCount
    { courses := [{ clbid := "1", identity := "CSCI 121" }, { clbid := "2", identity := "CSCI 121" }] } []
    (area [] (.map [("course", .str "CSCI 121")])) = some (1, 2) := by decide +kernel

open LimitText in
/-- **C62**, not in general: the estimate may be that there is nothing to try. -/
theorem C62_nothing_refuted : estimateAndCount student []
    (area [] (.map [("$if", .map [("has-course", .str "CSCI 999")]), ("$then", .map [("course", .str "CSCI 121")])])) =
      some (0, 0) := by decide +kernel

end Dp
