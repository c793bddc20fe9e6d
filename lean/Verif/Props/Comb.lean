import Verif.Model.Comb
import Mathlib.Data.Nat.Choose.Basic
import Mathlib.Data.List.Nodup
import Mathlib.Data.List.Basic
import Mathlib.Tactic.Ring
import Mathlib.Tactic.Push

/-
Property C14 (`ncr`), and facts about combinations used elsewhere.
-/
namespace Dp
variable {α : Type}

theorem combos_length (k : Nat) (l : List α) : (combos k l).length = l.length.choose k := by
  induction l generalizing k with
  | nil => cases k <;> simp [combos]
  | cons a l ih => cases k with
    | zero => simp [combos]
    | succ k => simp [combos, ih, Nat.choose_succ_succ]

theorem mem_combos {k : Nat} {l c : List α} : c ∈ combos k l ↔ c.Sublist l ∧ c.length = k := by
  induction l generalizing k c with
  | nil =>
    cases k with
    | zero => simp [combos]
    | succ k =>
      simp only [combos, List.not_mem_nil, List.sublist_nil, false_iff]
      rintro ⟨rfl, h⟩; simp at h
  | cons a l ih =>
    cases k with
    | zero =>
      simp only [combos, List.mem_singleton]
      constructor
      · rintro rfl; simp
      · rintro ⟨_, h⟩; exact List.length_eq_zero_iff.1 h
    | succ k =>
      simp only [combos, List.mem_append, List.mem_map, ih]
      constructor
      · rintro (⟨c', ⟨h1, h2⟩, rfl⟩ | ⟨h1, h2⟩)
        · exact ⟨h1.cons_cons a, by simp [h2]⟩
        · exact ⟨h1.cons a, h2⟩
      · rintro ⟨h1, h2⟩
        cases h1 with
        | cons _ h => exact Or.inr ⟨h, h2⟩
        | cons_cons _ h => exact Or.inl ⟨_, ⟨h, by simpa using h2⟩, rfl⟩

theorem combos_nodup (k : Nat) (l : List α) (h : l.Nodup) : (combos k l).Nodup := by
  induction l generalizing k with
  | nil => cases k <;> simp [combos]
  | cons a l ih =>
    cases k with
    | zero => simp [combos]
    | succ k =>
      simp only [combos]
      have hl := (List.nodup_cons.1 h)
      rw [List.nodup_append]
      refine ⟨(ih k hl.2).map (fun x y hxy => by simpa using hxy), ih _ hl.2, ?_⟩
      rintro c hc d hd rfl
      obtain ⟨c', _, rfl⟩ := List.mem_map.1 hc
      exact hl.1 ((mem_combos.1 hd).1.subset List.mem_cons_self)

theorem fallingProd_eq (n k : Nat) (h : k ≤ n) : fallingProd n k = (n.descFactorial k : Int) := by
  induction k with
  | zero => simp [fallingProd]
  | succ k ih =>
    rw [fallingProd, ih (by omega), Nat.descFactorial_succ]
    push_cast [Nat.cast_sub (show k ≤ n by omega)]
    ring

theorem risingProd_eq (k : Nat) : risingProd k = (k.factorial : Int) := by
  induction k with
  | zero => simp [risingProd]
  | succ k ih => rw [risingProd, ih, Nat.factorial_succ]; push_cast; ring

/-- C14. For `0 ≤ r ≤ n`, `ncr n r` is the binomial coefficient, that is the
number of `r`-element combinations of any `n` items; and the division is exact. -/
theorem C14_ncr_counts_combinations (l : List α) (r : Nat) (h : r ≤ l.length) :
    ncr l.length r = ((combos r l).length : Int) ∧
    ncr l.length r = (l.length.choose r : Int) ∧
    ncr l.length r * risingProd (min (r : Int) (l.length - r)).toNat =
      fallingProd l.length (min (r : Int) (l.length - r)).toNat := by
  have key : ∀ n r : Nat, r ≤ n → ncr n r = (n.choose r : Int) ∧
      ncr n r * risingProd (min (r : Int) (n - r)).toNat = fallingProd n (min (r : Int) (n - r)).toNat := by
    intro n r h
    have hmin : (min (r : Int) (n - r)).toNat = min r (n - r) := by omega
    have hle : min r (n - r) ≤ n := by omega
    have hch : n.choose r = n.choose (min r (n - r)) := by
      rcases Nat.le_total r (n - r) with h' | h'
      · rw [Nat.min_eq_left h']
      · rw [Nat.min_eq_right h', Nat.choose_symm h]
    have hval : ncr n r = (n.choose r : Int) := by
      unfold ncr
      simp only [hmin]
      rw [fallingProd_eq n _ hle, risingProd_eq, Nat.descFactorial_eq_factorial_mul_choose, ← hch]
      have hpos : ((min r (n - r)).factorial : Int) ≠ 0 := by
        exact_mod_cast (Nat.factorial_pos _).ne'
      push_cast
      rw [Int.fdiv_eq_ediv_of_nonneg _ (Int.natCast_nonneg _)]
      exact Int.mul_ediv_cancel_left _ hpos
    refine ⟨hval, ?_⟩
    rw [hval, hmin, fallingProd_eq n _ hle, risingProd_eq, Nat.descFactorial_eq_factorial_mul_choose,
      ← hch]
    push_cast
    ring
  obtain ⟨h1, h2⟩ := key l.length r h
  exact ⟨by rw [h1, combos_length], h1, h2⟩

/-- Outside that range `ncr` is not the number of combinations: asking for more
items than there are gives 1, not 0. -/
theorem C14_out_of_range (n r : Nat) (h : n < r) : ncr n r = 1 ∧ n.choose r = 0 := by
  refine ⟨?_, Nat.choose_eq_zero_of_lt h⟩
  have : (min (r : Int) (n - r)).toNat = 0 := by omega
  simp only [ncr, this, fallingProd, risingProd]
  decide

/-- Non-trivial case for C14. -/
example : ncr 6 2 = 15 ∧ (combos 2 [1, 2, 3, 4, 5, 6]).length = 15 := by decide

end Dp
