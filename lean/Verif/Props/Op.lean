import Verif.Model.Op
import Mathlib.Tactic.Common
import Mathlib.Algebra.Order.Ring.Rat

/-
Properties C16 (operators) and C34 (grade order).
-/
namespace Dp

/-! ### C16 -/

/-- Number comparison as mathematics. -/
def NumHolds : Operator → Rat → Rat → Prop
  | .eq, a, b => a = b | .neq, a, b => a ≠ b
  | .lt, a, b => a < b | .lte, a, b => a ≤ b | .gt, a, b => b < a | .gte, a, b => b ≤ a
  | .in', _, _ => False | .nin, _, _ => False

/-- Text comparison, alphabetical. -/
def StrHolds : Operator → String → String → Prop
  | .eq, a, b => a = b | .neq, a, b => a ≠ b
  | .lt, a, b => a < b | .lte, a, b => a ≤ b | .gt, a, b => b < a | .gte, a, b => b ≤ a
  | .in', _, _ => False | .nin, _, _ => False

/-- Comparison operators, not list operators. -/
def Operator.isComparison (op : Operator) : Prop := op ≠ .in' ∧ op ≠ .nin

/-- C16. Numbers compare as numbers, whatever their spelling. -/
theorem C16_numbers (op : Operator) (hop : op.isComparison) (v w : Rat) (s t : String) :
    ∃ b, applyOperator op (.sc (.num v s)) (.sc (.num w t)) = .ok b ∧ (b = true ↔ NumHolds op v w) := by
  obtain ⟨h1, h2⟩ := hop
  cases op <;> simp_all [applyOperator, applyScalar, Sc.pyEq, Sc.pyLt, Sc.pyLe, Sc.isStr, orTypeError,
    NumHolds]
  exact Classical.em _

/-- C16. Texts compare alphabetically. -/
theorem C16_strings (op : Operator) (hop : op.isComparison) (s t : String) :
    ∃ b, applyOperator op (.sc (.str s)) (.sc (.str t)) = .ok b ∧ (b = true ↔ StrHolds op s t) := by
  obtain ⟨h1, h2⟩ := hop
  cases op <;> simp_all [applyOperator, applyScalar, Sc.pyEq, Sc.pyLt, Sc.pyLe, Sc.isStr, orTypeError,
    StrHolds]
  exact Classical.em _

/-- C16. A number against a text compares as texts. -/
theorem C16_mixed (op : Operator) (hop : op.isComparison) (v : Rat) (s t : String) :
    (∃ b, applyOperator op (.sc (.num v s)) (.sc (.str t)) = .ok b ∧ (b = true ↔ StrHolds op s t)) ∧
    (∃ b, applyOperator op (.sc (.str t)) (.sc (.num v s)) = .ok b ∧ (b = true ↔ StrHolds op t s)) := by
  obtain ⟨h1, h2⟩ := hop
  cases op <;> simp_all [applyOperator, applyScalar, Sc.pyEq, Sc.pyLt, Sc.pyLe, Sc.isStr, Sc.pyStr,
    orTypeError, StrHolds]
  exact ⟨Classical.em _, Classical.em _⟩

/-- C16. `$neq` is the negation of `$eq` when neither side is missing, and
neither ever raises on scalars. -/
theorem C16_neq_is_not_eq (l r : Sc) (hl : l ≠ .missing) (hr : r ≠ .missing) :
    ∃ b, applyOperator .eq (.sc l) (.sc r) = .ok b ∧ applyOperator .neq (.sc l) (.sc r) = .ok (!b) := by
  have h : (l == Sc.missing || r == Sc.missing) = false := by simp [hl, hr]
  simp [applyOperator, applyScalar, h]

/-- C16. A missing value against a present one satisfies no operator at all, not
even `$neq` or `$nin`. -/
theorem C16_missing_satisfies_nothing (op : Operator) (v : Val) (hv : v ≠ .sc .missing) :
    applyOperator op (.sc .missing) v = .ok false ∧ applyOperator op v (.sc .missing) = .ok false := by
  cases v with
  | tup l => simp [applyOperator]
  | sc s =>
    have hs : s ≠ .missing := fun h => hv (by rw [h])
    cases s <;> simp_all [applyOperator, applyScalar, Sc.pyEq]

/-- C16. Two missing values are equal; they have no order, and neither is a list. -/
theorem C16_both_missing :
    applyOperator .eq (.sc .missing) (.sc .missing) = .ok true ∧
    applyOperator .neq (.sc .missing) (.sc .missing) = .ok false ∧
    ∀ op, op ≠ .eq → op ≠ .neq → applyOperator op (.sc .missing) (.sc .missing) = .error .typeError := by
  refine ⟨rfl, rfl, fun op h1 h2 => ?_⟩
  cases op <;> first | rfl | exact absurd rfl h1 | exact absurd rfl h2

theorem anyE_ok {α} (f : α → Except Err Bool) (g : α → Bool) (l : List α)
    (h : ∀ a ∈ l, f a = .ok (g a)) : anyE f l = .ok (l.any g) := by
  induction l with
  | nil => rfl
  | cons a l ih =>
    have ih := ih (fun b hb => h b (List.mem_cons_of_mem _ hb))
    simp only [anyE, h a List.mem_cons_self, List.any_cons]
    cases g a <;> simp [ih]

theorem allE_ok {α} (f : α → Except Err Bool) (g : α → Bool) (l : List α)
    (h : ∀ a ∈ l, f a = .ok (g a)) : allE f l = .ok (l.all g) := by
  induction l with
  | nil => rfl
  | cons a l ih =>
    have ih := ih (fun b hb => h b (List.mem_cons_of_mem _ hb))
    simp only [allE, h a List.mem_cons_self, List.all_cons]
    cases g a <;> simp [ih]

/-- The boolean answer of `$eq` on scalars (it never raises). -/
theorem applyScalar_eq_ok (l r : Sc) : ∃ b, applyScalar .eq l r = .ok b := by
  unfold applyScalar; split <;> simp

theorem applyScalar_neq_ok (l r : Sc) : ∃ b, applyScalar .neq l r = .ok b := by
  unfold applyScalar; split <;> simp

/-- C16. A list of course values (attributes, for instance) against a present
expected scalar: `$in` and `$eq` hold iff some element is `$eq`; `$nin` and
`$neq` hold iff every element is `$neq`; nothing raises. -/
theorem C16_list_on_the_left (l : List Sc) (r : Sc) (hr : r ≠ .missing) :
    (∀ op, op = .in' ∨ op = .eq → ∃ b, applyOperator op (.tup l) (.sc r) = .ok b ∧
      (b = true ↔ ∃ x ∈ l, applyOperator .eq (.sc x) (.sc r) = .ok true)) ∧
    (∀ op, op = .nin ∨ op = .neq → ∃ b, applyOperator op (.tup l) (.sc r) = .ok b ∧
      (b = true ↔ ∀ x ∈ l, applyOperator .neq (.sc x) (.sc r) = .ok true)) := by
  have hr' : (r == Sc.missing) = false := by simpa using hr
  have hany : ∃ b, anyE (fun v => applyScalar .eq v r) l = .ok b ∧
      (b = true ↔ ∃ x ∈ l, applyScalar .eq x r = .ok true) := by
    rw [anyE_ok _ (fun v => match applyScalar .eq v r with | .ok b => b | .error _ => false)]
    · refine ⟨_, rfl, ?_⟩
      simp only [List.any_eq_true]
      constructor
      · rintro ⟨x, hx, h⟩
        obtain ⟨b, hb⟩ := applyScalar_eq_ok x r
        rw [hb] at h; exact ⟨x, hx, by rw [hb]; simpa using h⟩
      · rintro ⟨x, hx, h⟩; exact ⟨x, hx, by rw [h]⟩
    · intro a _
      obtain ⟨b, hb⟩ := applyScalar_eq_ok a r
      simp [hb]
  have hall : ∃ b, allE (fun v => applyScalar .neq v r) l = .ok b ∧
      (b = true ↔ ∀ x ∈ l, applyScalar .neq x r = .ok true) := by
    rw [allE_ok _ (fun v => match applyScalar .neq v r with | .ok b => b | .error _ => false)]
    · refine ⟨_, rfl, ?_⟩
      simp only [List.all_eq_true]
      constructor
      · intro h x hx
        obtain ⟨b, hb⟩ := applyScalar_neq_ok x r
        have := h x hx; rw [hb] at this; rw [hb]; simpa using this
      · intro h x hx; rw [h x hx]
    · intro a _
      obtain ⟨b, hb⟩ := applyScalar_neq_ok a r
      simp [hb]
  constructor
  · rintro op (rfl | rfl)
    · simpa [applyOperator, hr', applyLeftTuple] using hany
    · simp only [applyOperator, hr', applyLeftTuple]
      match l, hany with
      | [], _ => simp
      | [x], _ => obtain ⟨b, hb⟩ := applyScalar_eq_ok x r; simp [hb]
      | x :: y :: l, h => simpa using h
  · rintro op (rfl | rfl) <;> simpa [applyOperator, hr', applyLeftTuple] using hall

/-- C16. The same with the list on the expected side. -/
theorem C16_list_on_the_right (l : Sc) (r : List Sc) (hl : l ≠ .missing) :
    (∀ op, op = .in' ∨ op = .eq → ∃ b, applyOperator op (.sc l) (.tup r) = .ok b ∧
      (b = true ↔ ∃ x ∈ r, applyOperator .eq (.sc l) (.sc x) = .ok true)) ∧
    (∀ op, op = .nin ∨ op = .neq → ∃ b, applyOperator op (.sc l) (.tup r) = .ok b ∧
      (b = true ↔ ∀ x ∈ r, applyOperator .neq (.sc l) (.sc x) = .ok true)) := by
  have hl' : (l == Sc.missing) = false := by simpa using hl
  have hany : ∃ b, anyE (fun v => applyScalar .eq l v) r = .ok b ∧
      (b = true ↔ ∃ x ∈ r, applyScalar .eq l x = .ok true) := by
    rw [anyE_ok _ (fun v => match applyScalar .eq l v with | .ok b => b | .error _ => false)]
    · refine ⟨_, rfl, ?_⟩
      simp only [List.any_eq_true]
      constructor
      · rintro ⟨x, hx, h⟩
        obtain ⟨b, hb⟩ := applyScalar_eq_ok l x
        rw [hb] at h; exact ⟨x, hx, by rw [hb]; simpa using h⟩
      · rintro ⟨x, hx, h⟩; exact ⟨x, hx, by rw [h]⟩
    · intro a _
      obtain ⟨b, hb⟩ := applyScalar_eq_ok l a
      simp [hb]
  have hall : ∃ b, allE (fun v => applyScalar .neq l v) r = .ok b ∧
      (b = true ↔ ∀ x ∈ r, applyScalar .neq l x = .ok true) := by
    rw [allE_ok _ (fun v => match applyScalar .neq l v with | .ok b => b | .error _ => false)]
    · refine ⟨_, rfl, ?_⟩
      simp only [List.all_eq_true]
      constructor
      · intro h x hx
        obtain ⟨b, hb⟩ := applyScalar_neq_ok l x
        have := h x hx; rw [hb] at this; rw [hb]; simpa using this
      · intro h x hx; rw [h x hx]
    · intro a _
      obtain ⟨b, hb⟩ := applyScalar_neq_ok l a
      simp [hb]
  constructor
  · rintro op (rfl | rfl)
    · simpa [applyOperator, hl', applyRightTuple] using hany
    · simp only [applyOperator, hl', applyRightTuple]
      match r, hany with
      | [], _ => simp
      | [x], _ => obtain ⟨b, hb⟩ := applyScalar_eq_ok l x; simp [hb]
      | x :: y :: r, h => simpa using h
  · rintro op (rfl | rfl) <;> simpa [applyOperator, hl', applyRightTuple] using hall

/-- C16. On lists without missing values, `$nin` is the negation of `$in`. -/
theorem C16_nin_is_not_in (l : List Sc) (r : Sc) (hr : r ≠ .missing) (hl : ∀ x ∈ l, x ≠ .missing) :
    ∃ b, applyOperator .in' (.tup l) (.sc r) = .ok b ∧ applyOperator .nin (.tup l) (.sc r) = .ok (!b) := by
  obtain ⟨b, hb, hb2⟩ := (C16_list_on_the_left l r hr).1 .in' (.inl rfl)
  obtain ⟨c, hc, hc2⟩ := (C16_list_on_the_left l r hr).2 .nin (.inl rfl)
  refine ⟨b, hb, ?_⟩
  rw [hc]
  have : c = true ↔ ¬ b = true := by
    rw [hb2, hc2]
    constructor
    · rintro h ⟨x, hx, hx2⟩
      obtain ⟨d, hd1, hd2⟩ := C16_neq_is_not_eq x r (hl x hx) hr
      rw [hd1] at hx2; cases hx2
      have := h x hx; rw [hd2] at this; simp at this
    · intro h x hx
      obtain ⟨d, hd1, hd2⟩ := C16_neq_is_not_eq x r (hl x hx) hr
      cases d with
      | true => exact absurd ⟨x, hx, hd1⟩ h
      | false => simpa using hd2
  cases b <;> cases c <;> simp at this ⊢

/-- C16. List against list: only `$in` is defined, and it asks for a common
element (compared as text); every other operator raises. -/
theorem C16_list_against_list (l r : List Sc) :
    (∃ b, applyOperator .in' (.tup l) (.tup r) = .ok b ∧
      (b = true ↔ ∃ x ∈ l, ∃ y ∈ r, x.pyStr = y.pyStr)) ∧
    (∀ op, op ≠ .in' → applyOperator op (.tup l) (.tup r) = .error .other) := by
  constructor
  · simp only [applyOperator, applyTuples]
    cases l with
    | nil => simp
    | cons x l => cases r with
      | nil => simp
      | cons y r => simp
  · intro op hop; simp [applyOperator, applyTuples, hop]

/-- Non-trivial cases for C16. -/
example : applyOperator .gte (.sc (.num 3 "3")) (.sc (.num (5/2) "2.5")) = .ok true := by decide +kernel
example : applyOperator .in' (.tup [.str "a", .str "b"]) (.sc (.str "b")) = .ok true ∧
  applyOperator .nin (.tup [.str "a", .str "b"]) (.sc (.str "c")) = .ok true := by decide +kernel
example : applyOperator .in' (.tup [.num 1 "1"]) (.tup [.str "1", .str "2"]) = .ok true := by decide +kernel

/-! ### The cache -/

/-- C16, the cache as written is not transparent: whether a class worth `1.00`
equals the text "1" depends on what was compared earlier. -/
theorem C16_cache_refuted :
    applyOperator .eq (.sc (.num 1 "1.00")) (.sc (.str "1")) = .ok false ∧
    runCached [] [(fun _ => false, ⟨.eq, .sc (.num 1 "1"), .sc (.str "1")⟩),
      (fun _ => false, ⟨.eq, .sc (.num 1 "1.00"), .sc (.str "1")⟩)] = [.ok true, .ok true] := by
  decide +kernel

/-- Numbers occurring in an argument are spelled by `f`. -/
def Sc.SpelledBy (f : Rat → String) : Sc → Prop
  | .num v t => t = f v
  | _ => True

def Val.SpelledBy (f : Rat → String) : Val → Prop
  | .sc s => s.SpelledBy f
  | .tup l => ∀ s ∈ l, s.SpelledBy f

theorem Sc.pyEq_iff {f : Rat → String} {a b : Sc} (ha : a.SpelledBy f) (hb : b.SpelledBy f)
    (h : a.pyEq b = true) : a = b := by
  cases a <;> cases b <;> simp_all [Sc.pyEq, Sc.SpelledBy]

theorem Val.pyEq_iff {f : Rat → String} {a b : Val} (ha : a.SpelledBy f) (hb : b.SpelledBy f)
    (h : a.pyEq b = true) : a = b := by
  cases a with
  | sc a => cases b with
    | sc b => rw [Sc.pyEq_iff ha hb h]
    | tup b => simp [Val.pyEq] at h
  | tup a => cases b with
    | sc b => simp [Val.pyEq] at h
    | tup b =>
      congr 1
      simp only [Val.pyEq, Val.SpelledBy] at h ha hb
      induction a generalizing b with
      | nil => cases b with
        | nil => rfl
        | cons y b => simp [listPyEq] at h
      | cons x a ih => cases b with
        | nil => simp [listPyEq] at h
        | cons y b =>
          simp only [listPyEq, Bool.and_eq_true] at h
          rw [Sc.pyEq_iff (ha x List.mem_cons_self) (hb y List.mem_cons_self) h.1,
            ih (fun s hs => ha s (List.mem_cons_of_mem _ hs)) b
              (fun s hs => hb s (List.mem_cons_of_mem _ hs)) h.2]

/-- C16. As long as equal numbers are always spelled the same way in a run, the
cache never changes an answer, for any history and any evictions. -/
theorem C16_cache_transparent_partial (f : Rat → String) (h : List ((OpCall → Bool) × OpCall))
    (hs : ∀ e ∈ h, e.2.lhs.SpelledBy f ∧ e.2.rhs.SpelledBy f) :
    runCached [] h = h.map (fun e => applyOperator e.2.op e.2.lhs e.2.rhs) := by
  suffices H : ∀ (cache : OpCache),
      (∀ e ∈ cache, e.1.lhs.SpelledBy f ∧ e.1.rhs.SpelledBy f ∧
        applyOperator e.1.op e.1.lhs e.1.rhs = .ok e.2) →
      runCached cache h = h.map (fun e => applyOperator e.2.op e.2.lhs e.2.rhs) from H [] (by simp)
  induction h with
  | nil => intro cache _; rfl
  | cons e h ih =>
    intro cache hc
    obtain ⟨ev, c⟩ := e
    have hce := hs (ev, c) List.mem_cons_self
    have ih := ih (fun e' he' => hs e' (List.mem_cons_of_mem _ he'))
    have hc' : ∀ e ∈ cache.filter (fun e => !ev e.1), e.1.lhs.SpelledBy f ∧ e.1.rhs.SpelledBy f ∧
        applyOperator e.1.op e.1.lhs e.1.rhs = .ok e.2 := fun e he => hc e (List.mem_filter.1 he).1
    simp only [runCached, cachedCall, List.map_cons]
    cases hf : (cache.filter (fun e => !ev e.1)).find? (fun e => e.1.sameKey c) with
    | some e =>
      simp only
      have hmem := List.mem_of_find?_eq_some hf
      have hkey := List.find?_some hf
      obtain ⟨h1, h2, h3⟩ := hc' e hmem
      simp only [OpCall.sameKey, Bool.and_eq_true, beq_iff_eq] at hkey
      have e1 := Val.pyEq_iff h1 hce.1 hkey.1.2
      have e2 := Val.pyEq_iff h2 hce.2 hkey.2
      rw [ih _ hc', ← hkey.1.1, ← e1, ← e2, h3]
    | none =>
      simp only
      cases hr : applyOperator c.op c.lhs c.rhs with
      | error er => simp only [ih _ hc']
      | ok b =>
        simp only
        rw [ih]
        intro e he
        rcases List.mem_cons.1 he with rfl | he
        · exact ⟨hce.1, hce.2, hr⟩
        · exact hc' e he

/-! ### C34 -/

/-- `grade_code_to_points`, `dp/data/course_enums.py:178-192`, as documented:
only letter grades carry points. -/
def letterPoints : GradeCode → Option Rat
  | .Aplus => some 4 | .A => some 4 | .Aminus => some (37/10)
  | .Bplus => some (33/10) | .B => some 3 | .Bminus => some (27/10)
  | .Cplus => some (23/10) | .C => some 2 | .Cminus => some (17/10)
  | .Dplus => some (13/10) | .D => some 1 | .Dminus => some (7/10) | .F => some 0
  | _ => none

/-- C34. Grade comparison is a strict total order: irreflexive, transitive, and
of two different grades exactly one is lower; `$lte` and `$gte` follow. -/
theorem C34_grades_totally_ordered (a b : GradeCode) :
    (∃ x y z w, applyOperator .lt (.sc (.grade a)) (.sc (.grade b)) = .ok x ∧
      applyOperator .gt (.sc (.grade a)) (.sc (.grade b)) = .ok y ∧
      applyOperator .lte (.sc (.grade a)) (.sc (.grade b)) = .ok z ∧
      applyOperator .gte (.sc (.grade a)) (.sc (.grade b)) = .ok w ∧
      (a = b → x = false ∧ y = false) ∧ (a ≠ b → x = !y) ∧ z = !y ∧ w = !x) := by
  refine ⟨_, _, _, _, rfl, rfl, rfl, rfl, ?_⟩
  have hinj : a.rank = b.rank → a = b := by cases a <;> cases b <;> decide
  refine ⟨?_, ?_, ?_, ?_⟩
  · rintro rfl; simp
  · intro hne
    have : a.rank ≠ b.rank := fun h => hne (hinj h)
    by_cases h : a.rank < b.rank
    · have : ¬ b.rank < a.rank := by omega
      simp [h, this]
    · have : b.rank < a.rank := by omega
      simp [h, this]
  · by_cases h : b.rank < a.rank
    · have : ¬ a.rank ≤ b.rank := by omega
      simp [h, this]
    · have : a.rank ≤ b.rank := by omega
      simp [h, this]
  · by_cases h : a.rank < b.rank
    · have : ¬ b.rank ≤ a.rank := by omega
      simp [h, this]
    · have : b.rank ≤ a.rank := by omega
      simp [h, this]

/-- C34. The order is transitive. -/
theorem C34_transitive (a b c : GradeCode)
    (h1 : applyOperator .lt (.sc (.grade a)) (.sc (.grade b)) = .ok true)
    (h2 : applyOperator .lt (.sc (.grade b)) (.sc (.grade c)) = .ok true) :
    applyOperator .lt (.sc (.grade a)) (.sc (.grade c)) = .ok true := by
  simp only [applyOperator, applyScalar, Sc.pyEq, Sc.pyLt, Sc.isStr, orTypeError] at *
  simp at *
  omega

/-- C34. A grade worth more points is never ranked below one worth fewer, and
every grade without points is ranked below every letter grade. -/
theorem C34_order_matches_points (a b : GradeCode) :
    (∀ x y, letterPoints a = some x → letterPoints b = some y → x < y →
      applyOperator .lt (.sc (.grade a)) (.sc (.grade b)) = .ok true) ∧
    (letterPoints a = none → letterPoints b ≠ none →
      applyOperator .lt (.sc (.grade a)) (.sc (.grade b)) = .ok true) := by
  have key : applyOperator .lt (.sc (.grade a)) (.sc (.grade b)) = .ok (decide (a.rank < b.rank)) := rfl
  rw [key]
  constructor
  · intro x y hx hy hxy
    have : ∀ a b : GradeCode, (match letterPoints a, letterPoints b with
      | some x, some y => decide (x < y → a.rank < b.rank) | _, _ => true) = true := by
      intro a b; cases a <;> cases b <;> decide +kernel
    have h := this a b
    rw [hx, hy] at h
    simpa [hxy] using h
  · revert a b
    intro a b _
    cases a <;> cases b <;> simp [letterPoints, GradeCode.rank]

/-- Non-trivial case for C34: a B is at least a B-, and an in-progress course
is below an F. -/
example : applyOperator .gte (.sc (.grade .B)) (.sc (.grade .Bminus)) = .ok true ∧
  applyOperator .lt (.sc (.grade .IP)) (.sc (.grade .F)) = .ok true := by decide +kernel

end Dp
