import Verif.Model.Limit
import Verif.Props.LazyProduct
import Verif.Props.Comb
import Mathlib.Tactic.Linarith
import Mathlib.Algebra.Order.Ring.Rat

/-
Lemmas about the model of limits, used by `Props/Limit.lean`.
-/
namespace Dp

/-- Whether the limit's filter accepts a course. -/
def Limit.hits (l : Limit) (c : Course) : Bool :=
  match l.where'.applyCourse c with
  | .ok true => true
  | _ => false

theorem Limit.hits_iff (l : Limit) (c : Course) : l.hits c = true ↔ l.where'.applyCourse c = .ok true := by
  unfold Limit.hits
  split <;> simp_all

/-! ### Sorting -/

theorem Course.sortLe_total (a b : Course) : a.sortLe b = true ∨ b.sortLe a = true := by
  simp only [Course.sortLe, Bool.or_eq_true, Bool.and_eq_true, decide_eq_true_eq, beq_iff_eq]
  rcases Nat.lt_trichotomy a.courseType.sortOrder b.courseType.sortOrder with h | h | h
  · exact .inl (.inl h)
  · rcases Int.lt_trichotomy a.year b.year with h2 | h2 | h2
    · exact .inl (.inr ⟨h, .inl h2⟩)
    · by_cases h3 : a.term = b.term
      · rcases String.le_total a.clbid b.clbid with h4 | h4
        · exact .inl (.inr ⟨h, .inr ⟨h2, .inr ⟨h3, h4⟩⟩⟩)
        · exact .inr (.inr ⟨h.symm, .inr ⟨h2.symm, .inr ⟨h3.symm, h4⟩⟩⟩)
      · rcases String.le_total a.term b.term with h4 | h4
        · have : a.term < b.term := by
            rcases Classical.em (a.term < b.term) with h5 | h5
            · exact h5
            · exact absurd (String.le_antisymm h4 (String.not_lt.1 h5)) h3
          exact .inl (.inr ⟨h, .inr ⟨h2, .inl this⟩⟩)
        · have : b.term < a.term := by
            rcases Classical.em (b.term < a.term) with h5 | h5
            · exact h5
            · exact absurd (String.le_antisymm (String.not_lt.1 h5) h4) h3
          exact .inr (.inr ⟨h.symm, .inr ⟨h2.symm, .inl this⟩⟩)
    · exact .inr (.inr ⟨h.symm, .inl h2⟩)
  · exact .inr (.inl h)

theorem Course.sortLe_trans (a b c : Course) (h1 : a.sortLe b = true) (h2 : b.sortLe c = true) :
    a.sortLe c = true := by
  simp only [Course.sortLe, Bool.or_eq_true, Bool.and_eq_true, decide_eq_true_eq, beq_iff_eq] at h1 h2 ⊢
  rcases h1 with h1 | ⟨e1, h1⟩
  · rcases h2 with h2 | ⟨e2, _⟩
    · exact .inl (by omega)
    · exact .inl (by omega)
  · rcases h2 with h2 | ⟨e2, h2⟩
    · exact .inl (by omega)
    · refine .inr ⟨by omega, ?_⟩
      rcases h1 with h1 | ⟨f1, h1⟩
      · rcases h2 with h2 | ⟨f2, _⟩
        · exact .inl (by omega)
        · exact .inl (by omega)
      · rcases h2 with h2 | ⟨f2, h2⟩
        · exact .inl (by omega)
        · refine .inr ⟨by omega, ?_⟩
          rcases h1 with h1 | ⟨g1, h1⟩
          · rcases h2 with h2 | ⟨g2, _⟩
            · exact .inl (String.lt_trans h1 h2)
            · exact .inl (g2 ▸ h1)
          · rcases h2 with h2 | ⟨g2, h2⟩
            · exact .inl (g1 ▸ h2)
            · exact .inr ⟨g1.trans g2, String.le_trans h1 h2⟩

theorem Course.sortLe_antisymm_clbid (a b : Course) (h1 : a.sortLe b = true) (h2 : b.sortLe a = true) :
    a.clbid = b.clbid := by
  simp only [Course.sortLe, Bool.or_eq_true, Bool.and_eq_true, decide_eq_true_eq, beq_iff_eq] at h1 h2
  rcases h1 with h1 | ⟨e1, h1⟩
  · rcases h2 with h2 | ⟨e2, _⟩ <;> omega
  · rcases h2 with h2 | ⟨e2, h2⟩
    · omega
    · rcases h1 with h1 | ⟨f1, h1⟩
      · rcases h2 with h2 | ⟨f2, _⟩ <;> omega
      · rcases h2 with h2 | ⟨f2, h2⟩
        · omega
        · rcases h1 with h1 | ⟨g1, h1⟩
          · rcases h2 with h2 | ⟨g2, _⟩
            · exact absurd (String.lt_trans h1 h2) (String.lt_irrefl _)
            · rw [g2] at h1; exact absurd h1 (String.lt_irrefl _)
          · rcases h2 with h2 | ⟨g2, h2⟩
            · rw [g1] at h2; exact absurd h2 (String.lt_irrefl _)
            · exact String.le_antisymm h1 h2

instance : Std.Total (fun a b : Course => a.sortLe b = true) := ⟨Course.sortLe_total⟩
instance : IsTrans Course (fun a b : Course => a.sortLe b = true) := ⟨Course.sortLe_trans⟩

theorem sortCourses_sorted (l : List Course) : (sortCourses l).Pairwise (fun a b => a.sortLe b = true) :=
  List.pairwise_insertionSort _ l

theorem sortCourses_perm (l : List Course) : (sortCourses l).Perm l := List.perm_insertionSort _ l

theorem mem_sortCourses {l : List Course} {c : Course} : c ∈ sortCourses l ↔ c ∈ l :=
  (sortCourses_perm l).mem_iff

theorem perm_sum_rat {a b : List Rat} (h : a.Perm b) : a.sum = b.sum := by
  induction h with
  | nil => rfl
  | cons x _ ih => simp [ih]
  | swap x y l => simp only [List.sum_cons]; linarith
  | trans _ _ h1 h2 => exact h1.trans h2

/-! ### `check` -/

theorem checkCourse_some {c : Course} {ls : List Limit} {f f' : Limit → Rat}
    (h : checkCourse c ls f = .ok (some f')) (l : Limit) :
    (∀ hc : 0 ≤ l.amount c, l ∈ ls → l.hits c = true → f l < l.atMost ∧ f l + l.amount c ≤ f' l) ∧
    (l ∉ ls ∨ l.hits c = false → f' l = f l) ∧
    (0 ≤ l.amount c → f l ≤ f' l) := by
  induction ls generalizing f with
  | nil => simp only [checkCourse] at h; cases h; simp
  | cons k ls ih =>
    simp only [checkCourse] at h
    split at h
    · cases h
    · rename_i hk
      have hk' : k.hits c = false := by
        rw [Bool.eq_false_iff]; intro h'; rw [Limit.hits_iff, hk] at h'; cases h'
      obtain ⟨i1, i2, i3⟩ := ih h
      refine ⟨fun hc hl hh => ?_, fun hl => ?_, i3⟩
      · rcases List.mem_cons.1 hl with rfl | hl
        · rw [hk'] at hh; cases hh
        · exact i1 hc hl hh
      · apply i2
        rcases hl with hl | hl
        · exact .inl (fun h' => hl (List.mem_cons_of_mem _ h'))
        · exact .inr hl
    · rename_i hk
      have hk' : k.hits c = true := (Limit.hits_iff k c).2 hk
      split at h
      · cases h
      · rename_i hlt
        obtain ⟨i1, i2, i3⟩ := ih h
        have hb : bump f k (k.amount c) l = if l = k then f l + k.amount c else f l := rfl
        rw [hb] at i1 i2 i3
        by_cases hlk : l = k
        · subst hlk
          simp only [if_true] at i1 i2 i3
          refine ⟨fun hc _ _ => ⟨not_le.1 hlt, i3 hc⟩, fun hl => ?_, fun hc => ?_⟩
          · rcases hl with hl | hl
            · exact absurd List.mem_cons_self hl
            · rw [hk'] at hl; cases hl
          · have := i3 hc; linarith
        · simp only [if_neg hlk] at i1 i2 i3
          refine ⟨fun hc hl hh => ?_, fun hl => ?_, i3⟩
          · rcases List.mem_cons.1 hl with rfl | hl
            · exact absurd rfl hlk
            · exact i1 hc hl hh
          · apply i2
            rcases hl with hl | hl
            · exact .inl (fun h' => hl (List.mem_cons_of_mem _ h'))
            · exact .inr hl

/-- What the courses of a list that match the limit add up to. -/
def Limit.total (l : Limit) (cs : List Course) : Rat := ((cs.filter l.hits).map l.amount).sum

theorem Limit.total_cons_hit {l : Limit} {c : Course} {cs : List Course} (h : l.hits c = true) :
    l.total (c :: cs) = l.amount c + l.total cs := by simp [Limit.total, h]

theorem Limit.total_cons_miss {l : Limit} {c : Course} {cs : List Course} (h : l.hits c = false) :
    l.total (c :: cs) = l.total cs := by simp [Limit.total, h]

theorem Limit.total_perm {l : Limit} {a b : List Course} (h : a.Perm b) : l.total a = l.total b :=
  perm_sum_rat ((h.filter _).map _)

theorem Limit.total_append {l : Limit} {a b : List Course} : l.total (a ++ b) = l.total a + l.total b := by
  simp [Limit.total]

theorem checkFrom_prefix {limits : List Limit} {l : Limit} (hl : l ∈ limits) :
    ∀ (a : List Course) (c : Course) (b : List Course) (f : Limit → Rat),
    (∀ x ∈ a ++ [c], 0 ≤ l.amount x) →
    checkFrom limits (a ++ c :: b) f = .ok true → l.hits c = true →
    f l + l.total a < l.atMost := by
  intro a
  induction a with
  | nil =>
    intro c b f hnn h hc
    simp only [List.nil_append, checkFrom] at h
    split at h
    · cases h
    · cases h
    · rename_i f' hf
      have := (checkCourse_some hf l).1 (hnn c (by simp)) hl hc
      simp [Limit.total]; exact this.1
  | cons x a ih =>
    intro c b f hnn h hc
    simp only [List.cons_append, checkFrom] at h
    split at h
    · cases h
    · cases h
    · rename_i f' hf
      have ih := ih c b f' (fun y hy => hnn y (by simp at hy ⊢; tauto)) h hc
      obtain ⟨h1, h2, _⟩ := checkCourse_some hf l
      cases hx : l.hits x with
      | true =>
        have := (h1 (hnn x (by simp)) hl hx).2
        rw [Limit.total_cons_hit hx]; linarith
      | false =>
        rw [Limit.total_cons_miss hx, ← h2 (.inr hx)]; exact ih

/-- A list that passes the check exceeds no course limit, and leaves below the
limit everything but one course for credit limits. -/
theorem checkLimits_bound {limits : List Limit} {l : Limit} (hl : l ∈ limits) {cs : List Course}
    (hnn : ∀ x ∈ cs, 0 ≤ l.amount x)
    (h : checkLimits limits cs = .ok true) :
    (∀ c ∈ cs, l.hits c = false) ∨
    ∃ c ∈ cs, l.hits c = true ∧ l.total cs - l.amount c < l.atMost := by
  by_cases hany : ∃ c ∈ cs, l.hits c = true
  · right
    -- the last matching course
    have key : ∀ cs : List Course, (∃ c ∈ cs, l.hits c = true) →
        ∃ a c b, cs = a ++ c :: b ∧ l.hits c = true ∧ ∀ x ∈ b, l.hits x = false := by
      intro cs
      induction cs with
      | nil => rintro ⟨c, hc, _⟩; cases hc
      | cons x xs ih =>
        rintro ⟨c, hc, hh⟩
        by_cases hxs : ∃ c ∈ xs, l.hits c = true
        · obtain ⟨a, d, b, rfl, h1, h2⟩ := ih hxs
          exact ⟨x :: a, d, b, rfl, h1, h2⟩
        · rcases List.mem_cons.1 hc with rfl | hc
          · refine ⟨[], c, xs, rfl, hh, fun y hy => ?_⟩
            rw [Bool.eq_false_iff]; exact fun h' => hxs ⟨y, hy, h'⟩
          · exact absurd ⟨c, hc, hh⟩ hxs
    obtain ⟨a, c, b, rfl, h1, h2⟩ := key cs hany
    refine ⟨c, by simp, h1, ?_⟩
    have := checkFrom_prefix hl a c b (fun _ => 0)
      (fun x hx => hnn x (by simp at hx ⊢; tauto)) h h1
    have hb : l.total b = 0 := by
      simp only [Limit.total]
      rw [List.filter_eq_nil_iff.2 (fun x hx => by rw [h2 x hx]; simp)]; rfl
    rw [Limit.total_append, Limit.total_cons_hit h1, hb]
    linarith
  · left
    intro c hc
    rw [Bool.eq_false_iff]; exact fun h' => hany ⟨c, hc, h'⟩

theorem checkCourse_pass {c : Course} {ls : List Limit} (hnd : ls.Nodup)
    (hev : ∀ l ∈ ls, l.where'.applyCourse c = .ok (l.hits c)) {f : Limit → Rat}
    (h : ∀ l ∈ ls, l.hits c = true → f l < l.atMost) :
    ∃ f', checkCourse c ls f = .ok (some f') ∧
      ∀ l, f' l = if l ∈ ls ∧ l.hits c = true then f l + l.amount c else f l := by
  induction ls generalizing f with
  | nil => exact ⟨f, rfl, by simp⟩
  | cons k ls ih =>
    have hnd' := List.nodup_cons.1 hnd
    have hev' : ∀ l ∈ ls, l.where'.applyCourse c = .ok (l.hits c) :=
      fun l hl => hev l (List.mem_cons_of_mem _ hl)
    have hk := hev k List.mem_cons_self
    simp only [checkCourse, hk]
    cases hh : k.hits c with
    | false =>
      obtain ⟨f', h1, h2⟩ := ih hnd'.2 hev' (fun l hl => h l (List.mem_cons_of_mem _ hl))
      refine ⟨f', h1, ?_⟩
      intro l
      rw [h2]
      by_cases hlk : l = k
      · subst hlk; simp [hh]
      · simp [hlk]
    | true =>
      have hlt := h k List.mem_cons_self hh
      simp only [ge_iff_le, not_le.2 hlt, if_false]
      obtain ⟨f', h1, h2⟩ := ih (f := bump f k (k.amount c)) hnd'.2 hev' (by
        intro l hl hlh
        have hlk : l ≠ k := by rintro rfl; exact hnd'.1 hl
        simp only [bump, if_neg hlk]
        exact h l (List.mem_cons_of_mem _ hl) hlh)
      refine ⟨f', h1, ?_⟩
      intro l
      rw [h2]
      by_cases hlk : l = k
      · subst hlk; simp [hh, hnd'.1, bump]
      · simp [hlk, bump]

/-- The exact converse of `checkFrom_prefix`, for distinct limits. -/
theorem checkFrom_pass {limits : List Limit} (hnd : limits.Nodup) (cs : List Course)
    (hev : ∀ l ∈ limits, ∀ c ∈ cs, l.where'.applyCourse c = .ok (l.hits c)) :
    ∀ f : Limit → Rat,
    (∀ l ∈ limits, ∀ a c b, cs = a ++ c :: b → l.hits c = true → f l + l.total a < l.atMost) →
    checkFrom limits cs f = .ok true := by
  induction cs with
  | nil => intro f _; rfl
  | cons c cs ih =>
    intro f h
    obtain ⟨f', h1, h2⟩ := checkCourse_pass hnd (fun l hl => hev l hl c List.mem_cons_self)
      (f := f) (fun l hl hh => by simpa [Limit.total] using h l hl [] c cs rfl hh)
    simp only [checkFrom, h1]
    apply ih (fun l hl c' hc' => hev l hl c' (List.mem_cons_of_mem _ hc'))
    intro l hl a c' b heq hh
    have := h l hl (c :: a) c' b (by rw [heq]; rfl) hh
    rw [h2]
    cases hc : l.hits c with
    | true =>
      rw [Limit.total_cons_hit hc] at this
      simp only [hl, and_self, if_true]; linarith
    | false =>
      rw [Limit.total_cons_miss hc] at this
      simpa using this

theorem checkCourse_ok {c : Course} {ls : List Limit}
    (hev : ∀ l ∈ ls, ∃ b, l.where'.applyCourse c = .ok b) (f : Limit → Rat) :
    ∃ r, checkCourse c ls f = .ok r := by
  induction ls generalizing f with
  | nil => exact ⟨_, rfl⟩
  | cons k ls ih =>
    have ih := ih (fun l hl => hev l (List.mem_cons_of_mem _ hl))
    obtain ⟨b, hb⟩ := hev k List.mem_cons_self
    simp only [checkCourse, hb]
    cases b with
    | false => exact ih f
    | true =>
      simp only
      split
      · exact ⟨_, rfl⟩
      · exact ih _

theorem checkFrom_ok {limits : List Limit} {cs : List Course}
    (hev : ∀ l ∈ limits, ∀ c ∈ cs, ∃ b, l.where'.applyCourse c = .ok b) (f : Limit → Rat) :
    ∃ b, checkFrom limits cs f = .ok b := by
  induction cs generalizing f with
  | nil => exact ⟨_, rfl⟩
  | cons c cs ih =>
    obtain ⟨r, hr⟩ := checkCourse_ok (fun l hl => hev l hl c List.mem_cons_self) f
    simp only [checkFrom, hr]
    cases r with
    | none => exact ⟨_, rfl⟩
    | some f' => exact ih (fun l hl c' hc' => hev l hl c' (List.mem_cons_of_mem _ hc')) f'

theorem Limit.total_nonneg {l : Limit} {cs : List Course} (h : ∀ c ∈ cs, l.hits c = true → 0 ≤ l.amount c) :
    0 ≤ l.total cs := by
  induction cs with
  | nil => simp [Limit.total]
  | cons c cs ih =>
    have ih := ih (fun c' hc' => h c' (List.mem_cons_of_mem _ hc'))
    cases hc : l.hits c with
    | true => rw [Limit.total_cons_hit hc]; have := h c List.mem_cons_self hc; linarith
    | false => rw [Limit.total_cons_miss hc]; exact ih

/-- A list within all the limits passes, if every counted course uses something up. -/
theorem checkLimits_pass {limits : List Limit} (hnd : limits.Nodup) {cs : List Course}
    (hev : ∀ l ∈ limits, ∀ c ∈ cs, l.where'.applyCourse c = .ok (l.hits c))
    (hpos : ∀ l ∈ limits, ∀ c ∈ cs, l.hits c = true → 0 < l.amount c)
    (h : ∀ l ∈ limits, l.total cs ≤ l.atMost) : checkLimits limits cs = .ok true := by
  apply checkFrom_pass hnd cs hev
  rintro l hl a c b rfl hh
  have h1 := h l hl
  rw [Limit.total_append, Limit.total_cons_hit hh] at h1
  have h2 := hpos l hl c (by simp) hh
  have h3 : 0 ≤ l.total b := Limit.total_nonneg (fun x hx hxh => (hpos l hl x (by simp [hx]) hxh).le)
  linarith

/-! ### Probing -/

theorem MatchDict.keys_add (d : MatchDict) (l : Limit) (c : Course) :
    (d.add l c).map (·.1) = if l ∈ d.map (·.1) then d.map (·.1) else d.map (·.1) ++ [l] := by
  induction d with
  | nil => simp [MatchDict.add]
  | cons km d ih =>
    obtain ⟨k, ms⟩ := km
    simp only [MatchDict.add]
    by_cases hk : k = l
    · simp [hk]
    · have hk' : ¬ l = k := fun h => hk h.symm
      simp only [if_neg hk, List.map_cons, ih, List.mem_cons, hk', false_or]
      split <;> simp

theorem MatchDict.mem_add {d : MatchDict} {l : Limit} {c : Course} (hnd : (d.map (·.1)).Nodup)
    {k : Limit} {ms : List Course} :
    (k, ms) ∈ d.add l c ↔ (k ≠ l ∧ (k, ms) ∈ d) ∨
      (k = l ∧ ((∃ ms0, (l, ms0) ∈ d ∧ ms = if ms0.contains c then ms0 else ms0 ++ [c]) ∨
        (l ∉ d.map (·.1) ∧ ms = [c]))) := by
  induction d with
  | nil => simp [MatchDict.add]
  | cons km d ih =>
    obtain ⟨k0, ms0⟩ := km
    simp only [List.map_cons, List.nodup_cons] at hnd
    have ih := ih hnd.2
    simp only [MatchDict.add]
    by_cases hk : k0 = l
    · subst hk
      simp only [if_true, List.mem_cons, Prod.mk.injEq, List.map_cons]
      constructor
      · rintro (⟨rfl, rfl⟩ | h)
        · exact .inr ⟨rfl, .inl ⟨ms0, .inl (by simp), rfl⟩⟩
        · have : k ≠ k0 := by
            rintro rfl; exact hnd.1 (List.mem_map.2 ⟨_, h, rfl⟩)
          exact .inl ⟨this, .inr h⟩
      · rintro (⟨h1, h2⟩ | ⟨rfl, h2⟩)
        · rcases h2 with ⟨h2, _⟩ | h2
          · exact absurd h2 h1
          · exact .inr h2
        · rcases h2 with ⟨ms1, h2, rfl⟩ | ⟨h2, _⟩
          · rcases h2 with ⟨_, rfl⟩ | h2
            · exact .inl ⟨rfl, rfl⟩
            · exact absurd (List.mem_map.2 ⟨_, h2, rfl⟩) hnd.1
          · simp at h2
    · have hk' : ¬ l = k0 := fun h => hk h.symm
      simp only [if_neg hk, List.mem_cons, Prod.mk.injEq, List.map_cons, hk', false_or, false_and, ih]
      constructor
      · rintro (⟨rfl, rfl⟩ | ⟨h1, h2⟩ | h)
        · exact .inl ⟨hk, .inl ⟨rfl, rfl⟩⟩
        · exact .inl ⟨h1, .inr h2⟩
        · exact .inr h
      · rintro (⟨h1, h2 | h2⟩ | h)
        · exact .inl h2
        · exact .inr (.inl ⟨h1, h2⟩)
        · exact .inr (.inr h)

/-- The dictionary holds exactly the pairs of `P`. -/
structure DictInv (d : MatchDict) (P : Limit → Course → Prop) : Prop where
  keys : (d.map (·.1)).Nodup
  vals : ∀ l ms, (l, ms) ∈ d → ms.Nodup ∧ ms ≠ [] ∧ ∀ c, c ∈ ms ↔ P l c
  has : ∀ l c, P l c → ∃ ms, (l, ms) ∈ d

theorem DictInv.congr {d : MatchDict} {P Q : Limit → Course → Prop} (h : DictInv d P)
    (hpq : ∀ l c, P l c ↔ Q l c) : DictInv d Q where
  keys := h.keys
  vals l ms hm := ⟨(h.vals l ms hm).1, (h.vals l ms hm).2.1, fun c => ((h.vals l ms hm).2.2 c).trans (hpq l c)⟩
  has l c hq := h.has l c ((hpq l c).2 hq)

theorem DictInv.add {d : MatchDict} {P : Limit → Course → Prop} (h : DictInv d P) (l : Limit) (c : Course) :
    DictInv (d.add l c) (fun l' c' => P l' c' ∨ (l' = l ∧ c' = c)) where
  keys := by
    rw [MatchDict.keys_add]
    split
    · exact h.keys
    · rename_i hn
      rw [List.nodup_append]
      exact ⟨h.keys, by simp, by rintro a ha b hb rfl; simp at hb; exact hn (hb ▸ ha)⟩
  vals k ms hm := by
    rcases (MatchDict.mem_add h.keys).1 hm with ⟨hk, hm⟩ | ⟨rfl, ⟨ms0, hm0, rfl⟩ | ⟨hn, rfl⟩⟩
    · obtain ⟨h1, h2, h3⟩ := h.vals k ms hm
      exact ⟨h1, h2, fun c' => by simp [h3, hk]⟩
    · obtain ⟨h1, h2, h3⟩ := h.vals k ms0 hm0
      split
      · rename_i hc
        refine ⟨h1, h2, fun c' => ?_⟩
        rw [h3]
        constructor
        · exact .inl
        · rintro (h' | ⟨_, rfl⟩)
          · exact h'
          · exact (h3 _).1 (by simpa using hc)
      · rename_i hc
        refine ⟨?_, by simp, fun c' => ?_⟩
        · rw [List.nodup_append]
          exact ⟨h1, by simp, by rintro a ha b hb rfl; simp at hb; subst hb; simp at hc; exact hc ha⟩
        · simp [h3]
    · refine ⟨by simp, by simp, fun c' => ?_⟩
      simp only [List.mem_singleton, true_and]
      constructor
      · exact .inr
      · rintro (h' | h')
        · obtain ⟨ms, hms⟩ := h.has _ _ h'
          exact absurd (List.mem_map.2 ⟨_, hms, rfl⟩) hn
        · exact h'
  has k c' hP := by
    by_cases hk : k = l
    · subst hk
      by_cases hin : k ∈ d.map (·.1)
      · obtain ⟨⟨k', ms⟩, hms, rfl⟩ := List.mem_map.1 hin
        exact ⟨_, (MatchDict.mem_add h.keys).2 (.inr ⟨rfl, .inl ⟨ms, hms, rfl⟩⟩)⟩
      · exact ⟨_, (MatchDict.mem_add h.keys).2 (.inr ⟨rfl, .inr ⟨hin, rfl⟩⟩)⟩
    · rcases hP with hP | ⟨rfl, _⟩
      · obtain ⟨ms, hms⟩ := h.has k c' hP
        exact ⟨ms, (MatchDict.mem_add h.keys).2 (.inl ⟨hk, hms⟩)⟩
      · exact absurd rfl hk

theorem probeLimit_spec (forced : Course → Bool) (l : Limit) (cs : List Course) :
    ∀ (d d' : MatchDict) (P : Limit → Course → Prop), DictInv d P → probeLimit forced l cs d = .ok d' →
    DictInv d' (fun l' c => P l' c ∨ (l' = l ∧ c ∈ cs ∧ forced c = false ∧ l.hits c = true)) ∧
    ∀ c ∈ cs, forced c = false → l.where'.applyCourse c = .ok (l.hits c) := by
  induction cs with
  | nil =>
    intro d d' P hd h
    simp only [probeLimit] at h; cases h
    exact ⟨hd.congr (by simp), by simp⟩
  | cons c cs ih =>
    intro d d' P hd h
    simp only [probeLimit] at h
    split at h
    · rename_i hf
      obtain ⟨h1, h2⟩ := ih d d' P hd h
      refine ⟨h1.congr ?_, ?_⟩
      · intro l' c'
        simp only [List.mem_cons]
        constructor
        · rintro (h | ⟨h3, h4, h5⟩)
          · exact .inl h
          · exact .inr ⟨h3, .inr h4, h5⟩
        · rintro (h | ⟨h3, rfl | h4, h5⟩)
          · exact .inl h
          · rw [hf] at h5; exact absurd h5.1 (by simp)
          · exact .inr ⟨h3, h4, h5⟩
      · intro c' hc' hf'
        rcases List.mem_cons.1 hc' with rfl | hc'
        · rw [hf] at hf'; cases hf'
        · exact h2 c' hc' hf'
    · rename_i hf
      simp only [Bool.not_eq_true] at hf
      split at h
      · cases h
      · rename_i hb
        have hh := (Limit.hits_iff l c).2 hb
        obtain ⟨h1, h2⟩ := ih _ d' _ (hd.add l c) h
        refine ⟨h1.congr ?_, ?_⟩
        · intro l' c'
          simp only [List.mem_cons]
          constructor
          · rintro ((h | ⟨h3, rfl⟩) | ⟨h3, h4, h5⟩)
            · exact .inl h
            · exact .inr ⟨h3, .inl rfl, hf, hh⟩
            · exact .inr ⟨h3, .inr h4, h5⟩
          · rintro (h | ⟨h3, rfl | h4, h5⟩)
            · exact .inl (.inl h)
            · exact .inl (.inr ⟨h3, rfl⟩)
            · exact .inr ⟨h3, h4, h5⟩
        · intro c' hc' hf'
          rcases List.mem_cons.1 hc' with rfl | hc'
          · rw [hh, hb]
          · exact h2 c' hc' hf'
      · rename_i hb
        have hh : l.hits c = false := by
          rw [Bool.eq_false_iff]; intro h'; rw [Limit.hits_iff, hb] at h'; cases h'
        obtain ⟨h1, h2⟩ := ih _ d' _ hd h
        refine ⟨h1.congr ?_, ?_⟩
        · intro l' c'
          simp only [List.mem_cons]
          constructor
          · rintro (h | ⟨h3, h4, h5⟩)
            · exact .inl h
            · exact .inr ⟨h3, .inr h4, h5⟩
          · rintro (h | ⟨h3, rfl | h4, h5⟩)
            · exact .inl h
            · rw [hh] at h5; exact absurd h5.2 (by simp)
            · exact .inr ⟨h3, h4, h5⟩
        · intro c' hc' hf'
          rcases List.mem_cons.1 hc' with rfl | hc'
          · rw [hh, hb]
          · exact h2 c' hc' hf'

theorem probeAll_spec (forced : Course → Bool) (cs : List Course) (ls : List Limit) :
    ∀ (d d' : MatchDict) (P : Limit → Course → Prop), DictInv d P → probeAll forced cs ls d = .ok d' →
    DictInv d' (fun l c => P l c ∨ (l ∈ ls ∧ c ∈ cs ∧ forced c = false ∧ l.hits c = true)) ∧
    ∀ l ∈ ls, ∀ c ∈ cs, forced c = false → l.where'.applyCourse c = .ok (l.hits c) := by
  induction ls with
  | nil =>
    intro d d' P hd h
    simp only [probeAll] at h; cases h
    exact ⟨hd.congr (by simp), by simp⟩
  | cons l ls ih =>
    intro d d' P hd h
    simp only [probeAll] at h
    split at h
    · cases h
    · rename_i d1 hd1
      obtain ⟨h1, h2⟩ := probeLimit_spec forced l cs d d1 P hd hd1
      obtain ⟨h3, h4⟩ := ih d1 d' _ h1 h
      refine ⟨h3.congr ?_, ?_⟩
      · intro l' c
        simp only [List.mem_cons]
        constructor
        · rintro ((h | ⟨rfl, h⟩) | ⟨h5, h⟩)
          · exact .inl h
          · exact .inr ⟨.inl rfl, h⟩
          · exact .inr ⟨.inr h5, h⟩
        · rintro (h | ⟨rfl | h5, h⟩)
          · exact .inl (.inl h)
          · exact .inl (.inr ⟨rfl, h⟩)
          · exact .inr ⟨h5, h⟩
      · intro l' hl' c hc hf
        rcases List.mem_cons.1 hl' with rfl | hl'
        · exact h2 c hc hf
        · exact h4 l' hl' c hc hf

/-- Probing from the empty dictionary. -/
theorem probeAll_nil {forced : Course → Bool} {cs : List Course} {ls : List Limit} {d : MatchDict}
    (h : probeAll forced cs ls [] = .ok d) :
    DictInv d (fun l c => l ∈ ls ∧ c ∈ cs ∧ forced c = false ∧ l.hits c = true) ∧
    ∀ l ∈ ls, ∀ c ∈ cs, forced c = false → l.where'.applyCourse c = .ok (l.hits c) := by
  have h0 : DictInv [] (fun _ _ => False) := ⟨by simp, by simp, by simp⟩
  obtain ⟨h1, h2⟩ := probeAll_spec forced cs ls [] d _ h0 h
  exact ⟨h1.congr (by simp), h2⟩

theorem probeLimit_ok (forced : Course → Bool) (l : Limit) (cs : List Course)
    (h : ∀ c ∈ cs, forced c = false → ∃ b, l.where'.applyCourse c = .ok b) (d : MatchDict) :
    ∃ d', probeLimit forced l cs d = .ok d' := by
  induction cs generalizing d with
  | nil => exact ⟨d, rfl⟩
  | cons c cs ih =>
    have ih := ih (fun c' hc' => h c' (List.mem_cons_of_mem _ hc'))
    simp only [probeLimit]
    split
    · exact ih d
    · rename_i hf
      obtain ⟨b, hb⟩ := h c List.mem_cons_self (by simpa using hf)
      rw [hb]
      cases b
      · exact ih d
      · exact ih _

theorem probeAll_ok (forced : Course → Bool) (cs : List Course) (ls : List Limit)
    (h : ∀ l ∈ ls, ∀ c ∈ cs, forced c = false → ∃ b, l.where'.applyCourse c = .ok b) (d : MatchDict) :
    ∃ d', probeAll forced cs ls d = .ok d' := by
  induction ls generalizing d with
  | nil => exact ⟨d, rfl⟩
  | cons l ls ih =>
    obtain ⟨d1, h1⟩ := probeLimit_ok forced l cs (h l List.mem_cons_self) d
    simp only [probeAll, h1]
    exact ih (fun l' hl' => h l' (List.mem_cons_of_mem _ hl')) d1

/-! ### Enumerations of one limit -/

theorem Limit.mem_iterate_courses {l : Limit} (hw : l.what = .courses) {ms s : List Course} :
    s ∈ l.iterate ms ↔ s.Sublist (sortCourses ms) ∧ (s.length : Int) ≤ truncInt l.atMost := by
  simp only [Limit.iterate, hw, Limit.iterateCourses, List.mem_flatMap, List.mem_range, mem_combos]
  constructor
  · rintro ⟨n, hn, hs, rfl⟩; exact ⟨hs, by omega⟩
  · rintro ⟨hs, hn⟩; exact ⟨s.length, by omega, hs, rfl⟩

theorem sumCredits_perm {a b : List Course} (h : a.Perm b) : sumCredits a = sumCredits b :=
  perm_sum_rat (h.map _)

theorem Limit.mem_iterate_credits {l : Limit} (hw : l.what = .credits) {ms s : List Course} :
    s ∈ l.iterate ms ↔ (sumCredits ms ≤ l.atMost ∧ s = sortCourses ms) ∨
      (¬ sumCredits ms ≤ l.atMost ∧ s.Sublist (sortCourses ms) ∧ sumCredits s ≤ l.atMost) := by
  have hp := sumCredits_perm (sortCourses_perm ms)
  simp only [Limit.iterate, hw, Limit.iterateCredits, hp]
  split
  · rename_i h; simp [h]
  · rename_i h
    simp only [List.mem_flatMap, List.mem_range, List.mem_filter, mem_combos, decide_eq_true_eq, h,
      false_and, not_false_iff, true_and, false_or]
    constructor
    · rintro ⟨n, _, ⟨h1, _⟩, h3⟩; exact ⟨h1, h3⟩
    · rintro ⟨h1, h2⟩
      exact ⟨s.length, by have := h1.length_le; omega, ⟨h1, rfl⟩, h2⟩

theorem Limit.iterate_sublist {l : Limit} {ms s : List Course} (h : s ∈ l.iterate ms) :
    s.Sublist (sortCourses ms) := by
  cases hw : l.what with
  | courses => exact ((Limit.mem_iterate_courses hw).1 h).1
  | credits =>
    rcases (Limit.mem_iterate_credits hw).1 h with ⟨_, rfl⟩ | ⟨_, h, _⟩
    · exact List.Sublist.refl _
    · exact h

/-! ### The product -/

theorem lazyProduct_items {α : Type} (ls : List (List α)) :
    ((∀ l ∈ ls, l ≠ []) ∧ lazyProduct (ls.map Gen.ofList) = Gen.ofList (cartesian ls)) ∨
    ((∃ l ∈ ls, l = []) ∧ lazyProduct (ls.map Gen.ofList) = Gen.raise .runtimeError) := by
  by_cases h : ∀ l ∈ ls, l ≠ []
  · exact .inl ⟨h, lazyProduct_ofList ls h⟩
  · right
    have h' : ∃ l ∈ ls, l = [] := by
      by_contra hn
      exact h (fun l hl hl' => hn ⟨l, hl, hl'⟩)
    refine ⟨h', ?_⟩
    have key : ∀ ls : List (List α), (∃ l ∈ ls, l = []) →
        ∃ pre post, ls = pre ++ [] :: post ∧ ∀ l ∈ pre, l ≠ [] := by
      intro ls
      induction ls with
      | nil => simp
      | cons l ls ih =>
        intro hx
        by_cases hl : l = []
        · exact ⟨[], ls, by simp [hl], by simp⟩
        · have : ∃ l ∈ ls, l = [] := by
            obtain ⟨x, hx, hx'⟩ := hx
            rcases List.mem_cons.1 hx with rfl | hx
            · exact absurd hx' hl
            · exact ⟨x, hx, hx'⟩
          obtain ⟨pre, post, rfl, hp⟩ := ih this
          refine ⟨l :: pre, post, rfl, ?_⟩
          intro y hy
          rcases List.mem_cons.1 hy with rfl | hy
          · exact hl
          · exact hp y hy
    obtain ⟨pre, post, rfl, hp⟩ := key ls h'
    have := C13_empty_raises (pre.map Gen.ofList) (post.map Gen.ofList) (Gen.ofList ([] : List α))
      (by intro g hg; obtain ⟨l, hl, rfl⟩ := List.mem_map.1 hg; exact hp l hl) rfl
    simpa [Gen.raise, Gen.ofList] using this

/-- In a chosen tuple, the position of every limit of the dictionary holds one
of its combinations. -/
theorem cartesian_pos {d : MatchDict} {results : List (List Course)}
    (h : results ∈ cartesian (d.map (fun lm => lm.1.iterate lm.2))) :
    (∀ s ∈ results, ∃ l ms, (l, ms) ∈ d ∧ s ∈ l.iterate ms) ∧
    (∀ l ms, (l, ms) ∈ d → ∃ s ∈ results, s ∈ l.iterate ms) := by
  rw [C13_members] at h
  induction d generalizing results with
  | nil => cases h; simp
  | cons lm d ih =>
    cases h with
    | cons h1 h2 =>
      rename_i s results
      obtain ⟨i1, i2⟩ := ih h2
      refine ⟨?_, ?_⟩
      · intro s' hs'
        rcases List.mem_cons.1 hs' with rfl | hs'
        · exact ⟨lm.1, lm.2, by simp, h1⟩
        · obtain ⟨l, ms, h3, h4⟩ := i1 s' hs'
          exact ⟨l, ms, List.mem_cons_of_mem _ h3, h4⟩
      · intro l ms hm
        rcases List.mem_cons.1 hm with rfl | hm
        · exact ⟨s, by simp, h1⟩
        · obtain ⟨s', h3, h4⟩ := i2 l ms hm
          exact ⟨s', List.mem_cons_of_mem _ h3, h4⟩

/-- A chosen tuple is a choice of one combination per limit. -/
theorem cartesian_pick {d : MatchDict} (hnd : (d.map (·.1)).Nodup) {results : List (List Course)}
    (h : results ∈ cartesian (d.map (fun lm => lm.1.iterate lm.2))) :
    ∃ pick : Limit → List Course, (∀ l ms, (l, ms) ∈ d → pick l ∈ l.iterate ms) ∧
      ∀ c, c ∈ results.flatten ↔ ∃ l ms, (l, ms) ∈ d ∧ c ∈ pick l := by
  rw [C13_members] at h
  induction d generalizing results with
  | nil => cases h; exact ⟨fun _ => [], by simp, by simp⟩
  | cons lm d ih =>
    obtain ⟨k, ks⟩ := lm
    simp only [List.map_cons, List.nodup_cons] at hnd
    cases h with
    | cons h1 h2 =>
      rename_i s results
      obtain ⟨pick, i1, i2⟩ := ih hnd.2 h2
      have hk : ∀ l ms, (l, ms) ∈ d → l ≠ k := by
        rintro l ms hm rfl
        exact hnd.1 (List.mem_map.2 ⟨_, hm, rfl⟩)
      refine ⟨fun l => if l = k then s else pick l, ?_, ?_⟩
      · intro l ms hm
        rcases List.mem_cons.1 hm with hm | hm
        · cases hm; simpa using h1
        · simpa [hk l ms hm] using i1 l ms hm
      · intro c
        rw [List.flatten_cons, List.mem_append, i2]
        constructor
        · rintro (hc | ⟨l, ms, hm, hc⟩)
          · exact ⟨k, ks, by simp, by simpa using hc⟩
          · exact ⟨l, ms, List.mem_cons_of_mem _ hm, by simpa [hk l ms hm] using hc⟩
        · rintro ⟨l, ms, hm, hc⟩
          rcases List.mem_cons.1 hm with hm | hm
          · cases hm; exact .inl (by simpa using hc)
          · exact .inr ⟨l, ms, hm, by simpa [hk l ms hm] using hc⟩

theorem cartesian_of_choice (d : MatchDict) (pick : Limit → List Course → List Course)
    (h : ∀ l ms, (l, ms) ∈ d → pick l ms ∈ l.iterate ms) :
    d.map (fun lm => pick lm.1 lm.2) ∈ cartesian (d.map (fun lm => lm.1.iterate lm.2)) := by
  rw [C13_members]
  induction d with
  | nil => exact .nil
  | cons lm d ih =>
    exact .cons (h _ _ (by simp)) (ih (fun l ms hm => h l ms (List.mem_cons_of_mem _ hm)))

/-! ### The emitting loop -/

theorem sameSet_iff {a b : List Course} : sameSet a b = true ↔ ∀ c, c ∈ a ↔ c ∈ b := by
  simp only [sameSet, Bool.and_eq_true, List.all_eq_true, List.contains_iff_mem]
  constructor
  · rintro ⟨h1, h2⟩ c; exact ⟨h1 c, h2 c⟩
  · intro h; exact ⟨fun c => (h c).1, fun c => (h c).2⟩

theorem emitLoop_sound (limits : List Limit) (un : List Course) (o : SetOrder)
    (rs : List (List (List Course))) :
    ∀ i em t, t ∈ (emitLoop limits un o i em rs).items →
    ∃ results ∈ rs, ∃ j, checkLimits limits (o.check j results.flatten.dedup) = .ok true ∧
      t = sortCourses (o.combo j (un ++ results.flatten.dedup)) ∧
      ∀ e ∈ em, sameSet results.flatten.dedup e = false := by
  induction rs with
  | nil => intro i em t h; simp [emitLoop, Gen.nil] at h
  | cons results rs ih =>
    intro i em t h
    simp only [emitLoop] at h
    split at h
    · simp [Gen.raise] at h
    · obtain ⟨r, hr, rest⟩ := ih _ _ _ h
      exact ⟨r, List.mem_cons_of_mem _ hr, rest⟩
    · rename_i hchk
      split at h
      · obtain ⟨r, hr, rest⟩ := ih _ _ _ h
        exact ⟨r, List.mem_cons_of_mem _ hr, rest⟩
      · rename_i hem
        simp only [Gen.append, Gen.one, List.singleton_append, List.mem_cons] at h
        rcases h with rfl | h
        · refine ⟨results, by simp, i, hchk, rfl, ?_⟩
          intro e he
          rw [Bool.eq_false_iff]
          exact fun h' => hem (List.any_eq_true.2 ⟨e, he, h'⟩)
        · obtain ⟨r, hr, j, h1, h2, h3⟩ := ih _ _ _ h
          exact ⟨r, List.mem_cons_of_mem _ hr, j, h1, h2, fun e he => h3 e (List.mem_cons_of_mem _ he)⟩

theorem emitLoop_complete (limits : List Limit) (un : List Course) (o : SetOrder)
    (rs : List (List (List Course)))
    (herr : ∀ results ∈ rs, ∀ j, ∃ b, checkLimits limits (o.check j results.flatten.dedup) = .ok b) :
    ∀ i em, (emitLoop limits un o i em rs).err = none ∧
    ∀ results ∈ rs, (∀ j, checkLimits limits (o.check j results.flatten.dedup) = .ok true) →
    (∃ e ∈ em, sameSet results.flatten.dedup e = true) ∨
    ∃ t ∈ (emitLoop limits un o i em rs).items, ∃ j these,
      sameSet results.flatten.dedup these = true ∧ these.Nodup ∧ t = sortCourses (o.combo j (un ++ these)) := by
  induction rs with
  | nil => intro i em; simp [emitLoop, Gen.nil]
  | cons results rs ih =>
    intro i em
    have ih := ih (fun r hr => herr r (List.mem_cons_of_mem _ hr))
    obtain ⟨b, hb⟩ := herr results (by simp) i
    have hself : sameSet results.flatten.dedup results.flatten.dedup = true := sameSet_iff.2 (fun _ => Iff.rfl)
    simp only [emitLoop, hb]
    cases b with
    | false =>
      refine ⟨(ih _ _).1, ?_⟩
      intro r hr hok
      rcases List.mem_cons.1 hr with rfl | hr
      · rw [hok i] at hb; cases hb
      · exact (ih _ _).2 r hr hok
    | true =>
      simp only
      split
      · rename_i hem
        refine ⟨(ih _ _).1, ?_⟩
        intro r hr hok
        rcases List.mem_cons.1 hr with rfl | hr
        · obtain ⟨e, he, h'⟩ := List.any_eq_true.1 hem
          exact .inl ⟨e, he, h'⟩
        · exact (ih _ _).2 r hr hok
      · obtain ⟨i1, i2⟩ := ih (i + 1) (results.flatten.dedup :: em)
        refine ⟨by simp [Gen.append, Gen.one, i1], ?_⟩
        intro r hr hok
        simp only [Gen.append, Gen.one, List.singleton_append, List.mem_cons]
        rcases List.mem_cons.1 hr with rfl | hr
        · exact .inr ⟨_, .inl rfl, i, _, hself, List.nodup_dedup _, rfl⟩
        · rcases i2 r hr hok with ⟨e, he, h'⟩ | ⟨t, ht, j, these, h1, h2, h3⟩
          · rcases List.mem_cons.1 he with rfl | he
            · exact .inr ⟨_, .inl rfl, i, _, h', List.nodup_dedup _, rfl⟩
            · exact .inl ⟨e, he, h'⟩
          · exact .inr ⟨t, .inr ht, j, these, h1, h2, h3⟩

theorem emitLoop_distinct (limits : List Limit) (un : List Course) (o : SetOrder) (ho : o.Lawful)
    (rs : List (List (List Course)))
    (hdisj : ∀ results ∈ rs, ∀ c ∈ results.flatten, c ∉ un) :
    ∀ i em, (emitLoop limits un o i em rs).items.Pairwise (fun a b => ¬ ∀ c, c ∈ a ↔ c ∈ b) := by
  have mem_out : ∀ j these c, c ∈ sortCourses (o.combo j (un ++ these)) ↔ c ∈ un ∨ c ∈ these := by
    intro j these c
    rw [mem_sortCourses, (ho j _).2.mem_iff, List.mem_append]
  induction rs with
  | nil => intro i em; simp [emitLoop, Gen.nil]
  | cons results rs ih =>
    intro i em
    have ih := ih (fun r hr => hdisj r (List.mem_cons_of_mem _ hr))
    simp only [emitLoop]
    split
    · simp [Gen.raise]
    · exact ih _ _
    · split
      · exact ih _ _
      · simp only [Gen.append, Gen.one, List.singleton_append, List.pairwise_cons]
        refine ⟨?_, ih _ _⟩
        intro t ht heq
        obtain ⟨r, hr, j, _, rfl, hne⟩ := emitLoop_sound _ _ _ _ _ _ _ ht
        have := hne _ List.mem_cons_self
        rw [Bool.eq_false_iff] at this
        apply this
        rw [sameSet_iff]
        intro c
        have hc := heq c
        rw [mem_out, mem_out] at hc
        constructor
        · intro h
          rcases hc.2 (.inr h) with h' | h'
          · exact absurd h' (hdisj r (List.mem_cons_of_mem _ hr) c (List.mem_dedup.1 h))
          · exact h'
        · intro h
          rcases hc.1 (.inr h) with h' | h'
          · exact absurd h' (hdisj results (by simp) c (List.mem_dedup.1 h))
          · exact h'

end Dp
