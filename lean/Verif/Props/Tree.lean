import Verif.Model.Area
import Mathlib.Tactic.Common
import Mathlib.Tactic.Linarith
import Mathlib.Algebra.Order.Ring.Rat

/-
What rules and results report: rank (C18), status (C19, C20), conditionals (C35).
-/
namespace Dp

/-! ### C18: rank and max rank -/

/-- A node, its children, their children, ...: every rule or result of a tree. -/
inductive Within : Node → Node → Prop
  | here (n : Node) : Within n n
  | count {s d items m n} (hm : m ∈ items) (h : Within n m) : Within n (.count s d items)
  | req {s d m n} (h : Within n m) : Within n (.req s d (some m))
  | thenBranch {s d t f n} (h : Within n t) : Within n (.cond s d t f)
  | elseBranch {s d t m n} (h : Within n m) : Within n (.cond s d t (some m))

/-- The assertions a rule itself carries: those of a query and the audits of a count. -/
def ownAssertions : Node → List AnyAssertion
  | .query _ d => d.assertions
  | .count _ d _ => d.audits
  | _ => []

/-- the plain assertions inside an assertion -/
def AnyAssertion.parts : AnyAssertion → List Assertion
  | .single a => [a]
  | .cond _ t f => t :: f.toList
  | .dyn _ _ t => [t]

/-- An assertion that expects, and was resolved to, a number that is not negative. -/
def Assertion.NonNeg (a : Assertion) : Prop := 0 ≤ a.expected ∧ ∀ v, a.resolved = some v → 0 ≤ v

theorem Assertion.rank_le (a : Assertion) : a.rank.1 ≤ a.rank.2 := by
  unfold Assertion.rank
  split
  · exact le_refl _
  · split
    · norm_num
    · split
      · norm_num
      · split
        · exact min_le_left _ _
        · norm_num

theorem Assertion.rank_nonneg {a : Assertion} (h : a.NonNeg) : 0 ≤ a.rank.1 := by
  unfold Assertion.rank
  split
  · norm_num
  · split
    · norm_num
    · rename_i v hv
      split
      · norm_num
      · split
        · exact le_min (by norm_num) (div_nonneg (h.2 v hv) h.1)
        · norm_num

theorem AnyAssertion.rank_le (a : AnyAssertion) : a.rank.1 ≤ a.rank.2 := by
  unfold AnyAssertion.rank
  split <;> first | exact Assertion.rank_le _ | norm_num

theorem AnyAssertion.rank_nonneg {a : AnyAssertion} (h : ∀ b ∈ a.parts, b.NonNeg) : 0 ≤ a.rank.1 := by
  unfold AnyAssertion.rank
  split <;> first
    | exact Assertion.rank_nonneg (h _ (by simp [AnyAssertion.parts]))
    | norm_num

theorem sum_map_le {α : Type} (f g : α → Rat) (l : List α) (h : ∀ a ∈ l, f a ≤ g a) :
    (l.map f).sum ≤ (l.map g).sum := by
  induction l with
  | nil => simp
  | cons a l ih =>
    simp only [List.map_cons, List.sum_cons]
    exact add_le_add (h a (by simp)) (ih (fun b hb => h b (by simp [hb])))

theorem sum_map_nonneg {α : Type} (f : α → Rat) (l : List α) (h : ∀ a ∈ l, 0 ≤ f a) :
    0 ≤ (l.map f).sum := by
  induction l with
  | nil => simp
  | cons a l ih =>
    simp only [List.map_cons, List.sum_cons]
    exact add_nonneg (h a (by simp)) (ih (fun b hb => h b (by simp [hb])))

theorem statusRank_bounds (s : Status) : 0 ≤ (statusRank s).1 ∧ (statusRank s).1 ≤ (statusRank s).2 := by
  unfold statusRank
  split
  · norm_num
  · split
    · norm_num
    · split <;> norm_num

theorem courseRank_bounds (s : Stage) (d : CourseData) :
    0 ≤ (courseRank s d).1 ∧ (courseRank s d).1 ≤ (courseRank s d).2 := by
  unfold courseRank
  split
  · norm_num
  · exact statusRank_bounds _

theorem queryRank_le (d : QueryData) : (queryRank d).1 ≤ (queryRank d).2 := by
  unfold queryRank
  split
  · exact le_refl _
  · simp only [sumPairs, List.map_map]
    exact sum_map_le _ _ _ (fun a _ => a.rank_le)

theorem queryRank_nonneg (d : QueryData) (h : ∀ a ∈ d.assertions, ∀ b ∈ a.parts, b.NonNeg) :
    0 ≤ (queryRank d).1 := by
  unfold queryRank
  split
  · norm_num
  · simp only [sumPairs, List.map_map]
    exact sum_map_nonneg _ _ (fun a ha => AnyAssertion.rank_nonneg (h a ha))

theorem countRank_le {d : CountData} {ranks : List (Rat × Rat)} {r m : Rat}
    (h : countRank d ranks = .ok (r, m)) : r ≤ m := by
  unfold countRank at h
  split at h
  · obtain ⟨rfl, rfl⟩ := Prod.mk.inj (Except.ok.inj h)
    exact le_refl _
  · dsimp only at h
    split at h
    · exact absurd h (by simp)
    · obtain ⟨rfl, rfl⟩ := Prod.mk.inj (Except.ok.inj h)
      exact add_le_add (le_max_left _ _) (le_max_left _ _)

theorem countRank_nonneg {d : CountData} {ranks : List (Rat × Rat)} {r m : Rat}
    (h : countRank d ranks = .ok (r, m)) (hr : ∀ p ∈ ranks, 0 ≤ p.1)
    (ha : ∀ a ∈ d.audits, ∀ b ∈ a.parts, b.NonNeg) : 0 ≤ r := by
  unfold countRank at h
  split at h
  · obtain ⟨rfl, rfl⟩ := Prod.mk.inj (Except.ok.inj h)
    norm_num
  · dsimp only at h
    split at h
    · exact absurd h (by simp)
    · obtain ⟨rfl, rfl⟩ := Prod.mk.inj (Except.ok.inj h)
      refine add_nonneg (sum_map_nonneg _ _ hr) ?_
      rw [List.map_map]
      exact sum_map_nonneg _ _ (fun a ha' => AnyAssertion.rank_nonneg (ha a ha'))

mutual
theorem Node.rank_le : ∀ (n : Node) (r m : Rat), n.rank = .ok (r, m) → r ≤ m
  | .course s d, r, m, h => by
    have := courseRank_bounds s d
    simp only [Node.rank, Except.ok.injEq] at h
    rw [h] at this
    exact this.2
  | .query s d, r, m, h => by
    have := queryRank_le d
    simp only [Node.rank, Except.ok.injEq] at h
    rw [h] at this
    exact this
  | .count s d items, r, m, h => by
    simp only [Node.rank] at h
    split at h
    · obtain ⟨rfl, rfl⟩ := Prod.mk.inj (Except.ok.inj h); exact le_refl _
    · split at h
      · exact absurd h (by simp)
      · exact countRank_le h
  | .req s d none, r, m, h => by
    simp only [Node.rank, Node.rankReq] at h
    split at h
    · obtain ⟨rfl, rfl⟩ := Prod.mk.inj (Except.ok.inj h); exact le_refl _
    · split at h <;> (obtain ⟨rfl, rfl⟩ := Prod.mk.inj (Except.ok.inj h); norm_num)
  | .req s d (some n), r, m, h => by
    simp only [Node.rank, Node.rankReq] at h
    split at h
    · obtain ⟨rfl, rfl⟩ := Prod.mk.inj (Except.ok.inj h); exact le_refl _
    · split at h
      · obtain ⟨rfl, rfl⟩ := Prod.mk.inj (Except.ok.inj h); norm_num
      · split at h
        · exact absurd h (by simp)
        · rename_i hn
          have := Node.rank_le n _ _ hn
          split at h <;> (obtain ⟨rfl, rfl⟩ := Prod.mk.inj (Except.ok.inj h); linarith)
  | .cond s d t none, r, m, h => by
    simp only [Node.rank, Node.rankElse] at h
    split at h
    · exact Node.rank_le t _ _ h
    · obtain ⟨rfl, rfl⟩ := Prod.mk.inj (Except.ok.inj h); exact le_refl _
    · obtain ⟨rfl, rfl⟩ := Prod.mk.inj (Except.ok.inj h); exact le_refl _
  | .cond s d t (some f), r, m, h => by
    simp only [Node.rank, Node.rankElse] at h
    split at h
    · exact Node.rank_le t _ _ h
    · exact Node.rank_le f _ _ h
    · obtain ⟨rfl, rfl⟩ := Prod.mk.inj (Except.ok.inj h); exact le_refl _
  | .prof s d c, r, m, h => by
    have := statusRank_bounds (profStatus d c)
    simp only [Node.rank, Except.ok.injEq] at h
    rw [h] at this
    exact this.2
end

mutual
theorem Node.rank_nonneg : ∀ (n : Node) (r m : Rat), n.rank = .ok (r, m) →
    (∀ k, Within k n → ∀ a ∈ ownAssertions k, ∀ b ∈ a.parts, b.NonNeg) → 0 ≤ r
  | .course s d, r, m, h, _ => by
    have := courseRank_bounds s d
    simp only [Node.rank, Except.ok.injEq] at h
    rw [h] at this
    exact this.1
  | .query s d, r, m, h, ha => by
    have := queryRank_nonneg d (ha _ (.here _))
    simp only [Node.rank, Except.ok.injEq] at h
    rw [h] at this
    exact this
  | .count s d items, r, m, h, ha => by
    simp only [Node.rank] at h
    split at h
    · obtain ⟨rfl, rfl⟩ := Prod.mk.inj (Except.ok.inj h); norm_num
    · split at h
      · exact absurd h (by simp)
      · rename_i ranks hr
        exact countRank_nonneg h
          (Node.rankList_nonneg items ranks hr (fun k i hi hk => ha k (.count hi hk)))
          (ha _ (.here _))
  | .req s d none, r, m, h, _ => by
    simp only [Node.rank, Node.rankReq] at h
    split at h
    · obtain ⟨rfl, rfl⟩ := Prod.mk.inj (Except.ok.inj h); norm_num
    · split at h <;> (obtain ⟨rfl, rfl⟩ := Prod.mk.inj (Except.ok.inj h); norm_num)
  | .req s d (some n), r, m, h, ha => by
    simp only [Node.rank, Node.rankReq] at h
    split at h
    · obtain ⟨rfl, rfl⟩ := Prod.mk.inj (Except.ok.inj h); norm_num
    · split at h
      · obtain ⟨rfl, rfl⟩ := Prod.mk.inj (Except.ok.inj h); norm_num
      · split at h
        · exact absurd h (by simp)
        · rename_i hn
          have := Node.rank_nonneg n _ _ hn (fun k hk => ha k (.req hk))
          split at h <;> (obtain ⟨rfl, rfl⟩ := Prod.mk.inj (Except.ok.inj h); linarith)
  | .cond s d t none, r, m, h, ha => by
    simp only [Node.rank, Node.rankElse] at h
    split at h
    · exact Node.rank_nonneg t _ _ h (fun k hk => ha k (.thenBranch hk))
    · obtain ⟨rfl, rfl⟩ := Prod.mk.inj (Except.ok.inj h); norm_num
    · obtain ⟨rfl, rfl⟩ := Prod.mk.inj (Except.ok.inj h); norm_num
  | .cond s d t (some f), r, m, h, ha => by
    simp only [Node.rank, Node.rankElse] at h
    split at h
    · exact Node.rank_nonneg t _ _ h (fun k hk => ha k (.thenBranch hk))
    · exact Node.rank_nonneg f _ _ h (fun k hk => ha k (.elseBranch hk))
    · obtain ⟨rfl, rfl⟩ := Prod.mk.inj (Except.ok.inj h); norm_num
  | .prof s d c, r, m, h, _ => by
    have := statusRank_bounds (profStatus d c)
    simp only [Node.rank, Except.ok.injEq] at h
    rw [h] at this
    exact this.1
theorem Node.rankList_nonneg : ∀ (ns : List Node) (rs : List (Rat × Rat)), Node.rankList ns = .ok rs →
    (∀ k, ∀ i ∈ ns, Within k i → ∀ a ∈ ownAssertions k, ∀ b ∈ a.parts, b.NonNeg) → ∀ p ∈ rs, 0 ≤ p.1
  | [], rs, h, _ => by
    simp only [Node.rankList, Except.ok.injEq] at h
    subst h; simp
  | n :: ns, rs, h, ha => by
    simp only [Node.rankList] at h
    split at h
    · exact absurd h (by simp)
    · rename_i p hp
      split at h
      · exact absurd h (by simp)
      · rename_i ps hps
        cases h
        intro q hq
        rcases List.mem_cons.mp hq with rfl | hq
        · exact Node.rank_nonneg n _ _ hp (fun k hk => ha k n (by simp) hk)
        · exact Node.rankList_nonneg ns ps hps (fun k i hi hk => ha k i (by simp [hi]) hk) q hq
end

/-- **C18.** The rank a rule, solution or result reports never exceeds the max rank
it reports; for all trees. -/
theorem C18_rank_at_most_max (n : Node) (r m : Rat) (h : n.rank = .ok (r, m)) : r ≤ m :=
  n.rank_le r m h

/-- **C18**, for whole areas. -/
theorem C18_area_rank_at_most_max (a : AreaResult) (r m : Rat) (h : a.rank = .ok (r, m)) : r ≤ m :=
  a.result.rank_le r m h

/-- **C18**, lower bound: the rank is not negative if every assertion in the tree
expects, and was resolved to, a number that is not negative.  (Without that it is
false, `C18_negative_rank_refuted`.) -/
theorem C18_rank_nonneg_partial (n : Node) (r m : Rat) (h : n.rank = .ok (r, m))
    (ha : ∀ k, Within k n → ∀ a ∈ ownAssertions k, ∀ b ∈ a.parts, 0 ≤ b.expected ∧ ∀ v, b.resolved = some v → 0 ≤ v) :
    0 ≤ r :=
  n.rank_nonneg r m h ha

/-- A query that was resolved to 3 courses but expects fewer than none has a negative
rank: the lower bound of C18 does not hold for every specification.  (`-2` can be
written in an area file or in a value exception.) -/
theorem C18_negative_rank_refuted :
    ∃ n : Node, ∃ r m, n.rank = .ok (r, m) ∧ r < 0 :=
  ⟨.query .result { path := ["$", ".from"], assertions := [.single
      { path := ["$", ".from", "*assert"], key := "count(courses)", op := .eq, expected := -2,
        state := .empty, resolved := some 3 }] },
    _, _, rfl, by decide +kernel⟩

/-- A count, nowhere waived, without children but with `at_most` and count 1: its rank
is the maximum of nothing. -/
def NoRank : Node → Prop
  | .count _ d items => d.overridden = false ∧ d.count = 1 ∧ d.atMost = true ∧ items = []
  | _ => False

mutual
theorem Node.rank_ok : ∀ n : Node, (∀ k, Within k n → ¬ NoRank k) → ∃ p, n.rank = .ok p
  | .course s d, _ => ⟨_, rfl⟩
  | .query s d, _ => ⟨_, rfl⟩
  | .count s d items, h => by
    simp only [Node.rank]
    split
    · exact ⟨_, rfl⟩
    · rename_i ho
      obtain ⟨rs, hrs, hlen⟩ := Node.rankList_ok items (fun k i hi hk => h k (.count hi hk))
      rw [hrs]
      dsimp only
      unfold countRank
      rw [if_neg ho]
      dsimp only
      by_cases h2 : rs.length = 2 ∧ d.count = 2
      · rw [if_pos h2]; exact ⟨_, rfl⟩
      · rw [if_neg h2]
        by_cases h1 : d.count = 1 ∧ d.atMost = true
        · rw [if_pos h1]
          cases rs with
          | nil =>
            exfalso
            refine h _ (.here _) ⟨by simpa using ho, h1.1, h1.2, ?_⟩
            exact List.length_eq_zero_iff.mp (by simpa using hlen.symm)
          | cons p rs => exact ⟨_, rfl⟩
        · rw [if_neg h1]; exact ⟨_, rfl⟩
  | .req s d none, _ => by
    simp only [Node.rank, Node.rankReq]
    split
    · exact ⟨_, rfl⟩
    · split <;> exact ⟨_, rfl⟩
  | .req s d (some n), h => by
    obtain ⟨p, hp⟩ := Node.rank_ok n (fun k hk => h k (.req hk))
    simp only [Node.rank, Node.rankReq, hp]
    split
    · exact ⟨_, rfl⟩
    · split
      · exact ⟨_, rfl⟩
      · split <;> exact ⟨_, rfl⟩
  | .cond s d t none, h => by
    obtain ⟨p, hp⟩ := Node.rank_ok t (fun k hk => h k (.thenBranch hk))
    simp only [Node.rank, Node.rankElse, hp]
    split <;> exact ⟨_, rfl⟩
  | .cond s d t (some f), h => by
    obtain ⟨p, hp⟩ := Node.rank_ok t (fun k hk => h k (.thenBranch hk))
    obtain ⟨q, hq⟩ := Node.rank_ok f (fun k hk => h k (.elseBranch hk))
    simp only [Node.rank, Node.rankElse, hp, hq]
    split <;> exact ⟨_, rfl⟩
  | .prof s d c, _ => ⟨_, rfl⟩
theorem Node.rankList_ok : ∀ ns : List Node, (∀ k, ∀ i ∈ ns, Within k i → ¬ NoRank k) →
    ∃ rs, Node.rankList ns = .ok rs ∧ rs.length = ns.length
  | [], _ => ⟨[], rfl, rfl⟩
  | n :: ns, h => by
    obtain ⟨p, hp⟩ := Node.rank_ok n (fun k hk => h k n (by simp) hk)
    obtain ⟨rs, hrs, hl⟩ := Node.rankList_ok ns (fun k i hi hk => h k i (by simp [hi]) hk)
    exact ⟨p :: rs, by simp only [Node.rankList, hp, hrs], by simp [hl]⟩
end

/-- **C18**, the other half of "the reported rank": a rank is always reported, except in
a tree with a childless count of at most 1. -/
theorem C18_rank_reported (n : Node) (h : ∀ k, Within k n → ¬ NoRank k) : ∃ p, n.rank = .ok p :=
  n.rank_ok h

/-- Such a count does raise. -/
theorem C18_childless_count_raises :
    (Node.count .result { path := ["$", ".count"], count := 1, atMost := true } []).rank = .error .valueError := rfl

/-! ### C19: counts -/

/-- the number of children that satisfy a test -/
def numWith (p : Status → Prop) [DecidablePred p] (items : List Node) : Nat :=
  (items.filter (fun n => decide (p n.status))).length

theorem statusList_eq (items : List Node) : Node.statusList items = items.map Node.status := by
  induction items with
  | nil => rfl
  | cons n ns ih => simp [Node.statusList, ih]

theorem numWith_eq (p : Status → Prop) [DecidablePred p] (items : List Node) :
    numWith p items = ((Node.statusList items).filter (fun s => decide (p s))).length := by
  rw [statusList_eq, List.filter_map, List.length_map]
  rfl

/-- done or waived -/
def Complete (s : Status) : Prop := s = .done ∨ s = .waived
instance : DecidablePred Complete := fun _ => inferInstanceAs (Decidable (_ ∨ _))

/-- done, waived, or expected to be done with courses under way -/
def Passes (s : Status) : Prop := s = .done ∨ s = .waived ∨ s = .pendingCurrent ∨ s = .pendingRegistered
instance : DecidablePred Passes := fun _ => inferInstanceAs (Decidable (_ ∨ _ ∨ _ ∨ _))

theorem passing_iff (s : Status) : s.passing = true ↔ Passes s := by
  cases s <;> simp [Status.passing, Passes]
theorem wd_iff (s : Status) : s.inWaivedAndDone = true ↔ Complete s := by
  cases s <;> simp [Status.inWaivedAndDone, Complete]

theorem filter_all_length {α : Type} (p q : α → Bool) (l : List α)
    (h : (l.filter p).all q = true) : (l.filter p).length ≤ (l.filter q).length := by
  induction l with
  | nil => simp
  | cons a l ih =>
    by_cases hp : p a = true
    · rw [List.filter_cons_of_pos hp] at h ⊢
      simp only [List.all_cons, Bool.and_eq_true] at h
      rw [List.filter_cons_of_pos h.1]
      simpa using ih h.2
    · rw [List.filter_cons_of_neg hp] at h ⊢
      by_cases hq : q a = true
      · rw [List.filter_cons_of_pos hq]
        exact Nat.le_succ_of_le (ih h)
      · rw [List.filter_cons_of_neg hq]
        exact ih h

/-- The cases of a count's status. -/
theorem countStatus_cases (d : CountData) (cs : List Status) (ho : d.overridden = false) :
    let pass := cs.filter (·.passing)
    let audits := d.audits.map (·.status)
    (countStatus d cs).passing = true →
      d.count ≤ pass.length ∧ (∀ s ∈ audits, Passes s) ∧ .failedInvariant ∉ cs ∧
      (∃ s ∈ cs, s ≠ .empty ∧ s ≠ .pendingApproval) ∧
      ((countStatus d cs).inWaivedAndDone = true →
        pass.all (·.inWaivedAndDone) = true ∧ ∀ s ∈ audits, Complete s) := by
  intro pass audits h
  unfold countStatus at h ⊢
  simp only [ho, Bool.false_eq_true, if_false] at h ⊢
  have wo : ∀ s : Status, s.inWaivedOnly = true → Complete s := by
    intro s; cases s <;> simp [Status.inWaivedOnly, Complete]
  have wdc : ∀ s : Status, s.inWaivedDoneCurrent = true → Passes s := by
    intro s; cases s <;> simp [Status.inWaivedDoneCurrent, Passes]
  have wdcp : ∀ s : Status, s.inWaivedDoneCurrentPending = true → Passes s := by
    intro s; cases s <;> simp [Status.inWaivedDoneCurrentPending, Passes]
  have cp : ∀ s : Status, Complete s → Passes s := by
    intro s; cases s <;> simp [Complete, Passes]
  split at h
  · exact absurd h (by decide)
  rename_i hf
  split at h
  · exact absurd h (by decide)
  rename_i he
  split at h
  · exact absurd h (by decide)
  rename_i hlt
  have hcount : d.count ≤ pass.length := Nat.le_of_not_lt hlt
  have hfail : Status.failedInvariant ∉ cs := by
    intro hm
    exact hf (by simp [hm])
  have hne : ∃ s ∈ cs, s ≠ .empty ∧ s ≠ .pendingApproval := by
    by_contra hcon
    apply he
    rw [List.all_eq_true]
    intro s hs
    by_contra hs'
    exact hcon ⟨s, hs, by rintro rfl; exact hs' rfl, by rintro rfl; exact hs' rfl⟩
  rw [if_neg hf, if_neg he, if_neg hlt]
  split at h
  · rename_i hw
    rw [if_pos hw]
    have ha : ∀ s ∈ audits, Complete s := fun s hs => wo s (List.all_eq_true.mp hw.2.2 s hs)
    refine ⟨hcount, fun s hs => cp s (ha s hs), hfail, hne, fun _ => ⟨?_, ha⟩⟩
    rw [List.all_eq_true]
    intro s hs
    exact (wd_iff s).mpr (wo s (List.all_eq_true.mp hw.2.1 s hs))
  rename_i hw
  rw [if_neg hw]
  split at h
  · rename_i hd
    rw [if_pos hd]
    simp only [Bool.and_eq_true] at hd
    have ha : ∀ s ∈ audits, Complete s := fun s hs => (wd_iff s).mp (List.all_eq_true.mp hd.2 s hs)
    exact ⟨hcount, fun s hs => cp s (ha s hs), hfail, hne, fun _ => ⟨hd.1, ha⟩⟩
  rename_i hd
  rw [if_neg hd]
  split at h
  · rename_i hc
    rw [if_pos hc]
    simp only [Bool.and_eq_true] at hc
    exact ⟨hcount, fun s hs => wdc s (List.all_eq_true.mp hc.2 s hs), hfail, hne, fun h => absurd h (by decide)⟩
  rename_i hc
  rw [if_neg hc]
  split at h
  · rename_i hp
    rw [if_pos hp]
    simp only [Bool.and_eq_true] at hp
    exact ⟨hcount, fun s hs => wdcp s (List.all_eq_true.mp hp.2 s hs), hfail, hne, fun h => absurd h (by decide)⟩
  · exact absurd h (by decide)

/-- **C19**, done: a count that was not itself waived and is reported as done (or
waived) has at least `count` children that are done or waived, and all of its audits
are done or waived. -/
theorem C19_done_count_has_enough_done_children (s : Stage) (d : CountData) (items : List Node)
    (ho : d.overridden = false) (h : Complete (Node.count s d items).status) :
    d.count ≤ numWith Complete items ∧ ∀ a ∈ d.audits, Complete a.status := by
  simp only [Node.status] at h
  have hp : (countStatus d (Node.statusList items)).passing = true := by
    rcases h with h | h <;> rw [h] <;> rfl
  obtain ⟨h1, _, _, _, h5⟩ := countStatus_cases d _ ho hp
  obtain ⟨h6, h7⟩ := h5 ((wd_iff _).mpr h)
  refine ⟨?_, fun a ha => h7 _ (List.mem_map_of_mem ha)⟩
  rw [numWith_eq]
  refine le_trans h1 (le_trans (filter_all_length _ _ _ h6) (le_of_eq ?_))
  congr 1
  apply List.filter_congr
  intro x _
  rw [Bool.eq_iff_iff, wd_iff, decide_eq_true_iff]

/-- **C19**, pending: a count that was not itself waived and passes in any way has at
least `count` passing children, all of its audits pass, and no child has failed. -/
theorem C19_passing_count_has_enough_passing_children (s : Stage) (d : CountData) (items : List Node)
    (ho : d.overridden = false) (h : Passes (Node.count s d items).status) :
    d.count ≤ numWith Passes items ∧ (∀ a ∈ d.audits, Passes a.status) ∧
      ∀ i ∈ items, i.status ≠ .failedInvariant := by
  simp only [Node.status] at h
  obtain ⟨h1, h2, h3, _, _⟩ := countStatus_cases d _ ho ((passing_iff _).mpr h)
  refine ⟨?_, fun a ha => h2 _ (List.mem_map_of_mem ha), ?_⟩
  · rw [numWith_eq]
    refine le_trans h1 (le_of_eq ?_)
    congr 1
    apply List.filter_congr
    intro x _
    rw [Bool.eq_iff_iff, passing_iff, decide_eq_true_iff]
  · intro i hi hf
    apply h3
    rw [statusList_eq, ← hf]
    exact List.mem_map_of_mem hi

/-- **C19**, converse: if at least `count` children pass and every passing child is
done or waived, no child or audit has failed, some child is more than empty, and all
audits are done or waived, the count is reported as done or waived.  Part of the
converse only: a child that is merely pending, or that has failed, changes the outcome
even when it is not needed (`C19_unneeded_child_refuted`). -/
theorem C19_enough_done_children_partial (s : Stage) (d : CountData) (items : List Node)
    (hc : d.count ≤ numWith Complete items)
    (hpass : ∀ i ∈ items, Passes i.status → Complete i.status)
    (hfail : ∀ i ∈ items, i.status ≠ .failedInvariant)
    (hsome : ∃ i ∈ items, Complete i.status)
    (ha : ∀ a ∈ d.audits, Complete a.status) :
    Complete (Node.count s d items).status := by
  simp only [Node.status, countStatus]
  split
  · exact Or.inr rfl
  rw [if_neg, if_neg, if_neg]
  · split
    · exact Or.inr rfl
    · rw [if_pos]
      · exact Or.inl rfl
      · rw [Bool.and_eq_true, List.all_eq_true, List.all_eq_true]
        refine ⟨fun x hx => ?_, fun x hx => ?_⟩
        · rw [List.mem_filter, statusList_eq] at hx
          obtain ⟨i, hi, rfl⟩ := List.mem_map.mp hx.1
          exact (wd_iff _).mpr (hpass i hi ((passing_iff _).mp hx.2))
        · obtain ⟨a, haa, rfl⟩ := List.mem_map.mp hx
          exact (wd_iff _).mpr (ha a haa)
  · rw [Nat.not_lt]
    refine le_trans hc (le_of_eq ?_)
    rw [numWith_eq]
    congr 1
    apply List.filter_congr
    intro x hx
    rw [statusList_eq] at hx
    obtain ⟨i, hi, rfl⟩ := List.mem_map.mp hx
    rw [Bool.eq_iff_iff, passing_iff, decide_eq_true_iff]
    refine ⟨fun h => ?_, fun h => hpass i hi h⟩
    rcases h with h | h <;> simp [Passes, h]
  · rw [List.all_eq_true]
    intro hall
    obtain ⟨i, hi, hc'⟩ := hsome
    have := hall i.status (by rw [statusList_eq]; exact List.mem_map_of_mem hi)
    rcases hc' with h | h <;> rw [h] at this <;> exact absurd this (by decide)
  · rw [Bool.or_eq_true, List.contains_iff_mem, List.contains_iff_mem]
    rintro (h | h)
    · rw [statusList_eq] at h
      obtain ⟨i, hi, hs⟩ := List.mem_map.mp h
      exact hfail i hi hs
    · obtain ⟨a, haa, hs⟩ := List.mem_map.mp h
      rcases ha a haa with h' | h' <;> rw [h'] at hs <;> exact absurd hs (by decide)

/-- a course result with a claimed course -/
def claimedCourse (c : Course) : Node :=
  .course .result { path := ["$", ".count", "[0]", "*" ++ c.clbid], course := some c.identity,
                    claim := some ⟨c, [], false⟩ }

/-- "any 1 of 2" where the first child is done and the second is in progress: reported
as pending, not as done.  The plain converse of C19 is false. -/
theorem C19_unneeded_child_refuted :
    ∃ (d : CountData) (items : List Node), d.overridden = false ∧ d.count ≤ numWith Complete items ∧
      d.audits = [] ∧ ¬ Complete (Node.count .result d items).status :=
  ⟨{ path := ["$", ".count"], count := 1 },
    [claimedCourse { clbid := "1" },
     claimedCourse { clbid := "2", isInProgress := true, isInProgressThisTerm := true }],
    by decide⟩

/-- the hypotheses of the two directions are met by "all 2 of 2", both done -/
example : (Node.count .result { path := ["$", ".count"], count := 2 }
    [claimedCourse { clbid := "1" }, claimedCourse { clbid := "2" }]).status = .done := by decide

/-! ### C20: failure dominates -/

/-- A violated invariant that nothing above it excuses: an assertion of a query or an
audit of a count has failed, and on the way up there is no waived rule, no
departmentally audited requirement, and only branches that were taken. -/
inductive Violated : Node → Prop
  | query {s d a} (ho : d.overridden = false) (ha : a ∈ d.assertions)
      (h : a.status = .failedInvariant) : Violated (.query s d)
  | audit {s d items a} (ho : d.overridden = false) (ha : a ∈ d.audits)
      (h : a.status = .failedInvariant) : Violated (.count s d items)
  | child {s d items n} (ho : d.overridden = false) (hn : n ∈ items) (h : Violated n) :
      Violated (.count s d items)
  | req {s d n} (ho : d.overridden = false) (ha : d.isAudited = false) (h : Violated n) :
      Violated (.req s d (some n))
  | taken {s d t f} (hc : d.condition = some true) (h : Violated t) : Violated (.cond s d t f)
  | else' {s d t n} (hc : d.condition = some false) (h : Violated n) : Violated (.cond s d t (some n))

theorem queryStatus_failed (d : QueryData) : queryStatus d = .failedInvariant ↔
    d.overridden = false ∧ ∃ a ∈ d.assertions, a.status = .failedInvariant := by
  unfold queryStatus
  by_cases ho : d.overridden = true
  · simp [ho]
  · rw [Bool.not_eq_true] at ho
    simp only [ho, Bool.false_eq_true, if_false, true_and, List.contains_iff_mem, List.mem_map]
    split
    · rename_i h; exact ⟨fun _ => h, fun _ => rfl⟩
    · rename_i h
      constructor
      · intro h'
        exfalso
        repeat' split at h'
        all_goals exact absurd h' (by decide)
      · exact fun h' => absurd h' h

theorem countStatus_failed (d : CountData) (cs : List Status) : countStatus d cs = .failedInvariant ↔
    d.overridden = false ∧ (.failedInvariant ∈ cs ∨ ∃ a ∈ d.audits, a.status = .failedInvariant) := by
  unfold countStatus
  by_cases ho : d.overridden = true
  · simp [ho]
  · rw [Bool.not_eq_true] at ho
    simp only [ho, Bool.false_eq_true, if_false, true_and, Bool.or_eq_true, List.contains_iff_mem, List.mem_map]
    split
    · rename_i h; exact ⟨fun _ => h, fun _ => rfl⟩
    · rename_i h
      constructor
      · intro h'
        exfalso
        repeat' split at h'
        all_goals exact absurd h' (by decide)
      · exact fun h' => absurd h' h

theorem courseStatus_not_failed (s : Stage) (d : CourseData) : courseStatus s d ≠ .failedInvariant := by
  unfold courseStatus
  dsimp only
  repeat' split
  all_goals decide

theorem profStatus_not_failed (d : ProfData) (c : Option (Stage × CourseData)) :
    profStatus d c ≠ .failedInvariant := by
  unfold profStatus
  split
  · decide
  · split
    · rename_i h
      intro hf
      rw [hf] at h
      exact absurd h (by decide)
    · split
      · exact courseStatus_not_failed _ _
      · decide

mutual
theorem Node.failed_iff : ∀ n : Node, n.status = .failedInvariant ↔ Violated n
  | .course s d => by
    refine ⟨fun h => absurd h (courseStatus_not_failed s d), fun h => by cases h⟩
  | .query s d => by
    simp only [Node.status, queryStatus_failed]
    exact ⟨fun ⟨ho, a, ha, h⟩ => .query ho ha h, fun h => by cases h with | query ho ha h => exact ⟨ho, _, ha, h⟩⟩
  | .count s d items => by
    simp only [Node.status, countStatus_failed, Node.failedList_iff items]
    constructor
    · rintro ⟨ho, ⟨n, hn, h⟩ | ⟨a, ha, h⟩⟩
      · exact .child ho hn h
      · exact .audit ho ha h
    · intro h
      cases h with
      | audit ho ha h => exact ⟨ho, Or.inr ⟨_, ha, h⟩⟩
      | child ho hn h => exact ⟨ho, Or.inl ⟨_, hn, h⟩⟩
  | .req s d none => by
    simp only [Node.status, Node.statusOpt, reqStatus]
    refine ⟨fun h => ?_, fun h => by cases h⟩
    exfalso
    repeat' split at h
    all_goals exact absurd h (by decide)
  | .req s d (some n) => by
    simp only [Node.status, Node.statusOpt, reqStatus]
    constructor
    · intro h
      split at h
      · exact absurd h (by decide)
      · split at h
        · exact absurd h (by decide)
        · rename_i ho
          split at h
          · exact absurd h (by decide)
          · rename_i ha
            exact .req (by simpa using ho) (by simpa using ha) ((Node.failed_iff n).mp h)
    · intro h
      cases h with
      | req ho ha h => simp [ho, ha, (Node.failed_iff n).mpr h]
  | .cond s d t none => by
    simp only [Node.status, Node.statusOpt]
    constructor
    · intro h
      split at h
      · rename_i hc; exact .taken hc ((Node.failed_iff t).mp h)
      · exact absurd h (by decide)
      · exact absurd h (by decide)
    · intro h
      cases h with
      | taken hc h => simp [hc, (Node.failed_iff t).mpr h]
  | .cond s d t (some f) => by
    simp only [Node.status, Node.statusOpt]
    constructor
    · intro h
      split at h
      · rename_i hc; exact .taken hc ((Node.failed_iff t).mp h)
      · rename_i hc; exact .else' hc ((Node.failed_iff f).mp h)
      · exact absurd h (by decide)
    · intro h
      cases h with
      | taken hc h => simp [hc, (Node.failed_iff t).mpr h]
      | else' hc h => simp [hc, (Node.failed_iff f).mpr h]
  | .prof s d c => by
    refine ⟨fun h => absurd h (profStatus_not_failed d c), fun h => by cases h⟩
theorem Node.failedList_iff : ∀ ns : List Node,
    .failedInvariant ∈ Node.statusList ns ↔ ∃ n ∈ ns, Violated n
  | [] => by simp [Node.statusList]
  | n :: ns => by
    simp only [Node.statusList, List.mem_cons, exists_eq_or_imp]
    rw [eq_comm, Node.failed_iff n, Node.failedList_iff ns]
end

/-- **C20.** A result is reported as failed exactly when an invariant is violated in it
that nothing above it excuses; so a rule enclosing a violated invariant never reports a
passing status, unless it or a rule in between is waived, departmentally audited, or a
branch not taken. -/
theorem C20_failed_iff_violated (n : Node) : n.status = .failedInvariant ↔ Violated n := n.failed_iff

/-- **C20**, for whole areas: a violated invariant keeps the area from passing, unless
the topmost rule was waived. -/
theorem C20_area_not_passing (a : AreaResult) (h : Violated a.result) (hw : a.result.isWaived = false) :
    ¬ Passes a.status := by
  unfold AreaResult.status
  rw [hw, (C20_failed_iff_violated _).mpr h]
  decide

/-- a query whose `count(courses) ≤ 1` was resolved to 2, under a count: violated -/
example : Violated (.count .result { path := ["$", ".count"], count := 1 }
    [.query .result { path := ["$", ".count", "[0]", ".from"], assertions := [.single
      { path := [], key := "count(courses)", op := .lte, expected := 1, state := .failedInvariant, resolved := some 2 }] }]) :=
  .child rfl (List.mem_singleton.mpr rfl) (.query rfl (List.mem_singleton.mpr rfl) rfl)

/-! ### C35: conditionals -/

/-- `A` and `B` look the same from outside: status, rank, claims and claims for the GPA. -/
def SameReport (a b : Node) : Prop :=
  a.status = b.status ∧ a.rank = b.rank ∧ a.claims = b.claims ∧ a.claimsForGpa = b.claimsForGpa

/-- **C35**, `then`: with a condition that holds, a conditional reports what its `then`
branch reports; it has the same potential, matches and required courses; its solutions
are those of the branch, and auditing one of them gives a result that reports what the
branch's result does and leaves the same claims (or the same exception). -/
theorem C35_condition_true (s : Stage) (d : CondData) (t : Node) (f : Option Node) (x : Ctx) (o : Orders)
    (h : d.condition = some true) :
    SameReport (.cond s d t f) t ∧
    (Node.cond s d t f).hasPotential x = t.hasPotential x ∧
    (Node.cond s d t f).allMatches x = t.allMatches x ∧
    (Node.cond s d t f).requiredCourses x = t.requiredCourses x ∧
    ∃ wrap : Node → Node, (Node.cond s d t f).solutions x o = (t.solutions x o).map wrap ∧
      ∀ (sol : Node) (table : ClaimTable), match sol.audit x o table with
        | .error e => (wrap sol).audit x o table = .error e
        | .ok (r, table') => ∃ r', (wrap sol).audit x o table = .ok (r', table') ∧ SameReport r' r := by
  refine ⟨⟨?_, ?_, ?_, ?_⟩, ?_, ?_, ?_, fun sol => .cond .solution d sol f, ?_, ?_⟩
  · simp only [Node.status, h]
  · simp only [Node.rank, h]
  · simp only [Node.claims, h]
  · simp only [Node.claimsForGpa, h]
  · simp only [Node.hasPotential, h]
  · simp only [Node.allMatches, h]
  · simp only [Node.requiredCourses, h]
  · simp only [Node.solutions, h]
  · intro sol table
    split
    · rename_i he; simp only [Node.audit, h, he]
    · rename_i r t' he
      refine ⟨.cond .result d r f, by simp only [Node.audit, h, he], ?_⟩
      exact ⟨by simp only [Node.status, h], by simp only [Node.rank, h], by simp only [Node.claims, h],
        by simp only [Node.claimsForGpa, h]⟩

/-- **C35**, `else`: the same with the `else` branch when the condition does not hold. -/
theorem C35_condition_false (s : Stage) (d : CondData) (t f : Node) (x : Ctx) (o : Orders)
    (h : d.condition = some false) :
    SameReport (.cond s d t (some f)) f ∧
    (Node.cond s d t (some f)).hasPotential x = f.hasPotential x ∧
    (Node.cond s d t (some f)).allMatches x = f.allMatches x ∧
    (Node.cond s d t (some f)).requiredCourses x = f.requiredCourses x ∧
    ∃ wrap : Node → Node, (Node.cond s d t (some f)).solutions x o = (f.solutions x o).map wrap ∧
      ∀ (sol : Node) (table : ClaimTable), match sol.audit x o table with
        | .error e => (wrap sol).audit x o table = .error e
        | .ok (r, table') => ∃ r', (wrap sol).audit x o table = .ok (r', table') ∧ SameReport r' r := by
  refine ⟨⟨?_, ?_, ?_, ?_⟩, ?_, ?_, ?_, fun sol => .cond .solution d t (some sol), ?_, ?_⟩
  · simp only [Node.status, Node.statusOpt, h]
  · simp only [Node.rank, Node.rankElse, h]
  · simp only [Node.claims, Node.claimsOpt, h]
  · simp only [Node.claimsForGpa, Node.claimsForGpaOpt, h]
  · simp only [Node.hasPotential, Node.optPotential, h]
  · simp only [Node.allMatches, Node.optMatches, h]
  · simp only [Node.requiredCourses, Node.optRequired, h]
  · simp only [Node.solutions, Node.solutionsOpt, h]
  · intro sol table
    split
    · rename_i he; simp only [Node.audit, Node.auditOpt, h, he]
    · rename_i r t' he
      refine ⟨.cond .result d t (some r), by simp only [Node.audit, Node.auditOpt, h, he], ?_⟩
      exact ⟨by simp only [Node.status, Node.statusOpt, h], by simp only [Node.rank, Node.rankElse, h],
        by simp only [Node.claims, Node.claimsOpt, h], by simp only [Node.claimsForGpa, Node.claimsForGpaOpt, h]⟩

/-- **C35**, neither: without an `else` branch and with a condition that does not hold,
a conditional is done with full rank and claims nothing; it has no potential and no
solutions, so the count around it keeps it as it is. -/
theorem C35_no_else (s : Stage) (d : CondData) (t : Node) (x : Ctx) (o : Orders)
    (h : d.condition ≠ some true) :
    (Node.cond s d t none).status = .done ∧ (Node.cond s d t none).rank = .ok (1, 1) ∧
    (Node.cond s d t none).claims = [] ∧ (Node.cond s d t none).claimsForGpa = [] ∧
    (Node.cond s d t none).hasPotential x = .ok false ∧ (Node.cond s d t none).solutions x o = .nil := by
  rcases hc : d.condition with _ | _ | _
  · simp [Node.status, Node.rank, Node.claims, Node.claimsForGpa, Node.hasPotential, Node.solutions, hc]
  · simp [Node.status, Node.statusOpt, Node.rank, Node.rankElse, Node.claims, Node.claimsOpt, Node.claimsForGpa,
      Node.claimsForGpaOpt, Node.hasPotential, Node.optPotential, Node.solutions, Node.solutionsOpt, hc]
  · exact absurd hc h

end Dp
