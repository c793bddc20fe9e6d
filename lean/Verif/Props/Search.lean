import Verif.Model.Rule
import Verif.Props.Op
import Verif.Props.Comb
import Mathlib.Algebra.Order.Field.Basic
import Mathlib.Tactic.Linarith
import Mathlib.Algebra.Order.Ring.Rat

/-
The query search: which combinations of courses a query rule proposes (C28, C29).
-/
namespace Dp

theorem Gen.forList_ok {α β : Type} (l : List α) (f : α → Gen β) (h : ∀ a ∈ l, (f a).err = none) :
    Gen.forList l f = ⟨l.flatMap (fun a => (f a).items), none⟩ := by
  induction l with
  | nil => rfl
  | cons a l ih =>
    rw [Gen.forList, ih (fun b hb => h b (List.mem_cons_of_mem _ hb))]
    simp [Gen.append, h a List.mem_cons_self]

theorem Gen.bind_ok {α β : Type} (l : List α) (f : α → Gen β) (h : ∀ a ∈ l, (f a).err = none) :
    (Gen.ofList l).bind f = ⟨l.flatMap (fun a => (f a).items), none⟩ := by
  simp [Gen.bind, Gen.ofList, Gen.forList_ok l f h, Gen.append]

theorem compareNum_iff {op : Operator} (hop : op.isComparison) (v e : Rat) :
    ∃ b, compareNum op v e = .ok b ∧ (b = true ↔ NumHolds op v e) := C16_numbers op hop v e _ _

theorem truncInt_natCast (n : Nat) : truncInt (n : Rat) = n := by
  simp [truncInt]

theorem mem_pyRange {a b k : Int} : k ∈ pyRange a b ↔ a ≤ k ∧ k < b := by
  simp only [pyRange, List.mem_map, List.mem_range]
  constructor
  · rintro ⟨i, hi, rfl⟩
    omega
  · rintro ⟨h1, h2⟩
    exact ⟨(k - a).toNat, by omega, by omega⟩

/-- the sizes tried for a whole expected number: never negative, and every size that
meets the assertion (only the expected size for an 'at most' assertion) -/
theorem inputSizeRange_spec (a : Assertion) (n m : Nat) (hop : a.op.isComparison) (hn : a.expected = n) :
    ∃ sizes, inputSizeRange a (m : Int) = .ofList sizes ∧ (∀ z ∈ sizes, 0 ≤ z) ∧
      ∀ k : Nat, k ≤ m → NumHolds a.op k n → (a.op = .gte → a.atMost = true → k = n) → (k : Int) ∈ sizes := by
  unfold inputSizeRange
  have ht : truncInt a.expected = n := by rw [hn]; exact truncInt_natCast n
  simp only [hn]
  obtain ⟨h1, h2⟩ := hop
  have one_ofList : ∀ z : Int, (Gen.one z : Gen Int) = .ofList [z] := fun _ => rfl
  cases hop' : a.op <;> simp_all only [NumHolds, ne_eq, not_true_eq_false, Int.cast_natCast,
    if_false, reduceCtorEq, false_and, or_false, if_true, true_and, false_or,
    not_false_eq_true, false_implies]
  case eq =>
    split
    · exact ⟨[(m : Int)], rfl, by simp, fun k hk he _ => absurd (show k = n by exact_mod_cast he) (by omega)⟩
    · refine ⟨_, rfl, fun z hz => ?_, fun k hk he _ => ?_⟩
      · rw [mem_pyRange] at hz; omega
      · have : k = n := by exact_mod_cast he
        rw [mem_pyRange]; omega
  case neq =>
    refine ⟨_, rfl, fun z hz => ?_, fun k hk he _ => ?_⟩
    · rw [List.mem_append, mem_pyRange, mem_pyRange] at hz; omega
    · have : k ≠ n := fun h => he (by rw [h])
      rw [List.mem_append, mem_pyRange, mem_pyRange]; omega
  case lt =>
    refine ⟨_, rfl, fun z hz => ?_, fun k hk he _ => ?_⟩
    · rw [mem_pyRange] at hz; omega
    · have : k < n := by exact_mod_cast he
      rw [mem_pyRange]; omega
  case lte =>
    refine ⟨_, rfl, fun z hz => ?_, fun k hk he _ => ?_⟩
    · rw [mem_pyRange] at hz; omega
    · have : k ≤ n := by exact_mod_cast he
      rw [mem_pyRange]; omega
  case gt =>
    split
    · exact ⟨[(m : Int)], rfl, by simp, fun k hk he _ => absurd (show n < k by exact_mod_cast he) (by omega)⟩
    · refine ⟨_, rfl, fun z hz => ?_, fun k hk he _ => ?_⟩
      · rw [mem_pyRange] at hz; omega
      · have : n < k := by exact_mod_cast he
        rw [mem_pyRange]; omega
  case gte =>
    cases ha : a.atMost
    · simp only [Bool.false_eq_true, if_false, false_implies, implies_true, forall_true_left]
      split
      · exact ⟨[(m : Int)], rfl, by simp, fun k hk he => absurd (show n ≤ k by exact_mod_cast he) (by omega)⟩
      · refine ⟨_, rfl, fun z hz => ?_, fun k hk he => ?_⟩
        · rw [mem_pyRange] at hz; omega
        · have : n ≤ k := by exact_mod_cast he
          rw [mem_pyRange]; omega
    · simp only [if_true, forall_true_left]
      split
      · exact ⟨[(m : Int)], rfl, by simp, fun k hk _ he => by omega⟩
      · refine ⟨_, rfl, fun z hz => ?_, fun k hk _ he => ?_⟩
        · rw [mem_pyRange] at hz; omega
        · rw [mem_pyRange]; omega

theorem countShortcut_spec (a : Assertion) (n : Nat) (hop : a.op.isComparison) (hn : a.expected = n)
    (cs : List Course) :
    (countShortcut a cs).err = none ∧
    (∀ S ∈ (countShortcut a cs).items, S.Sublist cs) ∧
    ∀ S : List Course, S.Sublist cs → NumHolds a.op S.length n → (a.op = .gte → a.atMost = true → S.length = n) →
      S ∈ (countShortcut a cs).items := by
  obtain ⟨sizes, h1, h2, h3⟩ := inputSizeRange_spec a n cs.length hop hn
  have hz : ∀ z ∈ sizes, combosInt cs z = .ofList (combos z.toNat cs) := by
    intro z hz
    have := h2 z hz
    unfold combosInt
    rw [if_neg (by omega)]
  have : countShortcut a cs = ⟨sizes.flatMap (fun z => (combosInt cs z).items), none⟩ := by
    unfold countShortcut
    rw [h1]
    exact Gen.bind_ok _ _ (fun z hz' => by rw [hz z hz']; rfl)
  rw [this]
  refine ⟨rfl, fun S hS => ?_, fun S hS hh ha => ?_⟩
  · obtain ⟨z, hz', hS⟩ := List.mem_flatMap.mp hS
    rw [hz z hz'] at hS
    exact (mem_combos.mp hS).1
  · have hk := h3 S.length hS.length_le hh ha
    refine List.mem_flatMap.mpr ⟨_, hk, ?_⟩
    rw [hz _ hk]
    exact mem_combos.mpr ⟨hS, by simp⟩

/-- A query on courses whose available courses are `cs`: nothing is limited, inserted or
waived, and the query claims what it finds. -/
structure PlainQuery (x : Ctx) (d : QueryData) (cs : List Course) : Prop where
  source : d.source = .courses
  claims : d.attemptClaims = true
  notWaived : d.overridden = false
  noLimit : d.limit = []
  available : queryFiltered x d = .ok ⟨cs.map Item.course, [], []⟩

theorem itemCourses_map (cs : List Course) : itemCourses (cs.map Item.course) = .ok cs := by
  induction cs with
  | nil => rfl
  | cons c cs ih => simp [itemCourses, ih]

/-- the courses a query proposes to claim in one of its solutions -/
def proposed (d : QueryData) : List Course := d.output.filterMap fun i => match i with
  | .course c => some c
  | _ => none

theorem proposed_map (d : QueryData) (S : List Course) (a b : List String) :
    proposed (querySolution d (S.map .course) a b) = S := by
  simp only [proposed, querySolution, List.filterMap_map]
  induction S with
  | nil => rfl
  | cons c S ih => simp

theorem plainQuery_solutions {x : Ctx} {d : QueryData} {cs : List Course} (h : PlainQuery x d cs) (o : Orders) :
    querySolutions x o d = ((iterateCourseSet d.assertions cs).map
      (fun combo => querySolution d (combo.map .course) [] [])).orElse (.one (querySolution d [] [] [])) := by
  have hadd : ∀ combo, addInserted ⟨cs.map Item.course, [], []⟩ cs combo = combo := by
    intro combo
    simp [addInserted]
  unfold querySolutions
  rw [h.notWaived, h.available, h.source]
  simp only [Bool.false_eq_true, if_false, itemCourses_map]
  congr 1
  unfold queryCourseSolutions
  simp only [h.noLimit, limitedTranscripts, if_true, h.claims, Bool.not_true, Bool.false_eq_true, if_false]
  have : ∀ (g : List Course → Gen QueryData), (Gen.one cs).bind g = g cs := by
    intro g
    simp only [Gen.bind, Gen.one, Gen.forList]
    rcases hg : g cs with ⟨items, err⟩
    cases err <;> simp [Gen.append, Gen.nil]
  rw [this]
  congr 1
  funext combo
  rw [hadd]

theorem mem_orElse_left {α : Type} {g h : Gen α} {a : α} (ha : a ∈ g.items) : a ∈ (g.orElse h).items := by
  rcases g with ⟨items, err⟩
  cases items with
  | nil => exact absurd ha (by simp)
  | cons b bs => cases err <;> simpa [Gen.orElse] using ha

/-- **C28.** The search of a query with one plain count of courses is complete: if some
of the available courses together satisfy the assertion, then some solution of the query
proposes courses that do (and the audit of the assertion on them finds the comparison to
hold). -/
theorem C28_count_search_complete (x : Ctx) (o : Orders) (d : QueryData) (cs : List Course)
    (hd : PlainQuery x d cs) (a : Assertion) (ha : d.assertions = [.single a]) (hkey : a.key = "count(courses)")
    (hop : a.op.isComparison) (n : Nat) (hn : a.expected = n)
    (S : List Course) (hS : S.Sublist cs) (hsat : NumHolds a.op S.dedup.length n) :
    ∃ sol ∈ (querySolutions x o d).items,
      (proposed sol).Sublist cs ∧ NumHolds a.op (proposed sol).dedup.length n ∧
      ∃ r, applyCourses a.key (proposed sol) (proposed sol) = .ok r ∧ compareNum a.op r.value a.expected = .ok true := by
  have hflat : iterateCourseSet d.assertions cs = countShortcut a cs := by
    simp [iterateCourseSet, ha, flattenAssertions, Assertion.isSimpleCount, hkey, largestExpected]
  obtain ⟨_, _, hall⟩ := countShortcut_spec a n hop hn cs
  -- a subset without repetitions, and of exactly the expected size for 'at most'
  obtain ⟨S', hS', hnd, hh, ham⟩ : ∃ S' : List Course, S'.Sublist cs ∧ S'.Nodup ∧ NumHolds a.op S'.length n ∧
      (a.op = .gte → a.atMost = true → S'.length = n) := by
    by_cases hc : a.op = .gte ∧ a.atMost = true
    · have hge : n ≤ S.dedup.length := by
        have := hsat
        rw [hc.1] at this
        simp only [NumHolds] at this
        exact_mod_cast this
      refine ⟨S.dedup.take n, ((List.take_sublist _ _).trans (List.dedup_sublist _)).trans hS,
        (List.nodup_dedup S).sublist (List.take_sublist _ _), ?_, fun _ _ => by simp [hge]⟩
      rw [List.length_take, min_eq_left hge, hc.1]
      simp [NumHolds]
    · exact ⟨S.dedup, (List.dedup_sublist _).trans hS, List.nodup_dedup S, hsat, fun h1 h2 => absurd ⟨h1, h2⟩ hc⟩
  have hmem := hall S' hS' hh ham
  refine ⟨querySolution d (S'.map .course) [] [], ?_, ?_, ?_, ?_⟩
  · rw [plainQuery_solutions hd, hflat]
    exact mem_orElse_left (by simpa [Gen.map] using ⟨S', hmem, rfl⟩)
  · rw [proposed_map]; exact hS'
  · rw [proposed_map, List.dedup_eq_self.mpr hnd]; exact hh
  · rw [proposed_map, hkey]
    refine ⟨{ value := (S'.dedup.length : Rat), courses := S'.dedup }, by simp [applyCourses], ?_⟩
    obtain ⟨b, hb, hbt⟩ := compareNum_iff hop (S'.dedup.length : Rat) a.expected
    rw [hb, hbt.mpr (by rw [hn, List.dedup_eq_self.mpr hnd]; exact hh)]

/-- **C28**, stronger: unless the assertion is 'at most', *every* collection of available
courses of a size that satisfies the assertion is proposed; and the search does not
raise. -/
theorem C28_every_satisfying_selection (x : Ctx) (o : Orders) (d : QueryData) (cs : List Course)
    (hd : PlainQuery x d cs) (a : Assertion) (ha : d.assertions = [.single a]) (hkey : a.key = "count(courses)")
    (hop : a.op.isComparison) (n : Nat) (hn : a.expected = n) (hat : a.atMost = false)
    (S : List Course) (hS : S.Sublist cs) (hsat : NumHolds a.op S.length n) :
    (∃ sol ∈ (querySolutions x o d).items, proposed sol = S) ∧ (querySolutions x o d).err = none := by
  have hflat : iterateCourseSet d.assertions cs = countShortcut a cs := by
    simp [iterateCourseSet, ha, flattenAssertions, Assertion.isSimpleCount, hkey, largestExpected]
  obtain ⟨herr, _, hall⟩ := countShortcut_spec a n hop hn cs
  have hmem := hall S hS hsat (fun _ h => absurd h (by simp [hat]))
  have heq := plainQuery_solutions hd o
  rw [hflat] at heq
  constructor
  · refine ⟨querySolution d (S.map .course) [] [], ?_, proposed_map _ _ _ _⟩
    rw [heq]
    exact mem_orElse_left (by simpa [Gen.map] using ⟨S, hmem, rfl⟩)
  · rw [heq]
    unfold Gen.orElse
    split
    · rfl
    · simpa [Gen.map] using herr

theorem sublist_sum_le {S cs : List Course} (h : S.Sublist cs) (hn : ∀ c ∈ cs, 0 ≤ c.credits) :
    sumCredits S ≤ sumCredits cs := by
  unfold sumCredits
  induction h with
  | slnil => simp
  | cons c _ ih =>
    have := ih (fun d hd => hn d (List.mem_cons_of_mem _ hd))
    have := hn c List.mem_cons_self
    simp only [List.map_cons, List.sum_cons]
    linarith
  | cons_cons c _ ih =>
    have := ih (fun d hd => hn d (List.mem_cons_of_mem _ hd))
    simp only [List.map_cons, List.sum_cons]
    linarith

/-- **C29.** A query with one `sum(credits) >= e` assertion proposes every (non-empty)
collection of available courses that reaches `e` credits; if it proposes none of them because all the
available courses together have too few credits, then indeed no collection reaches `e`,
and all the available courses are proposed. -/
theorem C29_credit_search_complete (x : Ctx) (o : Orders) (d : QueryData) (cs : List Course)
    (hd : PlainQuery x d cs) (a : Assertion) (ha : d.assertions = [.single a]) (hkey : a.key = "sum(credits)")
    (hcr : ∀ c ∈ cs, 0 ≤ c.credits) :
    (∀ S : List Course, S.Sublist cs → S ≠ [] → a.expected ≤ sumCredits S →
      ∃ sol ∈ (querySolutions x o d).items, proposed sol = S) ∧
    (∀ sol ∈ (querySolutions x o d).items, a.expected ≤ sumCredits (proposed sol) ∨ proposed sol = cs) ∧
    (querySolutions x o d).err = none ∧
    (sumCredits cs < a.expected → ∀ S : List Course, S.Sublist cs → sumCredits S < a.expected) := by
  have hflat : iterateCourseSet d.assertions cs = sumShortcut a cs := by
    simp [iterateCourseSet, ha, flattenAssertions, Assertion.isSimpleCount, Assertion.isSimpleSum, hkey, largestExpected]
  have heq := plainQuery_solutions hd o
  rw [hflat] at heq
  have hnone : sumCredits cs < a.expected → ∀ S : List Course, S.Sublist cs → sumCredits S < a.expected :=
    fun h S hS => lt_of_le_of_lt (sublist_sum_le hS hcr) h
  refine ⟨fun S hS hemp hle => ?_, ?_, ?_, hnone⟩
  · have hge : ¬ sumCredits cs < a.expected := fun h => absurd (hnone h S hS) (not_lt.mpr hle)
    refine ⟨querySolution d (S.map .course) [] [], ?_, proposed_map _ _ _ _⟩
    rw [heq]
    refine mem_orElse_left ?_
    simp only [Gen.map, List.mem_map]
    refine ⟨S, ?_, rfl⟩
    unfold sumShortcut
    rw [if_neg hge]
    simp only [Gen.ofList, List.mem_filter, decide_eq_true_eq]
    refine ⟨?_, hle⟩
    unfold allCombos
    have hl : 0 < S.length := List.length_pos_iff.mpr hemp
    have hl' := hS.length_le
    exact List.mem_flatMap.mpr ⟨S.length - 1, List.mem_range.mpr (by omega), mem_combos.mpr ⟨hS, by omega⟩⟩
  · intro sol hsol
    rw [heq] at hsol
    unfold Gen.orElse at hsol
    split at hsol
    · rename_i hg _
      have hsol := List.mem_singleton.mp hsol
      subst hsol
      right
      have hp : proposed (querySolution d [] [] []) = [] := rfl
      rw [hp]
      -- nothing was enumerated: there are no courses or none reaches the credits
      have hitems : (sumShortcut a cs).items = [] := by
        simpa [Gen.map] using hg
      unfold sumShortcut at hitems
      split at hitems
      · exact absurd hitems (by simp [Gen.one])
      · rename_i hge
        by_contra hne
        have : cs ∈ ((allCombos cs).filter (fun c => decide (a.expected ≤ sumCredits c))) := by
          simp only [List.mem_filter, decide_eq_true_eq]
          refine ⟨?_, not_lt.mp hge⟩
          have hl : 0 < cs.length := List.length_pos_iff.mpr (Ne.symm hne)
          exact List.mem_flatMap.mpr ⟨cs.length - 1, List.mem_range.mpr (by omega),
            mem_combos.mpr ⟨List.Sublist.refl _, by omega⟩⟩
        simp only [Gen.ofList] at hitems
        rw [hitems] at this
        exact absurd this (by simp)
    · simp only [Gen.map, List.mem_map] at hsol
      obtain ⟨S, hS, rfl⟩ := hsol
      rw [proposed_map]
      unfold sumShortcut at hS
      split at hS
      · exact Or.inr (List.mem_singleton.mp hS)
      · simp only [Gen.ofList, List.mem_filter, decide_eq_true_eq] at hS
        exact Or.inl hS.2
  · rw [heq]
    unfold Gen.orElse
    split
    · rfl
    · simp only [Gen.map]
      unfold sumShortcut
      split <;> rfl

/-- three courses of one credit, `count(courses) >= 2`: a query meeting the hypotheses of
C28, with two courses among the three -/
def searchDemo (key : String) (op : Operator) (expected : Rat) : QueryData :=
  { path := ["$", ".count"], source := .courses, assertions := [.single { path := [], key := key, op := op, expected := expected }] }

def searchCtx : Ctx := { transcript := [{ clbid := "1" }, { clbid := "2" }, { clbid := "3" }] }

example : PlainQuery searchCtx (searchDemo "count(courses)" .gte 2) searchCtx.transcript :=
  ⟨rfl, rfl, rfl, rfl, rfl⟩

example : ([{ clbid := "1" }, { clbid := "3" }] : List Course).Sublist searchCtx.transcript ∧
    NumHolds .gte ((2 : Nat) : Rat) ((2 : Nat) : Rat) := by
  refine ⟨by decide, ?_⟩
  simp [NumHolds]

/-- The shortcut for credit sums is used for every operator.  For "fewer than 2 credits"
of three one-credit courses each single course satisfies the assertion, and so does
choosing none, but only collections of at least two credits are proposed. -/
theorem C29_fewer_credits_refuted :
    let d := searchDemo "sum(credits)" .lt 2
    PlainQuery searchCtx d searchCtx.transcript ∧
    (∃ S : List Course, S.Sublist searchCtx.transcript ∧ S ≠ [] ∧ sumCredits S < 2) ∧
    ∀ sol ∈ (querySolutions searchCtx Orders.insertion d).items, ¬ sumCredits (proposed sol) < 2 := by
  refine ⟨⟨rfl, rfl, rfl, rfl, rfl⟩, ⟨[{ clbid := "1" }], by decide, by decide, by decide +kernel⟩, ?_⟩
  decide +kernel

/-! ### C46: several assertions -/

theorem largestExpected_spec : ∀ (l : List Assertion), l ≠ [] →
    ∃ a ∈ l, largestExpected l = some a ∧ ∀ b ∈ l, b.expected ≤ a.expected := by
  intro l
  induction l with
  | nil => intro h; exact absurd rfl h
  | cons a l ih =>
    intro _
    by_cases hl : l = []
    · subst hl
      exact ⟨a, by simp, rfl, by simp⟩
    · obtain ⟨b, hb, hbe, hmax⟩ := ih hl
      simp only [largestExpected, hbe]
      split
      · rename_i hlt
        refine ⟨b, List.mem_cons_of_mem _ hb, rfl, ?_⟩
        intro c hc
        rcases List.mem_cons.mp hc with rfl | hc
        · exact le_of_lt hlt
        · exact hmax c hc
      · rename_i hge
        refine ⟨a, List.mem_cons_self, rfl, ?_⟩
        intro c hc
        rcases List.mem_cons.mp hc with rfl | hc
        · exact le_refl _
        · exact le_trans (hmax c hc) (not_lt.mp hge)

/-- The number of courses of a selection that an assertion's own filter accepts (`p`
decides it), counting as `count(courses)` does. -/
def countOf (p : Course → Bool) (S : List Course) : Nat := (S.filter p).dedup.length

/-- **C46.** If all the counting assertions of a query (`count(courses)`, each with its
own filter, also inside conditions) are 'at least' ones without 'at most', then every
selection of the available courses that contains enough courses for each of them is
proposed, whatever the other assertions are. -/
theorem C46_several_at_least_counts_partial (x : Ctx) (o : Orders) (d : QueryData) (cs : List Course)
    (hd : PlainQuery x d cs) (accepts : Assertion → Course → Bool)
    (hsome : ∃ a ∈ flattenAssertions d.assertions, a.isSimpleCount = true)
    (hge : ∀ a ∈ flattenAssertions d.assertions, a.isSimpleCount = true →
      a.op = .gte ∧ a.atMost = false ∧ ∃ n : Nat, a.expected = n)
    (S : List Course) (hS : S.Sublist cs)
    (hsat : ∀ a ∈ flattenAssertions d.assertions, a.isSimpleCount = true →
      a.expected ≤ (countOf (accepts a) S : Rat)) :
    ∃ sol ∈ (querySolutions x o d).items, proposed sol = S := by
  obtain ⟨a0, h0, h0'⟩ := hsome
  have hne : (flattenAssertions d.assertions).filter (·.isSimpleCount) ≠ [] :=
    List.ne_nil_of_mem (List.mem_filter.mpr ⟨h0, h0'⟩)
  obtain ⟨a, ha, hle, _⟩ := largestExpected_spec _ hne
  obtain ⟨ha1, ha2⟩ := List.mem_filter.mp ha
  have hflat : iterateCourseSet d.assertions cs = countShortcut a cs := by
    simp [iterateCourseSet, hle]
  obtain ⟨hop, hat, n, hn⟩ := hge a ha1 ha2
  obtain ⟨_, _, hall⟩ := countShortcut_spec a n (by rw [hop]; exact ⟨by decide, by decide⟩) hn cs
  have hlen : n ≤ S.length := by
    have h1 := hsat a ha1 ha2
    rw [hn] at h1
    have h2 : n ≤ countOf (accepts a) S := by exact_mod_cast h1
    have h3 : countOf (accepts a) S ≤ S.length :=
      le_trans (List.dedup_sublist _).length_le List.filter_sublist.length_le
    omega
  have hmem := hall S hS (by rw [hop]; simp only [NumHolds]; exact_mod_cast hlen) (fun _ h => absurd h (by simp [hat]))
  refine ⟨querySolution d (S.map .course) [] [], ?_, proposed_map _ _ _ _⟩
  rw [plainQuery_solutions hd, hflat]
  exact mem_orElse_left (by simpa [Gen.map] using ⟨S, hmem, rfl⟩)

/-- With an exact count the search is not complete: "exactly 1 course with subject A" and
"at least 1 course with subject B" are satisfied together by two courses, but only single
courses are proposed. -/
theorem C46_exact_count_refuted :
    let a : Course := { clbid := "1", subject := "A" }
    let b : Course := { clbid := "2", subject := "B" }
    let where' (s : String) : Pred := .leaf { key := "subject", op := .eq, expected := .sc (.str s) }
    let d : QueryData := { path := [], source := .courses, assertions :=
      [.single { path := [], where' := some (where' "A"), key := "count(courses)", op := .eq, expected := 1 },
       .single { path := [], where' := some (where' "B"), key := "count(courses)", op := .gte, expected := 1 }] }
    let x : Ctx := { transcript := [a, b] }
    PlainQuery x d [a, b] ∧
    (countOf (fun c => c.subject == "A") [a, b] = 1 ∧ 1 ≤ countOf (fun c => c.subject == "B") [a, b]) ∧
    ∀ sol ∈ (querySolutions x Orders.insertion d).items, (proposed sol).length = 1 := by
  refine ⟨⟨rfl, rfl, rfl, rfl, rfl⟩, by decide, ?_⟩
  decide +kernel

end Dp
