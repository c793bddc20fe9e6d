import Verif.Props.LimitLemmas
import Mathlib.Data.List.Perm.Subperm

/-
Properties C09-C12 and C45: limited transcripts.
-/
namespace Dp

/-! ### Specification -/

/-- The course counts against the limit: it was not force-inserted and the
limit's filter accepts it. -/
def Limit.Counts (l : Limit) (forced : List String) (c : Course) : Prop :=
  c.clbid ∉ forced ∧ l.where'.applyCourse c = .ok true

instance (l : Limit) (forced : List String) : DecidablePred (l.Counts forced) := fun c =>
  decidable_of_iff (c.clbid ∉ forced ∧ l.hits c = true) (by rw [Limit.hits_iff]; rfl)

/-- How much of a limit a list of courses uses up. -/
def Limit.used (l : Limit) (forced : List String) (t : List Course) : Rat :=
  match l.what with
  | .courses => ((t.filter (fun c => l.Counts forced c)).length : Rat)
  | .credits => ((t.filter (fun c => l.Counts forced c)).map (·.credits)).sum

/-- Some limit applies to the course. -/
def Limited (limits : List Limit) (forced : List String) (c : Course) : Prop :=
  ∃ l ∈ limits, l.Counts forced c

/-- The filters of all the limits can be evaluated on all the courses they are
applied to (an exception in a filter aborts the audit). -/
def Evaluable (limits : List Limit) (forced : List String) (courses : List Course) : Prop :=
  ∀ l ∈ limits, ∀ c ∈ courses, c.clbid ∉ forced → ∃ b, l.where'.applyCourse c = .ok b

/-! ### Bridging lemmas -/

theorem Limit.used_eq_total {l : Limit} {forced : List String} {t : List Course} :
    l.used forced t = l.total (t.filter (fun c => !forced.contains c.clbid)) := by
  have hf : (t.filter (fun c => l.Counts forced c)) =
      (t.filter (fun c => !forced.contains c.clbid)).filter l.hits := by
    rw [List.filter_filter]
    apply List.filter_congr
    intro c _
    rw [Bool.eq_iff_iff]
    rw [decide_eq_true_iff, Bool.and_eq_true, Limit.hits_iff]
    simp [Limit.Counts, and_comm]
  unfold Limit.used Limit.total
  rw [hf]
  generalize List.filter l.hits _ = x
  cases hw : l.what with
  | courses =>
    simp only
    have : x.map l.amount = x.map (fun _ => (1 : Rat)) := by
      apply List.map_congr_left; intro c _; simp [Limit.amount, hw]
    rw [this]
    clear this hf
    induction x with
    | nil => simp
    | cons a x ih => simp only [List.length_cons, List.map_cons, List.sum_cons, ← ih]; push_cast; linarith
  | credits =>
    have : x.map l.amount = x.map (·.credits) := by
      apply List.map_congr_left; intro c _; simp [Limit.amount, hw]
    rw [this]

theorem Limit.counts_iff_hits {l : Limit} {forced : List String} {c : Course} (h : c.clbid ∉ forced) :
    l.Counts forced c ↔ l.hits c = true := by
  simp [Limit.Counts, h, Limit.hits_iff]

/-- Everything that is known of a produced transcript. -/
structure Produced (o : SetOrder) (limits : List Limit) (courses : List Course) (forced : List String)
    (t : List Course) where
  d : MatchDict
  results : List (List Course)
  un : List Course
  these : List Course
  order : List Course
  inv : DictInv d (fun l c => l ∈ limits ∧ c ∈ courses ∧ forced.contains c.clbid = false ∧ l.hits c = true)
  chosen : results ∈ cartesian (d.map (fun lm => lm.1.iterate lm.2))
  these_eq : these = results.flatten.dedup
  perm : order.Perm these
  passes : checkLimits limits order = .ok true
  out : t.Perm (un ++ these)
  sorted : t.Pairwise (fun a b => a.sortLe b = true)
  unNodup : un.Nodup
  unMem : ∀ c, c ∈ un ↔ c ∈ courses ∧ ¬ Limited limits forced c
  theseMem : ∀ c ∈ these, c ∈ courses ∧ c.clbid ∉ forced ∧ Limited limits forced c

theorem dict_mem_iff {d : MatchDict} {limits : List Limit} {courses : List Course} {forced : List String}
    (hd : DictInv d (fun l c => l ∈ limits ∧ c ∈ courses ∧ forced.contains c.clbid = false ∧ l.hits c = true))
    (c : Course) : c ∈ d.flatMap (·.2) ↔ c ∈ courses ∧ Limited limits forced c := by
  rw [List.mem_flatMap]
  constructor
  · rintro ⟨⟨l, ms⟩, hm, hc⟩
    obtain ⟨h1, h2, h3, h4⟩ := ((hd.vals l ms hm).2.2 c).1 hc
    have h3' : c.clbid ∉ forced := by simpa using h3
    exact ⟨h2, l, h1, (Limit.counts_iff_hits h3').2 h4⟩
  · rintro ⟨h2, l, h1, h3, h4⟩
    have hp := And.intro h1 (And.intro h2 (And.intro (by simpa using h3 : forced.contains c.clbid = false)
      ((Limit.hits_iff l c).2 h4)))
    obtain ⟨ms, hms⟩ := hd.has l c hp
    exact ⟨(l, ms), hms, ((hd.vals l ms hms).2.2 c).2 hp⟩

theorem produced {o : SetOrder} (ho : o.Lawful) {limits : List Limit} {courses : List Course}
    {forced : List String} (hne : limits ≠ []) {t : List Course}
    (h : t ∈ (limitedTranscripts o limits courses forced).items) :
    Nonempty (Produced o limits courses forced t) := by
  simp only [limitedTranscripts, if_neg hne] at h
  split at h
  · simp [Gen.raise] at h
  · rename_i d hd
    obtain ⟨hinv, _⟩ := probeAll_nil hd
    have hprod := lazyProduct_items (d.map (fun lm => lm.1.iterate lm.2))
    rw [List.map_map] at hprod
    change _ ∨ _ ∧ lazyProduct (d.map (fun lm => Gen.ofList (lm.1.iterate lm.2))) = _ at hprod
    have hmem : t ∈ (emitLoop limits ((courses.dedup).filter (fun c => !(d.flatMap (·.2)).contains c)) o 0 []
        (lazyProduct (d.map (fun lm => Gen.ofList (lm.1.iterate lm.2)))).items).items := by
      simp only [Gen.append] at h
      split at h
      · exact h
      · simpa using h
    obtain ⟨results, hr, j, h1, h2, _⟩ := emitLoop_sound _ _ _ _ _ _ _ hmem
    rcases hprod with ⟨_, hp⟩ | ⟨_, hp⟩
    · have hp' : lazyProduct (d.map (fun lm => Gen.ofList (lm.1.iterate lm.2))) =
          Gen.ofList (cartesian (d.map (fun lm => lm.1.iterate lm.2))) := hp
      rw [hp'] at hr
      have hr : results ∈ cartesian (d.map (fun lm => lm.1.iterate lm.2)) := hr
      refine ⟨⟨d, results, (courses.dedup).filter (fun c => !(d.flatMap (·.2)).contains c), _, _, hinv, hr, rfl,
        (ho j _).1, h1, ?_, ?_, ?_, ?_, ?_⟩⟩
      · rw [h2]; exact (sortCourses_perm _).trans (ho j _).2
      · rw [h2]; exact sortCourses_sorted _
      · exact (List.nodup_dedup _).filter _
      · intro c
        simp only [List.mem_filter, List.mem_dedup, Bool.not_eq_true', List.contains_eq_mem,
          decide_eq_false_iff_not, dict_mem_iff hinv]
        tauto
      · intro c hc
        rw [List.mem_dedup, List.mem_flatten] at hc
        obtain ⟨s, hs, hcs⟩ := hc
        obtain ⟨l, ms, hm, hsi⟩ := (cartesian_pos hr).1 s hs
        have hcm : c ∈ ms := mem_sortCourses.1 ((Limit.iterate_sublist hsi).subset hcs)
        obtain ⟨g1, g2, g3, g4⟩ := ((hinv.vals l ms hm).2.2 c).1 hcm
        have g3' : c.clbid ∉ forced := by simpa using g3
        exact ⟨g2, g3', l, g1, (Limit.counts_iff_hits g3').2 g4⟩
    · rw [hp] at hr; simp [Gen.raise] at hr

theorem Produced.used_eq {o : SetOrder} {limits : List Limit} {courses : List Course}
    {forced : List String} {t : List Course} (p : Produced o limits courses forced t)
    {l : Limit} (hl : l ∈ limits) : l.used forced t = l.total p.order := by
  have hun : l.total (p.un.filter (fun c => !forced.contains c.clbid)) = 0 := by
    unfold Limit.total
    rw [List.filter_eq_nil_iff.2]
    · rfl
    · intro c hc hh
      rw [List.mem_filter] at hc
      have hf : c.clbid ∉ forced := by simpa using hc.2
      exact ((p.unMem c).1 hc.1).2 ⟨l, hl, (Limit.counts_iff_hits hf).2 hh⟩
  have hth : p.these.filter (fun c => !forced.contains c.clbid) = p.these := by
    rw [List.filter_eq_self]
    intro c hc
    simpa using (p.theseMem c hc).2.1
  rw [Limit.used_eq_total, Limit.total_perm (p.out.filter _), List.filter_append, Limit.total_append,
    hun, hth, Limit.total_perm p.perm]
  simp

/-! ### C09 -/

/-- C09 for limits on the number of courses: no produced transcript holds more
counted courses than the limit's whole-number maximum, whatever the other
limits are and in whatever order sets are iterated. -/
theorem C09_course_limits_respected (o : SetOrder) (ho : o.Lawful) (limits : List Limit)
    (courses t : List Course) (forced : List String)
    (ht : t ∈ (limitedTranscripts o limits courses forced).items)
    (l : Limit) (hl : l ∈ limits) (hw : l.what = .courses) (n : Nat) (hn : l.atMost = n) :
    (t.filter (fun c => l.Counts forced c)).length ≤ n := by
  have hne : limits ≠ [] := by rintro rfl; cases hl
  obtain ⟨p⟩ := produced ho hne ht
  have hu := p.used_eq hl
  have hamt : ∀ x, l.amount x = 1 := by intro x; simp [Limit.amount, hw]
  have := checkLimits_bound hl (cs := p.order) (by intro x _; rw [hamt]; norm_num) p.passes
  rw [← hu] at this
  simp only [Limit.used, hw] at hu this
  rcases this with h | ⟨c, _, _, h⟩
  · have h0 : l.total p.order = 0 := by
      unfold Limit.total
      rw [List.filter_eq_nil_iff.2 (fun x hx => by rw [h x hx]; simp)]; rfl
    rw [h0] at hu
    have hu' : (t.filter (fun c => l.Counts forced c)).length = 0 := by exact_mod_cast hu
    omega
  · rw [hamt, hn] at h
    have h' : ((t.filter (fun c => l.Counts forced c)).length : Rat) < n + 1 := by linarith
    have h'' : (t.filter (fun c => l.Counts forced c)).length < n + 1 := by exact_mod_cast h'
    omega

/-- a comparison on one key, for the examples -/
def eqPred (key value : String) : Pred := .leaf ⟨key, .eq, strVal value, none⟩

/-- Non-trivial case for C09: two overlapping course limits cut three matching
courses down. -/
example :
    (limitedTranscripts .insertion
      [{ atMost := 1, where' := eqPred "subject" "CSCI" }, { atMost := 1, where' := eqPred "name" "X" }]
      [{ clbid := "1", subject := "CSCI", name := "X" }, { clbid := "2", subject := "CSCI" },
       { clbid := "3", name := "X" }, { clbid := "4", subject := "CSCI" }] ["4"]).items.map
      (fun t => t.map (·.clbid)) = [["4"], ["1", "4"], ["3", "4"], ["2", "4"], ["2", "3", "4"]] := by
  decide +kernel

/-- C09 fails for limits on credits when limits overlap: with at most one credit
of CSCI and at most one course named X, a transcript with 1.25 credits of CSCI
is produced. -/
theorem C09_credit_limits_refuted : ¬ ∀ (o : SetOrder) (limits : List Limit) (courses t : List Course)
    (forced : List String), o.Lawful → (∀ c ∈ courses, 0 ≤ c.credits) →
    t ∈ (limitedTranscripts o limits courses forced).items →
    ∀ l ∈ limits, l.used forced t ≤ l.atMost := by
  intro h
  have := h .insertion
    [{ atMost := 1, what := .credits, where' := eqPred "subject" "CSCI" },
     { atMost := 1, where' := eqPred "name" "X" }]
    [{ clbid := "1", subject := "CSCI", credits := 3/4 },
     { clbid := "2", subject := "CSCI", name := "X", credits := 1/2 }]
    [{ clbid := "1", subject := "CSCI", credits := 3/4 },
     { clbid := "2", subject := "CSCI", name := "X", credits := 1/2 }] []
    (fun i l => ⟨.refl _, .refl _⟩) (by decide +kernel) (by decide +kernel) _ List.mem_cons_self
  exact absurd this (by decide +kernel)

/-- C09 also fails for a fractional maximum on the number of courses: "at most
1.5 courses", overlapping another limit, lets two through. -/
theorem C09_fractional_course_limits_refuted : ¬ ∀ (o : SetOrder) (limits : List Limit)
    (courses t : List Course) (forced : List String), o.Lawful →
    t ∈ (limitedTranscripts o limits courses forced).items →
    ∀ l ∈ limits, l.what = .courses → l.used forced t ≤ l.atMost := by
  intro h
  have := h .insertion
    [{ atMost := 3/2, where' := eqPred "subject" "CSCI" },
     { atMost := 1, where' := eqPred "name" "X" }]
    [{ clbid := "1", subject := "CSCI" }, { clbid := "2", subject := "CSCI", name := "X" }]
    [{ clbid := "1", subject := "CSCI" }, { clbid := "2", subject := "CSCI", name := "X" }] []
    (fun i l => ⟨.refl _, .refl _⟩) (by decide +kernel) _ List.mem_cons_self rfl
  exact absurd this (by decide +kernel)

/-- C09, what holds for every limit (missing: the exact maximum for credit
limits that overlap others): a produced transcript goes over by less than one
of the counted courses. -/
theorem C09_overshoot_less_than_one_course_partial (o : SetOrder) (ho : o.Lawful) (limits : List Limit)
    (courses t : List Course) (forced : List String) (hcr : ∀ c ∈ courses, 0 ≤ c.credits)
    (ht : t ∈ (limitedTranscripts o limits courses forced).items) (l : Limit) (hl : l ∈ limits) :
    (∀ c ∈ t, ¬ l.Counts forced c) ∨
    ∃ c ∈ t, l.Counts forced c ∧
      l.used forced t - (match l.what with | .courses => 1 | .credits => c.credits) < l.atMost := by
  have hne : limits ≠ [] := by rintro rfl; cases hl
  obtain ⟨p⟩ := produced ho hne ht
  have hmem : ∀ c ∈ p.order, c ∈ p.these := fun c hc => p.perm.mem_iff.1 hc
  have hnn : ∀ x ∈ p.order, 0 ≤ l.amount x := by
    intro x hx
    unfold Limit.amount
    split
    · norm_num
    · exact hcr x (p.theseMem x (hmem x hx)).1
  rw [p.used_eq hl]
  rcases checkLimits_bound hl hnn p.passes with h | ⟨c, hc, h1, h2⟩
  · left
    rintro c hc ⟨hf, hh⟩
    rcases List.mem_append.1 (p.out.mem_iff.1 hc) with hc | hc
    · exact ((p.unMem c).1 hc).2 ⟨l, hl, hf, hh⟩
    · have := h c (p.perm.mem_iff.2 hc)
      rw [(Limit.hits_iff l c).2 hh] at this; cases this
  · right
    have hf := (p.theseMem c (hmem c hc)).2.1
    exact ⟨c, p.out.mem_iff.2 (List.mem_append.2 (.inr (hmem c hc))), (Limit.counts_iff_hits hf).2 h1, h2⟩

/-- Non-trivial case: the overshoot really happens (previous witness). -/
example : ((limitedTranscripts .insertion
    [{ atMost := 1, what := .credits, where' := eqPred "subject" "CSCI" },
     { atMost := 1, where' := eqPred "name" "X" }]
    [{ clbid := "1", subject := "CSCI", credits := 3/4 },
     { clbid := "2", subject := "CSCI", name := "X", credits := 1/2 }] []).items.map sumCredits)
    = [0, 1/2, 3/4, 5/4] := by decide +kernel

/-- C09 for a limit on credits that shares no counted course with another limit
(missing: overlapping credit limits, for which it is false). -/
theorem C09_separate_credit_limits_partial (o : SetOrder) (ho : o.Lawful) (limits : List Limit)
    (courses t : List Course) (forced : List String)
    (ht : t ∈ (limitedTranscripts o limits courses forced).items) (l : Limit) (hl : l ∈ limits)
    (hw : l.what = .credits) (hmax : 0 ≤ l.atMost)
    (hsep : ∀ c ∈ courses, l.Counts forced c → ∀ k ∈ limits, k.Counts forced c → k = l) :
    l.used forced t ≤ l.atMost := by
  have hne : limits ≠ [] := by rintro rfl; cases hl
  obtain ⟨p⟩ := produced ho hne ht
  rw [p.used_eq hl, Limit.total_perm p.perm]
  have hnd : p.these.Nodup := by rw [p.these_eq]; exact List.nodup_dedup _
  -- the hits among `these` all come from the combination chosen for `l`
  by_cases hany : ∃ c ∈ p.these, l.hits c = true
  · obtain ⟨c0, hc0, hh0⟩ := hany
    obtain ⟨g1, g2, g3⟩ := p.theseMem c0 hc0
    obtain ⟨ms, hms⟩ := p.inv.has l c0 ⟨hl, g1, by simpa using g2, hh0⟩
    obtain ⟨pick, hp1, hp2⟩ := cartesian_pick p.inv.keys p.chosen
    have hsi := hp1 l ms hms
    have hsub := Limit.iterate_sublist hsi
    have hsum : sumCredits (pick l) ≤ l.atMost := by
      rcases (Limit.mem_iterate_credits hw).1 hsi with ⟨h1, h2⟩ | ⟨_, _, h3⟩
      · rw [h2, sumCredits_perm (sortCourses_perm ms)]; exact h1
      · exact h3
    have hsnd : (pick l).Nodup := hsub.nodup ((sortCourses_perm ms).nodup_iff.2 (p.inv.vals l ms hms).1)
    have hperm : (p.these.filter l.hits).Perm (pick l) := by
      rw [List.perm_ext_iff_of_nodup (hnd.filter _) hsnd]
      intro c
      rw [List.mem_filter, p.these_eq, List.mem_dedup, hp2]
      constructor
      · rintro ⟨⟨k, ks, hk, hc⟩, hh⟩
        have hcm : c ∈ ks := mem_sortCourses.1 ((Limit.iterate_sublist (hp1 k ks hk)).subset hc)
        obtain ⟨q1, q2, q3, q4⟩ := ((p.inv.vals k ks hk).2.2 c).1 hcm
        have q3' : c.clbid ∉ forced := by simpa using q3
        have := hsep c q2 ((Limit.counts_iff_hits q3').2 hh) k q1 ((Limit.counts_iff_hits q3').2 q4)
        rw [← this]; exact hc
      · intro hc
        have hcm : c ∈ ms := mem_sortCourses.1 (hsub.subset hc)
        exact ⟨⟨l, ms, hms, hc⟩, (((p.inv.vals l ms hms).2.2 c).1 hcm).2.2.2⟩
    have : l.total p.these = sumCredits (pick l) := by
      rw [Limit.total, ← sumCredits_perm hperm, sumCredits]
      congr 1
      apply List.map_congr_left; intro c _; simp [Limit.amount, hw]
    rw [this]; exact hsum
  · have : l.total p.these = 0 := by
      unfold Limit.total
      rw [List.filter_eq_nil_iff.2]
      · rfl
      · intro c hc hh; exact hany ⟨c, hc, hh⟩
    rw [this]; exact hmax

/-- Non-trivial case: a credit limit and a course limit on different subjects. -/
example : ((limitedTranscripts .insertion
    [{ atMost := 1, what := .credits, where' := eqPred "subject" "CSCI" },
     { atMost := 1, where' := eqPred "subject" "MATH" }]
    [{ clbid := "1", subject := "CSCI", credits := 3/4 }, { clbid := "2", subject := "CSCI", credits := 1/2 },
     { clbid := "3", subject := "MATH" }] []).items.map (fun t => t.map (·.clbid)))
    = [[], ["3"], ["1"], ["1", "3"], ["2"], ["2", "3"]] := by decide +kernel

/-! ### C10 -/

/-- C10. Every course of the input to which no limit applies (in particular
every force-inserted one) is in every produced transcript. -/
theorem C10_unlimited_courses_kept (o : SetOrder) (ho : o.Lawful) (limits : List Limit)
    (courses t : List Course) (forced : List String)
    (ht : t ∈ (limitedTranscripts o limits courses forced).items) (c : Course) (hc : c ∈ courses)
    (h : c.clbid ∈ forced ∨ ∀ l ∈ limits, ¬ l.where'.applyCourse c = .ok true) : c ∈ t := by
  by_cases hne : limits = []
  · subst hne
    simp only [limitedTranscripts, if_true, Gen.one, List.mem_singleton] at ht
    rw [ht]; exact hc
  · obtain ⟨p⟩ := produced ho hne ht
    refine p.out.mem_iff.2 (List.mem_append.2 (.inl ((p.unMem c).2 ⟨hc, ?_⟩)))
    rintro ⟨l, hl, h1, h2⟩
    rcases h with h | h
    · exact h1 h
    · exact h l hl h2

/-- C10. A produced transcript contains only courses of the input; none twice
if the input has none twice or there is any limit. -/
theorem C10_only_input_courses (o : SetOrder) (ho : o.Lawful) (limits : List Limit)
    (courses t : List Course) (forced : List String)
    (ht : t ∈ (limitedTranscripts o limits courses forced).items) :
    (∀ c ∈ t, c ∈ courses) ∧ (limits ≠ [] ∨ courses.Nodup → t.Nodup) := by
  by_cases hne : limits = []
  · subst hne
    simp only [limitedTranscripts, if_true, Gen.one, List.mem_singleton] at ht
    subst ht
    exact ⟨fun c hc => hc, fun h => h.elim (fun h => absurd rfl h) id⟩
  · obtain ⟨p⟩ := produced ho hne ht
    have hnd : p.these.Nodup := by rw [p.these_eq]; exact List.nodup_dedup _
    refine ⟨fun c hc => ?_, fun _ => ?_⟩
    · rcases List.mem_append.1 (p.out.mem_iff.1 hc) with hc | hc
      · exact ((p.unMem c).1 hc).1
      · exact (p.theseMem c hc).1
    · rw [p.out.nodup_iff, List.nodup_append]
      refine ⟨p.unNodup, hnd, ?_⟩
      rintro a ha b hb rfl
      exact ((p.unMem a).1 ha).2 (p.theseMem a hb).2.2

/-- Non-trivial case for C10: a forced course stays although it matches a limit
of zero, next to an unmatched course. -/
example : ((limitedTranscripts .insertion [{ atMost := 0, where' := eqPred "subject" "CSCI" }]
    [{ clbid := "1", subject := "CSCI" }, { clbid := "2", subject := "CSCI" }, { clbid := "3" }] ["2"]).items.map
      (fun t => t.map (·.clbid))) = [["2", "3"]] := by decide +kernel

/-! ### C12 -/

/-- C12. No two produced transcripts hold the same courses. -/
theorem C12_no_transcript_twice (o : SetOrder) (ho : o.Lawful) (limits : List Limit)
    (courses : List Course) (forced : List String) :
    (limitedTranscripts o limits courses forced).items.Pairwise (fun a b => ¬ ∀ c, c ∈ a ↔ c ∈ b) := by
  by_cases hne : limits = []
  · subst hne; simp [limitedTranscripts, Gen.one]
  · simp only [limitedTranscripts, if_neg hne]
    split
    · simp [Gen.raise]
    · rename_i d hd
      obtain ⟨hinv, _⟩ := probeAll_nil hd
      have hitems : ∀ (g : Gen (List Course)) e, (g.append ⟨[], e⟩).items = g.items := by
        intro g e; unfold Gen.append; split <;> simp
      rw [hitems]
      apply emitLoop_distinct _ _ _ ho
      intro results hr c hc hun
      rcases lazyProduct_items (d.map (fun lm => lm.1.iterate lm.2)) with ⟨_, hp⟩ | ⟨_, hp⟩
      · rw [List.map_map] at hp
        have hp' : lazyProduct (d.map (fun lm => Gen.ofList (lm.1.iterate lm.2))) =
          Gen.ofList (cartesian (d.map (fun lm => lm.1.iterate lm.2))) := hp
        rw [hp'] at hr
        rw [List.mem_flatten] at hc
        obtain ⟨s, hs, hcs⟩ := hc
        obtain ⟨l, ms, hm, hsi⟩ := (cartesian_pos hr).1 s hs
        have hcm : c ∈ ms := mem_sortCourses.1 ((Limit.iterate_sublist hsi).subset hcs)
        rw [List.mem_filter] at hun
        simp only [Bool.not_eq_true', List.contains_eq_mem, decide_eq_false_iff_not] at hun
        exact hun.2 (List.mem_flatMap.2 ⟨_, hm, hcm⟩)
      · rw [List.map_map] at hp
        have hp' : lazyProduct (d.map (fun lm => Gen.ofList (lm.1.iterate lm.2))) = Gen.raise .runtimeError := hp
        rw [hp'] at hr; simp [Gen.raise] at hr

/-- C12. With limits, every produced transcript is sorted: an on-campus course
before a transferred one, then by year, term, and class id. -/
theorem C12_sorted (o : SetOrder) (ho : o.Lawful) (limits : List Limit) (hne : limits ≠ [])
    (courses t : List Course) (forced : List String)
    (ht : t ∈ (limitedTranscripts o limits courses forced).items) :
    t.Pairwise (fun a b =>
      a.courseType.sortOrder < b.courseType.sortOrder ∨
      a.courseType.sortOrder = b.courseType.sortOrder ∧ (a.year < b.year ∨
      a.year = b.year ∧ (a.term < b.term ∨ a.term = b.term ∧ a.clbid ≤ b.clbid))) := by
  obtain ⟨p⟩ := produced ho hne ht
  refine p.sorted.imp ?_
  intro a b h
  simpa only [Course.sortLe, Bool.or_eq_true, Bool.and_eq_true, decide_eq_true_eq, beq_iff_eq] using h

/-- C12. Without limits the courses pass through unchanged, as the only transcript. -/
theorem C12_no_limits (o : SetOrder) (courses : List Course) (forced : List String) :
    limitedTranscripts o [] courses forced = ⟨[courses], none⟩ := by
  simp [limitedTranscripts, Gen.one]

/-- Non-trivial case for C12: two limits reach the same selection in several ways
but emit it once; the transfer course sorts last. -/
example : ((limitedTranscripts .insertion
    [{ atMost := 1, where' := eqPred "subject" "CSCI" }, { atMost := 1, where' := eqPred "name" "X" }]
    [{ clbid := "0", courseType := .transfer }, { clbid := "1", subject := "CSCI", name := "X" }] []).items.map
      (fun t => t.map (·.clbid))) = [["0"], ["1", "0"]] := by decide +kernel

/-! ### C11 -/

/-- A selection of the limited courses that keeps to every limit. -/
structure Admissible (limits : List Limit) (courses : List Course) (forced : List String)
    (s : List Course) : Prop where
  nodup : s.Nodup
  sub : ∀ c ∈ s, c ∈ courses ∧ Limited limits forced c
  within : ∀ l ∈ limits, l.used forced s ≤ l.atMost

/-- ... and that cannot be enlarged. -/
def MaximalSelection (limits : List Limit) (courses : List Course) (forced : List String)
    (s : List Course) : Prop :=
  Admissible limits courses forced s ∧
  ∀ s', Admissible limits courses forced s' → (∀ c ∈ s, c ∈ s') → ∀ c ∈ s', c ∈ s

/-- The transcript consisting of the unlimited courses and the selection is produced. -/
def Offered (o : SetOrder) (limits : List Limit) (courses : List Course) (forced : List String)
    (s : List Course) : Prop :=
  ∃ t ∈ (limitedTranscripts o limits courses forced).items,
    ∀ c, c ∈ t ↔ (c ∈ courses ∧ ¬ Limited limits forced c) ∨ c ∈ s

theorem Limit.used_le_of_subset {l : Limit} {forced : List String} {a b : List Course}
    (ha : a.Nodup) (hpos : ∀ c ∈ b, l.Counts forced c → 0 ≤ l.amount c)
    (hsub : ∀ c ∈ a, l.Counts forced c → c ∈ b) : l.used forced a ≤ l.used forced b := by
  rw [Limit.used_eq_total, Limit.used_eq_total]
  unfold Limit.total
  set p : Course → Bool := fun c => !forced.contains c.clbid
  have hc : ∀ c, (p c = true ∧ l.hits c = true) ↔ l.Counts forced c := by
    intro c; simp [p, Limit.Counts, Limit.hits_iff]
  have hsp : ((a.filter p).filter l.hits).Subperm ((b.filter p).filter l.hits) := by
    apply List.Nodup.subperm ((ha.filter _).filter _)
    intro c hcm
    simp only [List.mem_filter] at hcm ⊢
    exact ⟨⟨hsub c hcm.1.1 ((hc c).1 ⟨hcm.1.2, hcm.2⟩), hcm.1.2⟩, hcm.2⟩
  obtain ⟨x, hx1, hx2⟩ := hsp
  rw [← perm_sum_rat (hx1.map l.amount)]
  have hnn : ∀ c ∈ (b.filter p).filter l.hits, 0 ≤ l.amount c := by
    intro c hcm
    simp only [List.mem_filter] at hcm
    exact hpos c hcm.1.1 ((hc c).1 ⟨hcm.1.2, hcm.2⟩)
  clear hx1
  generalize (b.filter p).filter l.hits = y at hx2 hnn
  induction hx2 with
  | slnil => simp
  | cons c _ ih =>
    simp only [List.map_cons, List.sum_cons]
    have := ih (fun c' hc' => hnn c' (List.mem_cons_of_mem _ hc'))
    have := hnn c List.mem_cons_self
    linarith
  | cons_cons c _ ih =>
    simp only [List.map_cons, List.sum_cons]
    have := ih (fun c' hc' => hnn c' (List.mem_cons_of_mem _ hc'))
    linarith

/-- Enough for a selection to be offered. -/
theorem offered_of {o : SetOrder} (ho : o.Lawful) {limits : List Limit} (hne : limits ≠ [])
    (hnd : limits.Nodup) {courses : List Course} {forced : List String} (hmax : ∀ l ∈ limits, 0 ≤ l.atMost)
    (hev : Evaluable limits forced courses)
    (hpos : ∀ l ∈ limits, l.what = .credits → ∀ c ∈ courses, l.Counts forced c → 0 < c.credits)
    {s : List Course} (hs : Admissible limits courses forced s)
    (hfull : ∀ l ∈ limits, l.what = .credits → l.used forced courses.dedup ≤ l.atMost →
      ∀ c ∈ courses, l.Counts forced c → c ∈ s) :
    Offered o limits courses forced s ∧ (limitedTranscripts o limits courses forced).err = none := by
  obtain ⟨d, hd⟩ := probeAll_ok (fun c => forced.contains c.clbid) courses limits
    (fun l hl c hc hf => hev l hl c hc (by simpa using hf)) []
  obtain ⟨hinv, heval⟩ := probeAll_nil hd
  have hforced : ∀ c ∈ courses, Limited limits forced c → forced.contains c.clbid = false := by
    rintro c _ ⟨l, _, h, _⟩; simpa using h
  -- members of the dictionary entries
  have hms : ∀ l ms, (l, ms) ∈ d → ms.Nodup ∧ l ∈ limits ∧ ∀ c, c ∈ ms ↔ c ∈ courses ∧ l.Counts forced c := by
    intro l ms hm
    obtain ⟨h1, h2, h3⟩ := hinv.vals l ms hm
    refine ⟨h1, ?_, ?_⟩
    · obtain ⟨c, hc⟩ := List.exists_mem_of_ne_nil _ h2
      exact ((h3 c).1 hc).1
    · intro c
      rw [h3]
      constructor
      · rintro ⟨_, q2, q3, q4⟩
        exact ⟨q2, by simpa using q3, (Limit.hits_iff l c).1 q4⟩
      · rintro ⟨q1, q2, q3⟩
        obtain ⟨c0, hc0⟩ := List.exists_mem_of_ne_nil _ h2
        exact ⟨((h3 c0).1 hc0).1, q1, by simpa using q2, (Limit.hits_iff l c).2 q3⟩
  have hamt : ∀ l ∈ limits, ∀ c ∈ courses, l.Counts forced c → 0 < l.amount c := by
    intro l hl c hc hcc
    unfold Limit.amount
    split
    · norm_num
    · rename_i hw; exact hpos l hl hw c hc hcc
  -- the part of the selection for one limit
  let pick : Limit → List Course → List Course := fun _ ms => (sortCourses ms).filter (fun c => s.contains c)
  have hpick_mem : ∀ l ms, (l, ms) ∈ d → ∀ c, c ∈ pick l ms ↔ c ∈ s ∧ l.Counts forced c := by
    intro l ms hm c
    simp only [pick, List.mem_filter, mem_sortCourses, List.contains_iff_mem, (hms l ms hm).2.2 c]
    constructor
    · rintro ⟨⟨_, h2⟩, h3⟩; exact ⟨h3, h2⟩
    · rintro ⟨h1, h2⟩; exact ⟨⟨(hs.sub c h1).1, h2⟩, h1⟩
  have hpick_nd : ∀ l ms, (l, ms) ∈ d → (pick l ms).Nodup := by
    intro l ms hm
    exact ((sortCourses_perm ms).nodup_iff.2 (hms l ms hm).1).filter _
  have hpick_perm : ∀ l ms, (l, ms) ∈ d → (pick l ms).Perm (s.filter (fun c => l.Counts forced c)) := by
    intro l ms hm
    rw [List.perm_ext_iff_of_nodup (hpick_nd l ms hm) (hs.nodup.filter _)]
    intro c
    rw [hpick_mem l ms hm, List.mem_filter, decide_eq_true_iff]
  have hpick : ∀ l ms, (l, ms) ∈ d → pick l ms ∈ l.iterate ms := by
    intro l ms hm
    have hl := (hms l ms hm).2.1
    have hwith := hs.within l hl
    cases hw : l.what with
    | courses =>
      rw [Limit.mem_iterate_courses hw]
      refine ⟨List.filter_sublist, ?_⟩
      rw [(hpick_perm l ms hm).length_eq]
      simp only [Limit.used, hw] at hwith
      have h0 := hmax l hl
      generalize (s.filter (fun c => l.Counts forced c)).length = n at hwith
      unfold truncInt
      rw [Int.tdiv_eq_ediv_of_nonneg (Rat.num_nonneg.2 h0)]
      rw [Int.le_ediv_iff_mul_le (by exact_mod_cast l.atMost.den_pos)]
      have h1 : l.atMost = (l.atMost.num : Rat) / (l.atMost.den : Rat) := (Rat.num_div_den _).symm
      rw [h1, le_div_iff₀ (by exact_mod_cast l.atMost.den_pos)] at hwith
      exact_mod_cast hwith
    | credits =>
      rw [Limit.mem_iterate_credits hw]
      have hsum : sumCredits (pick l ms) ≤ l.atMost := by
        rw [sumCredits_perm (hpick_perm l ms hm)]
        simpa only [Limit.used, hw, sumCredits] using hwith
      by_cases hfit : sumCredits ms ≤ l.atMost
      · left
        refine ⟨hfit, ?_⟩
        apply List.filter_eq_self.2
        intro c hc
        rw [mem_sortCourses, (hms l ms hm).2.2] at hc
        rw [List.contains_iff_mem]
        apply hfull l hl hw _ c hc.1 hc.2
        have : (courses.dedup.filter (fun c => l.Counts forced c)).Perm ms := by
          rw [List.perm_ext_iff_of_nodup ((List.nodup_dedup _).filter _) (hms l ms hm).1]
          intro c
          rw [List.mem_filter, List.mem_dedup, decide_eq_true_iff, (hms l ms hm).2.2]
        simp only [Limit.used, hw]
        rw [show ((courses.dedup.filter (fun c => l.Counts forced c)).map (·.credits)).sum = sumCredits ms from
          sumCredits_perm this]
        exact hfit
      · exact .inr ⟨hfit, List.filter_sublist, hsum⟩
  have hallne : ∀ x ∈ d.map (fun lm => lm.1.iterate lm.2), x ≠ [] := by
    intro x hx
    obtain ⟨⟨l, ms⟩, hm, rfl⟩ := List.mem_map.1 hx
    exact List.ne_nil_of_mem (hpick l ms hm)
  have hprod : lazyProduct (d.map (fun lm => Gen.ofList (lm.1.iterate lm.2))) =
      Gen.ofList (cartesian (d.map (fun lm => lm.1.iterate lm.2))) := by
    have := lazyProduct_ofList _ hallne
    rw [List.map_map] at this
    exact this
  have hres := cartesian_of_choice d pick hpick
  -- anything chosen can be checked without exceptions
  have hcheckable : ∀ results ∈ cartesian (d.map (fun lm => lm.1.iterate lm.2)), ∀ c ∈ results.flatten,
      c ∈ courses ∧ Limited limits forced c := by
    intro results hr c hc
    rw [List.mem_flatten] at hc
    obtain ⟨x, hx, hcx⟩ := hc
    obtain ⟨l, ms, hm, hsi⟩ := (cartesian_pos hr).1 x hx
    have hcm : c ∈ ms := mem_sortCourses.1 ((Limit.iterate_sublist hsi).subset hcx)
    have := ((hms l ms hm).2.2 c).1 hcm
    exact ⟨this.1, l, (hms l ms hm).2.1, this.2⟩
  have hev' : ∀ l ∈ limits, ∀ c ∈ courses, Limited limits forced c →
      l.where'.applyCourse c = .ok (l.hits c) :=
    fun l hl c hc hlim => heval l hl c hc (hforced c hc hlim)
  have herr : ∀ results ∈ cartesian (d.map (fun lm => lm.1.iterate lm.2)), ∀ j,
      ∃ b, checkLimits limits (o.check j results.flatten.dedup) = .ok b := by
    intro results hr j
    apply checkFrom_ok
    intro l hl c hc
    rw [(ho j _).1.mem_iff, List.mem_dedup] at hc
    obtain ⟨h1, h2⟩ := hcheckable results hr c hc
    exact ⟨_, hev' l hl c h1 h2⟩
  have hunion : ∀ c, c ∈ (d.map (fun lm => pick lm.1 lm.2)).flatten ↔ c ∈ s := by
    intro c
    simp only [List.mem_flatten, List.mem_map]
    constructor
    · rintro ⟨_, ⟨⟨l, ms⟩, hm, rfl⟩, hc⟩
      exact ((hpick_mem l ms hm c).1 hc).1
    · intro hc
      obtain ⟨h1, l, hl, hcc⟩ := hs.sub c hc
      obtain ⟨ms, hm⟩ := hinv.has l c ⟨hl, h1, by simpa using hcc.1, (Limit.hits_iff l c).2 hcc.2⟩
      exact ⟨_, ⟨(l, ms), hm, rfl⟩, (hpick_mem l ms hm c).2 ⟨hc, hcc⟩⟩
  have hsperm : ((d.map (fun lm => pick lm.1 lm.2)).flatten.dedup).Perm s := by
    rw [List.perm_ext_iff_of_nodup (List.nodup_dedup _) hs.nodup]
    intro c; rw [List.mem_dedup, hunion]
  have hpass : ∀ j, checkLimits limits (o.check j (d.map (fun lm => pick lm.1 lm.2)).flatten.dedup) = .ok true := by
    intro j
    have hperm := (ho j (d.map (fun lm => pick lm.1 lm.2)).flatten.dedup).1.trans hsperm
    apply checkLimits_pass hnd
    · intro l hl c hc
      obtain ⟨h1, h2⟩ := hs.sub c (hperm.mem_iff.1 hc)
      exact hev' l hl c h1 h2
    · intro l hl c hc hh
      obtain ⟨h1, h2⟩ := hs.sub c (hperm.mem_iff.1 hc)
      have hf : c.clbid ∉ forced := by simpa using hforced c h1 h2
      exact hamt l hl c h1 ((Limit.counts_iff_hits hf).2 hh)
    · intro l hl
      rw [Limit.total_perm hperm]
      have h1 := hs.within l hl
      rw [Limit.used_eq_total] at h1
      have hall : s.filter (fun c => !forced.contains c.clbid) = s := by
        rw [List.filter_eq_self]
        intro c hc
        have := hs.sub c hc
        rw [hforced c this.1 this.2]; rfl
      rw [hall] at h1
      exact h1
  set un := courses.dedup.filter (fun c => !(d.flatMap (·.2)).contains c) with hun
  obtain ⟨e1, e2⟩ := emitLoop_complete limits un o _ herr 0 []
  have hout : limitedTranscripts o limits courses forced =
      emitLoop limits un o 0 [] (cartesian (d.map (fun lm => lm.1.iterate lm.2))) := by
    simp only [limitedTranscripts, if_neg hne, hd, hprod]
    exact Gen.append_nil _
  rw [Offered, hout]
  refine ⟨?_, e1⟩
  rcases e2 _ hres hpass with ⟨e, he, _⟩ | ⟨t, ht, j, these, h1, _, h3⟩
  · cases he
  · refine ⟨t, ht, ?_⟩
    intro c
    rw [h3, mem_sortCourses, (ho j _).2.mem_iff, List.mem_append, ← sameSet_iff.1 h1 c, List.mem_dedup, hunion]
    have : c ∈ un ↔ c ∈ courses ∧ ¬ Limited limits forced c := by
      simp only [hun, List.mem_filter, List.mem_dedup, Bool.not_eq_true', List.contains_eq_mem,
        decide_eq_false_iff_not, dict_mem_iff hinv]
      tauto
    rw [this]

/-- C11 is false: here a credit limit that nothing exceeds and a course limit
leave no transcript at all, in any iteration order, although keeping just one
of the two courses is admissible. -/
theorem C11_refuted : ∃ (limits : List Limit) (courses : List Course),
    limits.Nodup ∧ (∀ l ∈ limits, 0 ≤ l.atMost) ∧ (∀ c ∈ courses, 0 < c.credits) ∧
    (∃ s, s ≠ [] ∧ Admissible limits courses [] s) ∧
    (∀ o : SetOrder, o.Lawful → (limitedTranscripts o limits courses []).items = []) := by
  let l1 : Limit := { atMost := 4, what := .credits, where' := eqPred "level" "300" }
  let l2 : Limit := { atMost := 1, where' := eqPred "subject" "CSCI" }
  let a : Course := { clbid := "1", subject := "CSCI", level := 300 }
  let b : Course := { clbid := "2", subject := "CSCI", level := 300 }
  have hc1 : l2.Counts [] a := by decide +kernel
  refine ⟨[l1, l2], [a, b], by decide +kernel, by decide +kernel, by decide +kernel,
    ⟨[a], by simp, ⟨by simp, ?_, by decide +kernel⟩⟩, ?_⟩
  · intro c hc
    rw [List.mem_singleton] at hc
    subst hc
    exact ⟨by simp, l2, by simp, hc1⟩
  · intro o ho
    rw [List.eq_nil_iff_forall_not_mem]
    intro t ht
    have hne : [l1, l2] ≠ [] := by simp
    obtain ⟨p⟩ := produced ho hne ht
    obtain ⟨ms, hms⟩ := p.inv.has l1 a ⟨by simp, by simp, by decide, by decide +kernel⟩
    obtain ⟨pick, hp1, hp2⟩ := cartesian_pick p.inv.keys p.chosen
    have hmm := (p.inv.vals l1 ms hms)
    have hperm : ms.Perm [a, b] := by
      rw [List.perm_ext_iff_of_nodup hmm.1 (by decide +kernel)]
      intro c
      rw [hmm.2.2]
      constructor
      · exact fun h => h.2.1
      · intro hc
        refine ⟨by simp, hc, by simp, ?_⟩
        revert c
        decide +kernel
    have hfit : sumCredits ms ≤ l1.atMost := by
      rw [sumCredits_perm hperm]; decide +kernel
    have hpick : pick l1 = sortCourses ms := by
      rcases (Limit.mem_iterate_credits rfl).1 (hp1 l1 ms hms) with ⟨_, h⟩ | ⟨h, _⟩
      · exact h
      · exact absurd hfit h
    have hin : ∀ c ∈ [a, b], c ∈ t := by
      intro c hc
      apply p.out.mem_iff.2
      rw [List.mem_append, p.these_eq, List.mem_dedup]
      right
      rw [hp2]
      refine ⟨l1, ms, hms, ?_⟩
      rw [hpick, mem_sortCourses, hperm.mem_iff]
      exact hc
    have hle := C09_course_limits_respected o ho [l1, l2] [a, b] t [] ht l2 (by simp) rfl 1 (by decide +kernel)
    have hsp : [a, b].Subperm (t.filter (fun c => l2.Counts [] c)) := by
      apply List.Nodup.subperm (by decide +kernel)
      intro c hc
      rw [List.mem_filter]
      refine ⟨hin c hc, ?_⟩
      revert c
      decide +kernel
    have := hsp.length_le
    simp at this
    omega

/-- C11 also fails when one limit is listed twice: each course then counts twice
and the one-course selection is never offered. -/
theorem C11_repeated_limit_refuted : ∃ (limits : List Limit) (courses s : List Course),
    (∀ l ∈ limits, l.what = .courses) ∧ MaximalSelection limits courses [] s ∧
    ¬ Offered .insertion limits courses [] s := by
  let l : Limit := { atMost := 1, where' := eqPred "subject" "CSCI" }
  let a : Course := { clbid := "1", subject := "CSCI" }
  have hl : ∀ c ∈ [a], c ∈ [a] ∧ Limited [l, l] [] c := by
    intro c hc
    refine ⟨hc, l, by simp, ?_⟩
    rw [List.mem_singleton] at hc
    subst hc
    decide +kernel
  refine ⟨[l, l], [a], [a], by decide, ⟨⟨by simp, hl, by decide +kernel⟩, ?_⟩, ?_⟩
  · intro s' hs' _ c hc
    exact (hs'.sub c hc).1
  · rintro ⟨t, ht, hmem⟩
    have hitems : (limitedTranscripts .insertion [l, l] [a] []).items = [[]] := by decide +kernel
    rw [hitems, List.mem_singleton] at ht
    subst ht
    have := (hmem a).2 (.inr (by simp))
    cases this

/-- C11 (missing: credit limits sharing courses with other limits, courses
without credits under a credit limit, limits listed twice; false there). With
distinct limits, evaluable filters, non-negative maxima, and credit limits whose
courses carry credits and are counted by no other limit, every maximal
admissible selection is offered. -/
theorem C11_maximal_selections_offered_partial (o : SetOrder) (ho : o.Lawful) (limits : List Limit)
    (hne : limits ≠ []) (hnd : limits.Nodup) (courses : List Course) (forced : List String)
    (hmax : ∀ l ∈ limits, 0 ≤ l.atMost) (hev : Evaluable limits forced courses)
    (hcredit : ∀ l ∈ limits, l.what = .credits → ∀ c ∈ courses, l.Counts forced c →
      0 < c.credits ∧ ∀ k ∈ limits, k.Counts forced c → k = l)
    (s : List Course) (hs : MaximalSelection limits courses forced s) :
    Offered o limits courses forced s := by
  refine (offered_of ho hne hnd hmax hev (fun l hl hw c hc hcc => (hcredit l hl hw c hc hcc).1) hs.1 ?_).1
  intro l hl hw hfit c hc hcc
  by_contra hcs
  have hadm : Admissible limits courses forced (c :: s) := by
    refine ⟨List.nodup_cons.2 ⟨hcs, hs.1.nodup⟩, ?_, ?_⟩
    · intro x hx
      rcases List.mem_cons.1 hx with rfl | hx
      · exact ⟨hc, l, hl, hcc⟩
      · exact hs.1.sub x hx
    · intro k hk
      by_cases hkl : k = l
      · subst hkl
        refine le_trans (Limit.used_le_of_subset (b := courses.dedup)
          (List.nodup_cons.2 ⟨hcs, hs.1.nodup⟩) ?_ ?_) hfit
        · intro x hx hxc
          simp only [Limit.amount, hw]
          exact (hcredit k hl hw x (List.mem_dedup.1 hx) hxc).1.le
        · intro x hx _
          rw [List.mem_dedup]
          rcases List.mem_cons.1 hx with rfl | hx
          · exact hc
          · exact (hs.1.sub x hx).1
      · have hnc : ¬ k.Counts forced c := fun h => hkl ((hcredit l hl hw c hc hcc).2 k hk h)
        have := hs.1.within k hk
        simpa only [Limit.used, List.filter_cons, hnc, decide_false, Bool.false_eq_true, if_false] using this
  exact hcs (hs.2 _ hadm (fun x hx => List.mem_cons_of_mem _ hx) c (by simp))

/-- C11 when all the limits count courses (missing: credit limits): every
admissible selection, maximal or not, is offered, so at least one transcript is
produced and no exception is raised. -/
theorem C11_course_limits_all_selections_partial (o : SetOrder) (ho : o.Lawful) (limits : List Limit)
    (hne : limits ≠ []) (hnd : limits.Nodup) (courses : List Course) (forced : List String)
    (hmax : ∀ l ∈ limits, 0 ≤ l.atMost) (hev : Evaluable limits forced courses)
    (hcourse : ∀ l ∈ limits, l.what = .courses) :
    (∀ s, Admissible limits courses forced s → Offered o limits courses forced s) ∧
    (limitedTranscripts o limits courses forced).items ≠ [] ∧
    (limitedTranscripts o limits courses forced).err = none := by
  have key : ∀ s, Admissible limits courses forced s → Offered o limits courses forced s ∧
      (limitedTranscripts o limits courses forced).err = none := by
    intro s hs
    refine offered_of ho hne hnd hmax hev ?_ hs ?_
    · intro l hl hw; rw [hcourse l hl] at hw; cases hw
    · intro l hl hw; rw [hcourse l hl] at hw; cases hw
  have h0 : Admissible limits courses forced [] :=
    ⟨by simp, by simp, fun l hl => by
      have := hmax l hl
      simpa [Limit.used, hcourse l hl] using this⟩
  refine ⟨fun s hs => (key s hs).1, ?_, (key [] h0).2⟩
  obtain ⟨t, ht, _⟩ := (key [] h0).1
  exact List.ne_nil_of_mem ht

/-- Non-trivial case for the partial C11 theorems: a maximal selection of one of
two courses under one limit, and its presence in the output. -/
example : (limitedTranscripts .insertion [{ atMost := 1, where' := eqPred "subject" "CSCI" }]
    [{ clbid := "1", subject := "CSCI" }, { clbid := "2", subject := "CSCI" }] []).items.map
      (fun t => t.map (·.clbid)) = [[], ["1"], ["2"]] := by decide +kernel

/-! ### C45 -/

theorem eq_of_perm_sorted {a b : List Course} (hp : a.Perm b)
    (ha : a.Pairwise (fun x y => x.sortLe y = true)) (hb : b.Pairwise (fun x y => x.sortLe y = true))
    (huniq : ∀ x ∈ a, ∀ y ∈ a, x.clbid = y.clbid → x = y) : a = b := by
  apply List.Perm.eq_of_pairwise (le := fun x y => x.sortLe y = true) _ ha hb hp
  intro x y hx hy h1 h2
  exact huniq x hx y (hp.mem_iff.2 hy) (Course.sortLe_antisymm_clbid x y h1 h2)

theorem check_order_irrelevant {limits : List Limit} (hnd : limits.Nodup)
    (hcourse : ∀ l ∈ limits, l.what = .courses) {a b : List Course} (hp : a.Perm b)
    (hev : ∀ l ∈ limits, ∀ c ∈ a, l.where'.applyCourse c = .ok (l.hits c)) :
    checkLimits limits a = checkLimits limits b := by
  have hamt : ∀ l ∈ limits, ∀ x, l.amount x = 1 := by
    intro l hl x; simp [Limit.amount, hcourse l hl]
  have key : ∀ a b : List Course, a.Perm b →
      (∀ l ∈ limits, ∀ c ∈ a, l.where'.applyCourse c = .ok (l.hits c)) →
      checkLimits limits a = .ok true → checkLimits limits b = .ok true := by
    intro a b hp hev h
    apply checkFrom_pass hnd b (fun l hl c hc => hev l hl c (hp.mem_iff.2 hc))
    rintro l hl x c y rfl hh
    have hb := checkLimits_bound hl (cs := a) (by intro z _; rw [hamt l hl]; norm_num) h
    have hc : c ∈ a := hp.mem_iff.2 (by simp)
    rcases hb with hb | ⟨z, _, _, hz⟩
    · rw [hb c hc] at hh; cases hh
    · rw [Limit.total_perm hp, Limit.total_append, Limit.total_cons_hit hh, hamt l hl, hamt l hl] at hz
      have : 0 ≤ l.total y := Limit.total_nonneg (fun q _ _ => by rw [hamt l hl]; norm_num)
      linarith
  obtain ⟨x, hx⟩ := checkFrom_ok (limits := limits) (cs := a) (fun l hl c hc => ⟨_, hev l hl c hc⟩) (fun _ => 0)
  obtain ⟨y, hy⟩ := checkFrom_ok (limits := limits) (cs := b)
    (fun l hl c hc => ⟨_, hev l hl c (hp.mem_iff.2 hc)⟩) (fun _ => 0)
  have hx : checkLimits limits a = .ok x := hx
  have hy : checkLimits limits b = .ok y := hy
  rw [hx, hy]
  cases x <;> cases y <;> try rfl
  · have := key b a hp.symm (fun l hl c hc => hev l hl c (hp.mem_iff.2 hc)) hy
    rw [this] at hx; cases hx
  · have := key a b hp hev hx
    rw [this] at hy; cases hy

theorem emitLoop_order {limits : List Limit} {un : List Course} {o o' : SetOrder} (ho : o.Lawful)
    (ho' : o'.Lawful) (rs : List (List (List Course)))
    (hchk : ∀ results ∈ rs, ∀ a b : List Course, a.Perm results.flatten.dedup → b.Perm results.flatten.dedup →
      checkLimits limits a = checkLimits limits b)
    (hsort : ∀ results ∈ rs, ∀ a b : List Course, a.Perm (un ++ results.flatten.dedup) →
      b.Perm (un ++ results.flatten.dedup) → sortCourses a = sortCourses b) :
    ∀ i em, emitLoop limits un o i em rs = emitLoop limits un o' i em rs := by
  induction rs with
  | nil => intro i em; rfl
  | cons results rs ih =>
    intro i em
    have ih := ih (fun r hr => hchk r (List.mem_cons_of_mem _ hr)) (fun r hr => hsort r (List.mem_cons_of_mem _ hr))
    simp only [emitLoop]
    rw [hchk results (by simp) _ _ (ho i _).1 (ho' i _).1,
      hsort results (by simp) _ _ (ho i _).2 (ho' i _).2, ih, ih]

/-- C45 is false for credit limits: with a course of no credits, whether the
full selection is produced depends on the iteration order of a set. -/
theorem C45_credit_limits_refuted : ∃ (limits : List Limit) (courses : List Course) (o o' : SetOrder),
    limits.Nodup ∧ (∀ c ∈ courses, 0 ≤ c.credits) ∧ o.Lawful ∧ o'.Lawful ∧
    (limitedTranscripts o limits courses []).items = [courses] ∧
    (limitedTranscripts o' limits courses []).items = [] := by
  refine ⟨[{ atMost := 1, what := .credits, where' := eqPred "subject" "CSCI" }],
    [{ clbid := "1", subject := "CSCI", credits := 0 }, { clbid := "2", subject := "CSCI", credits := 1 }],
    .insertion, ⟨fun _ l => l.reverse, fun _ l => l⟩, by decide +kernel, by decide +kernel,
    fun i l => ⟨.refl _, .refl _⟩, fun i l => ⟨List.reverse_perm l, .refl _⟩,
    by decide +kernel, by decide +kernel⟩

/-- C45 (missing: credit limits, for which it is false, and a limit listed
twice). With distinct limits that count courses and distinct class ids, the
produced transcripts, their order included, do not depend on the iteration
order of any set. -/
theorem C45_order_independent_partial (o o' : SetOrder) (ho : o.Lawful) (ho' : o'.Lawful)
    (limits : List Limit) (hnd : limits.Nodup) (hcourse : ∀ l ∈ limits, l.what = .courses)
    (courses : List Course) (forced : List String)
    (huniq : ∀ x ∈ courses, ∀ y ∈ courses, x.clbid = y.clbid → x = y) :
    limitedTranscripts o limits courses forced = limitedTranscripts o' limits courses forced := by
  by_cases hne : limits = []
  · subst hne; simp [limitedTranscripts]
  · simp only [limitedTranscripts, if_neg hne]
    cases hd : probeAll (fun c => forced.contains c.clbid) courses limits [] with
    | error e => rfl
    | ok d =>
      obtain ⟨hinv, heval⟩ := probeAll_nil hd
      simp only
      have hmem : ∀ results ∈ (lazyProduct (d.map (fun lm => Gen.ofList (lm.1.iterate lm.2)))).items,
          ∀ c ∈ results.flatten, c ∈ courses ∧ forced.contains c.clbid = false := by
        intro results hr c hc
        rcases lazyProduct_items (d.map (fun lm => lm.1.iterate lm.2)) with ⟨_, hp⟩ | ⟨_, hp⟩
        · rw [List.map_map] at hp
          have hp' : lazyProduct (d.map (fun lm => Gen.ofList (lm.1.iterate lm.2))) =
            Gen.ofList (cartesian (d.map (fun lm => lm.1.iterate lm.2))) := hp
          rw [hp'] at hr
          rw [List.mem_flatten] at hc
          obtain ⟨s, hs, hcs⟩ := hc
          obtain ⟨l, ms, hm, hsi⟩ := (cartesian_pos hr).1 s hs
          have hcm : c ∈ ms := mem_sortCourses.1 ((Limit.iterate_sublist hsi).subset hcs)
          have := ((hinv.vals l ms hm).2.2 c).1 hcm
          exact ⟨this.2.1, this.2.2.1⟩
        · rw [List.map_map] at hp
          have hp' : lazyProduct (d.map (fun lm => Gen.ofList (lm.1.iterate lm.2))) = Gen.raise .runtimeError := hp
          rw [hp'] at hr; simp [Gen.raise] at hr
      congr 1
      apply emitLoop_order ho ho'
      · intro results hr a b ha hb
        apply check_order_irrelevant hnd hcourse (ha.trans hb.symm)
        intro l hl c hc
        rw [ha.mem_iff, List.mem_dedup] at hc
        obtain ⟨h1, h2⟩ := hmem results hr c hc
        exact heval l hl c h1 h2
      · intro results hr a b ha hb
        apply eq_of_perm_sorted _ (sortCourses_sorted _) (sortCourses_sorted _)
        · intro x hx y hy hxy
          have hin : ∀ z ∈ sortCourses a, z ∈ courses := by
            intro z hz
            rw [mem_sortCourses, ha.mem_iff, List.mem_append, List.mem_filter, List.mem_dedup, List.mem_dedup] at hz
            rcases hz with hz | hz
            · exact hz.1
            · exact (hmem results hr z hz).1
          exact huniq x (hin x hx) y (hin y hy) hxy
        · exact (sortCourses_perm a).trans ((ha.trans hb.symm).trans (sortCourses_perm b).symm)

/-- Non-trivial case: three courses under one limit, two iteration orders. -/
example : (limitedTranscripts ⟨fun _ l => l.reverse, fun _ l => l.reverse⟩
    [{ atMost := 1, where' := eqPred "subject" "CSCI" }]
    [{ clbid := "1", subject := "CSCI" }, { clbid := "2", subject := "CSCI" }, { clbid := "3" }] []).items.map
      (fun t => t.map (·.clbid)) = [["3"], ["1", "3"], ["2", "3"]] := by decide +kernel

end Dp
