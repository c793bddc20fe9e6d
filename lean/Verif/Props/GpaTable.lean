import Verif.Props.EntryOrder
import Verif.Props.Transcript

/-
C81: the table of grades (`gpa_only`).
-/
namespace Dp

/-- the rows of one term, as a reader expects them -/
def termRows (cs : List Course) (t : String) : List GpaRow :=
  let own := cs.filter (fun c => c.isInGpa && c.yearTermText == t)
  if own = [] then [.nothing t]
  else .term t :: ((own.insertionSort (fun a b => a.gpaLe b = true)).map .course
    ++ [.gpa (gradePointAverage own), .cumulative (gradePointAverage (cs.filter (fun c => decide (c.yearTermText ≤ t))))])

theorem gpaItems_filter (cs : List Course) (t : String) :
    gpaItems (cs.filter (fun c => c.yearTermText == t)) = cs.filter (fun c => c.isInGpa && c.yearTermText == t) := by
  unfold gpaItems
  rw [List.filter_filter]

theorem gradePointAverage_items {a b : List Course} (h : (gpaItems a).Perm (gpaItems b)) :
    gradePointAverage a = gradePointAverage b := by
  unfold gradePointAverage
  rw [(h.map (·.gpaPoints)).sum_eq, (h.map (·.credits)).sum_eq]

theorem gpaItems_idem (cs : List Course) : gpaItems (gpaItems cs) = gpaItems cs := by
  unfold gpaItems; rw [List.filter_filter]; simp

theorem gpaItems_append (a b : List Course) : gpaItems (a ++ b) = gpaItems a ++ gpaItems b := by
  unfold gpaItems; rw [List.filter_append]

theorem perm_filter_or {α : Type} (p q : α → Bool) (hd : ∀ a, ¬ (p a = true ∧ q a = true)) (l : List α) :
    (l.filter p ++ l.filter q).Perm (l.filter (fun a => p a || q a)) := by
  induction l with
  | nil => simp
  | cons a l ih =>
    rcases hp : p a with _ | _ <;> rcases hq : q a with _ | _
    · simpa [hp, hq] using ih
    · simp only [List.filter_cons, hp, hq, Bool.false_or, if_true, Bool.false_eq_true, if_false]
      exact (List.perm_middle).trans (ih.cons a)
    · simpa [hp, hq] using ih
    · exact absurd ⟨hp, hq⟩ (hd a)

/-- the rows, given that the terms before these have been listed -/
theorem gpaRows_eq (cs : List Course) : ∀ (ts done : List String) (cum : List Course),
    (done ++ ts).Pairwise (· < ·) → (∀ c ∈ cs, c.yearTermText ∈ done ++ ts) →
    (gpaItems cum).Perm (gpaItems (cs.filter (fun c => decide (c.yearTermText ∈ done)))) →
    gpaRows cs ts cum = ts.flatMap (termRows cs)
  | [], _, _, _, _, _ => rfl
  | t :: ts, done, cum, hs, hall, hcum => by
    have hsplit : done ++ t :: ts = (done ++ [t]) ++ ts := by simp
    have hnot : t ∉ done := by
      intro hm
      have := (List.pairwise_append.1 hs).2.2 t hm t (by simp)
      exact String.lt_irrefl _ this
    have hlater : ∀ c ∈ cs, (c.yearTermText ≤ t ↔ c.yearTermText ∈ done ++ [t]) := by
      intro c hc
      constructor
      · intro hle
        have hm := hall c hc
        rw [hsplit, List.mem_append] at hm
        rcases hm with hm | hm
        · exact hm
        · exfalso
          have := (List.pairwise_append.1 (hsplit ▸ hs)).2.2 t (by simp) _ hm
          exact absurd this (String.not_lt.2 hle)
      · intro hm
        rcases List.mem_append.1 hm with hm | hm
        · exact String.not_lt.1 (fun h => String.lt_irrefl _ (String.lt_trans h ((List.pairwise_append.1 hs).2.2 _ hm t (by simp))))
        · rw [List.mem_singleton.1 hm]; exact String.le_refl _
    have hnew : (gpaItems (cum ++ gpaItems (cs.filter (fun c => c.yearTermText == t)))).Perm
        (gpaItems (cs.filter (fun c => decide (c.yearTermText ∈ done ++ [t])))) := by
      rw [gpaItems_append, gpaItems_idem]
      refine (hcum.append_right _).trans ?_
      rw [← gpaItems_append]
      refine List.Perm.filter _ ?_
      refine (perm_filter_or _ _ ?_ cs).trans ?_
      · rintro c ⟨h1, h2⟩
        simp only [decide_eq_true_eq, beq_iff_eq] at h1 h2
        exact hnot (h2 ▸ h1)
      · refine List.Perm.of_eq (List.filter_congr ?_)
        intro c _
        rw [Bool.eq_iff_iff]
        simp
    have heq : cs.filter (fun c => decide (c.yearTermText ∈ done ++ [t])) = cs.filter (fun c => decide (c.yearTermText ≤ t)) :=
      List.filter_congr (fun c hc => by simp only [hlater c hc])
    unfold gpaRows
    rw [List.flatMap_cons]
    generalize hrest : ts.flatMap (termRows cs) = rest
    dsimp only [termRows]
    rw [gpaItems_filter]
    split
    · rename_i hnone
      rw [List.singleton_append]
      congr 1
      rw [← hrest]
      refine gpaRows_eq cs ts (done ++ [t]) cum (hsplit ▸ hs) (fun c hc => hsplit ▸ hall c hc) ?_
      rw [gpaItems_filter, hnone, List.append_nil] at hnew
      exact hnew
    · rename_i hsome
      have ih := gpaRows_eq cs ts (done ++ [t]) (cum ++ cs.filter (fun c => c.isInGpa && c.yearTermText == t)) (hsplit ▸ hs)
        (fun c hc => hsplit ▸ hall c hc) (by rw [← gpaItems_filter]; exact hnew)
      rw [ih, hrest]
      have h1 : gradePointAverage (cs.filter (fun c => c.yearTermText == t))
          = gradePointAverage (cs.filter (fun c => c.isInGpa && c.yearTermText == t)) := by
        apply gradePointAverage_items
        rw [← gpaItems_filter, gpaItems_idem]
      have h2 : gradePointAverage (cum ++ cs.filter (fun c => c.isInGpa && c.yearTermText == t))
          = gradePointAverage (cs.filter (fun c => decide (c.yearTermText ≤ t))) := by
        apply gradePointAverage_items
        rw [← heq, ← gpaItems_filter]
        exact hnew
      rw [h1, h2]
      simp

/-- **C81** The table of grades has one block for each term in which the student has courses, the terms in increasing order;
each block has the term's courses that count for the average (or says that there are none), the average of the term, and the
average of all courses up to and including the term. -/
theorem C81_table_of_grades (cs : List Course) :
    ∃ ts : List String, ts.Pairwise (· < ·) ∧ (∀ t, t ∈ ts ↔ ∃ c ∈ cs, c.yearTermText = t)
      ∧ gpaTable cs = ts.flatMap (termRows cs) ++ [.overall (gradePointAverage cs)] := by
  have hmem : ∀ t, t ∈ (cs.map Course.yearTermText).dedup.insertionSort (· ≤ ·) ↔ ∃ c ∈ cs, c.yearTermText = t := by
    intro t
    rw [(List.perm_insertionSort _ _).mem_iff, List.mem_dedup, List.mem_map]
  have hsort : ((cs.map Course.yearTermText).dedup.insertionSort (· ≤ ·)).Pairwise (· < ·) := by
    have : Std.Total (fun a b : String => a ≤ b) := ⟨String.le_total⟩
    have : IsTrans String (fun a b : String => a ≤ b) := ⟨fun _ _ _ => String.le_trans⟩
    have h1 := List.pairwise_insertionSort (fun a b : String => a ≤ b) (cs.map Course.yearTermText).dedup
    have h2 : ((cs.map Course.yearTermText).dedup.insertionSort (· ≤ ·)).Nodup :=
      (List.perm_insertionSort _ _).nodup_iff.2 (List.nodup_dedup _)
    refine (List.Pairwise.and h1 h2).imp ?_
    rintro a b ⟨hle, hne⟩
    rcases Classical.em (a < b) with h | h
    · exact h
    · exact absurd (String.le_antisymm hle (String.not_lt.1 h)) hne
  refine ⟨_, hsort, hmem, ?_⟩
  unfold gpaTable
  rw [gpaRows_eq cs _ [] [] (by simpa using hsort) (fun c hc => by simpa using (hmem _).2 ⟨c, hc, rfl⟩) (by simp [gpaItems])]

/-- the courses listed in a table -/
def listedCourses (rows : List GpaRow) : List Course := rows.filterMap (fun r => match r with | .course c => some c | _ => none)

/-- the cumulative averages of a table -/
def cumulatives (rows : List GpaRow) : List Rat := rows.filterMap (fun r => match r with | .cumulative q => some q | _ => none)

theorem listed_courses (l : List Course) : listedCourses (l.map .course) = l := by
  induction l with
  | nil => rfl
  | cons a l ih => simpa [listedCourses] using ih

theorem cumulatives_courses (l : List Course) : cumulatives (l.map .course) = [] := by
  induction l with
  | nil => rfl
  | cons a l ih => simpa [cumulatives] using ih

theorem listed_append (a b : List GpaRow) : listedCourses (a ++ b) = listedCourses a ++ listedCourses b :=
  List.filterMap_append

theorem cumulatives_append (a b : List GpaRow) : cumulatives (a ++ b) = cumulatives a ++ cumulatives b :=
  List.filterMap_append

theorem listed_gpaRows (cs : List Course) : ∀ (ts : List String) (cum : List Course), ts.Nodup →
    (listedCourses (gpaRows cs ts cum)).Perm (gpaItems (cs.filter (fun c => decide (c.yearTermText ∈ ts))))
  | [], _, _ => by simp [gpaRows, listedCourses, gpaItems]
  | t :: ts, cum, hn => by
    rw [List.nodup_cons] at hn
    have hsplit : (gpaItems (cs.filter (fun c => decide (c.yearTermText ∈ t :: ts)))).Perm
        (gpaItems (cs.filter (fun c => c.yearTermText == t)) ++ gpaItems (cs.filter (fun c => decide (c.yearTermText ∈ ts)))) := by
      rw [← gpaItems_append]
      refine List.Perm.filter _ ((perm_filter_or _ _ ?_ cs).trans (List.Perm.of_eq (List.filter_congr ?_))).symm
      · rintro c ⟨h1, h2⟩
        simp only [decide_eq_true_eq, beq_iff_eq] at h1 h2
        exact hn.1 (h1 ▸ h2)
      · intro c _; rw [Bool.eq_iff_iff]; simp
    refine List.Perm.trans ?_ hsplit.symm
    unfold gpaRows
    dsimp only
    split
    · rename_i hnone
      rw [hnone]
      exact listed_gpaRows cs ts cum hn.2
    · have ih := listed_gpaRows cs ts (cum ++ gpaItems (cs.filter (fun c => c.yearTermText == t))) hn.2
      have : ∀ (a : List GpaRow) q q' b, listedCourses (.term t :: (a ++ .gpa q :: .cumulative q' :: b))
          = listedCourses a ++ listedCourses b := by
        intro a q q' b
        simp [listedCourses, List.filterMap_append]
      rw [this, listed_courses]
      exact (List.perm_insertionSort _ _).append ih

/-- **C81** Every course that counts for the average is listed exactly once, and no other course is. -/
theorem C81_every_graded_course_once (cs : List Course) :
    (listedCourses (gpaTable cs)).Perm (cs.filter (·.isInGpa)) := by
  unfold gpaTable
  rw [listed_append]
  have h := listed_gpaRows cs ((cs.map Course.yearTermText).dedup.insertionSort (· ≤ ·)) []
    ((List.perm_insertionSort _ _).nodup_iff.2 (List.nodup_dedup _))
  have : cs.filter (fun c => decide (c.yearTermText ∈ (cs.map Course.yearTermText).dedup.insertionSort (· ≤ ·))) = cs := by
    rw [List.filter_eq_self]
    intro c hc
    simp only [decide_eq_true_eq]
    rw [(List.perm_insertionSort _ _).mem_iff, List.mem_dedup]
    exact List.mem_map_of_mem hc
  rw [this] at h
  simpa [listedCourses, gpaItems] using h

theorem cumulatives_gpaRows (cs : List Course) : ∀ (ts : List String) (cum : List Course), ts.Nodup →
    (cumulatives (gpaRows cs ts cum)).getLast? =
      if gpaItems (cs.filter (fun c => decide (c.yearTermText ∈ ts))) = [] then none
      else some (gradePointAverage (cum ++ cs.filter (fun c => decide (c.yearTermText ∈ ts))))
  | [], cum, _ => by simp [gpaRows, cumulatives, gpaItems]
  | t :: ts, cum, hn => by
    rw [List.nodup_cons] at hn
    have hsplit : (gpaItems (cs.filter (fun c => decide (c.yearTermText ∈ t :: ts)))).Perm
        (gpaItems (cs.filter (fun c => c.yearTermText == t)) ++ gpaItems (cs.filter (fun c => decide (c.yearTermText ∈ ts)))) := by
      rw [← gpaItems_append]
      refine List.Perm.filter _ ((perm_filter_or _ _ ?_ cs).trans (List.Perm.of_eq (List.filter_congr ?_))).symm
      · rintro c ⟨h1, h2⟩
        simp only [decide_eq_true_eq, beq_iff_eq] at h1 h2
        exact hn.1 (h1 ▸ h2)
      · intro c _; rw [Bool.eq_iff_iff]; simp
    have hempty : gpaItems (cs.filter (fun c => decide (c.yearTermText ∈ t :: ts))) = [] ↔
        gpaItems (cs.filter (fun c => c.yearTermText == t)) = [] ∧ gpaItems (cs.filter (fun c => decide (c.yearTermText ∈ ts))) = [] := by
      rw [← List.append_eq_nil_iff]
      constructor
      · intro h; rw [h] at hsplit; exact List.nil_perm.1 hsplit
      · intro h; rw [h] at hsplit; exact List.perm_nil.1 hsplit
    unfold gpaRows
    dsimp only
    split
    · rename_i hnone
      have : cumulatives (.nothing t :: gpaRows cs ts cum) = cumulatives (gpaRows cs ts cum) := rfl
      rw [this, cumulatives_gpaRows cs ts cum hn.2]
      by_cases h : gpaItems (cs.filter (fun c => decide (c.yearTermText ∈ ts))) = []
      · rw [if_pos h, if_pos (hempty.2 ⟨hnone, h⟩)]
      · rw [if_neg h, if_neg (fun h' => h (hempty.1 h').2)]
        congr 1
        apply gradePointAverage_items
        rw [gpaItems_append, gpaItems_append]
        refine List.Perm.append_left _ (hsplit.trans ?_).symm
        rw [hnone, List.nil_append]
    · rename_i hsome
      have : ∀ (a : List Course) q q' b, cumulatives (.term t :: (a.map .course ++ .gpa q :: .cumulative q' :: b))
          = q' :: cumulatives b := by
        intro a q q' b
        have h1 : cumulatives (.term t :: (a.map .course ++ .gpa q :: .cumulative q' :: b))
            = cumulatives (a.map .course) ++ cumulatives (.gpa q :: .cumulative q' :: b) := by
          rw [← cumulatives_append]; rfl
        rw [h1, cumulatives_courses]; rfl
      rw [this, List.getLast?_cons, cumulatives_gpaRows cs ts _ hn.2, if_neg (fun h' => hsome (hempty.1 h').1)]
      congr 1
      split
      · rename_i h
        simp only [Option.getD_none]
        apply gradePointAverage_items
        rw [gpaItems_append, gpaItems_append, gpaItems_idem]
        refine List.Perm.append_left _ (hsplit.trans ?_).symm
        rw [h, List.append_nil]
      · simp only [Option.getD_some]
        apply gradePointAverage_items
        rw [gpaItems_append, gpaItems_append, gpaItems_append, gpaItems_idem, List.append_assoc]
        exact List.Perm.append_left _ hsplit.symm

/-- **C81** The last cumulative average of the table is the overall average at its end. -/
theorem C81_last_average_is_overall (cs : List Course) (q : Rat) (h : (cumulatives (gpaTable cs)).getLast? = some q) :
    (gpaTable cs).getLast? = some (.overall q) := by
  have hall : cs.filter (fun c => decide (c.yearTermText ∈ (cs.map Course.yearTermText).dedup.insertionSort (· ≤ ·))) = cs := by
    rw [List.filter_eq_self]
    intro c hc
    simp only [decide_eq_true_eq]
    rw [(List.perm_insertionSort _ _).mem_iff, List.mem_dedup]
    exact List.mem_map_of_mem hc
  unfold gpaTable at h ⊢
  rw [cumulatives_append] at h
  have h1 : cumulatives [.overall (gradePointAverage cs)] = [] := rfl
  rw [h1, List.append_nil, cumulatives_gpaRows cs _ [] ((List.perm_insertionSort _ _).nodup_iff.2 (List.nodup_dedup _)), hall] at h
  split at h
  · cases h
  · cases h
    simp

/-- the order of the courses of a term: by year, term, name, and class id -/
def ListedBefore (a b : Course) : Prop :=
  a.year < b.year ∨ a.year = b.year ∧ (a.term < b.term ∨ a.term = b.term ∧
    (a.identity < b.identity ∨ a.identity = b.identity ∧ a.clbid ≤ b.clbid))

theorem gpaLe_iff (a b : Course) : a.gpaLe b = true ↔ ListedBefore a b := by
  simp [Course.gpaLe, ListedBefore]

theorem listedBefore_total (a b : Course) : ListedBefore a b ∨ ListedBefore b a := by
  unfold ListedBefore
  rcases lt_trichotomy a.year b.year with h | h | h
  · exact .inl (.inl h)
  · rcases Classical.em (a.term < b.term) with h1 | h1
    · exact .inl (.inr ⟨h, .inl h1⟩)
    rcases Classical.em (b.term < a.term) with h2 | h2
    · exact .inr (.inr ⟨h.symm, .inl h2⟩)
    have ht := String.le_antisymm (String.not_lt.1 h2) (String.not_lt.1 h1)
    rcases Classical.em (a.identity < b.identity) with h3 | h3
    · exact .inl (.inr ⟨h, .inr ⟨ht, .inl h3⟩⟩)
    rcases Classical.em (b.identity < a.identity) with h4 | h4
    · exact .inr (.inr ⟨h.symm, .inr ⟨ht.symm, .inl h4⟩⟩)
    have hi := String.le_antisymm (String.not_lt.1 h4) (String.not_lt.1 h3)
    rcases String.le_total a.clbid b.clbid with h5 | h5
    · exact .inl (.inr ⟨h, .inr ⟨ht, .inr ⟨hi, h5⟩⟩⟩)
    · exact .inr (.inr ⟨h.symm, .inr ⟨ht.symm, .inr ⟨hi.symm, h5⟩⟩⟩)
  · exact .inr (.inl h)

theorem listedBefore_trans {a b c : Course} (h : ListedBefore a b) (h' : ListedBefore b c) : ListedBefore a c := by
  unfold ListedBefore at *
  rcases h with h | ⟨e, h⟩
  · rcases h' with h' | ⟨e', _⟩
    · exact .inl (lt_trans h h')
    · exact .inl (e' ▸ h)
  rcases h' with h' | ⟨e', h'⟩
  · exact .inl (e ▸ h')
  refine .inr ⟨e.trans e', ?_⟩
  rcases h with h | ⟨f, h⟩
  · rcases h' with h' | ⟨f', _⟩
    · exact .inl (String.lt_trans h h')
    · exact .inl (f' ▸ h)
  rcases h' with h' | ⟨f', h'⟩
  · exact .inl (f ▸ h')
  refine .inr ⟨f.trans f', ?_⟩
  rcases h with h | ⟨g, h⟩
  · rcases h' with h' | ⟨g', _⟩
    · exact .inl (String.lt_trans h h')
    · exact .inl (g' ▸ h)
  rcases h' with h' | ⟨g', h'⟩
  · exact .inl (g ▸ h')
  exact .inr ⟨g.trans g', String.le_trans h h'⟩

theorem listed_termRows (cs : List Course) (t : String) :
    (listedCourses (termRows cs t)).Pairwise ListedBefore ∧ ∀ c ∈ listedCourses (termRows cs t), c.yearTermText = t := by
  unfold termRows
  dsimp only
  split
  · simp [listedCourses]
  · have e : ∀ (a : List GpaRow) q q', listedCourses (.term t :: (a ++ [.gpa q, .cumulative q'])) = listedCourses a := by
      intro a q q'
      simp [listedCourses, List.filterMap_append]
    rw [e, listed_courses]
    constructor
    · have : Std.Total (fun a b : Course => a.gpaLe b = true) := ⟨fun a b => by
        simp only [gpaLe_iff]; exact listedBefore_total a b⟩
      have : IsTrans Course (fun a b : Course => a.gpaLe b = true) := ⟨fun a b c => by
        simp only [gpaLe_iff]; exact listedBefore_trans⟩
      exact (List.pairwise_insertionSort (fun a b : Course => a.gpaLe b = true) _).imp (fun h => (gpaLe_iff _ _).1 h)
    · intro c hc
      rw [(List.perm_insertionSort _ _).mem_iff, List.mem_filter] at hc
      simpa using (Bool.and_eq_true_iff.1 hc.2).2

/-- **C81** The courses of the table are listed by term, and within a term in the order of year, term, name and class id. -/
theorem C81_courses_in_order (cs : List Course) : (listedCourses (gpaTable cs)).Pairwise (fun a b =>
    a.yearTermText < b.yearTermText ∨ a.yearTermText = b.yearTermText ∧ ListedBefore a b) := by
  obtain ⟨ts, hs, _, h⟩ := C81_table_of_grades cs
  have e : listedCourses (gpaTable cs) = ts.flatMap (fun t => listedCourses (termRows cs t)) := by
    rw [h, listed_append]
    simp [listedCourses, List.filterMap_flatMap]
  rw [e, List.pairwise_flatMap]
  refine ⟨fun t _ => ?_, hs.imp ?_⟩
  · obtain ⟨h1, h2⟩ := listed_termRows cs t
    exact h1.imp_of_mem (fun ha hb hab => .inr ⟨(h2 _ ha).trans (h2 _ hb).symm, hab⟩)
  · intro t t' hlt a ha b hb
    rw [(listed_termRows cs t).2 a ha, (listed_termRows cs t').2 b hb]
    exact .inl hlt

open EntryText in
/-- Non-trivial case: three courses in three terms, written in no particular order. -/
example : (runGpa { student with rows := rows.reverse } (area [] twoCs)).toOption.map (·.map (fun r => match r with
      | .nothing t => (t, "", 0)
      | .term t => (t, "", 0)
      | .course c => ("", c.clbid, 0)
      | .gpa q => ("gpa", "", q)
      | .cumulative q => ("cumulative", "", q)
      | .overall q => ("overall", "", q)))
    = some [("2018-1", "", 0), ("", "1", 0), ("gpa", "", 4), ("cumulative", "", 4),
            ("2018-3", "", 0), ("", "3", 0), ("gpa", "", 2), ("cumulative", "", 3),
            ("2019-1", "", 0), ("", "2", 0), ("gpa", "", 3), ("cumulative", "", 3), ("overall", "", 3)] := by decide +kernel

end Dp
