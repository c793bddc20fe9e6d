import Verif.Props.MeansAssertion

/-
C68: a filter of an area file that compares like with like has an answer for every record.
-/
namespace Dp

/-! ### Specification -/

/-- the operators that ask which of two values is larger -/
def Operator.ordering (op : Operator) : Prop := op = .lt ∨ op = .lte ∨ op = .gt ∨ op = .gte

/-- the operators that can be asked of a list -/
def Operator.ofLists (op : Operator) : Prop := op = .eq ∨ op = .neq ∨ op = .in' ∨ op = .nin

/-- two values one of which can be larger: two numbers, two grades, a text and anything, or one that is missing and one that is
not -/
def Ordered : Sc → Sc → Prop
  | .missing, .missing => False
  | .missing, _ => True
  | _, .missing => True
  | .str _, _ => True
  | _, .str _ => True
  | .num _ _, .num _ _ => True
  | .grade _, .grade _ => True
  | _, _ => False

/-- the operator can compare the two values: `$eq` and `$neq` any two that are not lists, orders those that have one, `$in` and
`$nin` need a list, and of two lists only `$in` can be asked.  A missing value can be compared by any operator with one that is not missing. -/
def Comparable (op : Operator) : Val → Val → Prop
  | .sc l, .sc r => op = .eq ∨ op = .neq ∨ (op.ordering ∧ Ordered l r) ∨ (l = .missing ∧ r ≠ .missing) ∨ (l ≠ .missing ∧ r = .missing)
  | .tup _, .tup _ => op = .in'
  | .tup _, .sc r => r = .missing ∨ op.ofLists
  | .sc l, .tup _ => l = .missing ∨ op.ofLists

/-- the comparison `key: y`, as it is written, makes sense for the record: it has no such attribute value, or one that the
operator can compare with the written one -/
inductive SensibleComparison (c : Constants) (i : Item) (key : String) : Y → Prop
  | absent {d : Dict} : Attribute i key none → SensibleComparison c i key (.map d)
  | present {d : Dict} {op : Operator} {raw y : Y} {v w e : Val} : Attribute i key (some v) → OneOperator d op raw →
      ComparedWith i key d raw y → ValueStands c y w → TakenAs key w e → Comparable op v e → SensibleComparison c i key (.map d)

/-- all comparisons of a filter make sense for the record -/
inductive Sensible (c : Constants) (i : Item) : Y → Prop
  | all {l : List Y} : (∀ y ∈ l, Sensible c i y) → Sensible c i (.map [("$and", .list l)])
  | any {l : List Y} : (∀ y ∈ l, Sensible c i y) → Sensible c i (.map [("$or", .list l)])
  | not {y : Y} : Sensible c i y → Sensible c i (.map [("$not", y)])
  | cond {d : Dict} : (∀ k ∈ ["$and", "$or", "$not"], d.get? k = none) → d.get? "$if" ≠ none →
      (∀ y, d.get? "$then" = some y → Sensible c i y) → (∀ y, d.opt "$else" = some y → Sensible c i y) → Sensible c i (.map d)
  | every {d : Dict} : PlainFilter d → (∀ e ∈ d, SensibleComparison c i e.1 e.2) → Sensible c i (.map d)

/-! ### Comparisons -/

theorem applyScalar_comparable {op : Operator} {l r : Sc} :
    (∃ b, applyScalar op l r = .ok b) ↔ Comparable op (.sc l) (.sc r) := by
  cases l <;> cases r <;> cases op <;>
    simp [applyScalar, Sc.pyEq, Sc.isStr, Sc.pyLt, Sc.pyLe, Sc.pyStr, orTypeError, Comparable, Operator.ordering, Ordered]
  all_goals exact em _

theorem applyOperator_comparable {op : Operator} {v w : Val} : (∃ b, applyOperator op v w = .ok b) ↔ Comparable op v w := by
  cases v with
  | sc l => cases w with
    | sc r => exact applyScalar_comparable
    | tup r =>
      by_cases hl : l = .missing
      · simp [applyOperator, Comparable, hl]
      · obtain ⟨h1, h2⟩ := C16_list_on_the_right l r hl
        simp only [Comparable, hl, false_or, Operator.ofLists]
        constructor
        · rintro ⟨b, hb⟩
          cases op <;> simp_all [applyOperator, applyRightTuple]
        · rintro (rfl | rfl | rfl | rfl)
          · obtain ⟨b, hb, _⟩ := h1 .eq (by simp); exact ⟨b, hb⟩
          · obtain ⟨b, hb, _⟩ := h2 .neq (by simp); exact ⟨b, hb⟩
          · obtain ⟨b, hb, _⟩ := h1 .in' (by simp); exact ⟨b, hb⟩
          · obtain ⟨b, hb, _⟩ := h2 .nin (by simp); exact ⟨b, hb⟩
  | tup l => cases w with
    | sc r =>
      by_cases hr : r = .missing
      · simp [applyOperator, Comparable, hr]
      · obtain ⟨h1, h2⟩ := C16_list_on_the_left l r hr
        simp only [Comparable, hr, false_or, Operator.ofLists]
        constructor
        · rintro ⟨b, hb⟩
          cases op <;> simp_all [applyOperator, applyLeftTuple]
        · rintro (rfl | rfl | rfl | rfl)
          · obtain ⟨b, hb, _⟩ := h1 .eq (by simp); exact ⟨b, hb⟩
          · obtain ⟨b, hb, _⟩ := h2 .neq (by simp); exact ⟨b, hb⟩
          · obtain ⟨b, hb, _⟩ := h1 .in' (by simp); exact ⟨b, hb⟩
          · obtain ⟨b, hb, _⟩ := h2 .nin (by simp); exact ⟨b, hb⟩
    | tup r =>
      obtain ⟨⟨b', hb, _⟩, h2⟩ := C16_list_against_list l r
      simp only [Comparable]
      constructor
      · rintro ⟨b, h⟩
        by_contra hop
        rw [h2 op hop] at h
        cases h
      · rintro rfl
        exact ⟨b', hb⟩

/-- a comparison uses the attribute that the key names -/
theorem applyLeaf_of {i : Item} {key : String} {op : Operator} {e : Val} {cov : Option Val} {v : Option Val}
    (h : Attribute i key v) :
    match v with
    | none => i.applyLeaf ⟨key, op, e, cov⟩ = .ok false
    | some v => ∃ e', i.applyLeaf ⟨key, op, e, cov⟩ = applyOperator op v e' ∧
        ((GradeInCovid i key ∧ e' = cov.getD e) ∨ (¬ GradeInCovid i key ∧ e' = e)) := by
  have hno {k : Course} {key : String} (hk : key ≠ "grade") : ¬ GradeInCovid (.course k) key := fun hc => hk hc.1
  cases h with
  | @course k key v h =>
    refine ⟨e, (C17_comparison_keys k op e cov).1 key v h, .inr ⟨hno ?_, rfl⟩⟩
    rintro rfl
    generalize hg : "grade" = g at h
    cases h <;> simp at hg
  | @ap k h => exact ⟨e, (C17_comparison_keys k op e cov).2.1 h, .inr ⟨hno (by decide), rfl⟩⟩
  | @notAp k h => exact (C17_comparison_keys k op e cov).2.2.1 h
  | @grade k h =>
    cases hd : k.isDuringCovid with
    | false =>
      refine ⟨e, (C17_comparison_keys k op e cov).2.2.2.1 hd, .inr ⟨?_, rfl⟩⟩
      rintro ⟨_, k', hk, hk'⟩
      cases hk
      rw [hd] at hk'
      cases hk'
    | true =>
      refine ⟨_, (C17_comparison_keys k op e cov).2.2.2.2.2.1 hd (h.resolve_left (by simp [hd])), .inl ⟨⟨rfl, k, rfl, hd⟩, rfl⟩⟩
  | @covidGrade k g h1 h2 h3 =>
    exact ⟨_, (C17_comparison_keys k op e cov).2.2.2.2.1 g h1 h2 h3, .inl ⟨⟨rfl, k, rfl, h1⟩, rfl⟩⟩
  | @other i key v h =>
    have hc : ¬ GradeInCovid i key := by
      rintro ⟨_, k', rfl, _⟩
      cases h
    obtain ⟨h1, h2, _⟩ := C17_record_keys i op e cov
    cases v with
    | none => exact h2 key h
    | some v => exact ⟨e, h1 key v h, .inr ⟨hc, rfl⟩⟩

theorem loadLeaf_answers {c : Constants} {mode : DataType} {key : String} {y : Y} {l : PredLeaf} (h : loadLeaf c mode key y = .ok l)
    {i : Item} (hs : SensibleComparison c i key y) : ∃ b, i.applyLeaf l = .ok b := by
  unfold loadLeaf at h
  simp only [ld_bind_ok, ld_asDict] at h
  obtain ⟨d, rfl, allowed, _, _, _, ⟨op, raw⟩, hop, v, hv, cov, hcov, _, _, h⟩ := h
  cases h
  have hop := theOperator_says hop
  generalize hy : Y.map d = y at hs
  cases hs with
  | absent ha => exact ⟨false, applyLeaf_of ha⟩
  | @present d' op' raw' y' a w e ha hop' hcw hvs hta hcmp =>
    cases hy
    obtain ⟨rfl, rfl⟩ := oneOperator_unique hop hop'
    obtain ⟨e', h1, h2⟩ := applyLeaf_of (op := op) (e := v) (cov := cov) ha
    rw [h1, applyOperator_comparable]
    suffices e' = e by rw [this]; exact hcmp
    have plain (he : e' = v) (hy : y' = raw) : e' = e := by
      obtain ⟨w', hw, hw'⟩ := loadValue_says hv
      subst hy
      cases valueStands_unique hvs hw
      rw [he]
      exact takenAs_unique hw' hta
    rcases h2 with ⟨hc, he⟩ | ⟨hc, he⟩
    · split at hcov
      · rename_i hd
        cases hcov
        rcases hcw with ⟨_, hd'⟩ | ⟨_, hy⟩
        · rw [hd] at hd'; cases hd'
        · exact plain he hy
      · rename_i raw2 hd
        rw [ld_map_ok] at hcov
        obtain ⟨v', hv', rfl⟩ := hcov
        obtain ⟨w', hw, hw'⟩ := loadValue_says hv'
        rcases hcw with ⟨_, hd'⟩ | ⟨hn, _⟩
        · rw [hd] at hd'
          cases hd'
          cases valueStands_unique hvs hw
          rw [he]
          exact takenAs_unique hw' hta
        · exact absurd ⟨hc, by simp [hd]⟩ hn
    · rcases hcw with ⟨hc', _⟩ | ⟨_, hy⟩
      · exact absurd hc' hc
      · exact plain he hy

/-! ### Filters -/

theorem applyAll_answers {α : Type} {R : α → Pred → Prop} {f : PredLeaf → Except Err Bool} {l : List α} {ps : List Pred} (h : List.Forall₂ R l ps)
    (hR : ∀ a ∈ l, ∀ p, R a p → ∃ b, p.apply f = .ok b) : ∃ b, Pred.applyAll f ps = .ok b := by
  induction h with
  | nil => exact ⟨true, by simp [Pred.applyAll]⟩
  | @cons a p l ps hp _ ih =>
    obtain ⟨b, hb⟩ := hR a List.mem_cons_self p hp
    obtain ⟨b', hb'⟩ := ih (fun a ha => hR a (List.mem_cons_of_mem _ ha))
    unfold Pred.applyAll
    rw [hb]
    cases b
    · exact ⟨_, rfl⟩
    · exact ⟨_, hb'⟩

theorem applyAny_answers {α : Type} {R : α → Pred → Prop} {f : PredLeaf → Except Err Bool} {l : List α} {ps : List Pred} (h : List.Forall₂ R l ps)
    (hR : ∀ a ∈ l, ∀ p, R a p → ∃ b, p.apply f = .ok b) : ∃ b, Pred.applyAny f ps = .ok b := by
  induction h with
  | nil => exact ⟨false, by simp [Pred.applyAny]⟩
  | @cons a p l ps hp _ ih =>
    obtain ⟨b, hb⟩ := hR a List.mem_cons_self p hp
    obtain ⟨b', hb'⟩ := ih (fun a ha => hR a (List.mem_cons_of_mem _ ha))
    unfold Pred.applyAny
    rw [hb]
    cases b
    · exact ⟨_, hb'⟩
    · exact ⟨_, rfl⟩

theorem loadPred_answers {x : Ctx} {c : Constants} {mode : DataType} {i : Item} : ∀ (n : Nat) (y : Y) (p : Pred),
    loadPred x c mode n y = .ok p → Sensible c i y → ∃ b, p.apply i.applyLeaf = .ok b := by
  intro n
  induction n with
  | zero => intro y p h; simp [loadPred] at h
  | succ n ih =>
    intro y p h hs
    unfold loadPred at h
    rw [ld_bind_ok] at h
    obtain ⟨d, hd, h⟩ := h
    rw [ld_asDict] at hd
    subst hd
    have hparts : ∀ {k : String} {y : Y}, d.get? k = some y → k ∈ ["$and", "$or", "$not"] → d.length = 1 →
        (∀ l, y = .list l → k ≠ "$not" → ∀ z ∈ l, Sensible c i z) ∧ (k = "$not" → Sensible c i y) := by
      intro k y hg hk hl
      have hd := Dict.single hl hg
      subst hd
      generalize he : Y.map [(k, y)] = z at hs
      cases hs with
      | all hz => cases he; exact ⟨fun l hl _ => by cases hl; exact hz, fun h => by simp at h⟩
      | any hz => cases he; exact ⟨fun l hl _ => by cases hl; exact hz, fun h => by simp at h⟩
      | not hz => cases he; exact ⟨fun l hl hk => absurd rfl hk, fun _ => hz⟩
      | cond hz => cases he; have := hz k hk; simp [Dict.get?] at this
      | every hz =>
        cases he
        have := hz k (by
          simp only [List.mem_cons, List.not_mem_nil, or_false] at hk ⊢
          rcases hk with h | h | h <;> simp [h])
        simp [Dict.get?] at this
    split at h
    · simp only [ld_bind_ok, ld_check_ok, ld_need, ld_asList] at h
      obtain ⟨_, hl, _, hg, l, rfl, ps, hps, _, _, h⟩ := h
      cases h
      simp only [Pred.apply]
      have := (hparts hg (by simp) (by simpa using hl)).1 l rfl (by decide)
      exact applyAll_answers (ld_mapE hps) (fun y hy p hp => ih y p hp (this y hy))
    rename_i hand
    split at h
    · simp only [ld_bind_ok, ld_check_ok, ld_need, ld_asList] at h
      obtain ⟨_, hl, _, hg, l, rfl, ps, hps, _, _, h⟩ := h
      cases h
      simp only [Pred.apply]
      have := (hparts hg (by simp) (by simpa using hl)).1 l rfl (by decide)
      exact applyAny_answers (ld_mapE hps) (fun y hy p hp => ih y p hp (this y hy))
    rename_i hor
    split at h
    · simp only [ld_bind_ok, ld_check_ok, ld_need] at h
      obtain ⟨_, hl, y, hg, p', hp', h⟩ := h
      cases h
      obtain ⟨b, hb⟩ := ih y p' hp' ((hparts hg (by simp) (by simpa using hl)).2 rfl)
      simp only [Pred.apply, hb]
      exact ⟨_, rfl⟩
    rename_i hnot
    have h1 := has_false hand
    have h2 := has_false hor
    have h3 := has_false hnot
    split at h
    · rename_i hif
      simp only [ld_bind_ok, ld_need] at h
      obtain ⟨yif, hyif, bc, hbc, yt, hyt, t, ht, e, he, h⟩ := h
      cases h
      have hs : (∀ y, d.get? "$then" = some y → Sensible c i y) ∧ (∀ y, d.opt "$else" = some y → Sensible c i y) := by
        generalize hy : Y.map d = z at hs
        cases hs with
        | all h => cases hy; simp [Dict.get?] at h1
        | any h => cases hy; simp [Dict.get?] at h2
        | not h => cases hy; simp [Dict.get?] at h3
        | cond _ _ ht he => cases hy; exact ⟨ht, he⟩
        | every h => cases hy; rw [h "$if" (by simp)] at hyif; cases hyif
      simp only [Pred.apply]
      cases bc with
      | true => simpa using ih yt t ht (hs.1 yt hyt)
      | false =>
        split at he
        · cases he
          exact ⟨false, by simp [Pred.applyElse]⟩
        · rename_i ye ho
          rw [ld_map_ok] at he
          obtain ⟨e', he', rfl⟩ := he
          simpa [Pred.applyElse] using ih ye e' he' (hs.2 ye ho)
    · rename_i hif
      have hs : ∀ e ∈ d, SensibleComparison c i e.1 e.2 := by
        generalize hy : Y.map d = z at hs
        cases hs with
        | all h => cases hy; simp [Dict.get?] at h1
        | any h => cases hy; simp [Dict.get?] at h2
        | not h => cases hy; simp [Dict.get?] at h3
        | cond _ hn _ _ => cases hy; exact absurd (has_false hif) hn
        | every _ h => cases hy; exact h
      rw [ld_bind_ok] at h
      obtain ⟨ls, hls, h⟩ := h
      have hls := ld_mapE hls
      have hb : ∃ b, Pred.applyAll i.applyLeaf (ls.map .leaf) = .ok b := by
        refine applyAll_answers (R := fun e p => ∃ l, loadLeaf c mode e.1 e.2 = .ok l ∧ p = .leaf l) (l := d) ?_ ?_
        · rw [List.forall₂_map_right_iff]
          exact hls.imp (fun _ l h => ⟨l, h, rfl⟩)
        · rintro e he p ⟨l, hl, rfl⟩
          rw [show (Pred.leaf l).apply i.applyLeaf = i.applyLeaf l by simp [Pred.apply]]
          exact loadLeaf_answers hl (hs e he)
      split at h
      · cases h
        obtain ⟨b, hb⟩ := hb
        simp only [List.map_cons, List.map_nil, Pred.applyAll, Pred.apply] at hb
        simp only [Pred.apply]
        split at hb
        · cases hb
        · exact ⟨_, by assumption⟩
        · exact ⟨_, by assumption⟩
      · cases h
        simpa only [Pred.apply] using hb

theorem loadOptFilter_selects {x : Ctx} {es : List Exc} (hx : x.exceptions = groupExceptions es) {c : Constants} {t : DataType}
    {y : Option Y} {w : Option Pred} (h : loadOptFilter x c t y = .ok w) {l m : List Item} (hk : KeepsWritten x es c y l m)
    (hs : ∀ z, y = some z → ∀ i ∈ l, Sensible c i z) : SelectsItems w l m := by
  unfold loadOptFilter at h
  split at h
  · cases h; exact hk
  · rename_i y
    rw [ld_map_ok] at h
    obtain ⟨p, hp, rfl⟩ := h
    obtain ⟨f, hf, rfl⟩ := hk
    refine ⟨f, fun i hi => ?_, rfl⟩
    obtain ⟨b, hb⟩ := loadPred_answers _ _ _ hp (hs y rfl i hi)
    rw [hb, accepts_unique (hf i hi) (loadPred_says hx _ _ _ hp b hb)]

/-! ### Properties -/

/-- **C68.** A filter of an area file whose comparisons make sense for the record has an answer for it: applying it
never raises an exception, and the answer is the one that its text gives. -/
theorem C68_sensible_filter_answers (x : Ctx) (es : List Exc) (hx : x.exceptions = groupExceptions es) (c : Constants)
    (mode : DataType) (y : Y) (p : Pred) (hp : loadFilter x c mode y = .ok p) (i : Item) (hs : Sensible c i y) :
    ∃ b, p.apply i.applyLeaf = .ok b ∧ Accepts x es c i y b := by
  obtain ⟨b, hb⟩ := loadPred_answers _ _ _ hp hs
  exact ⟨b, hb, loadPred_says hx _ _ _ hp b hb⟩

/-- **C68**, for lists of records: if the comparisons make sense for all of them, filtering does not raise. -/
theorem C68_sensible_filtering_answers (x : Ctx) (c : Constants) (mode : DataType) (y : Y) (p : Pred)
    (hp : loadFilter x c mode y = .ok p) (is : List Item) (hs : ∀ i ∈ is, Sensible c i y) : ∃ kept, filterItems p is = .ok kept := by
  induction is with
  | nil => exact ⟨[], rfl⟩
  | cons i is ih =>
    obtain ⟨b, hb⟩ := loadPred_answers _ _ _ hp (hs i List.mem_cons_self)
    obtain ⟨kept, hk⟩ := ih (fun i hi => hs i (List.mem_cons_of_mem _ hi))
    unfold filterItems
    rw [hb, hk]
    exact ⟨_, rfl⟩

/-- **C68.** A single comparison has an answer exactly for those records for which it makes sense: for all others it raises an
exception. -/
theorem C68_comparison_answers_iff (c : Constants) (mode : DataType) (key : String) (y : Y) (l : PredLeaf)
    (h : loadLeaf c mode key y = .ok l) (i : Item) : (∃ b, i.applyLeaf l = .ok b) ↔ SensibleComparison c i key y := by
  refine ⟨?_, loadLeaf_answers h⟩
  rintro ⟨b, hb⟩
  unfold loadLeaf at h
  simp only [ld_bind_ok, ld_asDict] at h
  obtain ⟨d, rfl, allowed, _, _, _, ⟨op, raw⟩, hop, v, hv, cov, hcov, _, _, h⟩ := h
  cases h
  have hop := theOperator_says hop
  rcases applyLeaf_says hb with ⟨h1, rfl⟩ | ⟨a, e, h1, h2, h3⟩
  · exact .absent h1
  replace h2 := applyOperator_comparable.1 ⟨b, h2⟩
  dsimp only at h1 h2 h3
  have plain (hn : ¬ (GradeInCovid i key ∧ (d.get? "$during_covid").isSome)) (he : e = v) : SensibleComparison c i key (.map d) := by
    obtain ⟨w, hw, hw'⟩ := loadValue_says hv
    exact .present h1 hop (.inr ⟨hn, rfl⟩) hw (he ▸ hw') h2
  rcases h3 with ⟨hc, he⟩ | ⟨hc, he⟩
  · split at hcov
    · rename_i hd
      cases hcov
      exact plain (by simp [hd]) he
    · rename_i raw' hd
      rw [ld_map_ok] at hcov
      obtain ⟨v', hv', rfl⟩ := hcov
      obtain ⟨w, hw, hw'⟩ := loadValue_says hv'
      have he : e = v' := he
      exact .present h1 hop (.inl ⟨hc, hd⟩) hw (he ▸ hw') h2
  · exact plain (fun hn => hc hn.1) he

/-! ### Non-trivial cases -/

/-- a filter with an order on grades, one on credits, and a list -/
def sensibleText : Y := .map [("$and", .list [
  .map [("grade", .map [("$gte", .str "B-")]), ("credits", .map [("$lt", .int 2)])],
  .map [("$not", .map [("attributes", .map [("$in", .list [.str "ge", .str "fol"])])])]])]

/-- It is read, and makes sense for every course. -/
example : (loadFilter {} {} .course sensibleText).isOk = true := by decide +kernel

theorem sensible_for_courses (k : Course) : Sensible {} (.course k) sensibleText := by
  refine .all ?_
  intro y hy
  simp only [List.mem_cons, List.not_mem_nil, or_false] at hy
  have hg : ∃ g, Attribute (.course k) "grade" (some (.sc (.grade g))) := by
    by_cases h : k.isDuringCovid = false ∨ k.gradeCode ≠ .S ∨ k.suGradeCode = none
    · exact ⟨_, .grade h⟩
    · simp only [not_or, Bool.not_eq_false, not_not] at h
      obtain ⟨g, hg⟩ := Option.ne_none_iff_exists'.1 h.2.2
      exact ⟨g, .covidGrade h.1 h.2.1 hg⟩
  rcases hy with rfl | rfl
  · refine .every (by simp [PlainFilter, Dict.get?]) ?_
    intro e he
    simp only [List.mem_cons, List.not_mem_nil, or_false] at he
    rcases he with rfl | rfl
    · obtain ⟨g, hg⟩ := hg
      refine .present hg (op := .gte) (raw := .str "B-") (y := .str "B-") (w := .sc (.str "B-")) (e := .sc (.grade .Bminus))
        ⟨"$gte", [], [], rfl, by decide, by simp⟩ (.inr ⟨fun h => ?_, rfl⟩) (.text (.plain (by decide))) (.grade (by decide)) ?_
      · have := h.2; simp [Dict.get?] at this
      · exact .inr (.inr (.inl ⟨by simp [Operator.ordering], trivial⟩))
    · refine .present (.course .credits) (op := .lt) (raw := .int 2) (y := .int 2) (w := .sc (.num 2 "2")) (e := .sc (.num 2 "2"))
        ⟨"$lt", [], [], rfl, by decide, by simp⟩ (.inr ⟨fun h => ?_, rfl⟩) (.number 2) (.number (.inl rfl)) ?_
      · have := h.2; simp [Dict.get?] at this
      · exact .inr (.inr (.inl ⟨by simp [Operator.ordering], trivial⟩))
  · refine .not (.every (by simp [PlainFilter, Dict.get?]) ?_)
    intro e he
    simp only [List.mem_cons, List.not_mem_nil, or_false] at he
    subst he
    refine .present (.course .attributes) (op := .in') (raw := .list [.str "ge", .str "fol"]) (y := .list [.str "ge", .str "fol"])
      (w := .tup [.str "ge", .str "fol"]) (e := .tup [.str "ge", .str "fol"])
      ⟨"$in", [], [], rfl, by decide, by simp⟩ (.inr ⟨fun h => ?_, rfl⟩) ?_ (.other (by decide)) rfl
    · have := h.2; simp [Dict.get?] at this
    · exact .list (es := [[.str "ge"], [.str "fol"]]) (.cons (.text (.plain (by decide))) (.cons (.text (.plain (by decide))) .nil))

/-- a filter that asks whether the subject is in a text -/
def senselessText : Y := .map [("subject", .map [("$in", .str "CSCI")])]

/-- It is read as well, but the first record makes it raise an exception. -/
example : (match loadFilter {} {} .course senselessText with
    | .ok p => (match filterItems p [.course { clbid := "1", subject := "CSCI" }] with
      | .error _ => true
      | .ok _ => false)
    | .error _ => false) = true := by decide +kernel

end Dp
