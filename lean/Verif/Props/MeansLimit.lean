import Verif.Props.MeansReserved
import Verif.Props.Details

/-
C75: the limits written in an area file are kept.  What the text of a limit says (how many courses or credits, and of which
courses) is specified here from the text alone; the theorems say that no result counts more.
-/
namespace Dp

/-! ### What the text of a limit says -/

/-- the words of a text: the longest pieces without blanks, in order -/
inductive Words : List Char → List (List Char) → Prop
  | nil : Words [] []
  | blank {ch : Char} {cs : List Char} {ws : List (List Char)} : ch.isWhitespace → Words cs ws → Words (ch :: cs) ws
  | word {w cs : List Char} {ws : List (List Char)} : w ≠ [] → (∀ ch ∈ w, ch.isWhitespace = false) →
      (∀ ch, cs.head? = some ch → ch.isWhitespace) → Words cs ws → Words (w ++ cs) (w :: ws)

/-- `q` without its fraction is `n` -/
def CutsTo (q : Rat) (n : Int) : Prop := (0 ≤ q → (n : Rat) ≤ q ∧ q < n + 1) ∧ (q < 0 → q ≤ n ∧ (n : Rat) - 1 < q)

/-- `AtMostSays v q what`: the text `v` allows `q` courses or credits.  A bare number counts courses; otherwise it is a number
and a unit. -/
inductive AtMostSays : Y → Rat → AtMostWhat → Prop
  | number {n : Int} : AtMostSays (.int n) n .courses
  | yes : AtMostSays (.bool true) 1 .courses
  | no : AtMostSays (.bool false) 0 .courses
  | fraction {t : String} {q : Rat} {n : Int} : DecimalText t.toList q → CutsTo q n → AtMostSays (.float t) n .courses
  | text {s : String} {n : Int} : WholeText s.toList n → AtMostSays (.str s) n .courses
  | courses {s : String} {n : List Char} {w : String} {q : Rat} : Words s.toList [n, w.toList] → DecimalText n q →
      w = "course" ∨ w = "courses" → AtMostSays (.str s) q .courses
  | credits {s : String} {n : List Char} {w : String} {q : Rat} : Words s.toList [n, w.toList] → DecimalText n q →
      w = "credit" ∨ w = "credits" → AtMostSays (.str s) q .credits

/-- the value of the first of the three spellings that the limit has -/
inductive AtMostKey (d : Dict) : Y → Prop
  | blank {v : Y} : d.get? "at most" = some v → AtMostKey d v
  | dash {v : Y} : d.get? "at most" = none → d.get? "at-most" = some v → AtMostKey d v
  | underscore {v : Y} : d.get? "at most" = none → d.get? "at-most" = none → d.get? "at_most" = some v → AtMostKey d v

/-- the limit `d` allows `q` courses or credits -/
def LimitAllows (d : Dict) (q : Rat) (what : AtMostWhat) : Prop := ∃ v, AtMostKey d v ∧ AtMostSays v q what

/-! ### Words -/

theorem words_split (cs : List Char) : ∃ h t rest, cs.splitOnP (·.isWhitespace) = h :: t ∧ cs = h ++ rest ∧
    (∀ ch ∈ h, ch.isWhitespace = false) ∧ (∀ ch, rest.head? = some ch → ch.isWhitespace) ∧
    Words rest (t.filter (fun w => !w.isEmpty)) := by
  induction cs with
  | nil => exact ⟨[], [], [], by simp, rfl, by simp, by simp, .nil⟩
  | cons c cs ih =>
    obtain ⟨h, t, rest, h1, h2, h3, h4, h5⟩ := ih
    by_cases hc : c.isWhitespace = true
    · refine ⟨[], h :: t, c :: cs, by simp [List.splitOnP_cons, hc, h1], rfl, by simp, ?_, .blank hc ?_⟩
      · intro ch hch
        cases hch
        exact hc
      · cases h with
        | nil => rw [h2]; simpa using h5
        | cons a h =>
          rw [h2]
          simpa using Words.word (by simp) h3 h4 h5
    · refine ⟨c :: h, t, rest, by simp [List.splitOnP_cons, hc, h1], by simp [h2], ?_, h4, h5⟩
      intro ch hch
      rcases List.mem_cons.1 hch with rfl | hch
      · simpa using hc
      · exact h3 ch hch

theorem splitWords_says (s : String) : ∃ ws, splitWords s = ws.map String.ofList ∧ Words s.toList ws := by
  refine ⟨_, rfl, ?_⟩
  obtain ⟨h, t, rest, h1, h2, h3, h4, h5⟩ := words_split s.toList
  rw [h1]
  cases h with
  | nil => rw [h2]; simpa using h5
  | cons a h =>
    rw [h2]
    simpa using Words.word (by simp) h3 h4 h5

theorem words_unique {cs : List Char} {ws ws' : List (List Char)} (h : Words cs ws) (h' : Words cs ws') : ws = ws' := by
  induction h generalizing ws' with
  | nil =>
    generalize hc : ([] : List Char) = cs at h'
    cases h' with
    | nil => rfl
    | blank => cases hc
    | word hne => simp at hc; exact absurd hc.1 hne
  | @blank ch cs ws hch _ ih =>
    generalize hc : ch :: cs = cs' at h'
    cases h' with
    | nil => cases hc
    | blank _ h' => cases hc; exact ih h'
    | @word w _ _ hne hw _ _ =>
      cases w with
      | nil => exact absurd rfl hne
      | cons a w =>
        cases hc
        have := hw ch (by simp)
        rw [hch] at this; cases this
  | @word w cs ws hne hw hhd _ ih =>
    generalize hc : w ++ cs = cs' at h'
    cases h' with
    | nil => simp at hc; exact absurd hc.1 hne
    | blank hch =>
      cases w with
      | nil => exact absurd rfl hne
      | cons a w =>
        simp only [List.cons_append, List.cons.injEq] at hc
        obtain ⟨rfl, _⟩ := hc
        have := hw a (by simp)
        rw [hch] at this; cases this
    | @word w' cs' ws' hne' hw' hhd' h' =>
      have key : ∀ (w w' cs cs' : List Char), (∀ ch ∈ w, ch.isWhitespace = false) → (∀ ch ∈ w', ch.isWhitespace = false) →
          (∀ ch, cs.head? = some ch → ch.isWhitespace) → (∀ ch, cs'.head? = some ch → ch.isWhitespace) →
          w ++ cs = w' ++ cs' → w = w' ∧ cs = cs' := by
        intro w
        induction w with
        | nil =>
          intro w' cs cs' _ h2 h3 _ he
          cases w' with
          | nil => exact ⟨rfl, he⟩
          | cons b w' =>
            have e : cs = b :: (w' ++ cs') := he
            have h5 := h3 b (by rw [e]; rfl)
            rw [h2 b (by simp)] at h5; cases h5
        | cons a w ih =>
          intro w' cs cs' h1 h2 h3 h4 he
          cases w' with
          | nil =>
            have e : a :: (w ++ cs) = cs' := he
            have h5 := h4 a (by rw [← e]; rfl)
            rw [h1 a (by simp)] at h5; cases h5
          | cons b w' =>
            simp only [List.cons_append, List.cons.injEq] at he
            obtain ⟨rfl, he⟩ := he
            obtain ⟨rfl, rfl⟩ := ih w' cs cs' (fun ch h => h1 ch (by simp [h])) (fun ch h => h2 ch (by simp [h])) h3 h4 he
            exact ⟨rfl, rfl⟩
      obtain ⟨rfl, rfl⟩ := key _ _ _ _ hw hw' hhd hhd' hc
      rw [ih h']

/-- a text without blanks is at most one word -/
theorem words_one {cs : List Char} (hcs : ∀ ch ∈ cs, ch.isWhitespace = false) {ws : List (List Char)} (h : Words cs ws) :
    ws.length ≤ 1 := by
  cases cs with
  | nil => rw [words_unique h .nil]; simp
  | cons a cs =>
    have h' := Words.word (w := a :: cs) (by simp) hcs (cs := []) (by simp) .nil
    rw [List.append_nil] at h'
    rw [words_unique h h']; simp

theorem digit_not_blank {ch : Char} (h : ch.isDigit = true) : ch.isWhitespace = false := by
  simp only [Char.isDigit, Bool.and_eq_true, decide_eq_true_eq] at h
  obtain ⟨h1, h2⟩ := h
  have key : ∀ d : Char, d.toNat < 48 → ch ≠ d := by
    rintro d hd rfl
    have : (48 : Nat) ≤ ch.toNat := by exact_mod_cast h1
    omega
  simp [Char.isWhitespace, key ' ' (by decide), key '\t' (by decide), key '\r' (by decide), key '\n' (by decide)]

theorem wholeText_not_blank {cs : List Char} {n : Int} (h : WholeText cs n) : ∀ ch ∈ cs, ch.isWhitespace = false := by
  cases h with
  | plain _ h _ => exact fun ch hch => digit_not_blank (h ch hch)
  | minus _ h _ =>
    intro ch hch
    rcases List.mem_cons.1 hch with rfl | hch
    · decide
    · exact digit_not_blank (h ch hch)

/-! ### Reading the text -/

theorem truncInt_cuts (q : Rat) : CutsTo q (truncInt q) := by
  constructor
  · intro h
    rw [truncInt_of_nonneg h]
    exact ⟨Int.floor_le q, Int.lt_floor_add_one q⟩
  · intro h
    have e : truncInt q = - ⌊-q⌋ := by
      rw [← truncInt_of_nonneg (by linarith : 0 ≤ -q)]
      unfold truncInt
      simp [Int.neg_tdiv]
    rw [e]
    have h1 := Int.floor_le (-q)
    have h2 := Int.lt_floor_add_one (-q)
    push_cast
    constructor <;> linarith

theorem cutsTo_unique {q : Rat} {n m : Int} (h : CutsTo q n) (h' : CutsTo q m) : n = m := by
  rcases le_or_gt 0 q with hq | hq
  · obtain ⟨h1, h2⟩ := h.1 hq
    obtain ⟨h3, h4⟩ := h'.1 hq
    have a : n < m + 1 := by exact_mod_cast lt_of_le_of_lt h1 h4
    have b : m < n + 1 := by exact_mod_cast lt_of_le_of_lt h3 h2
    omega
  · obtain ⟨h1, h2⟩ := h.2 hq
    obtain ⟨h3, h4⟩ := h'.2 hq
    have a : n - 1 < m := by exact_mod_cast lt_of_lt_of_le h2 h3
    have b : m - 1 < n := by exact_mod_cast lt_of_lt_of_le h4 h1
    omega

theorem loadAmount_says {v : Y} {q : Rat} {what : AtMostWhat} (h : loadAmount v = .ok (q, what)) : AtMostSays v q what := by
  unfold loadAmount at h
  split at h
  · cases h; exact .number
  · rename_i b
    cases b
    · cases h; exact .no
    · cases h; exact .yes
  · split at h
    · rename_i t r hr
      cases h
      exact .fraction (parseDecimal_says hr) (truncInt_cuts r)
    · cases h
  · rename_i s
    split at h
    · rename_i n hn
      cases h
      exact .text (parseInt_says hn)
    · split at h
      · rename_i n w hw
        obtain ⟨ws, h1, h2⟩ := splitWords_says s
        rw [hw] at h1
        match ws, h1, h2 with
        | [a, b], h1, h2 =>
          simp only [List.map_cons, List.map_nil, List.cons.injEq, and_true] at h1
          obtain ⟨rfl, rfl⟩ := h1
          have h2 : Words s.toList [(String.ofList a).toList, (String.ofList b).toList] := by simpa using h2
          split at h
          · cases h
          · rename_i r hr
            split at h
            · rename_i hc
              cases h
              exact .courses h2 (parseDecimal_says hr) (by simpa using hc)
            · split at h
              · rename_i hc
                cases h
                exact .credits h2 (parseDecimal_says hr) (by simpa using hc)
              · cases h
        | [], h1, _ => cases h1
        | [_], h1, _ => cases h1
        | _ :: _ :: _ :: _, h1, _ => cases h1
      · cases h
  · cases h

theorem atMostSays_unique {v : Y} {q q' : Rat} {what what' : AtMostWhat} (h : AtMostSays v q what)
    (h' : AtMostSays v q' what') : q = q' ∧ what = what' := by
  have two {s : String} {n : Int} {a b : List Char} (h1 : WholeText s.toList n) (h2 : Words s.toList [a, b]) : False := by
    have := words_one (wholeText_not_blank h1) h2
    simp at this
  have same {s : String} {n n' : List Char} {w w' : String} {q q' : Rat} (h1 : Words s.toList [n, w.toList])
      (h2 : Words s.toList [n', w'.toList]) (h3 : DecimalText n q) (h4 : DecimalText n' q') : q = q' ∧ w = w' := by
    have := words_unique h1 h2
    simp only [List.cons.injEq, and_true] at this
    obtain ⟨rfl, hw⟩ := this
    exact ⟨decimal_unique h3 h4, String.toList_injective hw⟩
  cases h with
  | number => cases h'; exact ⟨rfl, rfl⟩
  | yes => cases h'; exact ⟨rfl, rfl⟩
  | no => cases h'; exact ⟨rfl, rfl⟩
  | fraction h1 h2 =>
    cases h' with
    | fraction h3 h4 =>
      cases decimal_unique h1 h3
      cases cutsTo_unique h2 h4
      exact ⟨rfl, rfl⟩
  | text h1 =>
    cases h' with
    | text h2 => cases wholeText_unique h1 h2; exact ⟨rfl, rfl⟩
    | courses h2 => exact (two h1 h2).elim
    | credits h2 => exact (two h1 h2).elim
  | courses h1 h2 h3 =>
    cases h' with
    | text h4 => exact (two h4 h1).elim
    | courses h4 h5 _ => exact ⟨(same h1 h4 h2 h5).1, rfl⟩
    | credits h4 h5 h6 =>
      have := (same h1 h4 h2 h5).2
      rcases h3 with rfl | rfl <;> rcases h6 with rfl | rfl <;> exact absurd this (by decide)
  | credits h1 h2 h3 =>
    cases h' with
    | text h4 => exact (two h4 h1).elim
    | credits h4 h5 _ => exact ⟨(same h1 h4 h2 h5).1, rfl⟩
    | courses h4 h5 h6 =>
      have := (same h1 h4 h2 h5).2
      rcases h3 with rfl | rfl <;> rcases h6 with rfl | rfl <;> exact absurd this (by decide)

theorem atMostKey_unique {d : Dict} {v v' : Y} (h : AtMostKey d v) (h' : AtMostKey d v') : v = v' := by
  cases h <;> cases h' <;> simp_all

theorem limitAllows_unique {d : Dict} {q q' : Rat} {what what' : AtMostWhat} (h : LimitAllows d q what)
    (h' : LimitAllows d q' what') : q = q' ∧ what = what' := by
  obtain ⟨v, h1, h2⟩ := h
  obtain ⟨v', h3, h4⟩ := h'
  cases atMostKey_unique h1 h3
  exact atMostSays_unique h2 h4

theorem atMostValue_says {d : Dict} {v : Y} (h : atMostValue d = .ok v) : AtMostKey d v := by
  have opt {k : String} {v : Y} (h : d.opt k = some v) : d.get? k = some v := by
    unfold Dict.opt at h
    split at h
    · cases h
    · exact h
  have has {k : String} (h : ¬ d.has k = true) : d.get? k = none := by
    simpa [Dict.has] using h
  unfold atMostValue at h
  split at h
  · rename_i v' hv
    cases h
    split at hv
    · exact .blank (opt hv)
    · split at hv
      · exact .dash (has (by assumption)) (opt hv)
      · exact .underscore (has (by assumption)) (has (by assumption)) (opt hv)
  · cases h

/-- What a limit is, once loaded. -/
theorem loadLimit_says {x : Ctx} {c : Constants} {y : Y} {l : Limit} (h : loadLimit x c y = .ok l) :
    ∃ (d : Dict) (w : Y), y = .map d ∧ d.get? "where" = some w ∧ loadFilter x c .course w = .ok l.where' ∧
      LimitAllows d l.atMost l.what := by
  unfold loadLimit at h
  simp only [ld_bind_ok, ld_asDict, ld_need] at h
  obtain ⟨d, rfl, v, hv, _, _, w, hw, p, hp, ⟨q, what⟩, hq, m, _, h⟩ := h
  cases h
  exact ⟨d, w, rfl, hw, hp, v, atMostValue_says hv, loadAmount_says hq⟩

theorem loadLimits_says {x : Ctx} {c : Constants} {o : Option Y} {ls : List Limit} (h : loadLimits x c o = .ok ls)
    {l : List Y} (ho : o = some (.list l)) : List.Forall₂ (fun y k => loadLimit x c y = .ok k) l ls := by
  subst ho
  simp only [loadLimits, ld_bind_ok, ld_asList] at h
  obtain ⟨_, h1, h⟩ := h
  cases h1
  exact ld_mapE h

theorem forall₂_right {α β : Type} {R : α → β → Prop} {l : List α} {r : List β} (h : List.Forall₂ R l r) {a : α} (ha : a ∈ l) :
    ∃ b ∈ r, R a b := by
  induction h with
  | nil => cases ha
  | cons hab _ ih =>
    rcases List.mem_cons.1 ha with rfl | ha
    · exact ⟨_, by simp, hab⟩
    · obtain ⟨b, hb, h⟩ := ih ha
      exact ⟨b, by simp [hb], h⟩

theorem forall₂_left {α β : Type} {R : α → β → Prop} {l : List α} {r : List β} (h : List.Forall₂ R l r) {b : β} (hb : b ∈ r) :
    ∃ a ∈ l, R a b := by
  induction h with
  | nil => cases hb
  | cons hab _ ih =>
    rcases List.mem_cons.1 hb with rfl | hb
    · exact ⟨_, by simp, hab⟩
    · obtain ⟨a, ha, h⟩ := ih hb
      exact ⟨a, by simp [ha], h⟩

/-- A limit whose text accepts a course of a limited transcript counts it. -/
theorem limited_counts {o : SetOrder} (ho : o.Lawful) {limits : List Limit} {courses tr : List Course} {forced : List String}
    (htr : tr ∈ (limitedTranscripts o limits courses forced).items) {l : Limit} (hl : l ∈ limits)
    {x : Ctx} {es : List Exc} (hx : x.exceptions = groupExceptions es) {c : Constants} {w : Y}
    (hw : loadFilter x c .course w = .ok l.where') {k : Course} (hk : k ∈ courses) (hf : k.clbid ∉ forced) :
    l.Counts forced k ↔ Accepts x es c (.course k) w true := by
  have hne : limits ≠ [] := by rintro rfl; cases hl
  simp only [limitedTranscripts, if_neg hne] at htr
  split at htr
  · simp [Gen.raise] at htr
  rename_i d hd
  have hans := (probeAll_nil hd).2 l hl k hk (by simpa using hf)
  have h1 := C63_filter_selects_what_it_says x es hx c .course w l.where' hw (.course k) (l.hits k) hans
  constructor
  · intro h
    have h2 := (Limit.hits_iff l k).2 h.2
    rwa [h2] at h1
  · intro h
    have h2 := accepts_unique h1 h
    rw [h2] at hans
    exact ⟨hf, hans⟩

/-- What a result counts comes from one limited transcript, except for forced classes. -/
theorem area_claims_within {c : Constants} {templates : List (String × TemplateCourse)} {st : Student} {es : List Exc} {all : Bool}
    {spec : Dict} {a : Area} (hload : loadArea c templates st es all spec = .ok a)
    (hfail : ∀ leaf ∈ a.result.leaves, leaf.wantsFailed = false) {o : Orders} (ho : o.Lawful)
    {s : AreaSolution} (hs : s ∈ (a.solutions o st es).items) {r : AreaResult} (ha : s.audit o a = .ok r) :
    r.claims = [] ∨ ∃ tr ∈ (limitedTranscripts (o.limit []) a.limit st.courses (forcedClbids es)).items,
      ∀ k ∈ r.claims.map (·.course), k.clbid ∉ forcedClbids es → k ∈ tr := by
  have hl := (loadArea_loaded hload).1
  obtain ⟨hcl, hsil⟩ := loadArea_common hload
  by_cases hne : r.claims = []
  · exact .inl hne
  right
  have key : ∃ tr ∈ (limitedTranscripts (o.limit []) a.limit st.courses (forcedClbids es)).items, s.ctx = areaCtx a st es tr := by
    obtain ⟨c, hc⟩ := List.exists_mem_of_ne_nil _ hne
    obtain ⟨tr, htr, hctx, _⟩ := area_claims ho hl hcl hs ha hc
    exact ⟨tr, htr, hctx⟩
  obtain ⟨tr, htr, hctx⟩ := key
  refine ⟨tr, htr, fun k hk hnf => ?_⟩
  obtain ⟨cl, hcl', rfl⟩ := List.mem_map.1 hk
  obtain ⟨tr', _, hctx', h⟩ := area_claims ho hl hcl hs ha hcl'
  have htr' : tr' = tr := by
    have := hctx'.symm.trans hctx
    exact congrArg Ctx.transcript this
  subst htr'
  rcases h with ⟨leaf, hleaf, h⟩ | ⟨_, leaf, hleaf, x, hx, h⟩
  · rcases leafClaim_known (areaCtx_forcedOk a st es tr') ho h ⟨_, hleaf⟩ with h | ⟨k, h⟩ | ⟨h, _⟩
    · exact h
    · exact absurd (areaCtx_forced h) hnf
    · rw [hfail leaf hleaf] at h; cases h
  · exact absurd h (silent_claims ho (hsil leaf hleaf))

/-- the limit of the area that an entry of its text stands for -/
theorem area_limit_of {c : Constants} {templates : List (String × TemplateCourse)} {st : Student} {es : List Exc} {all : Bool}
    {spec : Dict} {a : Area} (hload : loadArea c templates st es all spec = .ok a) {l : List Y}
    (hl : spec.get? "limit" = some (.list l)) : List.Forall₂ (fun y k => loadLimit (loadCtx st es) c y = .ok k) l a.limit := by
  obtain ⟨_, _, _, _, _, _, _, _, _, _, _, _, _, _, _, _, h, _⟩ := loadArea_inv hload
  exact loadLimits_says h (by rw [Dict.opt, hl])

theorem loadLimit_entry {x : Ctx} {c : Constants} {d : Dict} {k : Limit} (h : loadLimit x c (.map d) = .ok k) {q : Rat}
    {what : AtMostWhat} (hq : LimitAllows d q what) {w : Y} (hw : d.get? "where" = some w) :
    k.atMost = q ∧ k.what = what ∧ loadFilter x c .course w = .ok k.where' := by
  obtain ⟨d', w', hd, hw', hf, hal⟩ := loadLimit_says h
  cases hd
  cases hw.symm.trans hw'
  obtain ⟨h1, h2⟩ := limitAllows_unique hal hq
  exact ⟨h1, h2, hf⟩

/-! ### C75 -/

/-- **C75.** The course limits written in an area file are kept.  Take a limit of the file that allows `n` courses.  However many
different courses a result counts: of those that the limit's text accepts, and that no exception forces in, there are at most
`n`.  Partial: no query of the area may look at failed courses (otherwise it is false, `C09_area_limits_refuted`). -/
theorem C75_course_limits_of_an_area_partial (c : Constants) (templates : List (String × TemplateCourse)) (st : Student)
    (es : List Exc) (all : Bool) (spec : Dict) (a : Area) (hload : loadArea c templates st es all spec = .ok a)
    (hfail : ∀ leaf ∈ a.result.leaves, leaf.wantsFailed = false) (o : Orders) (ho : o.Lawful)
    (s : AreaSolution) (hs : s ∈ (a.solutions o st es).items) (r : AreaResult) (ha : s.audit o a = .ok r)
    (l : List Y) (hl : spec.get? "limit" = some (.list l)) (d : Dict) (hd : Y.map d ∈ l)
    (n : Nat) (hn : LimitAllows d n .courses) (w : Y) (hw : d.get? "where" = some w)
    (cs : List Course) (hcs : cs.Nodup) (hcl : ∀ k ∈ cs, k ∈ r.claims.map (·.course))
    (hnf : ∀ k ∈ cs, ¬ IsForced es k.clbid) (hacc : ∀ k ∈ cs, Accepts (loadCtx st es) es c (.course k) w true) :
    cs.length ≤ n := by
  obtain ⟨lim, hlim, hload'⟩ := forall₂_right (area_limit_of hload hl) hd
  obtain ⟨h1, h2, h3⟩ := loadLimit_entry hload' hn hw
  rcases area_claims_within hload hfail ho hs ha with hc | ⟨tr, htr, hin⟩
  · cases cs with
    | nil => simp
    | cons k cs => have := hcl k (by simp); rw [hc] at this; cases this
  refine C10_only_forced_classes_bypass_limits_partial c templates st es all spec a hload hfail o ho s hs r ha lim hlim h2 n h1
    cs hcs hcl hnf fun k hk => ?_
  have hkf : k.clbid ∉ forcedClbids es := fun h => hnf k hk (mem_forcedClbids.1 h)
  have hk' := (C10_only_input_courses _ (ho.1 []) _ _ _ _ htr).1 k (hin k (hcl k hk) hkf)
  exact ((limited_counts (ho.1 []) htr hlim rfl h3 hk' hkf).2 (hacc k hk)).2

/-- sums over different courses of a list are at most the sum over the list -/
theorem nodup_credits_le {cs tr : List Course} {q : Course → Bool} (hcs : cs.Nodup) (hin : ∀ k ∈ cs, k ∈ tr ∧ q k = true)
    (hcr : ∀ k ∈ tr, 0 ≤ k.credits) : (cs.map (·.credits)).sum ≤ ((tr.filter q).map (·.credits)).sum := by
  have h := sum_credits_le (q := q) (p := q) (l1 := cs) (l2 := tr) (fun _ h => h)
    (hcs.subperm fun k hk => (hin k hk).1) hcr
  rwa [List.filter_eq_self.2 fun k hk => (hin k hk).2] at h

/-- **C75**, for any limit of an area file: what a result counts goes over it by less than one course.  Of the courses counted
that the limit's text accepts and that no exception forces in, the credits are less than what the limit allows and the credits
of one such course of the transcript.  Partial: as above; the exact maximum holds for limits that do not overlap
(`C75_credit_limits_of_an_area_partial`), not for others (`C09_credit_limits_refuted`). -/
theorem C75_credit_limits_less_than_one_course_partial (c : Constants) (templates : List (String × TemplateCourse)) (st : Student)
    (es : List Exc) (all : Bool) (spec : Dict) (a : Area) (hload : loadArea c templates st es all spec = .ok a)
    (hfail : ∀ leaf ∈ a.result.leaves, leaf.wantsFailed = false) (o : Orders) (ho : o.Lawful)
    (s : AreaSolution) (hs : s ∈ (a.solutions o st es).items) (r : AreaResult) (ha : s.audit o a = .ok r)
    (l : List Y) (hl : spec.get? "limit" = some (.list l)) (d : Dict) (hd : Y.map d ∈ l)
    (q : Rat) (hq : LimitAllows d q .credits) (w : Y) (hw : d.get? "where" = some w) (hcr : ∀ k ∈ st.courses, 0 ≤ k.credits)
    (cs : List Course) (hcs : cs.Nodup) (hcl : ∀ k ∈ cs, k ∈ r.claims.map (·.course))
    (hnf : ∀ k ∈ cs, ¬ IsForced es k.clbid) (hacc : ∀ k ∈ cs, Accepts (loadCtx st es) es c (.course k) w true) :
    cs = [] ∨ ∃ k ∈ st.courses, ¬ IsForced es k.clbid ∧ Accepts (loadCtx st es) es c (.course k) w true ∧
      (cs.map (·.credits)).sum < q + k.credits := by
  obtain ⟨lim, hlim, hload'⟩ := forall₂_right (area_limit_of hload hl) hd
  obtain ⟨h1, h2, h3⟩ := loadLimit_entry hload' hq hw
  by_cases hnil : cs = []
  · exact .inl hnil
  right
  obtain ⟨k0, hk0⟩ := List.exists_mem_of_ne_nil _ hnil
  rcases area_claims_within hload hfail ho hs ha with hc | ⟨tr, htr, hin⟩
  · have := hcl k0 hk0; rw [hc] at this; cases this
  have hsub := (C10_only_input_courses _ (ho.1 []) _ _ _ _ htr).1
  have hcount : ∀ k ∈ cs, k ∈ tr ∧ lim.Counts (forcedClbids es) k := by
    intro k hk
    have hkf : k.clbid ∉ forcedClbids es := fun h => hnf k hk (mem_forcedClbids.1 h)
    have hk' := hin k (hcl k hk) hkf
    exact ⟨hk', (limited_counts (ho.1 []) htr hlim rfl h3 (hsub k hk') hkf).2 (hacc k hk)⟩
  rcases C09_overshoot_less_than_one_course_partial _ (ho.1 []) _ _ _ _ hcr htr lim hlim with h | ⟨k, hk, hkc, h⟩
  · exact absurd (hcount k0 hk0).2 (h k0 (hcount k0 hk0).1)
  · refine ⟨k, hsub k hk, fun hf => hkc.1 (mem_forcedClbids.2 hf),
      (limited_counts (ho.1 []) htr hlim rfl h3 (hsub k hk) hkc.1).1 hkc, ?_⟩
    simp only [Limit.used, h2, h1] at h
    have := nodup_credits_le (q := fun k => decide (lim.Counts (forcedClbids es) k)) hcs
      (fun k hk => ⟨(hcount k hk).1, by simpa using (hcount k hk).2⟩) (fun k hk => hcr k (hsub k hk))
    linarith

/-- **C75** for limits on credits of an area file that share no course with another limit: the courses counted that the text
accepts, and that no exception forces in, carry no more credits than the text allows. -/
theorem C75_credit_limits_of_an_area_partial (c : Constants) (templates : List (String × TemplateCourse)) (st : Student)
    (es : List Exc) (all : Bool) (spec : Dict) (a : Area) (hload : loadArea c templates st es all spec = .ok a)
    (hfail : ∀ leaf ∈ a.result.leaves, leaf.wantsFailed = false) (o : Orders) (ho : o.Lawful)
    (s : AreaSolution) (hs : s ∈ (a.solutions o st es).items) (r : AreaResult) (ha : s.audit o a = .ok r)
    (l : List Y) (hl : spec.get? "limit" = some (.list l)) (d : Dict) (hd : Y.map d ∈ l)
    (q : Rat) (hq0 : 0 ≤ q) (hq : LimitAllows d q .credits) (w : Y) (hw : d.get? "where" = some w)
    (hcr : ∀ k ∈ st.courses, 0 ≤ k.credits)
    (hsep : ∀ k ∈ st.courses, Accepts (loadCtx st es) es c (.course k) w true → ∀ (d' : Dict) (w' : Y), Y.map d' ∈ l → d'.get? "where" = some w' →
      Accepts (loadCtx st es) es c (.course k) w' true → d' = d)
    (cs : List Course) (hcs : cs.Nodup) (hcl : ∀ k ∈ cs, k ∈ r.claims.map (·.course))
    (hnf : ∀ k ∈ cs, ¬ IsForced es k.clbid) (hacc : ∀ k ∈ cs, Accepts (loadCtx st es) es c (.course k) w true) :
    (cs.map (·.credits)).sum ≤ q := by
  obtain ⟨lim, hlim, hload'⟩ := forall₂_right (area_limit_of hload hl) hd
  obtain ⟨h1, h2, h3⟩ := loadLimit_entry hload' hq hw
  by_cases hnil : cs = []
  · subst hnil; simpa using hq0
  obtain ⟨k0, hk0⟩ := List.exists_mem_of_ne_nil _ hnil
  rcases area_claims_within hload hfail ho hs ha with hc | ⟨tr, htr, hin⟩
  · have := hcl k0 hk0; rw [hc] at this; cases this
  have hsub := (C10_only_input_courses _ (ho.1 []) _ _ _ _ htr).1
  have hcount : ∀ k ∈ cs, k ∈ tr ∧ lim.Counts (forcedClbids es) k := by
    intro k hk
    have hkf : k.clbid ∉ forcedClbids es := fun h => hnf k hk (mem_forcedClbids.1 h)
    have hk' := hin k (hcl k hk) hkf
    exact ⟨hk', (limited_counts (ho.1 []) htr hlim rfl h3 (hsub k hk') hkf).2 (hacc k hk)⟩
  have h := C09_separate_credit_limits_partial _ (ho.1 []) _ _ _ _ htr lim hlim h2 (by rw [h1]; exact hq0) (by
    intro k hk hkc lim' hlim' hkc'
    obtain ⟨y, hy, hyl⟩ := forall₂_left (area_limit_of hload hl) hlim'
    obtain ⟨d', w', rfl, hw', hf', _⟩ := loadLimit_says hyl
    have := hsep k hk ((limited_counts (ho.1 []) htr hlim rfl h3 hk hkc.1).1 hkc) d' w' hy hw'
      ((limited_counts (ho.1 []) htr hlim' rfl hf' hk hkc.1).1 hkc')
    subst this
    rw [hyl] at hload'
    exact Except.ok.inj hload')
  simp only [Limit.used, h2, h1] at h
  exact le_trans (nodup_credits_le (q := fun k => decide (lim.Counts (forcedClbids es) k)) hcs
      (fun k hk => ⟨(hcount k hk).1, by simpa using (hcount k hk).2⟩) (fun k hk => hcr k (hsub k hk))) h

/-- **C75** for the limits written in a query rule over courses: of the different courses that a result of the rule counts, that
a limit's text accepts and that no exception forces into the rule, there are at most as many as the text allows. -/
theorem C75_course_limits_of_a_query (env : Env) (es : List Exc) (henv : env.ctx.exceptions = groupExceptions es) (dq : Dict)
    (p : Path) (q : QueryData) (hload : loadQuery env dq p = .ok q) (hsrc : dq.get? "from" = some (.str "courses"))
    (x : Ctx) (hx : x.ForcedOk) (hes : x.exceptions = groupExceptions es) (o : Orders) (ho : o.Lawful) (s r : Node)
    (t t' : ClaimTable) (hs : s ∈ ((Node.query .rule q).solutions x o).items) (ha : s.audit x o t = .ok (r, t'))
    (l : List Y) (hl : dq.get? "limit" = some (.list l)) (d : Dict) (hd : Y.map d ∈ l)
    (n : Nat) (hn : LimitAllows d n .courses) (w : Y) (hw : d.get? "where" = some w)
    (cs : List Course) (hcs : cs.Nodup) (hcl : ∀ k ∈ cs, k ∈ r.claims.map (·.course))
    (hnf : ∀ k ∈ cs, ¬ ∃ e ∈ es, e.path = p ++ [".query"] ∧ e.kind = .insertion k.clbid true)
    (hacc : ∀ k ∈ cs, Accepts env.ctx es env.c (.course k) w true) : cs.length ≤ n := by
  obtain ⟨src, _, lims, _, _, _, g1, g2, _, g4, _, _, _, _, _, _, _, hq⟩ := loadQuery_inv hload
  cases hsrc.symm.trans g1
  have hqs : q.source = .courses := (Option.some.inj (g2.symm.trans (by decide : parseSource "courses" = some .courses)))
  have hlims : q.limit = lims := by rw [hq]
  have hpath : q.path = p ++ [".query"] := by rw [hq]
  obtain ⟨lim, hlim, hload'⟩ := forall₂_right (loadLimits_says g4 (by rw [Dict.opt, hl])) hd
  rw [← hlims] at hlim
  obtain ⟨h1, h2, h3⟩ := loadLimit_entry hload' hn hw
  have hnf' : ∀ k ∈ cs, k.clbid ∉ forcedAt es q.path := by
    intro k hk h
    obtain ⟨e, he, h5, h6⟩ := mem_forcedAt.1 h
    exact hnf k hk ⟨e, he, by rw [← hpath]; exact h5, h6⟩
  by_cases hne : r.claims = []
  · cases cs with
    | nil => simp
    | cons k cs => have := hcl k (by simp); rw [hne] at this; cases this
  obtain ⟨forced, courses, hforced, tr, htr, hsub, _⟩ := query_result_within hx ho hes hqs hs ha hne
  have hin := (C10_only_input_courses _ (ho.1 q.path) _ _ _ _ htr).1
  refine le_trans ?_ (C09_query_respects_its_course_limits x hx o ho es hes q hqs s r t t' hs ha lim hlim h2 n h1)
  refine (hcs.subperm fun k hk => List.mem_filter.2 ⟨hcl k hk, ?_⟩).length_le
  have hkf : k.clbid ∉ forced := fun h => hnf' k hk (hforced _ h)
  have := (limited_counts (ho.1 q.path) htr hlim henv h3 (hin k (hsub.subset (hcl k hk))) hkf).2 (hacc k hk)
  exact decide_eq_true ⟨hnf' k hk, this.2⟩

/-! ### Non-trivial cases -/

/-- a limit on computer science -/
def csLimit (v : Y) : Dict := [("at-most", v), ("where", .map [("subject", .map [("$eq", .str "CSCI")])])]

/-- What some limits allow: "1.5 credits", "2 courses", "2", and the number 1.5, which counts courses and loses its fraction. -/
example : LimitAllows (csLimit (.str "1.5 credits")) (3/2) .credits ∧ LimitAllows (csLimit (.str " 2  courses ")) 2 .courses ∧
    LimitAllows (csLimit (.str "2")) 2 .courses ∧ LimitAllows (csLimit (.float "1.5")) 1 .courses := by
  refine ⟨⟨_, .dash rfl rfl, loadAmount_says ?_⟩, ⟨_, .dash rfl rfl, loadAmount_says ?_⟩, ⟨_, .dash rfl rfl, loadAmount_says ?_⟩,
    ⟨_, .dash rfl rfl, loadAmount_says ?_⟩⟩ <;> decide +kernel

/-- a course of one credit, and one of half a credit -/
def limitOne : Course := { clbid := "1", subject := "CSCI", identity := "CSCI 121", credits := 1 }
def limitHalf : Course := { clbid := "2", subject := "CSCI", identity := "CSCI 251", credits := 1/2 }
def limitTwo : Course := { clbid := "3", subject := "CSCI", identity := "CSCI 253", credits := 1 }
/-- a student who took them -/
def limitStudent : Student :=
  { courses := [limitOne, limitHalf, limitTwo], coursesWithFailed := [limitOne, limitHalf, limitTwo] }
/-- an area that wants two courses and limits computer science -/
def limitSpec (v : Y) : Dict := LimitText.area [("limit", .list [.map (csLimit v)])] (LimitText.query [])

open LimitText in
/-- With "1.5 credits" the results count a course of one credit and the one of half a credit at most, never both of one
credit; with "2 courses" any two; with the number 1.5 only one. -/
example : claimed limitStudent (limitSpec (.str "1.5 credits")) = some [[], ["1"], ["2"], ["3"], ["1", "2"], ["2", "3"]] ∧
    claimed limitStudent (limitSpec (.str "2 courses")) = some [[], ["1"], ["2"], ["3"], ["1", "2"], ["1", "3"], ["2", "3"]] ∧
    claimed limitStudent (limitSpec (.float "1.5")) = some [[], ["1"], ["2"], ["3"]] := by
  decide +kernel

/-- a course of three quarters of a credit, and a student who took it and one of half a credit -/
def limitPart : Course := { clbid := "1", subject := "CSCI", identity := "CSCI 121", credits := 3/4 }
def partStudent : Student := { courses := [limitPart, limitHalf], coursesWithFailed := [limitPart, limitHalf] }
/-- computer science for one credit at most, and one course called CSCI 251 at most -/
def twoLimits : List Y := [.map (csLimit (.str "1 credit")),
  .map [("at-most", .int 1), ("where", .map [("course", .map [("$eq", .str "CSCI 251")])])]]
/-- an area that wants two courses and has both limits -/
def twoLimitsSpec : Dict := LimitText.area [("limit", .list twoLimits)] (LimitText.query [])

/-- some solution of the area as loaded from the text claims all of the courses -/
def claimsAllOf (st : Student) (spec : Dict) (cs : List Course) : Bool :=
  match loadArea {} [] st [] false spec with
  | .ok a => a.result.leaves.all (fun leaf => !leaf.wantsFailed) &&
      (a.solutions .insertion st []).items.any (fun s => match s.audit .insertion a with
      | .ok r => decide (∀ k ∈ cs, k ∈ r.claims.map (·.course))
      | .error _ => false)
  | .error _ => false

/-- Limits in credits are not kept when they overlap others: the file allows one credit of computer science, and a result counts
one and a quarter. -/
theorem C75_overlapping_credit_limits_refuted : ∃ (st : Student) (spec : Dict) (a : Area) (l : List Y) (d : Dict) (w : Y),
    loadArea {} [] st [] false spec = .ok a ∧ (∀ leaf ∈ a.result.leaves, leaf.wantsFailed = false) ∧
    spec.get? "limit" = some (.list l) ∧ Y.map d ∈ l ∧ LimitAllows d 1 .credits ∧ d.get? "where" = some w ∧
    ∃ s ∈ (a.solutions .insertion st []).items, ∃ r, s.audit .insertion a = .ok r ∧
    ∃ cs : List Course, cs.Nodup ∧ (∀ k ∈ cs, k ∈ r.claims.map (·.course)) ∧
      (∀ k ∈ cs, Accepts (loadCtx st []) [] {} (.course k) w true) ∧ (cs.map (·.credits)).sum = 5/4 := by
  have h : claimsAllOf partStudent twoLimitsSpec [limitPart, limitHalf] = true := by decide +kernel
  refine ⟨partStudent, twoLimitsSpec, ?_⟩
  unfold claimsAllOf at h
  split at h
  · rename_i a ha
    rw [Bool.and_eq_true] at h
    obtain ⟨s, hs, h'⟩ := List.any_eq_true.1 h.2
    split at h'
    · rename_i r hr
      refine ⟨a, twoLimits, csLimit (.str "1 credit"), .map [("subject", .map [("$eq", .str "CSCI")])], ha, ?_, rfl, by simp [twoLimits],
        ⟨_, .dash rfl rfl, loadAmount_says (by decide +kernel)⟩, rfl, s, hs, r, hr, [limitPart, limitHalf], by decide +kernel,
        of_decide_eq_true h', ?_, by decide +kernel⟩
      · intro leaf hl
        simpa using List.all_eq_true.1 h.1 leaf hl
      · have hp : ∃ p, loadFilter (loadCtx partStudent []) {} .course (.map [("subject", .map [("$eq", .str "CSCI")])]) = .ok p ∧
            p.apply (Item.course limitPart).applyLeaf = .ok true ∧ p.apply (Item.course limitHalf).applyLeaf = .ok true :=
          ⟨_, rfl, by decide +kernel, by decide +kernel⟩
        obtain ⟨p, hp, h1, h2⟩ := hp
        intro k hk
        simp only [List.mem_cons, List.not_mem_nil, or_false] at hk
        rcases hk with rfl | rfl
        · exact C63_filter_selects_what_it_says _ [] rfl _ .course _ p hp _ _ h1
        · exact C63_filter_selects_what_it_says _ [] rfl _ .course _ p hp _ _ h2
    · cases h'
  · cases h

end Dp
