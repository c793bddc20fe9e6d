import Verif.Props.MeansAssertion

/-
C65, C66: what course rules and count rules ask for, in terms of the text of the area file.
-/
namespace Dp

/-! ### Specification: course rules -/

/-- the text `s` is written behind the key -/
def TextAt (d : Dict) (k s : String) : Prop := d.get? k = some (.str s)

/-- the grade points of the grades, as they are written -/
def writtenPoints : List (String × Rat) :=
  [("A+", 4), ("A", 4), ("A-", 37 / 10), ("B+", 33 / 10), ("B", 3), ("B-", 27 / 10), ("C+", 23 / 10), ("C", 2), ("C-", 17 / 10),
   ("D+", 13 / 10), ("D", 1), ("D-", 7 / 10), ("F", 0), ("BC", 0), ("AB", 0), ("NG", 0), ("IP", 0), ("I", 0), ("P", 0),
   ("N", 0), ("S", 0), ("U", 0), ("AU", 0), ("UA", 0), ("WF", 0), ("WP", 0), ("W", 0), ("DP_REG", 0)]

/-- the kinds of courses that a course rule may ask for, as they are written -/
def writtenSubTypes : List (String × SubType) :=
  [("E", .ensemble), ("L", .lab), ("F", .flac), ("D", .discussion)]

/-- the course is one that the text of a course rule names: the class with the number, if one is written, or else a
course to which all that is written applies, apart from the grade and the grading option.  Without an institution and an AP
test it is a course of the college. -/
structure CourseNamed (d : Dict) (k : Course) : Prop where
  clbid : ∀ s, TextAt d "clbid" s → k.clbid = s
  college : (∀ s, ¬ TextAt d "clbid" s) → (∀ s, ¬ TextAt d "institution" s) → (∀ s, ¬ TextAt d "ap" s) → k.isStolaf = true
  crsid : (∀ s, ¬ TextAt d "clbid" s) → ∀ s, TextAt d "crsid" s → k.crsid = s
  course : (∀ s, ¬ TextAt d "clbid" s) → ∀ s, TextAt d "course" s → k.identity = s ∧
    (∀ t, TextAt d "section" t → k.section' = some t) ∧
    (∀ n t, d.get? "year" = some (.int n) → TextAt d "term" t → k.year = n ∧ k.term = t) ∧
    (∀ t ty, TextAt d "sub_type" t → (t, ty) ∈ writtenSubTypes → k.subType = ty)
  name : (∀ s, ¬ TextAt d "clbid" s) → ∀ s, TextAt d "name" s → k.name = s
  institution : (∀ s, ¬ TextAt d "clbid" s) → ∀ s, TextAt d "institution" s → k.institution = s
  ap : (∀ s, ¬ TextAt d "clbid" s) → ∀ s, TextAt d "ap" s → k.courseType = .ap ∧ k.name = s

/-- the course is one that the text of a course rule describes: the text names it, and the grade and the grading option are as
asked for -/
structure CourseAsWritten (d : Dict) (k : Course) : Prop extends CourseNamed d k where
  grade : ∀ s, TextAt d "grade" s → ∃ q, (s, q) ∈ writtenPoints ∧ (k.isInProgress = true ∨ q ≤ k.gradePoints)
  gradeOption : ∀ s, TextAt d "grade_option" s → s ≠ "" → ∃ g, (s, g) ∈ writtenGradeOptions ∧ k.gradeOption = g

/-- the text behind a key, empty if there is none -/
def textBehind (d : Dict) (k : String) : String :=
  match d.get? k with
  | some (.str s) => s
  | _ => ""

/-- `before s after` unless `s` is empty -/
def around (before s after : String) : String := if s = "" then "" else before ++ s ++ after

/-- the last part of the path of a course rule -/
def courseSegment (d : Dict) : String :=
  "*" ++ ((["course", "ap", "name", "clbid"].map (textBehind d)).find? (· ≠ "")).getD ("crsid:" ++ textBehind d "crsid")
    ++ around "" (textBehind d "section") "" ++ around "." (textBehind d "sub_type") ""
    ++ (match d.get? "year" with | some (.int n) => " " ++ toString n ++ "-" ++ textBehind d "term" | _ => "")
    ++ around "(institution=" (textBehind d "institution") ")" ++ around "(grade >= " (textBehind d "grade") ")"

/-! ### Course rules -/

theorem text_at {d : Dict} {k : String} {o : Option String} (h : d.text k = .ok o) (s : String) :
    o = some s ↔ TextAt d k s := by
  unfold Dict.text Dict.opt at h
  unfold TextAt
  cases hk : d.get? k with
  | none => rw [hk] at h; cases h; simp
  | some y => cases y <;> rw [hk] at h <;> simp at h <;> subst h <;> simp

theorem text_none {d : Dict} {k : String} {o : Option String} (h : d.text k = .ok o) : o = none ↔ ∀ s, ¬ TextAt d k s := by
  constructor
  · rintro rfl s hs
    have := (text_at h s).2 hs
    cases this
  · intro hn
    cases o with
    | none => rfl
    | some s => exact absurd ((text_at h s).1 rfl) (hn s)

theorem text_behind {d : Dict} {k : String} {o : Option String} (h : d.text k = .ok o) : o.getD "" = textBehind d k := by
  unfold textBehind
  cases o with
  | some s =>
    have := (text_at h s).1 rfl
    unfold TextAt at this
    rw [this]
    rfl
  | none =>
    have := (text_none h).1 rfl
    split
    · rename_i s hs; exact absurd hs (this s)
    · rfl

theorem given_behind {d : Dict} {k : String} {o : Option String} (h : d.text k = .ok o) :
    given o = true ↔ textBehind d k ≠ "" := by
  rw [← text_behind h]
  cases o <;> simp [given]

theorem labelPart_behind {d : Dict} {k : String} {o : Option String} (h : d.text k = .ok o) (a b : String) :
    labelPart a o b = around a (textBehind d k) b := by
  unfold labelPart around
  rw [← text_behind h]
  cases o with
  | none => simp [given]
  | some s => by_cases hs : s = "" <;> simp [given, hs]

theorem number_written {d : Dict} {k : String} {o : Option Int} (h : d.number k = .ok o) (n : Int) :
    o = some n ↔ d.get? k = some (.int n) := by
  unfold Dict.number Dict.opt at h
  cases hk : d.get? k with
  | none => rw [hk] at h; cases h; simp
  | some y => cases y <;> rw [hk] at h <;> simp at h <;> subst h <;> simp

theorem loadCourse_segment {d : Dict} {p : Path} {r : CourseData} (h : loadCourseRule d p = .ok r) :
    r.path = p ++ [courseSegment d] := by
  unfold loadCourseRule at h
  simp only [ld_bind_ok, ld_check_ok] at h
  obtain ⟨course, h1, ap, h2, name, h3, institution, h4, minGrade, h5, gradeOption, h6, clbid, h7, crsid, h8, inserted, h9, aw, h10,
    sect, h11, sub, h12, year, h13, term, h14, label, h15, yt, h16, fc, h17, ac, h18, opt, h19, _, h20, _, h21, grade, h22,
    option, h23, h⟩ := h
  cases h
  dsimp only
  rw [labelPart_behind h11, labelPart_behind h12, labelPart_behind h4, labelPart_behind h5]
  have hyt : (match yt with
      | some (y, t) => " " ++ toString y ++ "-" ++ t
      | none => "") = (match d.get? "year" with | some (.int n) => " " ++ toString n ++ "-" ++ textBehind d "term" | _ => "") := by
    unfold yearAndTerm at h16
    split at h16
    · rename_i n t
      cases h16
      have hn := (number_written h13 n).1 rfl
      rw [hn, ← text_behind h14]
      rfl
    · cases h16
    · cases h16
      dsimp only
      split
      · rename_i n hn; have := (number_written h13 n).2 hn; cases this
      · rfl
  have hl : label = "*" ++ ((["course", "ap", "name", "clbid"].map (textBehind d)).find? (· ≠ "")).getD
      ("crsid:" ++ textBehind d "crsid") := by
    unfold courseLabel at h15
    simp only [given_behind h1, given_behind h2, given_behind h3, given_behind h7, text_behind h1, text_behind h2,
      text_behind h3, text_behind h7] at h15
    simp only [List.map_cons, List.map_nil, List.find?_cons, List.find?_nil]
    by_cases c1 : textBehind d "course" = ""
    · rw [if_neg (by simpa using c1)] at h15
      by_cases c2 : textBehind d "ap" = ""
      · rw [if_neg (by simpa using c2)] at h15
        by_cases c3 : textBehind d "name" = ""
        · rw [if_neg (by simpa using c3)] at h15
          by_cases c4 : textBehind d "clbid" = ""
          · rw [if_neg (by simpa using c4)] at h15
            split at h15
            · rename_i s
              cases h15
              rw [← text_behind h8]
              simp only [c1, c2, c3, c4, ne_eq, not_true_eq_false, decide_false, Option.getD_none, Option.getD_some]
              rw [← String.append_assoc]
              rfl
            · cases h15
          · rw [if_pos (by simpa using c4)] at h15
            cases h15
            simp [c1, c2, c3, c4]
        · rw [if_pos (by simpa using c3)] at h15
          cases h15
          simp [c1, c2, c3]
      · rw [if_pos (by simpa using c2)] at h15
        cases h15
        simp [c1, c2]
    · rw [if_pos (by simpa using c1)] at h15
      cases h15
      simp [c1]
  rw [hl]
  exact congrArg (fun t => p ++ ["*" ++ ((["course", "ap", "name", "clbid"].map (textBehind d)).find? (· ≠ "")).getD
    ("crsid:" ++ textBehind d "crsid") ++ around "" (textBehind d "section") "" ++ around "." (textBehind d "sub_type") "" ++ t
    ++ around "(institution=" (textBehind d "institution") ")" ++ around "(grade >= " (textBehind d "grade") ")"]) hyt

theorem grade_points {s : String} {g : GradeCode} (h : parseGrade s = some g) : (s, gradePointsOf g) ∈ writtenPoints := by
  have := parseGrade_says h
  revert s g
  intro s g _ hm
  have all : ∀ e ∈ writtenGrades, (e.1, gradePointsOf e.2) ∈ writtenPoints := by decide +kernel
  exact all _ hm

theorem loadMinGrade_says {o : Option String} {q : Option Rat} (h : loadMinGrade o = .ok q) :
    ∀ s, o = some s → ∃ r, q = some r ∧ (s, r) ∈ writtenPoints := by
  rintro s rfl
  simp only [loadMinGrade] at h
  split at h
  · cases h; exact ⟨_, rfl, grade_points (by assumption)⟩
  · cases h

theorem loadGradeOption_says {o : Option String} {g : Option GradeOption} (h : loadGradeOption o = .ok g) :
    ∀ s, o = some s → s ≠ "" → ∃ r, g = some r ∧ (s, r) ∈ writtenGradeOptions := by
  rintro s rfl hs
  unfold loadGradeOption at h
  rw [if_pos (by simp [given, hs])] at h
  split at h
  · cases h; exact ⟨_, rfl, parseGradeOption_says (by assumption)⟩
  · cases h

/-- the courses that a course rule names are those that its text names -/
theorem named_as_written {d : Dict} {p : Path} {r : CourseData} (h : loadCourseRule d p = .ok r) {k : Course} :
    ((∀ s, r.clbid = some s → k.clbid = s) ∧ (r.clbid = none → RuleMatches r k)) ↔ CourseNamed d k := by
  obtain ⟨_, _, minGrade, gradeOption, year, term, _, _, _, _, _, _, h1, h2, h3, h4, h5, h6, h7, h8, h9, h10, h11, h12, h13,
    h14, h15, _⟩ := loadCourse_inv h
  constructor
  · intro hk
    have hnone : (∀ s, ¬ TextAt d "clbid" s) → RuleMatches r k := fun hc => hk.2 ((text_none h4).2 hc)
    constructor
    · exact fun s hs => hk.1 s ((text_at h4 s).2 hs)
    · exact fun hc hi ha => (hnone hc).1 ((text_none h6).2 hi) ((text_none h2).2 ha)
    · exact fun hc s hs => (hnone hc).2.1 s ((text_at h5 s).2 hs)
    · intro hc s hs
      obtain ⟨g1, g2, g3, g4, g5, g6, g7⟩ := (hnone hc).2.2.1 s ((text_at h1 s).2 hs)
      refine ⟨g1, fun t ht => g2 t ((text_at h7 t).2 ht), ?_, ?_⟩
      · intro n t hn ht
        have hn := (number_written h13 n).2 hn
        have ht := (text_at h14 t).2 ht
        rw [hn, ht] at h15
        exact g3 (n, t) (Except.ok.inj h15).symm
      · intro t ty ht hm
        have ht := (text_at h8 t).2 ht
        simp only [writtenSubTypes, List.mem_cons, Prod.mk.injEq, List.not_mem_nil, or_false] at hm
        rcases hm with ⟨rfl, rfl⟩ | ⟨rfl, rfl⟩ | ⟨rfl, rfl⟩ | ⟨rfl, rfl⟩
        exacts [g4 ht, g5 ht, g6 ht, g7 ht]
    · exact fun hc s hs => (hnone hc).2.2.2.1 s ((text_at h3 s).2 hs)
    · exact fun hc s hs => (hnone hc).2.2.2.2.1 s ((text_at h6 s).2 hs)
    · exact fun hc s hs => (hnone hc).2.2.2.2.2 s ((text_at h2 s).2 hs)
  · intro hk
    refine ⟨fun s hs => hk.clbid s ((text_at h4 s).1 hs), fun hc => ?_⟩
    have hc := (text_none h4).1 hc
    refine ⟨fun hi ha => hk.college hc ((text_none h6).1 hi) ((text_none h2).1 ha),
      fun s hs => hk.crsid hc s ((text_at h5 s).1 hs), fun s hs => ?_, fun s hs => hk.name hc s ((text_at h3 s).1 hs),
      fun s hs => hk.institution hc s ((text_at h6 s).1 hs), fun s hs => hk.ap hc s ((text_at h2 s).1 hs)⟩
    obtain ⟨g1, g2, g3, g4⟩ := hk.course hc s ((text_at h1 s).1 hs)
    have sub : ∀ t ty, (t, ty) ∈ writtenSubTypes → r.subType = some t → k.subType = ty :=
      fun t ty hm ht => g4 t ty ((text_at h8 t).1 ht) hm
    refine ⟨g1, fun t ht => g2 t ((text_at h7 t).1 ht), ?_, sub "E" _ (by decide), sub "L" _ (by decide),
      sub "F" _ (by decide), sub "D" _ (by decide)⟩
    intro yt hyt
    have hyt : r.yearTerm = some yt := hyt
    rw [hyt] at h15
    unfold yearAndTerm at h15
    split at h15
    · rename_i n t
      cases h15
      exact g3 n t ((number_written h13 n).1 rfl) ((text_at h14 t).1 rfl)
    · cases h15
    · cases h15

/-- what a course rule read from a text may claim is what the text describes -/
theorem entitled_as_written {d : Dict} {p : Path} {r : CourseData} (h : loadCourseRule d p = .ok r) {x : Ctx} {k : Course}
    {ex : List String} (hk : CourseEntitled x { r with excluded := ex } k) : CourseAsWritten d k := by
  obtain ⟨_, _, minGrade, gradeOption, year, term, _, _, _, _, _, _, h1, h2, h3, h4, h5, h6, h7, h8, h9, h10, h11, h12, h13,
    h14, h15, _⟩ := loadCourse_inv h
  refine ⟨(named_as_written h).1 ⟨hk.byClbid, hk.byFilters⟩, ?_, ?_⟩
  · intro s hs
    obtain ⟨q, hq, hm⟩ := loadMinGrade_says h10 s ((text_at h9 s).2 hs)
    exact ⟨q, hm, hk.grade q hq⟩
  · intro s hs hne
    obtain ⟨g, hg, hm⟩ := loadGradeOption_says h12 s ((text_at h11 s).2 hs) hne
    exact ⟨g, hm, hk.gradeOption g hg⟩

/-- a course to which all that is written applies is one the rule may claim -/
theorem written_entitled {d : Dict} {p : Path} {r : CourseData} (h : loadCourseRule d p = .ok r) {x : Ctx} {k : Course}
    (hx : k ∈ x.transcript) {ex : List String} (hex : k.clbid ∉ ex) (hk : CourseAsWritten d k) :
    CourseEntitled x { r with excluded := ex } k := by
  obtain ⟨_, _, minGrade, gradeOption, year, term, _, _, _, _, _, _, h1, h2, h3, h4, h5, h6, h7, h8, h9, h10, h11, h12, h13,
    h14, h15, _⟩ := loadCourse_inv h
  obtain ⟨hn1, hn2⟩ := (named_as_written h).2 hk.toCourseNamed
  refine ⟨hx, hn1, hn2, hex, ?_, ?_⟩
  · intro q hq
    have hq : r.grade = some q := hq
    rw [hq] at h10
    cases hm : minGrade with
    | none => rw [hm] at h10; cases h10
    | some s =>
      obtain ⟨q', hq', hm'⟩ := loadMinGrade_says h10 s hm
      cases hq'
      obtain ⟨q2, h2', h3'⟩ := hk.grade s ((text_at h9 s).1 hm)
      have : ∀ e ∈ writtenPoints, ∀ e' ∈ writtenPoints, e.1 = e'.1 → e.2 = e'.2 := by decide +kernel
      have := this _ hm' _ h2' rfl
      dsimp only at this
      rw [this]
      exact h3'
  · intro g hg
    have hg : r.gradeOption = some g := hg
    rw [hg] at h12
    cases hm : gradeOption with
    | none => rw [hm] at h12; cases h12
    | some s =>
      have hne : s ≠ "" := by
        rintro rfl
        rw [hm] at h12
        cases h12
      obtain ⟨g', hg', hm'⟩ := loadGradeOption_says h12 s hm hne
      cases hg'
      obtain ⟨g2, h2', h3'⟩ := hk.gradeOption s ((text_at h11 s).1 hm) hne
      have : ∀ e ∈ writtenGradeOptions, ∀ e' ∈ writtenGradeOptions, e.1 = e'.1 → e.2 = e'.2 := by decide
      have := this _ hm' _ h2' rfl
      dsimp only at this
      rw [this]
      exact h3'

/-- **C65.** A course rule read from a text may claim, of the courses of the transcript, exactly those that the text
describes, and its place is the one that the text gives it. -/
theorem C65_course_rule_asks_what_is_written (d : Dict) (p : Path) (r : CourseData) (h : loadCourseRule d p = .ok r) (x : Ctx)
    (k : Course) : r.path = p ++ [courseSegment d] ∧ (CourseEntitled x r k ↔ k ∈ x.transcript ∧ CourseAsWritten d k) := by
  have hex : r.excluded = [] := by
    obtain ⟨_, _, _, _, _, _, _, _, _, _, _, _, _, _, _, _, _, _, _, _, _, _, _, _, _, _, _, _, _, _, _, _, _, _, _, _, _, _, hex⟩ :=
      loadCourse_inv h
    exact hex
  have hr : { r with excluded := [] } = r := by cases r; cases hex; rfl
  refine ⟨loadCourse_segment h, fun hk => ⟨hk.onTranscript, ?_⟩, fun ⟨h1, h2⟩ => ?_⟩
  · exact entitled_as_written h (x := x) (ex := []) (by rw [hr]; exact hk)
  · have := written_entitled h (ex := []) h1 (by simp) h2
    rwa [hr] at this

/-- a course rule with most of what can be written -/
def courseText : Dict := [("course", .str "MUSIC 161"), ("section", .str "A"), ("sub_type", .str "L"), ("grade", .str "B-"),
  ("grade_option", .str "grade"), ("year", .int 2019), ("term", .str "1")]

example : (loadCourseRule courseText ["$"]).toOption.map (·.path) = some ["$", "*MUSIC 161A.L 2019-1(grade >= B-)"] := by
  decide +kernel

/-- a lab -/
def musicLab : Course := { clbid := "1", identity := "MUSIC 161", section' := some "A", subType := .lab, gradePoints := 2 }

/-- the text describes it as long as it is in progress, but not with a grade of C -/
example : CourseAsWritten courseText { musicLab with isInProgress := true } ∧ ¬ CourseAsWritten courseText musicLab := by
  constructor
  · refine ⟨⟨?_, ?_, ?_, ?_, ?_, ?_, ?_⟩, ?_, ?_⟩ <;>
      simp [musicLab, TextAt, courseText, Dict.get?, writtenSubTypes, writtenPoints, writtenGradeOptions]
    rintro t ty rfl h
    simp at h
    exact h.symm
  · intro h
    obtain ⟨q, hq, h⟩ := h.grade "B-" (by simp [TextAt, courseText, Dict.get?])
    simp only [writtenPoints, List.mem_cons, Prod.mk.injEq, String.reduceEq, false_and, true_and, false_or, or_false,
      List.not_mem_nil] at hq
    subst hq
    revert h
    decide +kernel

end Dp
