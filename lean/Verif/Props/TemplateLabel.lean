import Verif.Props.EntryOrder
import Verif.Props.LoadFuel

/-
C80: the labels of a student's templates (`dp/data/student.py:121-127,180-288`).
-/
namespace Dp

/-! ### How a label is written -/

/-- the value of four digits -/
def fourDigits (a b c d : Char) : Int :=
  1000 * (a.toNat - 48 : Int) + 100 * (b.toNat - 48 : Int) + 10 * (c.toNat - 48 : Int) + (d.toNat - 48 : Int)

/-- a label that names a course by subject and number: `CSCI 251A.L 2019-1 [St. Olaf]`, with only the subject and number required -/
structure CourseLabel where
  subject : List Char
  digits : Char × Char × Char
  section' : Option Char := none
  kind : Option Char := none
  yearTerm : Option ((Char × Char × Char × Char) × Char) := none
  institution : Option (List Char) := none

/-- the label can be written this way -/
structure CourseLabel.Ok (l : CourseLabel) : Prop where
  subject : ∀ c ∈ l.subject, ('A' ≤ c ∧ c ≤ 'Z') ∨ c = '/'
  short : l.subject.length ≤ 5
  long : 2 ≤ l.subject.length
  digits : ('0' ≤ l.digits.1 ∧ l.digits.1 ≤ '9') ∧ ('0' ≤ l.digits.2.1 ∧ l.digits.2.1 ≤ '9')
    ∧ ('0' ≤ l.digits.2.2 ∧ l.digits.2.2 ≤ '9')
  section' : ∀ c, l.section' = some c → 'A' ≤ c ∧ c ≤ 'Z'
  kind : ∀ c, l.kind = some c → 'A' ≤ c ∧ c ≤ 'Z'
  year : ∀ a b c d t, l.yearTerm = some ((a, b, c, d), t) → ('0' ≤ a ∧ a ≤ '9') ∧ ('0' ≤ b ∧ b ≤ '9') ∧ ('0' ≤ c ∧ c ≤ '9')
    ∧ ('0' ≤ d ∧ d ≤ '9') ∧ t ≠ '\n'
  institution : ∀ s, l.institution = some s → s ≠ [] ∧ '\n' ∉ s

/-- the kind of class, as `.L` -/
def writtenKind : Option Char → List Char
  | some c => ['.', c]
  | none => []

/-- year and term, as ` 2019-1` -/
def writtenTerm : Option ((Char × Char × Char × Char) × Char) → List Char
  | some ((a, b, c, d), t) => [' ', a, b, c, d, '-', t]
  | none => []

/-- the institution, as ` [Carleton]` -/
def writtenPlace : Option (List Char) → List Char
  | some s => ' ' :: '[' :: (s ++ [']'])
  | none => []

/-- the text of the label -/
def CourseLabel.text (l : CourseLabel) : List Char :=
  l.subject ++ ' ' :: l.digits.1 :: l.digits.2.1 :: l.digits.2.2 ::
    (l.section'.toList ++ (writtenKind l.kind ++ (writtenTerm l.yearTerm ++ writtenPlace l.institution)))

/-- the class is the one the label describes -/
structure CourseLabel.Fits (l : CourseLabel) (c : Course) : Prop where
  course : c.identity = String.ofList (l.subject ++ [' ', l.digits.1, l.digits.2.1, l.digits.2.2])
  section' : ∀ s, l.section' = some s → c.section' = some (String.ofList [s])
  ensemble : l.kind = some 'E' → c.subType = .ensemble
  lab : l.kind = some 'L' → c.subType = .lab
  flac : l.kind = some 'F' → c.subType = .flac
  discussion : l.kind = some 'D' → c.subType = .discussion
  yearTerm : ∀ a b d e t, l.yearTerm = some ((a, b, d, e), t) → c.year = fourDigits a b d e ∧ c.term = String.ofList [t]
  institution : ∀ s, l.institution = some s → c.institution = String.ofList s
  atHome : l.institution = none → c.isStolaf = true

/-- `c` is the first of the list with the property -/
def IsFirst (P : Course → Prop) (l : List Course) (c : Course) : Prop :=
  ∃ before after, l = before ++ c :: after ∧ P c ∧ ∀ b ∈ before, ¬ P b

/-! ### The scanner reads what was written -/

def yearDigits : Option ((Char × Char × Char × Char) × Char) → List Char
  | some ((a, b, c, d), _) => [a, b, c, d]
  | none => []

def termChars : Option ((Char × Char × Char × Char) × Char) → List Char
  | some (_, t) => [t]
  | none => []

/-- the parts of a label -/
def CourseLabel.parts (l : CourseLabel) : LabelParts :=
  { subject := l.subject
    num := [l.digits.1, l.digits.2.1, l.digits.2.2]
    section' := l.section'.toList
    subType := l.kind.toList
    year := yearDigits l.yearTerm
    term := termChars l.yearTerm
    inst := l.institution.getD [] }

theorem takeWhile_all_append {α : Type} (p : α → Bool) : ∀ (l r : List α), (∀ a ∈ l, p a = true) → (∀ a ∈ r.head?, p a = false) →
    (l ++ r).takeWhile p = l ∧ (l ++ r).dropWhile p = r
  | [], [], _, _ => ⟨rfl, rfl⟩
  | [], b :: r, _, hr => by
    have := hr b (by simp)
    simp [List.takeWhile, List.dropWhile, this]
  | a :: l, r, hl, hr => by
    have ih := takeWhile_all_append p l r (fun x hx => hl x (by simp [hx])) hr
    have := hl a (by simp)
    simp [this, ih.1, ih.2]

theorem scanInst_text (o : Option (List Char)) (h : ∀ s, o = some s → s ≠ [] ∧ '\n' ∉ s) :
    scanInst (writtenPlace o) = o.getD [] := by
  cases o with
  | none => rfl
  | some s =>
    have hs := h s rfl
    have h1 : (s ++ [']']).takeWhile isAnyChar = s ++ [']'] := by
      have := (takeWhile_all_append isAnyChar (s ++ [']']) [] ?_ (by simp)).1
      · rwa [List.append_nil] at this
      intro c hc
      rcases List.mem_append.1 hc with hc | hc
      · have : c ≠ '\n' := fun e => hs.2 (e ▸ hc)
        simpa [isAnyChar] using this
      · rw [List.mem_singleton.1 hc]; decide
    simp only [writtenPlace, scanInst, h1, beforeLastBracket, List.reverse_append, List.reverse_cons, List.reverse_nil, List.nil_append,
      List.singleton_append]
    simp

theorem capital_of {c : Char} (h : 'A' ≤ c ∧ c ≤ 'Z') : isCapital c = true := decide_eq_true h

theorem digit_of {c : Char} (h : '0' ≤ c ∧ c ≤ '9') : isDigit09 c = true := decide_eq_true h

theorem digit_not_capital {c : Char} (h : '0' ≤ c ∧ c ≤ '9') : isCapital c = false := by
  apply decide_eq_false
  rintro ⟨h1, _⟩
  have := Char.le_trans h1 h.2
  exact absurd this (by decide)

theorem scanYearTerm_text (o : Option ((Char × Char × Char × Char) × Char)) (r : List Char)
    (h : ∀ a b c d t, o = some ((a, b, c, d), t) → ('0' ≤ a ∧ a ≤ '9') ∧ ('0' ≤ b ∧ b ≤ '9') ∧ ('0' ≤ c ∧ c ≤ '9')
      ∧ ('0' ≤ d ∧ d ≤ '9') ∧ t ≠ '\n') (hr : r = [] ∨ ∃ s, r = ' ' :: '[' :: s) :
    scanYearTerm (writtenTerm o ++ r) = (yearDigits o, termChars o, r) := by
  rcases o with _ | ⟨⟨a, b, c, d⟩, t⟩
  · rcases hr with rfl | ⟨s, rfl⟩
    · rfl
    · simp only [writtenTerm, yearDigits, termChars, List.nil_append]
      unfold scanYearTerm
      split
      · rename_i heq
        have : isDigit09 '[' = false := by decide
        simp only [List.cons.injEq, true_and] at heq
        obtain ⟨rfl, e⟩ := heq
        simp [this, e]
      · rfl
  · obtain ⟨ha, hb, hc, hd, ht⟩ := h a b c d t rfl
    have ht' : isAnyChar t = true := by simpa [isAnyChar] using ht
    simp [writtenTerm, yearDigits, termChars, scanYearTerm, digit_of ha, digit_of hb, digit_of hc, digit_of hd, ht']

theorem scanSubType_text (o : Option Char) (r : List Char) (h : ∀ c, o = some c → 'A' ≤ c ∧ c ≤ 'Z')
    (hr : ∀ a c s, r = a :: c :: s → isCapital c = false) :
    scanSubType (writtenKind o ++ r) = (o.toList, r) := by
  rcases o with _ | c
  · simp only [writtenKind, List.nil_append]
    unfold scanSubType
    split
    · rename_i a c s
      have := hr a c s rfl
      simp [this]
    · rfl
  · have : isAnyChar '.' = true := by decide
    simp [writtenKind, scanSubType, capital_of (h c rfl), this]

theorem scanSection_text (o : Option Char) (r : List Char) (h : ∀ c, o = some c → 'A' ≤ c ∧ c ≤ 'Z')
    (hr : ∀ c s, r = c :: s → isCapital c = false) :
    scanSection (o.toList ++ r) = (o.toList, r) := by
  rcases o with _ | c
  · cases r with
    | nil => rfl
    | cons a s => simp [scanSection, hr a s rfl]
  · simp [scanSection, capital_of (h c rfl)]

theorem scanLabel_shape (subject : List Char) (a b c : Char) (cs : List Char) (hs : ∀ x ∈ subject, isSubjectChar x = true)
    (h : 2 ≤ subject.length ∧ subject.length ≤ 5 ∧ isDigit09 a ∧ isDigit09 b ∧ isDigit09 c) :
    scanLabel (subject ++ ' ' :: a :: b :: c :: cs) =
      some { subject := subject, num := [a, b, c], section' := (scanSection cs).1,
             subType := (scanSubType (scanSection cs).2).1, year := (scanYearTerm (scanSubType (scanSection cs).2).2).1,
             term := (scanYearTerm (scanSubType (scanSection cs).2).2).2.1,
             inst := scanInst (scanYearTerm (scanSubType (scanSection cs).2).2).2.2 } := by
  obtain ⟨h1, h2⟩ := takeWhile_all_append isSubjectChar subject (' ' :: a :: b :: c :: cs) hs
    (by intro x hx; simp only [List.head?_cons, Option.mem_def, Option.some.injEq] at hx; subst hx; decide)
  unfold scanLabel
  rw [h1, h2]
  exact if_pos h

theorem scanLabel_text (l : CourseLabel) (h : l.Ok) : scanLabel l.text = some l.parts := by
  unfold CourseLabel.text
  rw [scanLabel_shape l.subject _ _ _ _ (by
      intro c hc
      rcases h.subject c hc with hc | rfl
      · simp [isSubjectChar, capital_of hc]
      · decide) ⟨h.long, h.short, digit_of h.digits.1, digit_of h.digits.2.1, digit_of h.digits.2.2⟩]
  have hI := scanInst_text l.institution h.institution
  have hY := scanYearTerm_text l.yearTerm (writtenPlace l.institution) h.year (by cases l.institution <;> simp [writtenPlace])
  have hT := scanSubType_text l.kind (writtenTerm l.yearTerm
    ++ (writtenPlace l.institution)) h.kind (by
      intro a c s e
      rcases hy : l.yearTerm with _ | ⟨⟨y1, y2, y3, y4⟩, t⟩
      · rw [hy] at e
        rcases hi : l.institution with _ | i
        · rw [hi] at e; cases e
        · rw [hi] at e; cases e; decide
      · rw [hy] at e
        cases e
        exact digit_not_capital (h.year _ _ _ _ _ hy).1)
  have hS := scanSection_text l.section' (writtenKind l.kind
    ++ (writtenTerm l.yearTerm
    ++ (writtenPlace l.institution))) h.section' (by
      intro c s e
      rcases hk : l.kind with _ | k
      · rw [hk] at e
        rcases hy : l.yearTerm with _ | ⟨⟨y1, y2, y3, y4⟩, t⟩
        · rw [hy] at e
          rcases hi : l.institution with _ | i
          · rw [hi] at e; cases e
          · rw [hi] at e; cases e; decide
        · rw [hy] at e; cases e; decide
      · rw [hk] at e; cases e; decide)
  rw [hS]
  dsimp only
  rw [hT]
  dsimp only
  rw [hY]
  dsimp only
  rw [hI]
  rfl

/-! ### The course rule made from a template -/

/-- a text that may be empty -/
def orNone (s : String) : Option String := if s = "" then none else some s

theorem givenEntry_get (key s v k : String) :
    (givenEntry key s v).get? k = if key = k ∧ s ≠ "" then some (.str v) else none := by
  unfold givenEntry
  by_cases hs : s = "" <;> by_cases hk : key = k <;> simp [hs, hk, Dict.get?]

/-- the entries of the rule besides the term -/
def ruleEntries (t : TemplateCourse) : Dict :=
  givenEntry "clbid" t.clbid t.clbid ++ givenEntry "course" t.subject (t.subject ++ " " ++ t.num)
    ++ givenEntry "section" t.section' t.section' ++ givenEntry "sub_type" t.subType t.subType
    ++ givenEntry "institution" t.institution t.institution ++ givenEntry "ap" t.name t.name

/-- what a rule says under a key where only texts occur -/
theorem text_of_get {d : Dict} {k s v : String} (h : d.get? k = if s ≠ "" then some (.str v) else none) :
    d.text k = .ok (if s = "" then none else some v) := by
  unfold Dict.text Dict.opt
  rw [h]
  by_cases hs : s = "" <;> simp [hs]

theorem text_of_none {d : Dict} {k : String} (h : d.get? k = none) : d.text k = .ok none := by
  unfold Dict.text Dict.opt
  rw [h]

theorem flag_of_none {d : Dict} {k : String} {b : Bool} (h : d.get? k = none) : d.flag k b = .ok b := by
  unfold Dict.flag
  rw [h]

theorem ruleEntries_keys (t : TemplateCourse) : onlyKeys courseRuleKeys (ruleEntries t) = true := by
  unfold onlyKeys
  rw [List.all_eq_true]
  intro e he
  unfold ruleEntries givenEntry at he
  simp only [List.mem_append] at he
  rcases he with ((((he | he) | he) | he) | he) | he <;> split at he <;>
    first
    | exact absurd he List.not_mem_nil
    | (rw [List.mem_singleton.1 he]; simp [courseRuleKeys])

theorem loadCourseRule_entries (t : TemplateCourse) (more : Dict) (yt : Option (Int × String))
    (hid : t.clbid ≠ "" ∨ t.subject ≠ "" ∨ t.name ≠ "")
    (hmore : (more = [] ∧ yt = none) ∨ ∃ n s, more = [("year", .int n), ("term", .str s)] ∧ yt = some (n, s)) (path : Path) :
    ∃ d, loadCourseRule (ruleEntries t ++ more) path = .ok d ∧ d.clbid = orNone t.clbid
      ∧ d.filter = { ap := orNone t.name, course := (if t.subject = "" then none else some (t.subject ++ " " ++ t.num)),
                     institution := orNone t.institution, section' := orNone t.section',
                     subType := subTypeLookup t.subType, yearTerm := yt }
      ∧ d.excluded = [] ∧ d.grade = none ∧ d.gradeOption = none ∧ d.autoWaived = false ∧ d.fromClaimed = false := by
  have hother : ∀ k, k ≠ "year" → k ≠ "term" → more.get? k = none := by
    intro k h1 h2
    rcases hmore with ⟨rfl, _⟩ | ⟨n, s, rfl, _⟩
    · rfl
    · simp [Dict.get?, Ne.symm h1, Ne.symm h2]
  have hget : ∀ k, k ≠ "year" → k ≠ "term" → (ruleEntries t ++ more : Dict).get? k = (ruleEntries t).get? k := by
    intro k h1 h2
    rw [Dict.get_append, hother k h1 h2, Option.or_none]
  have hnone : ∀ k, k ∉ ["clbid", "course", "section", "sub_type", "institution", "ap"] → (ruleEntries t).get? k = none := by
    intro k hk
    simp only [List.mem_cons, List.not_mem_nil, or_false, not_or] at hk
    obtain ⟨h1, h2, h3, h4, h5, h6⟩ := hk
    simp [ruleEntries, Dict.get_append, givenEntry_get, Ne.symm h1, Ne.symm h2, Ne.symm h3, Ne.symm h4, Ne.symm h5, Ne.symm h6]
  have e1 := text_of_get (d := ruleEntries t ++ more) (k := "course") (s := t.subject) (v := t.subject ++ " " ++ t.num)
    (by rw [hget _ (by decide) (by decide)]; simp [ruleEntries, Dict.get_append, givenEntry_get])
  have e2 := text_of_get (d := ruleEntries t ++ more) (k := "ap") (s := t.name) (v := t.name)
    (by rw [hget _ (by decide) (by decide)]; simp [ruleEntries, Dict.get_append, givenEntry_get])
  have e3 := text_of_none (d := ruleEntries t ++ more) (k := "name")
    (by rw [hget _ (by decide) (by decide), hnone _ (by decide)])
  have e4 := text_of_get (d := ruleEntries t ++ more) (k := "institution") (s := t.institution) (v := t.institution)
    (by rw [hget _ (by decide) (by decide)]; simp [ruleEntries, Dict.get_append, givenEntry_get])
  have e5 := text_of_none (d := ruleEntries t ++ more) (k := "grade")
    (by rw [hget _ (by decide) (by decide), hnone _ (by decide)])
  have e6 := text_of_none (d := ruleEntries t ++ more) (k := "grade_option")
    (by rw [hget _ (by decide) (by decide), hnone _ (by decide)])
  have e7 := text_of_get (d := ruleEntries t ++ more) (k := "clbid") (s := t.clbid) (v := t.clbid)
    (by rw [hget _ (by decide) (by decide)]; simp [ruleEntries, Dict.get_append, givenEntry_get])
  have e8 := text_of_none (d := ruleEntries t ++ more) (k := "crsid")
    (by rw [hget _ (by decide) (by decide), hnone _ (by decide)])
  have e9 := flag_of_none (d := ruleEntries t ++ more) (k := "inserted") (b := false)
    (by rw [hget _ (by decide) (by decide), hnone _ (by decide)])
  have e10 := flag_of_none (d := ruleEntries t ++ more) (k := "auto_waived") (b := false)
    (by rw [hget _ (by decide) (by decide), hnone _ (by decide)])
  have e11 := text_of_get (d := ruleEntries t ++ more) (k := "section") (s := t.section') (v := t.section')
    (by rw [hget _ (by decide) (by decide)]; simp [ruleEntries, Dict.get_append, givenEntry_get])
  have e12 := text_of_get (d := ruleEntries t ++ more) (k := "sub_type") (s := t.subType) (v := t.subType)
    (by rw [hget _ (by decide) (by decide)]; simp [ruleEntries, Dict.get_append, givenEntry_get])
  have e13 := flag_of_none (d := ruleEntries t ++ more) (k := "from_claimed") (b := false)
    (by rw [hget _ (by decide) (by decide), hnone _ (by decide)])
  have e14 := flag_of_none (d := ruleEntries t ++ more) (k := "allow_claimed") (b := false)
    (by rw [hget _ (by decide) (by decide), hnone _ (by decide)])
  have e15 := flag_of_none (d := ruleEntries t ++ more) (k := "optional") (b := false)
    (by rw [hget _ (by decide) (by decide), hnone _ (by decide)])
  have e16 : ∃ year term, (ruleEntries t ++ more : Dict).number "year" = .ok year
      ∧ (ruleEntries t ++ more : Dict).text "term" = .ok term ∧ yearAndTerm year term = .ok yt := by
    rcases hmore with ⟨rfl, rfl⟩ | ⟨n, s, rfl, rfl⟩
    · refine ⟨none, none, ?_, ?_, rfl⟩
      · unfold Dict.number Dict.opt; rw [List.append_nil, hnone _ (by decide)]
      · unfold Dict.text Dict.opt; rw [List.append_nil, hnone _ (by decide)]
    · refine ⟨some n, some s, ?_, ?_, rfl⟩
      · unfold Dict.number Dict.opt; rw [Dict.get_append, hnone _ (by decide)]; rfl
      · unfold Dict.text Dict.opt; rw [Dict.get_append, hnone _ (by decide)]; rfl
  obtain ⟨year, term, ey, et, eyt⟩ := e16
  have e17 : check (onlyKeys courseRuleKeys (ruleEntries t ++ more)) = .ok () := by
    have : onlyKeys courseRuleKeys (ruleEntries t ++ more) = true := by
      have h1 := ruleEntries_keys t
      unfold onlyKeys at h1 ⊢
      rw [List.all_append, h1, Bool.true_and]
      rcases hmore with ⟨rfl, _⟩ | ⟨n, s, rfl, _⟩
      · rfl
      · simp [courseRuleKeys]
    rw [this]; rfl
  have hne : t.subject ++ " " ++ t.num ≠ "" := by
    intro e
    have := congrArg String.toList e
    simp at this
  obtain ⟨label, el⟩ : ∃ label, courseLabel (if t.subject = "" then none else some (t.subject ++ " " ++ t.num))
      (if t.name = "" then none else some t.name) none (if t.clbid = "" then none else some t.clbid) none = .ok label := by
    unfold courseLabel
    by_cases h1 : t.subject = "" <;> by_cases h2 : t.name = "" <;> by_cases h3 : t.clbid = "" <;>
      simp [h1, h2, h3, given, hne]
    exact absurd hid (by simp [h1, h2, h3])
  have e18 : check (given (if t.subject = "" then none else some (t.subject ++ " " ++ t.num))
      || given (if t.name = "" then none else some t.name)
      || (given (if t.institution = "" then none else some t.institution) && given none)
      || given (if t.clbid = "" then none else some t.clbid) || given none) = .ok () := by
    by_cases h1 : t.subject = "" <;> by_cases h2 : t.name = "" <;> by_cases h3 : t.clbid = "" <;>
      simp [h1, h2, h3, given, hne, check]
    exact absurd hid (by simp [h1, h2, h3])
  unfold loadCourseRule
  rw [e1, e2, e3, e4, e5, e6, e7, e8, e9, e10, e11, e12, ey, et, e13, e14, e15, e17]
  simp only [bind, Except.bind]
  rw [el]
  dsimp only
  rw [eyt]
  dsimp only
  rw [e18]
  refine ⟨_, rfl, rfl, ?_, rfl, rfl, rfl, rfl, rfl⟩
  unfold CourseData.filter orNone
  dsimp only
  congr 1
  by_cases h : t.subType = "" <;> simp [h]

theorem asRule_load (t : TemplateCourse) (hid : t.clbid ≠ "" ∨ t.subject ≠ "" ∨ t.name ≠ "")
    (hy : t.year = "" ∨ (t.year ≠ "" ∧ t.term ≠ "" ∧ ∃ n, parseInt t.year.toList = some n)) (path : Path) :
    ∃ rule d, t.asRule = .ok (.map rule) ∧ loadCourseRule rule path = .ok d ∧ d.clbid = orNone t.clbid
      ∧ d.filter = { ap := orNone t.name, course := (if t.subject = "" then none else some (t.subject ++ " " ++ t.num)),
                     institution := orNone t.institution, section' := orNone t.section',
                     subType := subTypeLookup t.subType,
                     yearTerm := (parseInt t.year.toList).map (fun n => (n, t.term)) }
      ∧ d.excluded = [] ∧ d.grade = none ∧ d.gradeOption = none ∧ d.autoWaived = false ∧ d.fromClaimed = false := by
  rcases hy with hy | ⟨hy, ht, n, hn⟩
  · have h0 : parseInt t.year.toList = none := by rw [hy]; rfl
    obtain ⟨d, h⟩ := loadCourseRule_entries t [] none hid (.inl ⟨rfl, rfl⟩) path
    refine ⟨ruleEntries t ++ [], d, ?_, h.1, h.2.1, ?_, h.2.2.2⟩
    · unfold TemplateCourse.asRule
      rw [if_pos hy, List.append_nil]; rfl
    · rw [h.2.2.1, h0]; rfl
  · obtain ⟨d, h⟩ := loadCourseRule_entries t [("year", .int n), ("term", .str t.term)] (some (n, t.term)) hid
      (.inr ⟨n, t.term, rfl, rfl⟩) path
    refine ⟨_, d, ?_, h.1, h.2.1, ?_, h.2.2.2⟩
    · unfold TemplateCourse.asRule
      rw [if_neg hy, if_neg ht, hn]; rfl
    · rw [h.2.2.1, hn]; rfl

/-! ### What a label stands for -/

theorem digitVal_of {c : Char} (h : '0' ≤ c ∧ c ≤ '9') : digitVal c = some ((c.toNat : Int) - 48) := by
  unfold digitVal
  have : c.isDigit = true := by
    unfold Char.isDigit
    simp only [Bool.and_eq_true, decide_eq_true_eq]
    exact h
  rw [if_pos this]; rfl

theorem parseInt_four {a b c d : Char} (ha : '0' ≤ a ∧ a ≤ '9') (hb : '0' ≤ b ∧ b ≤ '9') (hc : '0' ≤ c ∧ c ≤ '9')
    (hd : '0' ≤ d ∧ d ≤ '9') : parseInt [a, b, c, d] = some (fourDigits a b c d) := by
  have hm : a ≠ '-' := by rintro rfl; exact absurd ha (by decide)
  have : parseInt [a, b, c, d] = parseDigits 0 [a, b, c, d] := by
    unfold parseInt
    split
    · rename_i e; cases e
    · rename_i e; cases e
    · rename_i e; cases e; exact absurd rfl hm
    · rfl
  rw [this]
  simp only [parseDigits, digitVal_of ha, digitVal_of hb, digitVal_of hc, digitVal_of hd, fourDigits, Option.some.injEq]
  ring

theorem notEmpty_option (o : Option Char) : notEmpty o.toList = o.map (fun c => String.ofList [c]) := by
  cases o <;> simp [notEmpty]

theorem matches_described (n : String) (s : Option String) (st : Option SubType) (i : Option String) (yt : Option (Int × String))
    (c : Course) :
    CourseFilter.matches { course := some n, section' := s, subType := st, institution := i, yearTerm := yt } c = true ↔
      (i = none → c.isStolaf = true) ∧ c.identity = n ∧ (∀ x, s = some x → c.section' = some x)
        ∧ (∀ y, yt = some y → c.year = y.1 ∧ c.term = y.2) ∧ (∀ x, st = some x → c.subType = x)
        ∧ (∀ x, i = some x → c.institution = x) := by
  unfold CourseFilter.matches
  cases hst : c.isStolaf <;> cases s <;> cases st <;> cases i <;> cases yt <;>
    simp [not_or, and_assoc] <;> tauto

theorem matches_iff_fits (l : CourseLabel) (h : l.Ok) (c : Course) : l.parts.filter.matches c = true ↔ l.Fits c := by
  have hcourse : String.ofList l.subject ++ " " ++ String.ofList [l.digits.1, l.digits.2.1, l.digits.2.2]
      = String.ofList (l.subject ++ [' ', l.digits.1, l.digits.2.1, l.digits.2.2]) := by
    apply String.toList_injective
    simp
  have hyear : (parseInt l.parts.year).map (fun n => (n, String.ofList l.parts.term))
      = l.yearTerm.map (fun y => (fourDigits y.1.1 y.1.2.1 y.1.2.2.1 y.1.2.2.2, String.ofList [y.2])) := by
    unfold CourseLabel.parts
    dsimp only
    rcases hy : l.yearTerm with _ | ⟨⟨a, b, d, e⟩, t⟩
    · rfl
    · obtain ⟨ha, hb, hd, he, _⟩ := h.year a b d e t hy
      simp only [yearDigits, termChars, parseInt_four ha hb hd he, Option.map_some]
  have hinst : notEmpty (l.institution.getD []) = l.institution.map String.ofList := by
    rcases hi : l.institution with _ | s
    · rfl
    · have := (h.institution s hi).1
      simp [notEmpty, this]
  have hkind : ∀ k : Char, ∀ s, subTypeLookup (String.ofList [k]) = some s ↔
      ((k = 'E' ∧ s = .ensemble) ∨ (k = 'L' ∧ s = .lab) ∨ (k = 'F' ∧ s = .flac) ∨ (k = 'D' ∧ s = .discussion)) := by
    intro k s
    have hk : ∀ x : Char, (String.ofList [k] == String.ofList [x]) = decide (k = x) := by
      intro x
      by_cases hx : k = x
      · simp [hx]
      · have : String.ofList [k] ≠ String.ofList [x] := by
          intro e
          have := congrArg String.toList e
          simp at this
          exact hx this
        simp [hx]
    have e1 := hk 'E'
    have e2 := hk 'L'
    have e3 := hk 'F'
    have e4 := hk 'D'
    unfold subTypeLookup
    change (if (String.ofList [k] == String.ofList ['E']) = true then _ else if (String.ofList [k] == String.ofList ['L']) = true then _
      else if (String.ofList [k] == String.ofList ['F']) = true then _ else if (String.ofList [k] == String.ofList ['D']) = true then _
      else _) = _ ↔ _
    rw [e1, e2, e3, e4]
    by_cases h1 : k = 'E'
    · subst h1; simp [eq_comm]
    by_cases h2 : k = 'L'
    · subst h2; simp [eq_comm]
    by_cases h3 : k = 'F'
    · subst h3; simp [eq_comm]
    by_cases h4 : k = 'D'
    · subst h4; simp [eq_comm]
    simp [h1, h2, h3, h4]
  have hempty : subTypeLookup "" = none := by decide
  unfold LabelParts.filter
  rw [hyear]
  have e1 : notEmpty l.parts.section' = _ := notEmpty_option l.section'
  have e2 : notEmpty l.parts.inst = _ := hinst
  have e3 : l.parts.subject = l.subject := rfl
  have e4 : l.parts.num = [l.digits.1, l.digits.2.1, l.digits.2.2] := rfl
  have e5 : l.parts.subType = l.kind.toList := rfl
  rw [e1, e2, e3, e4, e5, hcourse, matches_described]
  constructor
  · rintro ⟨h1, h2, h3, h4, h5, h6⟩
    have hk : ∀ k s, l.kind = some k → subTypeLookup (String.ofList [k]) = some s → c.subType = s := by
      intro k s e hs
      exact h5 s (by rw [e]; exact hs)
    exact
      { course := h2
        section' := fun s e => h3 _ (by rw [e]; rfl)
        ensemble := fun e => hk _ _ e (by decide)
        lab := fun e => hk _ _ e (by decide)
        flac := fun e => hk _ _ e (by decide)
        discussion := fun e => hk _ _ e (by decide)
        yearTerm := fun a b d e t ey => h4 _ (by rw [ey]; rfl)
        institution := fun s e => h6 _ (by rw [e]; rfl)
        atHome := fun e => h1 (by rw [e]; rfl) }
  · intro hf
    refine ⟨fun e => hf.atHome (by simpa using e), hf.course, ?_, ?_, ?_, ?_⟩
    · intro x e
      rw [Option.map_eq_some_iff] at e
      obtain ⟨k, e, rfl⟩ := e
      exact hf.section' k e
    · intro y e
      rw [Option.map_eq_some_iff] at e
      obtain ⟨⟨⟨a, b, d, g⟩, t⟩, e, rfl⟩ := e
      exact hf.yearTerm a b d g t e
    · intro x e
      rcases hkk : l.kind with _ | k
      · rw [hkk] at e
        have : subTypeLookup (String.ofList []) = none := by decide
        rw [show (none : Option Char).toList = [] from rfl, this] at e
        cases e
      · rw [hkk] at e
        rcases (hkind k x).1 e with ⟨rfl, rfl⟩ | ⟨rfl, rfl⟩ | ⟨rfl, rfl⟩ | ⟨rfl, rfl⟩
        · exact hf.ensemble hkk
        · exact hf.lab hkk
        · exact hf.flac hkk
        · exact hf.discussion hkk
    · intro x e
      rw [Option.map_eq_some_iff] at e
      obtain ⟨k, e, rfl⟩ := e
      exact hf.institution k e

theorem find_isFirst (P : Course → Prop) (f : Course → Bool) (hf : ∀ c, f c = true ↔ P c) (l : List Course) (c : Course) :
    l.find? f = some c ↔ IsFirst P l c := by
  rw [List.find?_eq_some_iff_append]
  constructor
  · rintro ⟨h1, as, bs, e, h2⟩
    refine ⟨as, bs, e, (hf c).1 h1, fun b hb hp => ?_⟩
    have := h2 b hb
    rw [(hf b).2 hp] at this
    cases this
  · rintro ⟨as, bs, e, h1, h2⟩
    refine ⟨(hf c).2 h1, as, bs, e, fun b hb => ?_⟩
    have := mt (hf b).1 (h2 b hb)
    simpa using this

/-- the classes a rule may take, for a template found in the transcript or not -/
theorem candidates_of (tr : List Course) (hids : (tr.map (·.clbid)).Nodup) (hgiven : ∀ c ∈ tr, c.clbid ≠ "") (f : Course → Bool)
    (d : CourseData) (hfound : ∀ c, tr.find? f = some c → d.clbid = some c.clbid)
    (hnot : tr.find? f = none → d.clbid = none ∧ ∀ c ∈ tr, d.filter.matches c = true → f c = true)
    (x : Ctx) (hx : ∀ c ∈ x.transcript, c ∈ tr) (c : Course) :
    c ∈ x.findCourses d ↔ c ∈ x.transcript ∧ tr.find? f = some c := by
  unfold Ctx.findCourses
  rcases hfind : tr.find? f with _ | c0
  · obtain ⟨h1, h2⟩ := hnot hfind
    rw [h1]
    simp only [List.mem_filter, reduceCtorEq, and_false, iff_false, not_and]
    intro hc hm
    have := List.find?_eq_none.1 hfind c (hx c hc)
    exact this (h2 c (hx c hc) hm)
  · rw [hfound c0 hfind]
    have h0 : c0 ∈ tr := List.mem_of_find?_eq_some hfind
    have hinj : ∀ a ∈ tr, ∀ b ∈ tr, a.clbid = b.clbid → a = b := fun a ha b hb e => List.inj_on_of_nodup_map hids ha hb e
    simp only [Ctx.findCourseByClbid, Option.mem_toList, Option.some.injEq]
    constructor
    · intro h
      have h1 := List.mem_of_find?_eq_some h
      have h2 := List.find?_some h
      rw [List.mem_reverse] at h1
      have h3 : c.clbid = c0.clbid := by simpa using h2
      exact ⟨h1, hinj _ h0 _ (hx c h1) h3.symm⟩
    · rintro ⟨h1, rfl⟩
      rcases hr : x.transcript.reverse.find? (fun b => b.clbid == c0.clbid) with _ | b
      · have := List.find?_eq_none.1 hr c0 (by simpa using h1)
        simp at this
      · have hb := List.mem_of_find?_eq_some hr
        have hbe := List.find?_some hr
        rw [List.mem_reverse] at hb
        have : b = c0 := hinj _ (hx b hb) _ h0 (by simpa using hbe)
        exact this ▸ hr

/-- the solutions of a rule that may take at most one class -/
theorem solutions_of (tr : List Course) (P : Course → Prop) (d : CourseData) (hd : d.excluded = [] ∧ d.grade = none ∧ d.gradeOption = none
    ∧ d.autoWaived = false ∧ d.fromClaimed = false) (x : Ctx) (hx : x.exceptions = []) (hnd : x.transcript.Nodup)
    (hc : ∀ c, c ∈ x.findCourses d ↔ c ∈ x.transcript ∧ IsFirst P tr c) (huniq : ∀ a b, IsFirst P tr a → IsFirst P tr b → a = b) :
    (courseSolutions x d).err = none ∧
      ((∃ c, c ∈ x.transcript ∧ IsFirst P tr c ∧ (courseSolutions x d).items.map (·.matched) = [some c])
      ∨ ((¬ ∃ c, c ∈ x.transcript ∧ IsFirst P tr c) ∧ (courseSolutions x d).items.map (·.matched) = [none])) := by
  obtain ⟨h1, h2, h3, h4, _⟩ := hd
  have hfn : (x.findCourses d).Nodup := by
    unfold Ctx.findCourses
    split
    · cases x.findCourseByClbid _ <;> simp
    · exact hnd.filter _
  have hacc : (x.findCourses d).filter (courseAcceptable d) = x.findCourses d := by
    rw [List.filter_eq_self]
    intro c _
    simp [courseAcceptable, h1, h2, h3]
  have hw : getWaiveException x.exceptions d.path = none := by rw [hx]; rfl
  have hi : getInsertExceptions x.exceptions d.path = [] := by rw [hx]; rfl
  have hsol : courseSolutions x d = ((Gen.nil.append (.ofList ((x.findCourses d).map (fun c => courseSolution d (some c))))).orElse
      (.one (courseSolution d none))) := by
    unfold courseSolutions
    rw [hw, hi, hacc, h4]
    rfl
  rcases hl : x.findCourses d with _ | ⟨c, rest⟩
  · rw [hsol, hl]
    refine ⟨rfl, .inr ⟨?_, rfl⟩⟩
    rintro ⟨c, h5, h6⟩
    have := (hc c).2 ⟨h5, h6⟩
    rw [hl] at this
    cases this
  · have hrest : rest = [] := by
      rcases rest with _ | ⟨b, rest⟩
      · rfl
      · have ha := (hc c).1 (by rw [hl]; simp)
        have hb := (hc b).1 (by rw [hl]; simp)
        have : c = b := huniq c b ha.2 hb.2
        rw [hl, this] at hfn
        simp at hfn
    rw [hsol, hl, hrest]
    have ha := (hc c).1 (by rw [hl]; simp)
    exact ⟨rfl, .inl ⟨c, ha.1, ha.2, rfl⟩⟩

theorem isFirst_unique {P : Course → Prop} {l : List Course} {a b : Course} (ha : IsFirst P l a) (hb : IsFirst P l b) : a = b := by
  classical
  have h1 := (find_isFirst P (fun c => decide (P c)) (by simp) l a).2 ha
  have h2 := (find_isFirst P (fun c => decide (P c)) (by simp) l b).2 hb
  rw [h1] at h2
  exact Option.some.inj h2

theorem label_candidates (tr : List Course) (hids : (tr.map (·.clbid)).Nodup) (hgiven : ∀ c ∈ tr, c.clbid ≠ "")
    (l : CourseLabel) (hl : l.Ok) (path : Path) :
    ∃ t rule d, parseTemplate (String.ofList l.text) tr = some t ∧ t.asRule = .ok (.map rule)
      ∧ loadCourseRule rule path = .ok d
      ∧ (d.excluded = [] ∧ d.grade = none ∧ d.gradeOption = none ∧ d.autoWaived = false ∧ d.fromClaimed = false)
      ∧ ∀ x : Ctx, (∀ c ∈ x.transcript, c ∈ tr) → ∀ c, c ∈ x.findCourses d ↔ c ∈ x.transcript ∧ IsFirst l.Fits tr c := by
  have hsubj : String.ofList l.subject ≠ "" := by
    intro e
    have := congrArg String.toList e
    simp at this
    have h2 := hl.long
    rw [this] at h2
    simp at h2
  have hyear : String.ofList l.parts.year = "" ∨ (String.ofList l.parts.year ≠ "" ∧ String.ofList l.parts.term ≠ ""
      ∧ ∃ n, parseInt (String.ofList l.parts.year).toList = some n) := by
    unfold CourseLabel.parts
    dsimp only
    rcases hy : l.yearTerm with _ | ⟨⟨a, b, d, e⟩, t⟩
    · left; rfl
    · right
      obtain ⟨ha, hb, hd, he, _⟩ := hl.year a b d e t hy
      refine ⟨?_, ?_, fourDigits a b d e, ?_⟩
      · intro e; have := congrArg String.toList e; simp [yearDigits] at this
      · intro e; have := congrArg String.toList e; simp [termChars] at this
      · simp only [yearDigits, String.toList_ofList, parseInt_four ha hb hd he]
  have hparse : parseTemplate (String.ofList l.text) tr = some (l.parts.template tr) := by
    unfold parseTemplate
    rw [String.toList_ofList, scanLabel_text l hl]
  refine ⟨l.parts.template tr, ?_⟩
  rcases hfind : tr.find? l.parts.filter.matches with _ | c0
  · have ht : l.parts.template tr =
        { subject := String.ofList l.parts.subject, num := String.ofList l.parts.num, section' := String.ofList l.parts.section',
          subType := String.ofList l.parts.subType, term := String.ofList l.parts.term, year := String.ofList l.parts.year,
          institution := String.ofList l.parts.inst } := by
      unfold LabelParts.template
      rw [hfind]
    obtain ⟨rule, d, h1, h2, h3, h4, h5⟩ := asRule_load (l.parts.template tr) (.inr (.inl (by rw [ht]; exact hsubj)))
      (by rw [ht]; exact hyear) path
    refine ⟨rule, d, hparse, h1, h2, h5, fun x hx c => ?_⟩
    rw [← find_isFirst l.Fits l.parts.filter.matches (matches_iff_fits l hl)]
    refine candidates_of tr hids hgiven _ d ?_ ?_ x hx c
    · intro c e; rw [hfind] at e; cases e
    · intro _
      refine ⟨by rw [h3, ht]; rfl, fun c _ hm => ?_⟩
      rw [h4, ht] at hm
      have : ({ ap := orNone "", course := (if String.ofList l.parts.subject = "" then none
                else some (String.ofList l.parts.subject ++ " " ++ String.ofList l.parts.num)),
                institution := orNone (String.ofList l.parts.inst), section' := orNone (String.ofList l.parts.section'),
                subType := subTypeLookup (String.ofList l.parts.subType),
                yearTerm := (parseInt (String.ofList l.parts.year).toList).map (fun n => (n, String.ofList l.parts.term)) }
              : CourseFilter) = l.parts.filter := by
        have hor : ∀ s : List Char, orNone (String.ofList s) = notEmpty s := by
          intro s
          unfold orNone notEmpty
          by_cases hs : s = []
          · simp [hs]
          · have : String.ofList s ≠ "" := by
              intro e; have := congrArg String.toList e; simp at this; exact hs this
            simp [hs, this]
        unfold LabelParts.filter
        rw [if_neg (show String.ofList l.parts.subject ≠ "" from hsubj), hor l.parts.inst, hor l.parts.section', String.toList_ofList]
        rfl
      rw [← this]
      exact hm
  · have ht : l.parts.template tr =
        { subject := c0.subject, num := c0.number, section' := String.ofList l.parts.section',
          subType := String.ofList l.parts.subType, term := String.ofList l.parts.term, year := String.ofList l.parts.year,
          institution := String.ofList l.parts.inst, clbid := c0.clbid } := by
      unfold LabelParts.template
      rw [hfind]
    have h0 : c0 ∈ tr := List.mem_of_find?_eq_some hfind
    obtain ⟨rule, d, h1, h2, h3, h4, h5⟩ := asRule_load (l.parts.template tr) (.inl (by rw [ht]; exact hgiven c0 h0))
      (by rw [ht]; exact hyear) path
    refine ⟨rule, d, hparse, h1, h2, h5, fun x hx c => ?_⟩
    rw [← find_isFirst l.Fits l.parts.filter.matches (matches_iff_fits l hl)]
    refine candidates_of tr hids hgiven _ d ?_ ?_ x hx c
    · intro c e
      rw [hfind] at e; cases e
      rw [h3, ht]
      unfold orNone
      rw [if_neg (show (_ : String) ≠ "" from hgiven _ h0)]
    · intro e; rw [hfind] at e; cases e

/-- **C80**, with the name of a class as the code forms it (for labs, see below). A label naming a course by subject and number always yields a course rule, and when that rule is audited without
exceptions it has exactly one solution: with the first class of the student that fits the label, if there is one and the audit
sees it, and with no class otherwise.  `tr` is the student's transcript, `x` is what the audit sees of it. -/
theorem C80_label_stands_for_its_class_partial (tr : List Course) (hids : (tr.map (·.clbid)).Nodup) (hgiven : ∀ c ∈ tr, c.clbid ≠ "")
    (l : CourseLabel) (hl : l.Ok) (path : Path) :
    ∃ t rule d, parseTemplate (String.ofList l.text) tr = some t ∧ t.asRule = .ok (.map rule)
      ∧ loadCourseRule rule path = .ok d
      ∧ ∀ x : Ctx, (∀ c ∈ x.transcript, c ∈ tr) → x.transcript.Nodup → x.exceptions = [] →
        (courseSolutions x d).err = none ∧
          ((∃ c, c ∈ x.transcript ∧ IsFirst l.Fits tr c ∧ (courseSolutions x d).items.map (·.matched) = [some c])
          ∨ ((¬ ∃ c, c ∈ x.transcript ∧ IsFirst l.Fits tr c) ∧ (courseSolutions x d).items.map (·.matched) = [none])) := by
  obtain ⟨t, rule, d, h1, h2, h3, h4, h5⟩ := label_candidates tr hids hgiven l hl path
  exact ⟨t, rule, d, h1, h2, h3, fun x hx hnd hex => solutions_of tr l.Fits d h4 x hex hnd (h5 x hx) (fun _ _ => isFirst_unique)⟩

/-! ### Labels that name a course by its title -/

/-- a label such as `name=Calculus [Carleton]` -/
structure NameLabel where
  name : List Char
  institution : Option (List Char) := none

/-- the label can be written this way -/
structure NameLabel.Ok (l : NameLabel) : Prop where
  given : l.name ≠ []
  name : ∀ c ∈ l.name, c ≠ '(' ∧ c ≠ '['
  institution : ∀ s, l.institution = some s → s ≠ [] ∧ '\n' ∉ s

def NameLabel.text (l : NameLabel) : List Char := 'n' :: 'a' :: 'm' :: 'e' :: '=' :: (l.name ++ writtenPlace l.institution)

/-- the class is the one the label describes -/
structure NameLabel.Fits (l : NameLabel) (c : Course) : Prop where
  name : c.name = String.ofList l.name
  institution : ∀ s, l.institution = some s → c.institution = String.ofList s

theorem scanName_text (l : NameLabel) (h : l.Ok) : scanName l.text = some (l.name, l.institution.getD []) := by
  unfold NameLabel.text
  rcases hi : l.institution with _ | s
  · have h1 := takeWhile_all_append (fun c => c ≠ '(' && c ≠ '[') l.name []
      (by intro c hc; simpa using h.name c hc) (by simp)
    simp only [writtenPlace, List.append_nil] at h1 ⊢
    unfold scanName
    simp only [h1.1, h1.2]
    rfl
  · have h1 := takeWhile_all_append (fun c => c ≠ '(' && c ≠ '[') (l.name ++ [' ']) ('[' :: (s ++ [']']))
      (by
        intro c hc
        rcases List.mem_append.1 hc with hc | hc
        · simpa using h.name c hc
        · rw [List.mem_singleton.1 hc]; decide) (by simp)
    have e : l.name ++ writtenPlace (some s) = (l.name ++ [' ']) ++ '[' :: (s ++ [']']) := by simp [writtenPlace]
    rw [e]
    obtain ⟨hs1, hs2⟩ := h.institution s hi
    have hscan : scanNameInst (s ++ [']']) = some s := by
      unfold scanNameInst
      have hall : s.all isAnyChar = true := by
        rw [List.all_eq_true]
        intro c hc
        have : c ≠ '\n' := fun e => hs2 (e ▸ hc)
        simpa [isAnyChar] using this
      simp [hs1, hall]
    unfold scanName
    simp only [h1.1, h1.2]
    simp [hscan]

theorem matches_title {f : CourseFilter} {c : Course} (h : f.matches c = true) :
    (∀ n, f.ap = some n → c.name = n) ∧ (∀ s, f.institution = some s → c.institution = s) := by
  constructor
  · intro n hn
    by_contra hne
    unfold CourseFilter.matches at h
    simp [hn, hne] at h
  · intro s hs
    by_contra hne
    unfold CourseFilter.matches at h
    simp [hs] at h
    exact hne h.2.2.2.2.1.symm

theorem named_candidates (tr : List Course) (hids : (tr.map (·.clbid)).Nodup) (hgiven : ∀ c ∈ tr, c.clbid ≠ "")
    (l : NameLabel) (hl : l.Ok) (path : Path) :
    ∃ t rule d, parseTemplate (String.ofList l.text) tr = some t ∧ t.asRule = .ok (.map rule)
      ∧ loadCourseRule rule path = .ok d
      ∧ (d.excluded = [] ∧ d.grade = none ∧ d.gradeOption = none ∧ d.autoWaived = false ∧ d.fromClaimed = false)
      ∧ ∀ x : Ctx, (∀ c ∈ x.transcript, c ∈ tr) → ∀ c, c ∈ x.findCourses d ↔ c ∈ x.transcript ∧ IsFirst l.Fits tr c := by
  have hname : String.ofList l.name ≠ "" := by
    intro e
    have := congrArg String.toList e
    simp at this
    exact hl.given this
  have hplace : ∀ s, l.institution = some s → String.ofList s ≠ "" := by
    intro s hs e
    have := congrArg String.toList e
    simp at this
    exact (hl.institution s hs).1 this
  have hparse : parseTemplate (String.ofList l.text) tr
      = some (namedTemplate (String.ofList l.name) (String.ofList (l.institution.getD [])) tr) := by
    unfold parseTemplate
    rw [String.toList_ofList, scanName_text l hl]
    have : scanLabel l.text = none := by
      unfold scanLabel NameLabel.text
      rfl
    rw [this]
  have hiff : ∀ c : Course, decide ((String.ofList l.name = "" ∨ c.name = String.ofList l.name)
      ∧ (String.ofList (l.institution.getD []) = "" ∨ c.institution = String.ofList (l.institution.getD []))) = true ↔ l.Fits c := by
    intro c
    rw [decide_eq_true_eq]
    constructor
    · rintro ⟨h1, h2⟩
      refine ⟨h1.resolve_left hname, fun s hs => ?_⟩
      rw [hs] at h2
      exact h2.resolve_left (hplace s hs)
    · intro h
      refine ⟨.inr h.name, ?_⟩
      rcases hi : l.institution with _ | s
      · left; rfl
      · right; exact h.institution s hi
  refine ⟨namedTemplate (String.ofList l.name) (String.ofList (l.institution.getD [])) tr, ?_⟩
  rcases hfind : tr.find? (fun c => decide ((String.ofList l.name = "" ∨ c.name = String.ofList l.name)
      ∧ (String.ofList (l.institution.getD []) = "" ∨ c.institution = String.ofList (l.institution.getD [])))) with _ | c0
  · have ht : namedTemplate (String.ofList l.name) (String.ofList (l.institution.getD [])) tr =
        { name := String.ofList l.name, institution := String.ofList (l.institution.getD []) } := by
      unfold namedTemplate
      rw [hfind]
    obtain ⟨rule, d, h1, h2, h3, h4, h5⟩ := asRule_load
      (namedTemplate (String.ofList l.name) (String.ofList (l.institution.getD [])) tr) (.inr (.inr (by rw [ht]; exact hname)))
      (by rw [ht]; exact .inl rfl) path
    refine ⟨rule, d, hparse, h1, h2, h5, fun x hx c => ?_⟩
    rw [← find_isFirst l.Fits _ hiff]
    refine candidates_of tr hids hgiven _ d ?_ ?_ x hx c
    · intro c e; rw [hfind] at e; cases e
    · intro _
      refine ⟨by rw [h3, ht]; rfl, fun c _ hm => (hiff c).2 ?_⟩
      rw [h4, ht] at hm
      have h6 := matches_title hm
      refine ⟨?_, fun s hs => ?_⟩
      · exact h6.1 _ (if_neg hname)
      · refine h6.2 _ ?_
        rw [hs]
        exact if_neg (hplace s hs)
  · have ht : namedTemplate (String.ofList l.name) (String.ofList (l.institution.getD [])) tr =
        { name := String.ofList l.name, institution := String.ofList (l.institution.getD []),
          subject := c0.subject, num := c0.number, clbid := c0.clbid } := by
      unfold namedTemplate
      rw [hfind]
    have h0 : c0 ∈ tr := List.mem_of_find?_eq_some hfind
    obtain ⟨rule, d, h1, h2, h3, h4, h5⟩ := asRule_load
      (namedTemplate (String.ofList l.name) (String.ofList (l.institution.getD [])) tr) (.inl (by rw [ht]; exact hgiven c0 h0))
      (by rw [ht]; exact .inl rfl) path
    refine ⟨rule, d, hparse, h1, h2, h5, fun x hx c => ?_⟩
    rw [← find_isFirst l.Fits _ hiff]
    refine candidates_of tr hids hgiven _ d ?_ ?_ x hx c
    · intro c e
      rw [hfind] at e; cases e
      rw [h3, ht]
      unfold orNone
      rw [if_neg (show (_ : String) ≠ "" from hgiven _ h0)]
    · intro e; rw [hfind] at e; cases e

/-- **C80** The same for a label that names a course by its title. -/
theorem C80_named_label_stands_for_its_class (tr : List Course) (hids : (tr.map (·.clbid)).Nodup) (hgiven : ∀ c ∈ tr, c.clbid ≠ "")
    (l : NameLabel) (hl : l.Ok) (path : Path) :
    ∃ t rule d, parseTemplate (String.ofList l.text) tr = some t ∧ t.asRule = .ok (.map rule)
      ∧ loadCourseRule rule path = .ok d
      ∧ ∀ x : Ctx, (∀ c ∈ x.transcript, c ∈ tr) → x.transcript.Nodup → x.exceptions = [] →
        (courseSolutions x d).err = none ∧
          ((∃ c, c ∈ x.transcript ∧ IsFirst l.Fits tr c ∧ (courseSolutions x d).items.map (·.matched) = [some c])
          ∨ ((¬ ∃ c, c ∈ x.transcript ∧ IsFirst l.Fits tr c) ∧ (courseSolutions x d).items.map (·.matched) = [none])) := by
  obtain ⟨t, rule, d, h1, h2, h3, h4, h5⟩ := named_candidates tr hids hgiven l hl path
  exact ⟨t, rule, d, h1, h2, h3, fun x hx hnd hex => solutions_of tr l.Fits d h4 x hex hnd (h5 x hx) (fun _ _ => isFirst_unique)⟩

/-! ### Labels of labs -/

/-- **C80**, where it fails: a label for a lab, a foreign-language section or a discussion (`BIO 143.L`) fits no class at all, also
not the student's lab of that subject and number.  The name of such a class ends in `.L`, and is compared with `BIO 143`. -/
theorem C80_lab_labels_fit_nothing (current : Option String) (overrides : List Override) (table : CreditTable) (r : Row)
    (l : CourseLabel) (hl : l.Ok) (hk : l.kind = some 'L' ∨ l.kind = some 'F' ∨ l.kind = some 'D') :
    ¬ l.Fits (loadCourse current overrides table r) := by
  intro hf
  have hid := hf.course
  have h0 : (loadCourse current overrides table r).identity = rowSubject overrides r ++ " " ++ r.number ++ r.subType.suffix := rfl
  have hsub : (loadCourse current overrides table r).subType = r.subType := rfl
  rw [h0] at hid
  have hend := congrArg (fun s => s.toList.getLast?) hid
  simp only [String.toList_append, String.toList_ofList] at hend
  have hlast : (l.subject ++ [' ', l.digits.1, l.digits.2.1, l.digits.2.2]).getLast? = some l.digits.2.2 := by
    simp [List.getLast?_append]
  rw [hlast] at hend
  have hdig := hl.digits.2.2
  rcases hk with hk | hk | hk
  · have := hf.lab hk
    rw [hsub] at this
    rw [this, show SubType.suffix .lab = ".L" from rfl, List.getLast?_append, show ".L".toList.getLast? = some 'L' from by decide] at hend
    rw [show l.digits.2.2 = _ from (Option.some.inj hend).symm] at hdig
    exact absurd hdig (by decide)
  · have := hf.flac hk
    rw [hsub] at this
    rw [this, show SubType.suffix .flac = ".F" from rfl, List.getLast?_append, show ".F".toList.getLast? = some 'F' from by decide] at hend
    rw [show l.digits.2.2 = _ from (Option.some.inj hend).symm] at hdig
    exact absurd hdig (by decide)
  · have := hf.discussion hk
    rw [hsub] at this
    rw [this, show SubType.suffix .discussion = ".D" from rfl, List.getLast?_append, show ".D".toList.getLast? = some 'D' from by decide]
      at hend
    rw [show l.digits.2.2 = _ from (Option.some.inj hend).symm] at hdig
    exact absurd hdig (by decide)

/-! ### Examples -/

/-- two classes of the same course, a lab and a course taken elsewhere -/
def labelRows : List Row :=
  [{ clbid := "1", subject := "CSCI", number := "251", section' := "A", year := 2019, term := "1" },
   { clbid := "2", subject := "CSCI", number := "251", section' := "B", year := 2019, term := "3" },
   { clbid := "3", subject := "BIO", number := "143", subType := .lab, year := 2019, term := "1" },
   { clbid := "4", subject := "MATH", number := "111", name := "Calculus", institution := "Carleton", flagStolaf := false, year := 2018,
     term := "1" }]

def labelTranscript : List Course := labelRows.map (loadCourse none [] [])

def csci251 : CourseLabel := { subject := ['C', 'S', 'C', 'I'], digits := ('2', '5', '1') }

def csci251B : CourseLabel :=
  { subject := ['C', 'S', 'C', 'I'], digits := ('2', '5', '1'), section' := some 'B', yearTerm := some (('2', '0', '1', '9'), '3') }

def bio143Lab : CourseLabel := { subject := ['B', 'I', 'O'], digits := ('1', '4', '3'), kind := some 'L' }

def calculus : NameLabel := { name := "Calculus".toList, institution := some "Carleton".toList }

theorem csci251B_ok : csci251B.Ok :=
  { subject := by decide, short := by decide, long := by decide, digits := by decide
    section' := by intro c h; cases h; decide
    kind := by intro c h; cases h
    year := by intro a b c d t h; cases h; decide
    institution := by intro s h; cases h }

theorem bio143Lab_ok : bio143Lab.Ok :=
  { subject := by decide, short := by decide, long := by decide, digits := by decide
    section' := by intro c h; cases h
    kind := by intro c h; cases h; decide
    year := by intro a b c d t h; cases h
    institution := by intro s h; cases h }

theorem calculus_ok : calculus.Ok :=
  { given := by decide, name := by decide, institution := by intro s h; cases h; decide }

example : (labelTranscript.map (·.clbid)).Nodup ∧ (∀ c ∈ labelTranscript, c.clbid ≠ "") := by decide

/-- the labels, and the class each stands for: without section the first, with section the other, the lab none -/
example : [csci251, csci251B, bio143Lab].map (fun l => (String.ofList l.text,
      (parseTemplate (String.ofList l.text) labelTranscript).map (·.clbid)))
    = [("CSCI 251", some "1"), ("CSCI 251B 2019-3", some "2"), ("BIO 143.L", some "")] := by decide +kernel

example : (parseTemplate (String.ofList calculus.text) labelTranscript).map (·.clbid) = some "4"
    ∧ String.ofList calculus.text = "name=Calculus [Carleton]" := by decide +kernel

/-- the statement that C80 would like to have without exception, for labs: it fails for the lab in `labelRows` -/
theorem C80_lab_labels_refuted :
    ∃ (r : Row) (l : CourseLabel), l.Ok ∧ r.subject = "BIO" ∧ r.number = "143" ∧ r.subType = .lab
      ∧ String.ofList l.text = "BIO 143.L" ∧ ¬ l.Fits (loadCourse none [] [] r) :=
  ⟨{ clbid := "3", subject := "BIO", number := "143", subType := .lab, year := 2019, term := "1" }, bio143Lab, bio143Lab_ok,
    rfl, rfl, rfl, by decide, C80_lab_labels_fit_nothing _ _ _ _ _ bio143Lab_ok (.inl rfl)⟩

/-- a label without a name stands for the first class of the transcript, whatever it is -/
theorem C80_empty_name_takes_anything (c : Course) (tr : List Course) :
    (parseTemplate "name=" (c :: tr)).map (·.clbid) = some c.clbid := by
  have h1 : scanLabel "name=".toList = none := by decide +kernel
  have h2 : scanName "name=".toList = some ([], []) := by decide +kernel
  unfold parseTemplate
  rw [h1, h2]
  simp [namedTemplate]

/-- labels written twice count once: the templates of a student are a set -/
theorem C80_repeated_labels (name : String) (labels more : List String) (tr : List Course) (h : ∀ s ∈ more, s ∈ labels) :
    loadTemplates [(name, labels ++ more)] tr = loadTemplates [(name, labels)] tr := by
  apply loadTemplates_congr
  intro k s
  simp only [List.mem_singleton, Prod.mk.injEq]
  constructor
  · rintro ⟨ls, ⟨rfl, rfl⟩, hs⟩
    refine ⟨labels, ⟨rfl, rfl⟩, ?_⟩
    rcases List.mem_append.1 hs with hs | hs
    · exact hs
    · exact h s hs
  · rintro ⟨ls, ⟨rfl, rfl⟩, hs⟩
    exact ⟨_, ⟨rfl, rfl⟩, List.mem_append_left _ hs⟩

example : loadTemplates [("core", ["CSCI 251", "CSCI 251"])] labelTranscript = loadTemplates [("core", ["CSCI 251"])] labelTranscript :=
  C80_repeated_labels "core" ["CSCI 251"] ["CSCI 251"] labelTranscript (by simp)

end Dp
