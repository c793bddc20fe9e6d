import Verif.Props.EntryOrder

/-
C83: the student that is audited is the one of the file: what each word of the areas, the music records, the proficiencies and the
year stands for, said apart from the loader.  The courses are in `Props/Transcript*.lean`.
-/
namespace Dp

/-! ### What the words of the file stand for -/

/-- how a status is written and what an area file calls it -/
inductive AreaStatusWord : String → String → Prop
  | whatIf : AreaStatusWord "what-if" "WhatIf"
  | whatIfDrop : AreaStatusWord "what-if-drop" "WhatIfDrop"
  | declared : AreaStatusWord "declared" "Declared"
  | certified : AreaStatusWord "certified" "Certified"
  | awarded : AreaStatusWord "awarded" "Awarded"

/-- how a kind of area is written and what an area file calls it -/
inductive AreaKindWord : String → String → Prop
  | degree : AreaKindWord "degree" "Degree"
  | major : AreaKindWord "major" "Major"
  | concentration : AreaKindWord "concentration" "Concentration"
  | emphasis : AreaKindWord "emphasis" "Emphasis"

/-- the area is the one of the record -/
structure AreaSays (r : RawArea) (a : AreaPointer) : Prop where
  status : AreaStatusWord r.status a.status
  kind : AreaKindWord r.kind a.kind
  code : a.code = r.code
  name : a.name = r.name
  degree : a.degree = r.degree
  gpa : a.gpa = r.gpa
  dept : a.dept = r.dept
  terms : a.termsSinceDeclaration = r.terms

/-- the letter of a performance and what it stands for -/
inductive SlipWord : String → Option String → Prop
  | entrance : SlipWord "E" (some "entrance")
  | continuance : SlipWord "C" (some "continuance")
  | nothing : SlipWord "" none

/-- the performance is the one of the record -/
structure PerformanceSays (r : RawSlip) (p : MusicPerformance) : Prop where
  id : p.id = r.id
  name : p.name = r.name
  year : p.year = r.year
  term : p.term = r.term
  role : p.role = r.role
  status : SlipWord r.status p.status

/-- the recital attended is the one of the record -/
structure RecitalSays (r : RawSlip) (p : MusicPerformance) : Prop where
  id : p.id = r.id
  name : p.name = r.name
  year : p.year = r.year
  term : p.term = r.term

/-- how a proficiency is written and what it stands for -/
inductive ProfWord : RawProf → ProfStatus → Prop
  | true : ProfWord (.flag true) .yes
  | false : ProfWord (.flag false) .no
  | empty : ProfWord (.text "") .no
  | no : ProfWord (.text "N") .no
  | yes : ProfWord (.text "Y") .yes
  | exam : ProfWord (.text "E") .exam
  | class' : ProfWord (.text "C") .class'

/-- the year of matriculation: a number, 0 if there is none -/
inductive MatriculationWord : Option String → Int → Prop
  | absent : MatriculationWord none 0
  | empty : MatriculationWord (some "") 0
  | year {s : String} {n : Int} (h : s ≠ "") (hn : parseInt s.toList = some n) : MatriculationWord (some s) n

/-- `a` is not later than `b`, and if they are at the same time not after it by name and number -/
def SlipBefore (a b : MusicPerformance) : Prop :=
  a.year < b.year ∨ a.year = b.year ∧ (a.term < b.term ∨ a.term = b.term ∧ (a.name < b.name ∨ a.name = b.name ∧ a.id ≤ b.id))

/-! ### The loader reads them so -/

theorem areaStatusName_word {s t : String} : areaStatusName s = .ok t ↔ AreaStatusWord s t := by
  constructor
  · unfold areaStatusName
    intro h
    split at h
    · rename_i e; cases h; rw [beq_iff_eq.1 e]; exact .whatIf
    split at h
    · rename_i e; cases h; rw [beq_iff_eq.1 e]; exact .whatIfDrop
    split at h
    · rename_i e; cases h; rw [beq_iff_eq.1 e]; exact .declared
    split at h
    · rename_i e; cases h; rw [beq_iff_eq.1 e]; exact .certified
    split at h
    · rename_i e; cases h; rw [beq_iff_eq.1 e]; exact .awarded
    · cases h
  · rintro (_ | _ | _ | _ | _) <;> rfl

theorem areaKindName_word {s t : String} : areaKindName s = .ok t ↔ AreaKindWord s t := by
  constructor
  · unfold areaKindName
    intro h
    split at h
    · rename_i e; cases h; rw [beq_iff_eq.1 e]; exact .degree
    split at h
    · rename_i e; cases h; rw [beq_iff_eq.1 e]; exact .major
    split at h
    · rename_i e; cases h; rw [beq_iff_eq.1 e]; exact .concentration
    split at h
    · rename_i e; cases h; rw [beq_iff_eq.1 e]; exact .emphasis
    · cases h
  · rintro (_ | _ | _ | _) <;> rfl

theorem slipStatus_word {s : String} {t : Option String} : slipStatus s = .ok t ↔ SlipWord s t := by
  constructor
  · unfold slipStatus
    intro h
    split at h
    · rename_i e; cases h; rw [beq_iff_eq.1 e]; exact .entrance
    split at h
    · rename_i e; cases h; rw [beq_iff_eq.1 e]; exact .continuance
    split at h
    · rename_i e; cases h; rw [beq_iff_eq.1 e]; exact .nothing
    · cases h
  · rintro (_ | _ | _) <;> rfl

theorem profParse_word {r : RawProf} {t : ProfStatus} : r.parse = .ok t ↔ ProfWord r t := by
  constructor
  · intro h
    cases r with
    | flag b => cases b <;> cases h <;> constructor
    | text s =>
      simp only [RawProf.parse] at h
      split at h
      · rename_i e; cases h; rw [beq_iff_eq.1 e]; exact .empty
      split at h
      · rename_i e; cases h; rw [beq_iff_eq.1 e]; exact .no
      split at h
      · rename_i e; cases h; rw [beq_iff_eq.1 e]; exact .yes
      split at h
      · rename_i e; cases h; rw [beq_iff_eq.1 e]; exact .exam
      split at h
      · rename_i e; cases h; rw [beq_iff_eq.1 e]; exact .class'
      · cases h
  · rintro (_ | _ | _ | _ | _ | _ | _) <;> rfl

theorem loadMatriculation_word {o : Option String} {n : Int} : loadMatriculation o = .ok n ↔ MatriculationWord o n := by
  constructor
  · intro h
    cases o with
    | none => cases h; exact .absent
    | some s =>
      simp only [loadMatriculation] at h
      split at h
      · rename_i e; cases h; rw [e]; exact .empty
      · rename_i e
        unfold intOf at h
        split at h
        · rename_i m hm; cases h; exact .year e hm
        · cases h
  · rintro (_ | _ | ⟨h, hn⟩)
    · rfl
    · rfl
    · simp [loadMatriculation, h, intOf, hn]

theorem loadPointer_says {r : RawArea} {a : AreaPointer} : loadPointer r = .ok a ↔ AreaSays r a := by
  unfold loadPointer
  constructor
  · intro h
    obtain ⟨s, hs, h⟩ := ld_bind_ok.1 h
    obtain ⟨k, hk, h⟩ := ld_bind_ok.1 h
    cases h
    exact ⟨areaStatusName_word.1 hs, areaKindName_word.1 hk, rfl, rfl, rfl, rfl, rfl, rfl⟩
  · rintro ⟨hs, hk, h1, h2, h3, h4, h5, h6⟩
    rw [areaStatusName_word.2 hs, areaKindName_word.2 hk]
    cases a
    simp_all [bind, Except.bind]

theorem loadPerformance_says {r : RawSlip} {p : MusicPerformance} : loadPerformance r = .ok p ↔ PerformanceSays r p := by
  unfold loadPerformance
  constructor
  · intro h
    obtain ⟨s, hs, h⟩ := ld_bind_ok.1 h
    cases h
    exact ⟨rfl, rfl, rfl, rfl, rfl, slipStatus_word.1 hs⟩
  · rintro ⟨h1, h2, h3, h4, h5, hs⟩
    rw [slipStatus_word.2 hs]
    cases p
    simp_all [bind, Except.bind]

theorem mapE_forall₂ {α β : Type} {f : α → Except Err β} {R : α → β → Prop} (hf : ∀ a b, f a = .ok b ↔ R a b) :
    ∀ (l : List α) (r : List β), mapE f l = .ok r ↔ List.Forall₂ R l r
  | [], r => by
    constructor
    · intro h; cases h; exact .nil
    · intro h; cases h; rfl
  | a :: l, r => by
    have ih := mapE_forall₂ hf l
    constructor
    · intro h
      obtain ⟨b, hb, h⟩ := ld_bind_ok.1 h
      obtain ⟨bs, hbs, h⟩ := ld_bind_ok.1 h
      cases h
      exact .cons ((hf a b).1 hb) ((ih bs).1 hbs)
    · rintro (_ | ⟨h1, h2⟩)
      simp [mapE, (hf a _).2 h1, (ih _).2 h2, bind, Except.bind]

theorem forall₂_mem_left' {α β : Type} {R : α → β → Prop} {l : List α} {r : List β} (h : List.Forall₂ R l r) {a : α}
    (ha : a ∈ l) : ∃ b ∈ r, R a b := by
  obtain ⟨i, hi, rfl⟩ := List.getElem_of_mem ha
  have hi' : i < r.length := h.length_eq ▸ hi
  exact ⟨r[i], List.getElem_mem hi', List.Forall₂.get h hi hi'⟩

theorem forall₂_mem_right {α β : Type} {R : α → β → Prop} {l : List α} {r : List β} (h : List.Forall₂ R l r) {b : β}
    (hb : b ∈ r) : ∃ a ∈ l, R a b := by
  obtain ⟨i, hi, rfl⟩ := List.getElem_of_mem hb
  have hi' : i < l.length := h.length_eq ▸ hi
  exact ⟨l[i], List.getElem_mem hi', List.Forall₂.get h hi' hi⟩

theorem forall₂_exists {α β : Type} {R : α → β → Prop} : ∀ {l : List α}, (∀ a ∈ l, ∃ b, R a b) → ∃ r, List.Forall₂ R l r
  | [], _ => ⟨[], .nil⟩
  | a :: l, h => by
    obtain ⟨b, hb⟩ := h a (by simp)
    obtain ⟨r, hr⟩ := forall₂_exists (l := l) (fun c hc => h c (List.mem_cons_of_mem _ hc))
    exact ⟨b :: r, .cons hb hr⟩

theorem forall₂_split {α β : Type} {R : α → β → Prop} : ∀ (l : List α) {m : List α} {r : List β}, List.Forall₂ R (l ++ m) r →
    ∃ r1 r2, List.Forall₂ R l r1 ∧ List.Forall₂ R m r2 ∧ r = r1 ++ r2
  | [], _, r, h => ⟨[], r, .nil, h, rfl⟩
  | a :: l, m, _, h => by
    cases h with
    | cons h1 h2 =>
      obtain ⟨r1, r2, h3, h4, rfl⟩ := forall₂_split l h2
      exact ⟨_ :: r1, r2, .cons h1 h3, h4, rfl⟩

theorem statusWord_drop {s t : String} (h : AreaStatusWord s t) : t = "WhatIfDrop" ↔ s = "what-if-drop" := by
  cases h <;> decide

theorem forall₂_filter_dropped {code : String} {l : List RawArea} {ps : List AreaPointer} (h : List.Forall₂ AreaSays l ps) :
    List.Forall₂ AreaSays (l.filter (fun a => ¬ Dropped code a))
      (ps.filter (fun a => a.status ≠ "WhatIfDrop" || a.code == code)) := by
  induction h with
  | nil => exact .nil
  | @cons r a l ps h1 h2 ih =>
    have hd : Dropped code r ↔ a.status = "WhatIfDrop" ∧ a.code ≠ code := by
      unfold Dropped
      rw [statusWord_drop h1.status, h1.code]
    by_cases hr : Dropped code r
    · rw [List.filter_cons_of_neg (by simpa using hr), List.filter_cons_of_neg (by have := hd.1 hr; simpa using this)]
      exact ih
    · rw [List.filter_cons_of_pos (by simpa using hr), List.filter_cons_of_pos (by
        have : ¬ (a.status = "WhatIfDrop" ∧ a.code ≠ code) := fun e => hr (hd.2 e)
        by_cases hs : a.status = "WhatIfDrop"
        · simp only [hs, true_and, not_not, ne_eq] at this; simp [this]
        · simp [hs])]
      exact .cons h1 ih

theorem sortSlips_sorted (l : List MusicPerformance) : (sortSlips l).Perm l ∧ (sortSlips l).Pairwise SlipBefore := by
  unfold sortSlips
  refine ⟨List.perm_insertionSort _ l, ?_⟩
  have hid : ∀ a b : MusicPerformance, a.id ≤ b.id ∨ b.id ≤ a.id := fun a b => String.le_total _ _
  have ht := Then.total (f := MusicPerformance.year) strict_int
    (Then.total (f := MusicPerformance.term) strict_int (Then.total (f := MusicPerformance.name) strict_string hid))
  have hid' : ∀ a b c : MusicPerformance, a.id ≤ b.id → b.id ≤ c.id → a.id ≤ c.id := fun _ _ _ => String.le_trans
  have htr := Then.trans (f := MusicPerformance.year) strict_int
    (Then.trans (f := MusicPerformance.term) strict_int (Then.trans (f := MusicPerformance.name) strict_string hid'))
  have : Std.Total (fun a b : MusicPerformance => a.sortLe b = true) := ⟨fun a b => by
    simpa only [sortLe_slip] using ht a b⟩
  have : IsTrans MusicPerformance (fun a b => a.sortLe b = true) := ⟨fun a b c => by
    simpa only [sortLe_slip] using htr a b c⟩
  refine (List.pairwise_insertionSort _ l).imp ?_
  intro a b h
  exact (sortLe_slip a b).1 h

/-! ### Mediums -/

/-- a name as it is written between commas: not empty, without commas, with no blank at its ends -/
def MediumName (w : List Char) : Prop :=
  ',' ∉ w ∧ (∀ c, w.head? = some c → c.isWhitespace = false) ∧ ∀ c, w.getLast? = some c → c.isWhitespace = false

theorem splitCommaBlank_name (w rest : List Char) (hw : ',' ∉ w) : ∀ acc,
    splitCommaBlank acc (w ++ ',' :: ' ' :: rest) = (acc.reverse ++ w) :: splitCommaBlank [] rest := by
  induction w with
  | nil => intro acc; simp [splitCommaBlank]
  | cons c w ih =>
    intro acc
    have hc : c ≠ ',' := fun e => hw (by simp [e])
    have : splitCommaBlank acc (c :: (w ++ ',' :: ' ' :: rest)) = splitCommaBlank (c :: acc) (w ++ ',' :: ' ' :: rest) := by
      cases w <;> simp [splitCommaBlank, hc]
    rw [List.cons_append, this, ih (fun e => hw (List.mem_cons_of_mem _ e))]
    simp

theorem splitCommaBlank_last (w : List Char) (hw : ',' ∉ w) : ∀ acc, splitCommaBlank acc w = [acc.reverse ++ w] := by
  induction w with
  | nil => intro acc; simp [splitCommaBlank]
  | cons c w ih =>
    intro acc
    have hc : c ≠ ',' := fun e => hw (by simp [e])
    have : splitCommaBlank acc (c :: w) = splitCommaBlank (c :: acc) w := by
      cases w <;> simp [splitCommaBlank, hc]
    rw [this, ih (fun e => hw (List.mem_cons_of_mem _ e))]
    simp

/-- the names with `, ` between them -/
def commaJoin : List (List Char) → List Char
  | [] => []
  | [w] => w
  | w :: v :: ws => w ++ ',' :: ' ' :: commaJoin (v :: ws)

theorem splitCommaBlank_join : ∀ (ws : List (List Char)) (_ : ws ≠ []) (_ : ∀ w ∈ ws, ',' ∉ w),
    splitCommaBlank [] (commaJoin ws) = ws
  | [], h, _ => absurd rfl h
  | [w], _, h => by simpa [commaJoin] using splitCommaBlank_last w (h w (by simp)) []
  | w :: v :: ws, _, h => by
    have ih := splitCommaBlank_join (v :: ws) (by simp) (fun x hx => h x (List.mem_cons_of_mem _ hx))
    rw [commaJoin, splitCommaBlank_name w _ (h w (by simp)), ih]
    simp

theorem dropWhile_head {w : List Char} (h : ∀ c, w.head? = some c → c.isWhitespace = false) :
    w.dropWhile (·.isWhitespace) = w := by
  cases w with
  | nil => rfl
  | cons c w => simp [h c rfl]

theorem stripBlanks_name {w : List Char} (h : MediumName w) : stripBlanks w = w := by
  unfold stripBlanks
  rw [dropWhile_head h.2.1, dropWhile_head (w := w.reverse) (by simpa using h.2.2), List.reverse_reverse]

theorem comma_in_join {w v : List Char} {ws : List (List Char)} : ',' ∈ commaJoin (w :: v :: ws) := by
  simp [commaJoin]

/-! ### C83 -/

/-- The student that is audited is the one of the file.  Areas: those that the student does not pretend to drop, in
order, with all their fields.  Performances and recitals: those of the file with all their fields, in order of time.
Proficiencies, year of matriculation, mediums: as written.  What an area file can refer to as `$matriculation-year`,
`$terms-since-declaring-major`, `$primary-performing-medium` and the code of the area are the student's year, the number of
terms written at the first of the student's areas that has the code (0 if there is none), the medium or mediums, and the code. -/
structure StudentSays (raw : RawStudent) (code : String) (l : Loaded) : Prop where
  areas : List.Forall₂ AreaSays (raw.areas.filter (fun a => ¬ Dropped code a)) l.student.areas
  performances : ∃ ps, List.Forall₂ PerformanceSays raw.performances ps ∧ l.student.performances.Perm ps
  performancesInOrder : l.student.performances.Pairwise SlipBefore
  recitals : ∃ rs, List.Forall₂ RecitalSays raw.attendances rs ∧ l.student.recitals.Perm rs
  recitalsInOrder : l.student.recitals.Pairwise SlipBefore
  guitar : ProfWord raw.proficiencies.guitar l.student.proficiencies.guitar
  keyboard1 : ProfWord raw.proficiencies.keyboard1 l.student.proficiencies.keyboard1
  keyboard2 : ProfWord raw.proficiencies.keyboard2 l.student.proficiencies.keyboard2
  keyboard3 : ProfWord raw.proficiencies.keyboard3 l.student.proficiencies.keyboard3
  keyboard4 : ProfWord raw.proficiencies.keyboard4 l.student.proficiencies.keyboard4
  year : MatriculationWord raw.matriculation l.constants.matriculationYear
  areaCode : l.constants.currentAreaCode = code
  terms : ∀ before a after, raw.areas = before ++ a :: after → (∀ b ∈ before, b.code ≠ code) → a.code = code →
    l.constants.termsSinceDeclaringMajor = a.terms.getD 0
  noTerms : (∀ a ∈ raw.areas, a.code ≠ code) → l.constants.termsSinceDeclaringMajor = 0
  oneMedium : ∀ w, MediumName w → raw.ppm = String.ofList w → l.constants.primaryPerformingMedium = .str (String.ofList w)
  mediums : ∀ ws, 2 ≤ ws.length → (∀ w ∈ ws, MediumName w) → raw.ppm = String.ofList (commaJoin ws) →
    l.constants.primaryPerformingMedium = .strs (ws.map String.ofList)

/-- **C83** The student that is audited is the one of the file. -/
theorem C83_the_student_is_the_one_of_the_file (raw : RawStudent) (code : String) (ov : List Override) (table : CreditTable)
    (l : Loaded) (h : raw.load code ov table = .ok l) : StudentSays raw code l := by
  unfold RawStudent.load at h
  obtain ⟨areas, hareas, h⟩ := ld_bind_ok.1 h
  obtain ⟨⟨courses, failed⟩, _, h⟩ := ld_bind_ok.1 h
  obtain ⟨ps, hps, h⟩ := ld_bind_ok.1 h
  obtain ⟨pr, hpr, h⟩ := ld_bind_ok.1 h
  obtain ⟨m, hm, h⟩ := ld_bind_ok.1 h
  obtain ⟨_, _, h⟩ := ld_bind_ok.1 h
  cases h
  unfold loadPointers at hareas
  obtain ⟨as, has, hareas⟩ := ld_bind_ok.1 hareas
  cases hareas
  have has := (mapE_forall₂ (fun _ _ => loadPointer_says) _ _).1 has
  have hps := (mapE_forall₂ (fun _ _ => loadPerformance_says) _ _).1 hps
  unfold RawProficiencies.load at hpr
  obtain ⟨g, hg, hpr⟩ := ld_bind_ok.1 hpr
  obtain ⟨k1, hk1, hpr⟩ := ld_bind_ok.1 hpr
  obtain ⟨k2, hk2, hpr⟩ := ld_bind_ok.1 hpr
  obtain ⟨k3, hk3, hpr⟩ := ld_bind_ok.1 hpr
  obtain ⟨k4, hk4, hpr⟩ := ld_bind_ok.1 hpr
  cases hpr
  refine ⟨forall₂_filter_dropped has, ⟨ps, hps, (sortSlips_sorted ps).1⟩, (sortSlips_sorted ps).2, ?_, (sortSlips_sorted _).2,
    profParse_word.1 hg, profParse_word.1 hk1, profParse_word.1 hk2, profParse_word.1 hk3, profParse_word.1 hk4,
    loadMatriculation_word.1 hm, rfl, ?_, ?_, ?_, ?_⟩
  · refine ⟨raw.attendances.map loadAttendance, ?_, (sortSlips_sorted _).1⟩
    rw [List.forall₂_map_right_iff]
    exact List.forall₂_same.2 (fun r _ => ⟨rfl, rfl, rfl, rfl⟩)
  · intro before a after e hb ha
    have hf := forall₂_filter_dropped (code := code) has
    have : (as.filter (fun a => a.status ≠ "WhatIfDrop" || a.code == code)).find? (fun p => p.code == code)
        = as.find? (fun p => p.code == code) := by
      rw [List.find?_filter]
      congr 1
      funext p
      by_cases hp : p.code = code <;> simp [hp]
    simp only [Loaded.constants, this]
    rw [e] at has
    obtain ⟨l1, l2, h1, h2, rfl⟩ := forall₂_split before has
    cases h2 with
    | @cons _ p _ ps' h3 h4 =>
      have hn : l1.find? (fun p => p.code == code) = none := by
        rw [List.find?_eq_none]
        intro x hx
        obtain ⟨r, hr, hrx⟩ := forall₂_mem_right h1 hx
        simpa [hrx.code] using hb r hr
      rw [List.find?_append, hn]
      simp [h3.code, ha, h3.terms]
  · intro hno
    have hn : (as.filter (fun a => a.status ≠ "WhatIfDrop" || a.code == code)).find? (fun p => p.code == code) = none := by
      rw [List.find?_eq_none]
      intro x hx
      obtain ⟨r, hr, hrx⟩ := forall₂_mem_right has (List.mem_filter.1 hx).1
      simpa [hrx.code] using hno r hr
    simp only [Loaded.constants, hn]
    rfl
  · intro w hw hp
    have : ',' ∉ w := hw.1
    simp [Loaded.constants, hp, parseMedium, this]
  · intro ws h2 hw hp
    match ws, h2 with
    | w :: v :: ws, _ =>
      have hs := splitCommaBlank_join (w :: v :: ws) (by simp) (fun x hx => (hw x hx).1)
      simp only [Loaded.constants, hp, parseMedium, String.toList_ofList, List.contains_iff_mem, comma_in_join, if_true, hs]
      congr 1
      exact List.map_congr_left (fun x hx => by rw [stripBlanks_name (hw x hx)])

/-- Every other word is an error, and there is no other cause of one besides the courses: the student can be loaded if and only if
the courses can be, all words are among those above, and the curriculum is a number or `None`. -/
theorem C83_other_words_are_errors (raw : RawStudent) (code : String) (ov : List Override) (table : CreditTable) :
    (∃ l, raw.load code ov table = .ok l) ↔
      (∃ cs, loadStudentCourses raw.currentTerm ov table raw.rows = .ok cs)
      ∧ (∀ a ∈ raw.areas, (∃ t, AreaStatusWord a.status t) ∧ ∃ t, AreaKindWord a.kind t)
      ∧ (∀ p ∈ raw.performances, ∃ t, SlipWord p.status t)
      ∧ (∃ t, ProfWord raw.proficiencies.guitar t) ∧ (∃ t, ProfWord raw.proficiencies.keyboard1 t)
      ∧ (∃ t, ProfWord raw.proficiencies.keyboard2 t) ∧ (∃ t, ProfWord raw.proficiencies.keyboard3 t)
      ∧ (∃ t, ProfWord raw.proficiencies.keyboard4 t)
      ∧ (∃ n, MatriculationWord raw.matriculation n)
      ∧ (raw.curriculum = "None" ∨ ∃ n, parseInt raw.curriculum.toList = some n) := by
  constructor
  · rintro ⟨l, h⟩
    unfold RawStudent.load at h
    obtain ⟨areas, hareas, h⟩ := ld_bind_ok.1 h
    obtain ⟨cs, hcs, h⟩ := ld_bind_ok.1 h
    obtain ⟨ps, hps, h⟩ := ld_bind_ok.1 h
    obtain ⟨pr, hpr, h⟩ := ld_bind_ok.1 h
    obtain ⟨m, hm, h⟩ := ld_bind_ok.1 h
    obtain ⟨n, hn, h⟩ := ld_bind_ok.1 h
    unfold loadPointers at hareas
    obtain ⟨as, has, hareas⟩ := ld_bind_ok.1 hareas
    have has := (mapE_forall₂ (fun _ _ => loadPointer_says) _ _).1 has
    have hps := (mapE_forall₂ (fun _ _ => loadPerformance_says) _ _).1 hps
    unfold RawProficiencies.load at hpr
    obtain ⟨g, hg, hpr⟩ := ld_bind_ok.1 hpr
    obtain ⟨k1, hk1, hpr⟩ := ld_bind_ok.1 hpr
    obtain ⟨k2, hk2, hpr⟩ := ld_bind_ok.1 hpr
    obtain ⟨k3, hk3, hpr⟩ := ld_bind_ok.1 hpr
    obtain ⟨k4, hk4, hpr⟩ := ld_bind_ok.1 hpr
    refine ⟨⟨cs, hcs⟩, ?_, ?_, ⟨g, profParse_word.1 hg⟩, ⟨k1, profParse_word.1 hk1⟩, ⟨k2, profParse_word.1 hk2⟩,
      ⟨k3, profParse_word.1 hk3⟩, ⟨k4, profParse_word.1 hk4⟩, ⟨m, loadMatriculation_word.1 hm⟩, ?_⟩
    · intro a ha
      obtain ⟨p, _, hp⟩ := forall₂_mem_left' has ha
      exact ⟨⟨_, hp.status⟩, ⟨_, hp.kind⟩⟩
    · intro a ha
      obtain ⟨p, _, hp⟩ := forall₂_mem_left' hps ha
      exact ⟨_, hp.status⟩
    · by_cases hc : raw.curriculum = "None"
      · exact .inl hc
      · rw [if_neg hc] at hn
        unfold intOf at hn
        split at hn
        · rename_i k hk; exact .inr ⟨k, hk⟩
        · cases hn
  · rintro ⟨⟨cs, hcs⟩, ha, hp, ⟨g, hg⟩, ⟨k1, hk1⟩, ⟨k2, hk2⟩, ⟨k3, hk3⟩, ⟨k4, hk4⟩, ⟨m, hm⟩, hc⟩
    have e1 : ∃ as, mapE loadPointer raw.areas = .ok as := by
      obtain ⟨as, h⟩ := forall₂_exists (R := AreaSays) (l := raw.areas) (fun a h => by
        obtain ⟨⟨s, hs⟩, k, hk⟩ := ha a h
        exact ⟨{ code := a.code, status := s, kind := k, name := a.name, degree := a.degree, gpa := a.gpa,
                 dept := a.dept, termsSinceDeclaration := a.terms }, hs, hk, rfl, rfl, rfl, rfl, rfl, rfl⟩)
      exact ⟨as, (mapE_forall₂ (fun _ _ => loadPointer_says) _ _).2 h⟩
    have e2 : ∃ ps, mapE loadPerformance raw.performances = .ok ps := by
      obtain ⟨ps, h⟩ := forall₂_exists (R := PerformanceSays) (l := raw.performances) (fun p h => by
        obtain ⟨s, hs⟩ := hp p h
        exact ⟨{ id := p.id, name := p.name, year := p.year, term := p.term, role := p.role, status := s },
          rfl, rfl, rfl, rfl, rfl, hs⟩)
      exact ⟨ps, (mapE_forall₂ (fun _ _ => loadPerformance_says) _ _).2 h⟩
    obtain ⟨as, e1⟩ := e1
    obtain ⟨ps, e2⟩ := e2
    have e3 : ∃ n, intOf (if raw.curriculum = "None" then "0" else raw.curriculum) = .ok n := by
      rcases hc with hc | ⟨n, hn⟩
      · rw [if_pos hc]; exact ⟨0, by decide⟩
      · by_cases hc : raw.curriculum = "None"
        · rw [if_pos hc]; exact ⟨0, by decide⟩
        · rw [if_neg hc]; exact ⟨n, by simp [intOf, hn]⟩
    obtain ⟨n, e3⟩ := e3
    unfold RawStudent.load loadPointers RawProficiencies.load
    rw [e1, hcs, e2, e3, loadMatriculation_word.2 hm, profParse_word.2 hg, profParse_word.2 hk1, profParse_word.2 hk2,
      profParse_word.2 hk3, profParse_word.2 hk4]
    exact ⟨_, rfl⟩

open EntryText in
/-- Non-trivial case: a student with a dropped major, two performances in the wrong order and a proficiency can be loaded. -/
example :
    let raw : RawStudent := { student with
      areas := [{ code := "741", kind := "concentration", terms := some 3 }, { code := "140", status := "what-if-drop" }]
      performances := [{ id := "9", year := 2019, status := "E" }, { id := "8", year := 2018, role := some "solo" }]
      proficiencies := { guitar := .text "E", keyboard2 := .flag true }
      ppm := "Piano, Voice", matriculation := some "2016" }
    match raw.load "741" [] [] with
    | .error _ => False
    | .ok l => l.student.areas.map (·.code) = ["741"] ∧ l.student.performances.map (·.id) = ["8", "9"]
        ∧ l.student.proficiencies.guitar = .exam ∧ l.constants.matriculationYear = 2016
        ∧ l.constants.termsSinceDeclaringMajor = 3
        ∧ l.constants.primaryPerformingMedium = .strs ["Piano", "Voice"] := by
  refine ⟨by decide +kernel, by decide +kernel, by decide +kernel, by decide +kernel, by decide +kernel, rfl⟩

end Dp
