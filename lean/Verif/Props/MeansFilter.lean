import Verif.Props.Details
import Verif.Props.Items
import Verif.Props.LoadPaths

/-
C63: a filter of an area file selects the records it says, in terms of the text of the file.
-/
namespace Dp

/-! ### Specification: written values -/

/-- the operators, as they are written -/
def writtenOperators : List (String × Operator) :=
  [("$lt", .lt), ("$lte", .lte), ("$gt", .gt), ("$gte", .gte), ("$eq", .eq), ("$neq", .neq), ("$in", .in'), ("$nin", .nin)]

/-- the grades, as they are written -/
def writtenGrades : List (String × GradeCode) :=
  [("A+", .Aplus), ("A", .A), ("A-", .Aminus), ("B+", .Bplus), ("B", .B), ("B-", .Bminus), ("C+", .Cplus), ("C", .C),
   ("C-", .Cminus), ("D+", .Dplus), ("D", .D), ("D-", .Dminus), ("F", .F), ("BC", .BC), ("AB", .AB), ("NG", .NG),
   ("IP", .IP), ("I", .I), ("P", .P), ("N", .N), ("S", .S), ("U", .U), ("AU", .AU), ("UA", .UA), ("WF", .WF),
   ("WP", .WP), ("W", .W), ("DP_REG", .REG)]

/-- the grading options, as they are written -/
def writtenGradeOptions : List (String × GradeOption) :=
  [("grade", .grade), ("s/u", .su), ("p/n", .pn), ("audit", .audit), ("no grade", .noGrade)]

/-- the number that a row of decimal digits stands for -/
def digitsNumber (ds : List Char) : Rat := (Nat.ofDigitChars 10 ds 0 : Nat)

/-- a number without a sign, as it is written -/
inductive UnsignedText : List Char → Rat → Prop
  | whole {ds : List Char} : ds ≠ [] → (∀ c ∈ ds, c.isDigit) → UnsignedText ds (digitsNumber ds)
  | fraction {ds fs : List Char} : ¬ (ds = [] ∧ fs = []) → (∀ c ∈ ds, c.isDigit) → (∀ c ∈ fs, c.isDigit) →
      UnsignedText (ds ++ '.' :: fs) (digitsNumber ds + digitsNumber fs / 10 ^ fs.length)

/-- a number, as it is written -/
inductive DecimalText : List Char → Rat → Prop
  | plain {cs : List Char} {q : Rat} : UnsignedText cs q → DecimalText cs q
  | plus {cs : List Char} {q : Rat} : UnsignedText cs q → DecimalText ('+' :: cs) q
  | minus {cs : List Char} {q : Rat} : UnsignedText cs q → DecimalText ('-' :: cs) (-q)

/-- what a text stands for: itself, or a number, text or list known about the student if it is the name of one -/
inductive TextStands (c : Constants) : String → ConstVal → Prop
  | plain {s : String} : s.toList.head? ≠ some '$' → TextStands c s (.str s)
  | matriculation : TextStands c "$matriculation-year" (.int c.matriculationYear)
  | declared : TextStands c "$terms-since-declaring-major" (.int c.termsSinceDeclaringMajor)
  | medium : TextStands c "$primary-performing-medium" c.primaryPerformingMedium
  | areaCode : TextStands c "$current-area-code" (.str c.currentAreaCode)
  | musicExam : TextStands c "$current-area-code-music-exam" (.str ("Exam: " ++ c.currentAreaCode))

/-- an entry of a list of values; a list known about the student is joined with the others -/
inductive EntryStands (c : Constants) : Y → List Sc → Prop
  | null : EntryStands c .null [.missing]
  | yes : EntryStands c (.bool true) [.num 1 "True"]
  | no : EntryStands c (.bool false) [.num 0 "False"]
  | number (n : Int) : EntryStands c (.int n) [.num n (toString n)]
  | named {s : String} {n : Int} : TextStands c s (.int n) → EntryStands c (.str s) [.num n (toString n)]
  | text {s t : String} : TextStands c s (.str t) → EntryStands c (.str s) [.str t]
  | several {s : String} {l : List String} : TextStands c s (.strs l) → EntryStands c (.str s) (l.map .str)

/-- what a written value stands for -/
inductive ValueStands (c : Constants) : Y → Val → Prop
  | yes : ValueStands c (.bool true) (.sc (.num 1 "True"))
  | no : ValueStands c (.bool false) (.sc (.num 0 "False"))
  | number (n : Int) : ValueStands c (.int n) (.sc (.num n (toString n)))
  | named {s : String} {n : Int} : TextStands c s (.int n) → ValueStands c (.str s) (.sc (.num n (toString n)))
  | text {s t : String} : TextStands c s (.str t) → ValueStands c (.str s) (.sc (.str t))
  | several {s : String} {l : List String} : TextStands c s (.strs l) → ValueStands c (.str s) (.tup (l.map .str))
  | list {l : List Y} {es : List (List Sc)} : List.Forall₂ (EntryStands c) l es → ValueStands c (.list l) (.tup es.flatten)

/-- how the value is taken when it is compared with an attribute: grades as grades, grading options as such, credits and
grade point averages as numbers, everything else as it is -/
inductive TakenAs : String → Val → Val → Prop
  | grade {s : String} {g : GradeCode} : (s, g) ∈ writtenGrades → TakenAs "grade" (.sc (.str s)) (.sc (.grade g))
  | grades {l : List Sc} {gs : List GradeCode} :
      List.Forall₂ (fun v g => ∃ s, v = .str s ∧ (s, g) ∈ writtenGrades) l gs →
      TakenAs "grade" (.tup l) (.tup (gs.map .grade))
  | option {s : String} {o : GradeOption} : (s, o) ∈ writtenGradeOptions →
      TakenAs "grade_option" (.sc (.str s)) (.sc (.option o))
  | number {key t : String} {q : Rat} : key = "credits" ∨ key = "gpa" → TakenAs key (.sc (.num q t)) (.sc (.num q t))
  | decimal {key s : String} {q : Rat} : key = "credits" ∨ key = "gpa" → DecimalText s.toList q →
      TakenAs key (.sc (.str s)) (.sc (.num q s))
  | other {key : String} {v : Val} : key ∉ ["grade", "grade_option", "credits", "gpa"] → TakenAs key v v

/-! ### Specification: comparisons -/

/-- one value compares with another as the operator says: numbers as numbers, grades by their order, texts alphabetically,
anything with a text as text; a missing value compares with nothing -/
def ScHolds (op : Operator) : Sc → Sc → Prop
  | .missing, .missing => op = .eq
  | .missing, _ => False
  | _, .missing => False
  | .num v _, .num w _ => NumHolds op v w
  | .grade g, .grade h => NumHolds op g.rank h.rank
  | .option o, .option p => (op = .eq ∧ o = p) ∨ (op = .neq ∧ o ≠ p)
  | .str s, r => StrHolds op s r.pyStr
  | l, .str t => StrHolds op l.pyStr t
  | _, _ => op = .neq

/-- the same for lists: `$eq` and `$in` ask for one equal entry, `$neq` and `$nin` for none, two lists for a common one -/
def ValHolds (op : Operator) : Val → Val → Prop
  | .sc l, .sc r => ScHolds op l r
  | .tup l, .tup r => op = .in' ∧ ∃ a ∈ l, ∃ b ∈ r, a.pyStr = b.pyStr
  | .tup l, .sc r => r ≠ .missing ∧ (((op = .eq ∨ op = .in') ∧ ∃ a ∈ l, ScHolds .eq a r) ∨
      ((op = .neq ∨ op = .nin) ∧ ∀ a ∈ l, ScHolds .neq a r))
  | .sc l, .tup r => l ≠ .missing ∧ (((op = .eq ∨ op = .in') ∧ ∃ b ∈ r, ScHolds .eq l b) ∨
      ((op = .neq ∨ op = .nin) ∧ ∀ b ∈ r, ScHolds .neq l b))

/-- the attribute of a record that a key names; an entry without a value is a missing attribute -/
inductive Attribute : Item → String → Option Val → Prop
  | course {k : Course} {key : String} {v : Val} : Names k key v → Attribute (.course k) key (some v)
  | ap {k : Course} : k.courseType = .ap → Attribute (.course k) "ap" (some (.sc (.str k.name)))
  | notAp {k : Course} : k.courseType ≠ .ap → Attribute (.course k) "ap" none
  | grade {k : Course} : k.isDuringCovid = false ∨ k.gradeCode ≠ .S ∨ k.suGradeCode = none →
      Attribute (.course k) "grade" (some (.sc (.grade k.gradeCode)))
  | covidGrade {k : Course} {g : GradeCode} : k.isDuringCovid = true → k.gradeCode = .S → k.suGradeCode = some g →
      Attribute (.course k) "grade" (some (.sc (.grade g)))
  | other {i : Item} {key : String} {v : Option Val} : ItemNames i key v → Attribute i key v

/-- a grade received in spring 2020, for which `$during_covid` states an expectation of its own -/
def GradeInCovid (i : Item) (key : String) : Prop := key = "grade" ∧ ∃ k, i = .course k ∧ k.isDuringCovid = true

/-- `d` has exactly one operator, `op`, and `raw` is what is written behind it -/
def OneOperator (d : Dict) (op : Operator) (raw : Y) : Prop :=
  ∃ name before after, d = before ++ (name, raw) :: after ∧ (name, op) ∈ writtenOperators ∧
    ∀ e ∈ before ++ after, ∀ o, (e.1, o) ∉ writtenOperators

/-- the value a record is compared with -/
def ComparedWith (i : Item) (key : String) (d : Dict) (raw y : Y) : Prop :=
  (GradeInCovid i key ∧ d.get? "$during_covid" = some y) ∨
  (¬ (GradeInCovid i key ∧ (d.get? "$during_covid").isSome) ∧ y = raw)

/-- `Compares c i key y b`: the comparison `key: y`, as it is written, has the value `b` for the record -/
inductive Compares (c : Constants) (i : Item) (key : String) : Y → Bool → Prop
  | absent {d : Dict} : Attribute i key none → Compares c i key (.map d) false
  | holds {d : Dict} {op : Operator} {raw y : Y} {v w e : Val} : Attribute i key (some v) → OneOperator d op raw →
      ComparedWith i key d raw y → ValueStands c y w → TakenAs key w e → ValHolds op v e → Compares c i key (.map d) true
  | fails {d : Dict} {op : Operator} {raw y : Y} {v w e : Val} : Attribute i key (some v) → OneOperator d op raw →
      ComparedWith i key d raw y → ValueStands c y w → TakenAs key w e → ¬ ValHolds op v e → Compares c i key (.map d) false

/-! ### Specification: filters -/

/-- a dictionary of comparisons -/
def PlainFilter (d : Dict) : Prop := ∀ k ∈ ["$and", "$or", "$not", "$if"], d.get? k = none

/-- `Accepts x es c i y b`: the filter `y`, as it is written, accepts the record (`true`) or does not (`false`) -/
inductive Accepts (x : Ctx) (es : List Exc) (c : Constants) (i : Item) : Y → Bool → Prop
  | all {l : List Y} : (∀ y ∈ l, Accepts x es c i y true) → Accepts x es c i (.map [("$and", .list l)]) true
  | notAll {l : List Y} {y : Y} : y ∈ l → Accepts x es c i y false → Accepts x es c i (.map [("$and", .list l)]) false
  | any {l : List Y} {y : Y} : y ∈ l → Accepts x es c i y true → Accepts x es c i (.map [("$or", .list l)]) true
  | none {l : List Y} : (∀ y ∈ l, Accepts x es c i y false) → Accepts x es c i (.map [("$or", .list l)]) false
  | not {y : Y} {b : Bool} : Accepts x es c i y b → Accepts x es c i (.map [("$not", y)]) (!b)
  | thenPart {d : Dict} {yif yt : Y} {b : Bool} : (∀ k ∈ ["$and", "$or", "$not"], d.get? k = none) →
      d.get? "$if" = some yif → Decides x es yif true → d.get? "$then" = some yt → Accepts x es c i yt b →
      Accepts x es c i (.map d) b
  | elsePart {d : Dict} {yif ye : Y} {b : Bool} : (∀ k ∈ ["$and", "$or", "$not"], d.get? k = none) →
      d.get? "$if" = some yif → Decides x es yif false → d.opt "$else" = some ye → Accepts x es c i ye b →
      Accepts x es c i (.map d) b
  | noElse {d : Dict} {yif : Y} : (∀ k ∈ ["$and", "$or", "$not"], d.get? k = none) →
      d.get? "$if" = some yif → Decides x es yif false → d.opt "$else" = Option.none → Accepts x es c i (.map d) false
  | every {d : Dict} : PlainFilter d → (∀ e ∈ d, Compares c i e.1 e.2 true) → Accepts x es c i (.map d) true
  | notEvery {d : Dict} {e : String × Y} : PlainFilter d → e ∈ d → Compares c i e.1 e.2 false →
      Accepts x es c i (.map d) false

/-! ### Written values -/

theorem digitVal_isDigit {c : Char} {n : Int} (h : digitVal c = some n) : c.isDigit := by
  unfold digitVal at h
  split at h
  · assumption
  · cases h

theorem parseDigits_inv {cs : List Char} : ∀ {acc n : Int}, parseDigits acc cs = some n → ∀ c ∈ cs, c.isDigit := by
  induction cs with
  | nil => simp
  | cons c cs ih =>
    intro acc n h
    unfold parseDigits at h
    split at h
    · rename_i d hd
      intro c' hc'
      rcases List.mem_cons.1 hc' with rfl | hc'
      · exact digitVal_isDigit hd
      · exact ih h c' hc'
    · cases h

theorem parseDigits_says {cs : List Char} {n : Int} (h : parseDigits 0 cs = some n) :
    (∀ c ∈ cs, c.isDigit) ∧ (n : Rat) = digitsNumber cs := by
  have hd := parseDigits_inv h
  refine ⟨hd, ?_⟩
  have := parseDigits_eq cs 0 hd
  rw [show ((0 : Nat) : Int) = 0 from rfl, h] at this
  cases this
  simp [digitsNumber]

theorem parseFraction_says {cs : List Char} {q : Rat} (h : parseFraction cs = some q) :
    (∀ c ∈ cs, c.isDigit) ∧ q = digitsNumber cs / 10 ^ cs.length := by
  unfold parseFraction at h
  split at h
  · rename_i n hn
    cases h
    obtain ⟨h1, h2⟩ := parseDigits_says hn
    refine ⟨h1, ?_⟩
    rw [h2]
    push_cast
    rfl
  · cases h

theorem parseUnsigned_says {cs : List Char} {q : Rat} (h : parseUnsigned cs = some q) : UnsignedText cs q := by
  unfold parseUnsigned at h
  dsimp only at h
  have hsplit : cs = cs.takeWhile (· ≠ '.') ++ cs.dropWhile (· ≠ '.') := (List.takeWhile_append_dropWhile).symm
  have hdrop : cs.drop (cs.takeWhile (· ≠ '.')).length = cs.dropWhile (· ≠ '.') := by
    conv_lhs => rw [hsplit]
    rw [List.drop_append_of_le_length (by simp)]
    simp
  rw [hdrop] at h
  split at h
  · rename_i hnil
    split at h
    · cases h
    rename_i hne
    rw [hnil, List.append_nil] at hsplit
    rw [← hsplit] at h hne
    cases hn : parseDigits 0 cs with
    | none => rw [hn] at h; cases h
    | some n =>
    rw [hn] at h
    obtain ⟨h1, h2⟩ := parseDigits_says hn
    have h : some (n : Rat) = some q := h
    cases h
    rw [h2]
    exact .whole (by simpa using hne) h1
  · rename_i ch frac hc
    have hch : ch = '.' := by
      have := List.head?_dropWhile_not (p := fun c : Char => decide (c ≠ '.')) cs
      rw [hc] at this
      simpa using this
    subst hch
    split at h
    · cases h
    rename_i hne
    split at h
    · rename_i n f hn hf
      cases h
      obtain ⟨h1, h2⟩ := parseDigits_says hn
      obtain ⟨h3, rfl⟩ := parseFraction_says hf
      rw [h2]
      rw [hc] at hsplit
      have := UnsignedText.fraction (ds := cs.takeWhile (· ≠ '.')) (fs := frac) (by simpa using hne) h1 h3
      rw [← hsplit] at this
      exact this
    · cases h

theorem parseDecimal_says {s : String} {q : Rat} (h : parseDecimal s = some q) : DecimalText s.toList q := by
  unfold parseDecimal at h
  split at h
  · rename_i cs hs
    rw [Option.map_eq_some_iff] at h
    obtain ⟨n, hn, rfl⟩ := h
    rw [hs]
    exact .minus (parseUnsigned_says hn)
  · rename_i cs hs
    rw [hs]
    exact .plus (parseUnsigned_says h)
  · exact .plain (parseUnsigned_says h)

theorem getByName_says {c : Constants} {s : String} {v : ConstVal} (h : c.getByName s = .ok v) : TextStands c s v := by
  unfold Constants.getByName at h
  simp only [beq_iff_eq] at h
  split at h
  · cases h; exact .plain (by assumption)
  split at h
  · rename_i hs; cases h; subst hs; exact .matriculation
  split at h
  · rename_i hs; cases h; subst hs; exact .declared
  split at h
  · rename_i hs; cases h; subst hs; exact .medium
  split at h
  · rename_i hs; cases h; subst hs; exact .areaCode
  split at h
  · rename_i hs; cases h; subst hs; exact .musicExam
  · cases h

theorem parseOperator_iff {k : String} {op : Operator} : parseOperator k = some op ↔ (k, op) ∈ writtenOperators := by
  unfold parseOperator
  simp only [beq_iff_eq]
  simp only [writtenOperators, List.mem_cons, Prod.mk.injEq, List.not_mem_nil, or_false]
  constructor
  · intro h
    repeat' split at h
    all_goals first | (cases h; simp_all; done) | cases h
  · rintro (⟨rfl, rfl⟩ | ⟨rfl, rfl⟩ | ⟨rfl, rfl⟩ | ⟨rfl, rfl⟩ | ⟨rfl, rfl⟩ | ⟨rfl, rfl⟩ | ⟨rfl, rfl⟩ | ⟨rfl, rfl⟩) <;> decide

theorem ite_beq_some {α : Type} {s k : String} {g g' : α} {r : Option α} (h : (if s == k then some g' else r) = some g) :
    (k = s ∧ g' = g) ∨ r = some g := by
  by_cases hs : s = k
  · subst hs
    rw [if_pos (by simp)] at h
    exact .inl ⟨rfl, by simpa using h⟩
  · rw [if_neg (by simpa using hs)] at h
    exact .inr h

theorem parseGrade_says {s : String} {g : GradeCode} (h : parseGrade s = some g) : (s, g) ∈ writtenGrades := by
  unfold parseGrade at h
  iterate 28
    rcases ite_beq_some h with ⟨rfl, rfl⟩ | h
    · decide
  cases h

theorem parseGradeOption_says {s : String} {g : GradeOption} (h : parseGradeOption s = some g) :
    (s, g) ∈ writtenGradeOptions := by
  unfold parseGradeOption at h
  simp only [beq_iff_eq] at h
  repeat' split at h
  all_goals first | (cases h; rename_i hs; subst hs; decide) | (cases h)

theorem loadElement_says {c : Constants} {y : Y} {l : List Sc} (h : loadElement c y = .ok l) : EntryStands c y l := by
  unfold loadElement at h
  split at h
  · cases h; exact .null
  · rename_i b; cases h; cases b; exacts [.no, .yes]
  · cases h; exact .number _
  · rw [ld_bind_ok] at h
    obtain ⟨v, hv, h⟩ := h
    have hv := getByName_says hv
    cases v <;> cases h
    exacts [.named hv, .text hv, .several hv]
  · cases h

theorem forall₂_imp_says {α β : Type} {R S : α → β → Prop} {l : List α} {m : List β} (h : List.Forall₂ R l m)
    (hRS : ∀ a b, R a b → S a b) : List.Forall₂ S l m := h.imp hRS

theorem loadRawValue_says {c : Constants} {y : Y} {v : Val} (h : loadRawValue c y = .ok v) : ValueStands c y v := by
  unfold loadRawValue at h
  split at h
  · cases h
  · rename_i b; cases h; cases b; exacts [.no, .yes]
  · cases h; exact .number _
  · cases h
  · rw [ld_bind_ok] at h
    obtain ⟨v, hv, h⟩ := h
    have hv := getByName_says hv
    cases v <;> cases h
    exacts [.named hv, .text hv, .several hv]
  · rw [ld_bind_ok] at h
    obtain ⟨es, hes, h⟩ := h
    cases h
    exact .list ((ld_mapE hes).imp (fun _ _ h => loadElement_says h))
  · cases h

theorem gradeElement_says {v w : Sc} (h : gradeElement v = .ok w) : ∃ s g, v = .str s ∧ w = .grade g ∧ (s, g) ∈ writtenGrades := by
  unfold gradeElement at h
  split at h
  · split at h
    · rename_i hs; cases h; exact ⟨_, _, rfl, rfl, parseGrade_says hs⟩
    · cases h
  · cases h

theorem gradeElements_says {l m : List Sc} (h : List.Forall₂ (fun a b => gradeElement a = .ok b) l m) :
    ∃ gs : List GradeCode, m = gs.map .grade ∧ List.Forall₂ (fun v g => ∃ s, v = .str s ∧ (s, g) ∈ writtenGrades) l gs := by
  induction h with
  | nil => exact ⟨[], rfl, .nil⟩
  | cons h _ ih =>
    obtain ⟨gs, rfl, h2⟩ := ih
    obtain ⟨s, g, rfl, rfl, h3⟩ := gradeElement_says h
    exact ⟨g :: gs, rfl, .cons ⟨s, rfl, h3⟩ h2⟩

theorem processValue_says {key : String} {v w : Val} (h : processValue key v = .ok w) : TakenAs key v w := by
  unfold processValue at h
  simp only [beq_iff_eq, Bool.or_eq_true] at h
  split at h
  · rename_i hk
    subst hk
    split at h
    · rw [ld_bind_ok] at h
      obtain ⟨l', hl, h⟩ := h
      cases h
      obtain ⟨gs, rfl, h2⟩ := gradeElements_says (ld_mapE hl)
      exact .grades h2
    · rw [ld_bind_ok] at h
      obtain ⟨g, hg, h⟩ := h
      cases h
      obtain ⟨s, g, rfl, rfl, h3⟩ := gradeElement_says hg
      exact .grade h3
  rename_i k1
  split at h
  · rename_i hk
    subst hk
    split at h
    · split at h
      · rename_i ho; cases h; exact .option (parseGradeOption_says ho)
      · cases h
    · cases h
  rename_i k2
  split at h
  · rename_i hk
    split at h
    · cases h; exact .number hk
    · split at h
      · rename_i hq; cases h; exact .decimal hk (parseDecimal_says hq)
      · cases h
    · cases h
  · rename_i k3
    cases h
    rw [not_or] at k3
    exact .other (by simp [k1, k2, k3])

theorem loadValue_says {c : Constants} {key : String} {y : Y} {v : Val} (h : loadValue c key y = .ok v) :
    ∃ w, ValueStands c y w ∧ TakenAs key w v := by
  unfold loadValue at h
  rw [ld_bind_ok] at h
  obtain ⟨w, hw, h⟩ := h
  exact ⟨w, loadRawValue_says hw, processValue_says h⟩

theorem theOperator_says {d : Dict} {op : Operator} {raw : Y} (h : theOperator d = .ok (op, raw)) : OneOperator d op raw := by
  unfold theOperator at h
  split at h
  · rename_i r hr
    cases h
    induction d with
    | nil => cases hr
    | cons e d ih =>
      rw [List.filterMap_cons] at hr
      split at hr
      · rename_i hn
        obtain ⟨name, before, after, rfl, h1, h2⟩ := ih hr
        refine ⟨name, e :: before, after, rfl, h1, ?_⟩
        intro e' he' o ho
        rcases List.mem_cons.1 he' with rfl | he'
        · rw [← parseOperator_iff] at ho
          rw [ho] at hn
          cases hn
        · exact h2 e' he' o ho
      · rename_i b hb
        rw [List.cons.injEq] at hr
        obtain ⟨rfl, hr⟩ := hr
        rw [Option.map_eq_some_iff] at hb
        obtain ⟨op', hop, he⟩ := hb
        cases he
        refine ⟨e.1, [], d, rfl, parseOperator_iff.1 hop, ?_⟩
        intro e' he' o ho
        rw [← parseOperator_iff] at ho
        have := (List.filterMap_eq_nil_iff.1 hr) e' (by simpa using he')
        rw [ho] at this
        cases this
  · cases h

/-! ### Comparisons -/

theorem GradeCode.rank_inj {g h : GradeCode} : g.rank = h.rank ↔ g = h := by
  refine ⟨fun e => ?_, fun e => by rw [e]⟩
  have key : ∀ g : GradeCode, ([.BC, .AB, .NG, .IP, .I, .P, .N, .S, .U, .AU, .UA, .WF, .WP, .W, .REG, .F, .Dminus, .D, .Dplus,
    .Cminus, .C, .Cplus, .Bminus, .B, .Bplus, .Aminus, .A, .Aplus] : List GradeCode)[g.rank]? = some g := by
    intro g; cases g <;> rfl
  have := key g
  rw [e, key h] at this
  cases this
  rfl

theorem applyScalar_says {op : Operator} {l r : Sc} {b : Bool} (h : applyScalar op l r = .ok b) : b = true ↔ ScHolds op l r := by
  cases l <;> cases r <;> cases op <;>
    simp [applyScalar, Sc.pyEq, Sc.isStr, Sc.pyLt, Sc.pyLe, Sc.pyStr, orTypeError, ScHolds, NumHolds, StrHolds,
      GradeCode.rank_inj] at h ⊢ <;>
    first | (subst h; simp; done) | skip
  all_goals
    rw [← Bool.not_eq_eq_eq_not] at h
    subst h
    simp

theorem applyScalar_true {op : Operator} {l r : Sc} (hop : op = .eq ∨ op = .neq) :
    applyScalar op l r = .ok true ↔ ScHolds op l r := by
  have : ∃ b, applyScalar op l r = .ok b := by
    rcases hop with rfl | rfl
    · exact applyScalar_eq_ok l r
    · exact applyScalar_neq_ok l r
  obtain ⟨b, hb⟩ := this
  rw [hb, ← applyScalar_says hb]
  simp

theorem applyOperator_says {op : Operator} {v w : Val} {b : Bool} (h : applyOperator op v w = .ok b) :
    b = true ↔ ValHolds op v w := by
  have eqs {l r : Sc} : applyOperator .eq (.sc l) (.sc r) = .ok true ↔ ScHolds .eq l r := applyScalar_true (.inl rfl)
  have neqs {l r : Sc} : applyOperator .neq (.sc l) (.sc r) = .ok true ↔ ScHolds .neq l r := applyScalar_true (.inr rfl)
  cases v with
  | sc l => cases w with
    | sc r => exact applyScalar_says h
    | tup r =>
      simp only [ValHolds]
      by_cases hl : l = .missing
      · simp [applyOperator, hl] at h
        simp [← h, hl]
      · obtain ⟨h1, h2⟩ := C16_list_on_the_right l r hl
        simp only [eqs] at h1
        simp only [neqs] at h2
        have done1 (hop : op = .in' ∨ op = .eq) : b = true ↔ ∃ x ∈ r, ScHolds .eq l x := by
          obtain ⟨b', hb, h1⟩ := h1 op hop
          rw [h] at hb
          cases hb
          exact h1
        have done2 (hop : op = .nin ∨ op = .neq) : b = true ↔ ∀ x ∈ r, ScHolds .neq l x := by
          obtain ⟨b', hb, h1⟩ := h2 op hop
          rw [h] at hb
          cases hb
          exact h1
        cases op <;> simp_all [applyOperator, applyRightTuple]
  | tup l => cases w with
    | sc r =>
      simp only [ValHolds]
      by_cases hr : r = .missing
      · simp [applyOperator, hr] at h
        simp [← h, hr]
      · obtain ⟨h1, h2⟩ := C16_list_on_the_left l r hr
        simp only [eqs] at h1
        simp only [neqs] at h2
        have done1 (hop : op = .in' ∨ op = .eq) : b = true ↔ ∃ x ∈ l, ScHolds .eq x r := by
          obtain ⟨b', hb, h1⟩ := h1 op hop
          rw [h] at hb
          cases hb
          exact h1
        have done2 (hop : op = .nin ∨ op = .neq) : b = true ↔ ∀ x ∈ l, ScHolds .neq x r := by
          obtain ⟨b', hb, h1⟩ := h2 op hop
          rw [h] at hb
          cases hb
          exact h1
        cases op <;> simp_all [applyOperator, applyLeftTuple]
    | tup r =>
      simp only [ValHolds]
      obtain ⟨⟨b', hb, h1⟩, h2⟩ := C16_list_against_list l r
      by_cases hop : op = .in'
      · subst hop
        rw [h] at hb
        cases hb
        simpa using h1
      · rw [h2 op hop] at h
        cases h

theorem applyRecord_says {i : Item} (hi : i.isCourse = false) {key : String} {op : Operator} {e : Val} {cov : Option Val} {b : Bool}
    (h : i.applyLeaf ⟨key, op, e, cov⟩ = .ok b) : (Attribute i key none ∧ b = false) ∨
    ∃ v e', Attribute i key (some v) ∧ applyOperator op v e' = .ok b ∧
      ((GradeInCovid i key ∧ e' = cov.getD e) ∨ (¬ GradeInCovid i key ∧ e' = e)) := by
  have hc : ¬ GradeInCovid i key := by
    rintro ⟨_, k', rfl, _⟩
    cases hi
  obtain ⟨h1, h2, h3⟩ := C17_record_keys i op e cov
  by_cases hn : ∃ v, ItemNames i key v
  · obtain ⟨v, hv⟩ := hn
    cases v with
    | none =>
      rw [h2 key hv] at h
      cases h
      exact .inl ⟨.other hv, rfl⟩
    | some v =>
      rw [h1 key v hv] at h
      exact .inr ⟨_, _, .other hv, h, .inr ⟨hc, rfl⟩⟩
  · rw [h3 key hi (fun v hv => hn ⟨v, hv⟩)] at h
    cases h

/-- a comparison that has an answer looks at the attribute that the key names -/
theorem applyLeaf_says {i : Item} {l : PredLeaf} {b : Bool} (h : i.applyLeaf l = .ok b) :
    (Attribute i l.key none ∧ b = false) ∨
    ∃ v e, Attribute i l.key (some v) ∧ applyOperator l.op v e = .ok b ∧
      ((GradeInCovid i l.key ∧ e = l.duringCovid.getD l.expected) ∨ (¬ GradeInCovid i l.key ∧ e = l.expected)) := by
  obtain ⟨key, op, e, cov⟩ := l
  dsimp only at h ⊢
  cases i with
  | course k =>
    have h : applyCourseLeaf k ⟨key, op, e, cov⟩ = .ok b := h
    obtain ⟨h1, h2, h3, h4, h5, h6, h7⟩ := C17_comparison_keys k op e cov
    by_cases hap : key = "ap"
    · subst hap
      have hc : ¬ GradeInCovid (.course k) "ap" := fun hc => absurd hc.1 (by decide)
      by_cases ht : k.courseType = .ap
      · rw [h2 ht] at h
        exact .inr ⟨_, _, .ap ht, h, .inr ⟨hc, rfl⟩⟩
      · rw [h3 ht] at h
        cases h
        exact .inl ⟨.notAp ht, rfl⟩
    by_cases hg : key = "grade"
    · subst hg
      right
      cases hd : k.isDuringCovid with
      | false =>
        rw [h4 hd] at h
        refine ⟨_, _, .grade (.inl hd), h, .inr ⟨?_, rfl⟩⟩
        rintro ⟨_, k', hk, hk'⟩
        cases hk
        rw [hd] at hk'
        cases hk'
      | true =>
        have hc : GradeInCovid (.course k) "grade" := ⟨rfl, k, rfl, hd⟩
        by_cases hs : k.gradeCode ≠ .S ∨ k.suGradeCode = none
        · rw [h6 hd hs] at h
          exact ⟨_, _, .grade (.inr hs), h, .inl ⟨hc, rfl⟩⟩
        · rw [not_or, not_not] at hs
          cases hsu : k.suGradeCode with
          | none => exact absurd hsu hs.2
          | some g =>
            rw [h5 g hd hs.1 hsu] at h
            exact ⟨_, _, .covidGrade hd hs.1 hsu, h, .inl ⟨hc, rfl⟩⟩
    · by_cases hn : ∃ v, Names k key v
      · obtain ⟨v, hv⟩ := hn
        rw [h1 key v hv] at h
        exact .inr ⟨_, _, .course hv, h, .inr ⟨fun hc => hg hc.1, rfl⟩⟩
      · rw [h7 key hap hg (fun v hv => hn ⟨v, hv⟩)] at h
        cases h
  | area _ => exact applyRecord_says rfl h
  | performance _ => exact applyRecord_says rfl h
  | attendance _ => exact applyRecord_says rfl h

theorem loadLeaf_says {c : Constants} {mode : DataType} {key : String} {y : Y} {l : PredLeaf} (h : loadLeaf c mode key y = .ok l)
    {i : Item} {b : Bool} (hb : i.applyLeaf l = .ok b) : Compares c i key y b := by
  unfold loadLeaf at h
  simp only [ld_bind_ok, ld_asDict] at h
  obtain ⟨d, rfl, allowed, _, _, _, ⟨op, raw⟩, hop, v, hv, cov, hcov, _, _, h⟩ := h
  cases h
  have hop := theOperator_says hop
  rcases applyLeaf_says hb with ⟨h1, rfl⟩ | ⟨a, e, h1, h2, h3⟩
  · exact .absent h1
  have h2 := applyOperator_says h2
  dsimp only at h1 h2 h3
  obtain ⟨y, w, g1, g2, g3⟩ : ∃ y w, ComparedWith i key d raw y ∧ ValueStands c y w ∧ TakenAs key w e := by
    have plain (hn : ¬ (GradeInCovid i key ∧ (d.get? "$during_covid").isSome)) (he : e = v) :
        ∃ y w, ComparedWith i key d raw y ∧ ValueStands c y w ∧ TakenAs key w e := by
      obtain ⟨w, hw, hw'⟩ := loadValue_says hv
      exact ⟨raw, w, .inr ⟨hn, rfl⟩, hw, he ▸ hw'⟩
    rcases h3 with ⟨hc, he⟩ | ⟨hc, he⟩
    · split at hcov
      · rename_i hd
        cases hcov
        exact plain (by simp [hd]) he
      · rename_i raw' hd
        rw [ld_map_ok] at hcov
        obtain ⟨v', hv', rfl⟩ := hcov
        obtain ⟨w, hw, hw'⟩ := loadValue_says hv'
        have he : e = v' := he
        exact ⟨raw', w, .inl ⟨hc, hd⟩, hw, he ▸ hw'⟩
    · exact plain (fun hn => hc hn.1) he
  cases b with
  | true => exact .holds h1 hop g1 g2 g3 (h2.1 rfl)
  | false => exact .fails h1 hop g1 g2 g3 (fun hv => by simpa using h2.2 hv)

/-! ### Filters -/

theorem Dict.single {d : Dict} {k : String} {y : Y} (hl : d.length = 1) (h : d.get? k = some y) : d = [(k, y)] := by
  match d, hl with
  | [(k', y')], _ =>
    unfold Dict.get? at h
    split at h
    · rename_i hk
      cases h
      rw [beq_iff_eq] at hk
      rw [hk]
    · simp [Dict.get?] at h

theorem has_false {d : Dict} {k : String} (h : ¬ d.has k = true) : d.get? k = none := by
  unfold Dict.has at h
  cases hg : d.get? k <;> simp_all

theorem applyAll_accepts {x : Ctx} {es : List Exc} {c : Constants} {i : Item} {n : Nat} {mode : DataType}
    (ih : ∀ y p, loadPred x c mode n y = .ok p → ∀ b, p.apply i.applyLeaf = .ok b → Accepts x es c i y b) {l : List Y}
    {ps : List Pred} (h : List.Forall₂ (fun y p => loadPred x c mode n y = .ok p) l ps) {b : Bool}
    (hb : Pred.applyAll i.applyLeaf ps = .ok b) :
    (b = true → ∀ y ∈ l, Accepts x es c i y true) ∧ (b = false → ∃ y ∈ l, Accepts x es c i y false) := by
  induction h with
  | nil => simp [Pred.applyAll] at hb; simp [← hb]
  | @cons y p l ps hy hrest ih' =>
    unfold Pred.applyAll at hb
    cases hp : p.apply i.applyLeaf with
    | error e => rw [hp] at hb; cases hb
    | ok b' =>
      rw [hp] at hb
      have := ih y p hy b' hp
      cases b' with
      | false =>
        cases hb
        exact ⟨fun h => (nomatch h), fun _ => ⟨y, by simp, this⟩⟩
      | true =>
        obtain ⟨h1, h2⟩ := ih' hb
        refine ⟨fun h y' hy' => ?_, fun h => ?_⟩
        · rcases List.mem_cons.1 hy' with rfl | hy'
          · exact this
          · exact h1 h y' hy'
        · obtain ⟨y', h3, h4⟩ := h2 h
          exact ⟨y', by simp [h3], h4⟩

theorem applyAny_accepts {x : Ctx} {es : List Exc} {c : Constants} {i : Item} {n : Nat} {mode : DataType}
    (ih : ∀ y p, loadPred x c mode n y = .ok p → ∀ b, p.apply i.applyLeaf = .ok b → Accepts x es c i y b) {l : List Y}
    {ps : List Pred} (h : List.Forall₂ (fun y p => loadPred x c mode n y = .ok p) l ps) {b : Bool}
    (hb : Pred.applyAny i.applyLeaf ps = .ok b) :
    (b = false → ∀ y ∈ l, Accepts x es c i y false) ∧ (b = true → ∃ y ∈ l, Accepts x es c i y true) := by
  induction h with
  | nil => simp [Pred.applyAny] at hb; simp [← hb]
  | @cons y p l ps hy hrest ih' =>
    unfold Pred.applyAny at hb
    cases hp : p.apply i.applyLeaf with
    | error e => rw [hp] at hb; cases hb
    | ok b' =>
      rw [hp] at hb
      have := ih y p hy b' hp
      cases b' with
      | true =>
        cases hb
        exact ⟨fun h => (nomatch h), fun _ => ⟨y, by simp, this⟩⟩
      | false =>
        obtain ⟨h1, h2⟩ := ih' hb
        refine ⟨fun h y' hy' => ?_, fun h => ?_⟩
        · rcases List.mem_cons.1 hy' with rfl | hy'
          · exact this
          · exact h1 h y' hy'
        · obtain ⟨y', h3, h4⟩ := h2 h
          exact ⟨y', by simp [h3], h4⟩

theorem leaves_accept {c : Constants} {i : Item} {mode : DataType} {d : Dict} {ls : List PredLeaf}
    (h : List.Forall₂ (fun (e : String × Y) l => loadLeaf c mode e.1 e.2 = .ok l) d ls) {b : Bool}
    (hb : Pred.applyAll i.applyLeaf (ls.map .leaf) = .ok b) :
    (b = true → ∀ e ∈ d, Compares c i e.1 e.2 true) ∧ (b = false → ∃ e ∈ d, Compares c i e.1 e.2 false) := by
  induction h with
  | nil => simp [Pred.applyAll] at hb; simp [← hb]
  | @cons e l d ls hy hrest ih' =>
    rw [List.map_cons] at hb
    unfold Pred.applyAll at hb
    rw [show (Pred.leaf l).apply i.applyLeaf = i.applyLeaf l by simp [Pred.apply]] at hb
    cases hp : i.applyLeaf l with
    | error e => rw [hp] at hb; cases hb
    | ok b' =>
      rw [hp] at hb
      have := loadLeaf_says hy hp
      cases b' with
      | false =>
        cases hb
        exact ⟨fun h => (nomatch h), fun _ => ⟨e, by simp, this⟩⟩
      | true =>
        obtain ⟨h1, h2⟩ := ih' hb
        refine ⟨fun h y' hy' => ?_, fun h => ?_⟩
        · rcases List.mem_cons.1 hy' with rfl | hy'
          · exact this
          · exact h1 h y' hy'
        · obtain ⟨y', h3, h4⟩ := h2 h
          exact ⟨y', by simp [h3], h4⟩

theorem loadPred_says {x : Ctx} {es : List Exc} (hx : x.exceptions = groupExceptions es) {c : Constants} {mode : DataType}
    {i : Item} : ∀ (n : Nat) (y : Y) (p : Pred), loadPred x c mode n y = .ok p → ∀ b, p.apply i.applyLeaf = .ok b →
      Accepts x es c i y b := by
  intro n
  induction n with
  | zero => intro y p h; simp [loadPred] at h
  | succ n ih =>
    intro y p h b hb
    unfold loadPred at h
    rw [ld_bind_ok] at h
    obtain ⟨d, hd, h⟩ := h
    rw [ld_asDict] at hd
    subst hd
    split at h
    · simp only [ld_bind_ok, ld_check_ok, ld_need, ld_asList] at h
      obtain ⟨_, hl, _, hg, l, rfl, ps, hps, _, _, h⟩ := h
      cases h
      rw [Dict.single (by simpa using hl) hg]
      simp only [Pred.apply] at hb
      obtain ⟨h1, h2⟩ := applyAll_accepts ih (ld_mapE hps) hb
      cases b with
      | true => exact .all (h1 rfl)
      | false => obtain ⟨y, hy, h⟩ := h2 rfl; exact .notAll hy h
    rename_i hand
    split at h
    · simp only [ld_bind_ok, ld_check_ok, ld_need, ld_asList] at h
      obtain ⟨_, hl, _, hg, l, rfl, ps, hps, _, _, h⟩ := h
      cases h
      rw [Dict.single (by simpa using hl) hg]
      simp only [Pred.apply] at hb
      obtain ⟨h1, h2⟩ := applyAny_accepts ih (ld_mapE hps) hb
      cases b with
      | false => exact .none (h1 rfl)
      | true => obtain ⟨y, hy, h⟩ := h2 rfl; exact .any hy h
    rename_i hor
    split at h
    · simp only [ld_bind_ok, ld_check_ok, ld_need] at h
      obtain ⟨_, hl, y, hg, p', hp', h⟩ := h
      cases h
      rw [Dict.single (by simpa using hl) hg]
      simp only [Pred.apply] at hb
      cases hq : p'.apply i.applyLeaf with
      | error e => rw [hq] at hb; cases hb
      | ok b' =>
        rw [hq] at hb
        cases hb
        exact .not (ih y p' hp' b' hq)
    rename_i hnot
    have hno : ∀ k ∈ ["$and", "$or", "$not"], d.get? k = none := by
      simp [has_false hand, has_false hor, has_false hnot]
    split at h
    · simp only [ld_bind_ok, ld_need] at h
      obtain ⟨yif, hyif, bc, hbc, yt, hyt, t, ht, e, he, h⟩ := h
      cases h
      have hdec := cond_decides hx yif bc hbc
      simp only [Pred.apply] at hb
      cases bc with
      | true => exact .thenPart hno hyif hdec hyt (ih yt t ht b (by simpa using hb))
      | false =>
        split at he
        · rename_i ho
          cases he
          have : b = false := by
            simp [Pred.applyElse] at hb
            exact hb
          subst this
          exact .noElse hno hyif hdec ho
        · rename_i ye ho
          rw [ld_map_ok] at he
          obtain ⟨e', he', rfl⟩ := he
          exact .elsePart hno hyif hdec ho (ih ye e' he' b (by simpa [Pred.applyElse] using hb))
    · rename_i hif
      have hplain : PlainFilter d := by
        intro k hk
        simp only [List.mem_cons, List.not_mem_nil, or_false] at hk
        rcases hk with rfl | rfl | rfl | rfl
        exacts [has_false hand, has_false hor, has_false hnot, has_false hif]
      rw [ld_bind_ok] at h
      obtain ⟨ls, hls, h⟩ := h
      have hls := ld_mapE hls
      have hb : Pred.applyAll i.applyLeaf (ls.map .leaf) = .ok b := by
        split at h
        · cases h
          simp only [Pred.apply] at hb
          simp only [List.map_cons, List.map_nil, Pred.applyAll, Pred.apply, hb]
          cases b <;> rfl
        · cases h
          simpa only [Pred.apply] using hb
      obtain ⟨h1, h2⟩ := leaves_accept hls hb
      cases b with
      | true => exact .every hplain (h1 rfl)
      | false => obtain ⟨e, he, h⟩ := h2 rfl; exact .notEvery hplain he h

/-! ### A filter cannot both accept and refuse a record -/

theorem parseUnsigned_of {cs : List Char} {q : Rat} (h : UnsignedText cs q) : parseUnsigned cs = some q := by
  have dot {ds : List Char} (h : ∀ c ∈ ds, c.isDigit) : ∀ c ∈ ds, decide (c ≠ '.') = true := by
    intro c hc
    have := h c hc
    rw [decide_eq_true_eq]
    rintro rfl
    exact absurd this (by decide)
  have digits {ds : List Char} (h : ∀ c ∈ ds, c.isDigit) : ∃ n : Int, parseDigits 0 ds = some n ∧ (n : Rat) = digitsNumber ds :=
    ⟨_, parseDigits_eq ds 0 h, by simp [digitsNumber]⟩
  cases h with
  | whole hne hd =>
    have ht : cs.takeWhile (· ≠ '.') = cs := by
      have := List.takeWhile_append_of_pos (p := fun c => decide (c ≠ '.')) (l₂ := []) (dot hd)
      simpa using this
    obtain ⟨n, hn, hn'⟩ := digits hd
    have he : cs.isEmpty = false := by simpa using hne
    unfold parseUnsigned
    dsimp only
    rw [ht, List.drop_length]
    dsimp only
    rw [he, hn, ← hn']
    rfl
  | @fraction ds fs hne hd hf =>
    have ht : (ds ++ '.' :: fs).takeWhile (· ≠ '.') = ds := by
      rw [List.takeWhile_append_of_pos (dot hd)]
      simp
    obtain ⟨n, hn, hn'⟩ := digits hd
    obtain ⟨m, hm, hm'⟩ := digits hf
    unfold parseUnsigned
    dsimp only
    rw [ht, List.drop_left]
    dsimp only
    rw [if_neg (by simpa using hne), hn]
    unfold parseFraction
    rw [hm]
    dsimp only
    rw [hn', hm']
    push_cast
    rfl

theorem unsigned_unique {cs : List Char} {q r : Rat} (h : UnsignedText cs q) (h' : UnsignedText cs r) : q = r := by
  have := parseUnsigned_of h
  rw [parseUnsigned_of h'] at this
  cases this
  rfl

theorem unsigned_head {c : Char} {cs : List Char} {q : Rat} (h : UnsignedText (c :: cs) q) : c.isDigit ∨ c = '.' := by
  generalize hl : c :: cs = l at h
  cases h with
  | whole _ hd => exact .inl (hd c (by rw [← hl]; simp))
  | @fraction ds fs _ hd _ =>
    cases ds with
    | nil => cases hl; exact .inr rfl
    | cons d ds => cases hl; exact .inl (hd c (by simp))

theorem decimal_unique {cs : List Char} {q r : Rat} (h : DecimalText cs q) (h' : DecimalText cs r) : q = r := by
  cases h with
  | plain h => cases h' with
    | plain h' => exact unsigned_unique h h'
    | plus _ => rcases unsigned_head h with h | h <;> exact absurd h (by decide)
    | minus _ => rcases unsigned_head h with h | h <;> exact absurd h (by decide)
  | plus h => cases h' with
    | plain h' => rcases unsigned_head h' with h | h <;> exact absurd h (by decide)
    | plus h' => exact unsigned_unique h h'
  | minus h => cases h' with
    | plain h' => rcases unsigned_head h' with h | h <;> exact absurd h (by decide)
    | minus h' => rw [unsigned_unique h h']

theorem getByName_of {c : Constants} {s : String} {v : ConstVal} (h : TextStands c s v) : c.getByName s = .ok v := by
  cases h with
  | plain h => unfold Constants.getByName; rw [if_pos h]
  | _ => rfl

theorem forall₂_unique {α β : Type} {R : α → β → Prop} (hR : ∀ a b b', R a b → R a b' → b = b') {l : List α} {m m' : List β}
    (h : List.Forall₂ R l m) (h' : List.Forall₂ R l m') : m = m' := by
  induction h generalizing m' with
  | nil => cases h'; rfl
  | cons h _ ih => cases h' with
    | cons h' hr => rw [hR _ _ _ h h', ih hr]

theorem loadElement_of {c : Constants} {y : Y} {l : List Sc} (h : EntryStands c y l) : loadElement c y = .ok l := by
  cases h with
  | named h => simp only [loadElement, getByName_of h]; rfl
  | text h => simp only [loadElement, getByName_of h]; rfl
  | several h => simp only [loadElement, getByName_of h]; rfl
  | _ => rfl

theorem valueStands_unique {c : Constants} {y : Y} {v w : Val} (h : ValueStands c y v) (h' : ValueStands c y w) : v = w := by
  have entry : ∀ y l m, EntryStands c y l → EntryStands c y m → l = m := by
    intro y l m h h'
    have := loadElement_of h
    rw [loadElement_of h'] at this
    cases this
    rfl
  have key {y : Y} {v : Val} (h : ValueStands c y v) : (∃ l es, y = .list l ∧ v = .tup es.flatten ∧ List.Forall₂ (EntryStands c) l es) ∨
      ((∀ l, y ≠ .list l) ∧ loadRawValue c y = .ok v) := by
    cases h with
    | list h => exact .inl ⟨_, _, rfl, rfl, h⟩
    | named h => exact .inr ⟨by simp, by simp only [loadRawValue, getByName_of h]; rfl⟩
    | text h => exact .inr ⟨by simp, by simp only [loadRawValue, getByName_of h]; rfl⟩
    | several h => exact .inr ⟨by simp, by simp only [loadRawValue, getByName_of h]; rfl⟩
    | _ => exact .inr ⟨by simp, rfl⟩
  rcases key h with ⟨l, es, rfl, rfl, hl⟩ | ⟨hn, hv⟩
  · rcases key h' with ⟨l', es', h1, rfl, hl'⟩ | ⟨hn, _⟩
    · cases h1
      rw [forall₂_unique entry hl hl']
    · exact absurd rfl (hn l)
  · rcases key h' with ⟨l', es', rfl, rfl, hl'⟩ | ⟨_, hv'⟩
    · exact absurd rfl (hn l')
    · rw [hv] at hv'
      cases hv'
      rfl

theorem grades_unique {s : String} {g g' : GradeCode} (h : (s, g) ∈ writtenGrades) (h' : (s, g') ∈ writtenGrades) : g = g' := by
  have : ∀ e ∈ writtenGrades, ∀ e' ∈ writtenGrades, e.1 = e'.1 → e.2 = e'.2 := by decide +kernel
  exact this _ h _ h' rfl

theorem gradeOptions_unique {s : String} {g g' : GradeOption} (h : (s, g) ∈ writtenGradeOptions)
    (h' : (s, g') ∈ writtenGradeOptions) : g = g' := by
  have : ∀ e ∈ writtenGradeOptions, ∀ e' ∈ writtenGradeOptions, e.1 = e'.1 → e.2 = e'.2 := by decide +kernel
  exact this _ h _ h' rfl

theorem takenAs_unique {key : String} {v w w' : Val} (h : TakenAs key v w) (h' : TakenAs key v w') : w = w' := by
  have no {P : Prop} {a b : String} (hk : a = b) (hne : a ≠ b := by decide) : P := absurd hk hne
  cases h with
  | grade h =>
    generalize hk : "grade" = key at h'
    cases h' with
    | grade h' => rw [grades_unique h h']
    | option => exact no hk
    | decimal h' => subst hk; exact absurd h' (by decide)
    | other h' => subst hk; exact absurd h' (by decide)
  | @grades l gs h =>
    generalize hk : "grade" = key at h'
    cases h' with
    | grades h' =>
      rw [forall₂_unique ?_ h h']
      rintro _ g g' ⟨s, rfl, h1⟩ ⟨s', hs, h2⟩
      cases hs
      exact grades_unique h1 h2
    | other h' => subst hk; exact absurd h' (by decide)
  | option h =>
    generalize hk : "grade_option" = key at h'
    cases h' with
    | grade h' => exact no hk
    | option h' => rw [gradeOptions_unique h h']
    | decimal h' => subst hk; exact absurd h' (by decide)
    | other h' => subst hk; exact absurd h' (by decide)
  | number h => cases h' with
    | number => rfl
    | other => rfl
  | decimal hk h => cases h' with
    | grade => exact absurd hk (by decide)
    | option => exact absurd hk (by decide)
    | decimal _ h' => rw [decimal_unique h h']
    | other h' => exact absurd hk (by simp at h'; tauto)
  | other hk => cases h' with
    | grade => exact absurd hk (by decide)
    | grades => exact absurd hk (by decide)
    | option => exact absurd hk (by decide)
    | number => rfl
    | decimal h' => exact absurd h' (by simp at hk; tauto)
    | other => rfl

theorem theOperator_of {d : Dict} {op : Operator} {raw : Y} (h : OneOperator d op raw) : theOperator d = .ok (op, raw) := by
  obtain ⟨name, before, after, rfl, h1, h2⟩ := h
  have none {l : Dict} (hl : ∀ e ∈ l, ∀ o, (e.1, o) ∉ writtenOperators) :
      l.filterMap (fun e => (parseOperator e.1).map (fun op => (op, e.2))) = [] := by
    rw [List.filterMap_eq_nil_iff]
    intro e he
    rw [Option.map_eq_none_iff]
    cases ho : parseOperator e.1 with
    | none => rfl
    | some o => exact absurd (parseOperator_iff.1 ho) (hl e he o)
  unfold theOperator
  rw [List.filterMap_append, none (fun e he => h2 e (List.mem_append_left _ he)), List.nil_append, List.filterMap_cons,
    parseOperator_iff.2 h1]
  simp only [Option.map_some]
  rw [none (fun e he => h2 e (List.mem_append_right _ he))]

/-- the attribute that a key names, if it names one -/
def attributeOf (k : Course) (key : String) : Option Val :=
  match key with
  | "attributes" => some (.tup (k.attributes.map .str))
  | "attribute" => some (.tup (k.attributes.map .str))
  | "gereqs" => some (.tup (k.gereqs.map .str))
  | "clbid" => some (strVal k.clbid)
  | "crsid" => some (strVal k.crsid)
  | "course" => some (strVal k.identity)
  | "course_type" => some (strVal k.courseType.pyName)
  | "credits" => some (numVal k.credits)
  | "grade_option" => some (.sc (.option k.gradeOption))
  | "institution" => some (strVal k.institution)
  | "is_in_gpa" => some (boolVal k.isInGpa)
  | "is_in_progress" => some (boolVal k.isInProgress)
  | "is_stolaf" => some (boolVal k.isStolaf)
  | "lab" => some (boolVal k.isLab)
  | "level" => some (intVal k.level)
  | "name" => some (strVal k.name)
  | "number" => some (strVal k.number)
  | "semester" => some (strVal k.term)
  | "subject" => match k.isChbi with
    | some n => if n = 125 ∨ n = 126 then some (strVal "CHEM") else some (strVal "BIO")
    | none => some (strVal k.subject)
  | "type" => some (strVal k.subType.pyName)
  | "year" => some (intVal k.year)
  | _ => none

theorem names_attributeOf {k : Course} {key : String} {v : Val} (h : Names k key v) : attributeOf k key = some v := by
  cases h with
  | subject h => simp only [attributeOf, h]
  | chem n h hn => simp only [attributeOf, h, if_pos hn]
  | bio n h hn => simp only [attributeOf, h, if_neg hn]
  | _ => rfl

/-- the attribute that a key names, of a record that is not a course -/
def recordAttribute : Item → String → Option (Option Val)
  | .area a, "code" => some (some (strVal a.code))
  | .area a, "status" => some (some (strVal a.status))
  | .area a, "kind" => some (some (strVal a.kind))
  | .area a, "type" => some (some (strVal a.kind))
  | .area a, "name" => some (some (strVal a.name))
  | .area a, "degree" => some (some (strVal a.degree))
  | .area a, "gpa" => some (a.gpa.map numVal)
  | .performance m, "name" => some (some (strVal m.name))
  | .performance m, "year" => some (some (intVal m.year))
  | .performance m, "term" => some (some (intVal m.term))
  | .performance m, "status" => some (m.status.map strVal)
  | .performance m, "role" => match m.role with
    | some r => if r = "" then some none else some (some (strVal r))
    | none => some none
  | .attendance m, "name" => some (some (strVal m.name))
  | .attendance m, "year" => some (some (intVal m.year))
  | .attendance m, "term" => some (some (intVal m.term))
  | _, _ => none

theorem itemNames_attribute {i : Item} {key : String} {v : Option Val} (h : ItemNames i key v) : recordAttribute i key = some v := by
  cases h with
  | perfRole m r h hr => simp only [recordAttribute, h, if_neg hr]
  | perfNoRole m h => rcases h with h | h <;> simp [recordAttribute, h]
  | _ => rfl

theorem attribute_unique {i : Item} {key : String} {v w : Option Val} (h : Attribute i key v) (h' : Attribute i key w) : v = w := by
  have notItem {k : Course} {key : String} {v : Option Val} (h : ItemNames (.course k) key v) : False := by cases h
  have special {k : Course} {key : String} {v : Val} (h : Names k key v) : key ≠ "ap" ∧ key ≠ "grade" := by
    have := names_attributeOf h
    constructor <;> (rintro rfl; cases this)
  cases h with
  | course h => cases h' with
    | course h' =>
      have := names_attributeOf h
      rw [names_attributeOf h'] at this
      exact this.symm
    | ap => exact absurd rfl (special h).1
    | notAp => exact absurd rfl (special h).1
    | grade => exact absurd rfl (special h).2
    | covidGrade => exact absurd rfl (special h).2
    | other h' => exact (notItem h').elim
  | ap h =>
    generalize hk : "ap" = key at h'
    cases h' with
    | course h' => exact absurd hk.symm (special h').1
    | ap h' => rfl
    | notAp h' => exact absurd h h'
    | other h' => exact (notItem h').elim
    | _ => exact absurd hk (by decide)
  | notAp h =>
    generalize hk : "ap" = key at h'
    cases h' with
    | course h' => exact absurd hk.symm (special h').1
    | ap h' => exact absurd h' h
    | notAp h' => rfl
    | other h' => exact (notItem h').elim
    | _ => exact absurd hk (by decide)
  | grade h =>
    generalize hk : "grade" = key at h'
    cases h' with
    | course h' => exact absurd hk.symm (special h').2
    | grade h' => rfl
    | covidGrade h1 h2 h3 => rcases h with h | h | h <;> simp_all
    | other h' => exact (notItem h').elim
    | _ => exact absurd hk (by decide)
  | covidGrade h1 h2 h3 =>
    generalize hk : "grade" = key at h'
    cases h' with
    | course h' => exact absurd hk.symm (special h').2
    | grade h => rcases h with h | h | h <;> simp_all
    | covidGrade h1 h2 h3 => simp_all
    | other h' => exact (notItem h').elim
    | _ => exact absurd hk (by decide)
  | other h => cases h' with
    | other h' =>
      have := itemNames_attribute h
      rw [itemNames_attribute h'] at this
      exact (Option.some.inj this).symm
    | _ => exact (notItem h).elim

theorem comparedWith_unique {i : Item} {key : String} {d : Dict} {raw y z : Y} (h : ComparedWith i key d raw y)
    (h' : ComparedWith i key d raw z) : y = z := by
  rcases h with ⟨h1, h2⟩ | ⟨h1, rfl⟩
  · rcases h' with ⟨_, h3⟩ | ⟨h3, _⟩
    · rw [h2] at h3
      exact Option.some.inj h3
    · exact absurd ⟨h1, by simp [h2]⟩ h3
  · rcases h' with ⟨h2, h3⟩ | ⟨_, rfl⟩
    · exact absurd ⟨h2, by simp [h3]⟩ h1
    · rfl

theorem compares_unique {c : Constants} {i : Item} {key : String} {y : Y} {b b' : Bool} (h : Compares c i key y b)
    (h' : Compares c i key y b') : b = b' := by
  have same {d : Dict} {op op' : Operator} {raw raw' y y' : Y} {v v' w w' e e' : Val} (h1 : Attribute i key (some v))
      (h2 : OneOperator d op raw) (h3 : ComparedWith i key d raw y) (h4 : ValueStands c y w) (h5 : TakenAs key w e)
      (g1 : Attribute i key (some v')) (g2 : OneOperator d op' raw') (g3 : ComparedWith i key d raw' y')
      (g4 : ValueStands c y' w') (g5 : TakenAs key w' e') : v = v' ∧ op = op' ∧ e = e' := by
    obtain rfl := Option.some.inj (attribute_unique h1 g1)
    have h2 := theOperator_of h2
    rw [theOperator_of g2] at h2
    cases h2
    obtain rfl := comparedWith_unique h3 g3
    obtain rfl := valueStands_unique h4 g4
    exact ⟨rfl, rfl, takenAs_unique h5 g5⟩
  cases h with
  | absent h => cases h' with
    | absent => rfl
    | holds h1 => cases attribute_unique h h1
    | fails => rfl
  | holds h1 h2 h3 h4 h5 h6 => cases h' with
    | absent h => cases attribute_unique h h1
    | holds => rfl
    | fails g1 g2 g3 g4 g5 g6 =>
      obtain ⟨rfl, rfl, rfl⟩ := same h1 h2 h3 h4 h5 g1 g2 g3 g4 g5
      exact absurd h6 g6
  | fails h1 h2 h3 h4 h5 h6 => cases h' with
    | absent h => rfl
    | fails => rfl
    | holds g1 g2 g3 g4 g5 g6 =>
      obtain ⟨rfl, rfl, rfl⟩ := same h1 h2 h3 h4 h5 g1 g2 g3 g4 g5
      exact absurd g6 h6

/-- the shapes of a filter: exactly one of them fits -/
theorem accepts_cases {x : Ctx} {es : List Exc} {c : Constants} {i : Item} {y : Y} {b : Bool} (h : Accepts x es c i y b) :
    (∃ l, y = .map [("$and", .list l)] ∧
      ((b = true ∧ ∀ z ∈ l, Accepts x es c i z true) ∨ (b = false ∧ ∃ z ∈ l, Accepts x es c i z false))) ∨
    (∃ l, y = .map [("$or", .list l)] ∧
      ((b = true ∧ ∃ z ∈ l, Accepts x es c i z true) ∨ (b = false ∧ ∀ z ∈ l, Accepts x es c i z false))) ∨
    (∃ z, y = .map [("$not", z)] ∧ Accepts x es c i z (!b)) ∨
    (∃ (d : Dict) (yif : Y), y = .map d ∧ (∀ k ∈ ["$and", "$or", "$not"], d.get? k = none) ∧ d.get? "$if" = some yif ∧
      ((Decides x es yif true ∧ ∃ yt, d.get? "$then" = some yt ∧ Accepts x es c i yt b) ∨
       (Decides x es yif false ∧ ∃ ye, d.opt "$else" = some ye ∧ Accepts x es c i ye b) ∨
       (Decides x es yif false ∧ d.opt "$else" = none ∧ b = false))) ∨
    (∃ d : Dict, y = .map d ∧ PlainFilter d ∧
      ((b = true ∧ ∀ e ∈ d, Compares c i e.1 e.2 true) ∨ (b = false ∧ ∃ e ∈ d, Compares c i e.1 e.2 false))) := by
  cases h with
  | all h => exact .inl ⟨_, rfl, .inl ⟨rfl, h⟩⟩
  | notAll h h' => exact .inl ⟨_, rfl, .inr ⟨rfl, _, h, h'⟩⟩
  | any h h' => exact .inr (.inl ⟨_, rfl, .inl ⟨rfl, _, h, h'⟩⟩)
  | none h => exact .inr (.inl ⟨_, rfl, .inr ⟨rfl, h⟩⟩)
  | not h => exact .inr (.inr (.inl ⟨_, rfl, by simpa using h⟩))
  | thenPart h1 h2 h3 h4 h5 => exact .inr (.inr (.inr (.inl ⟨_, _, rfl, h1, h2, .inl ⟨h3, _, h4, h5⟩⟩)))
  | elsePart h1 h2 h3 h4 h5 => exact .inr (.inr (.inr (.inl ⟨_, _, rfl, h1, h2, .inr (.inl ⟨h3, _, h4, h5⟩)⟩)))
  | noElse h1 h2 h3 h4 => exact .inr (.inr (.inr (.inl ⟨_, _, rfl, h1, h2, .inr (.inr ⟨h3, h4, rfl⟩)⟩)))
  | every h1 h2 => exact .inr (.inr (.inr (.inr ⟨_, rfl, h1, .inl ⟨rfl, h2⟩⟩)))
  | notEvery h1 h2 h3 => exact .inr (.inr (.inr (.inr ⟨_, rfl, h1, .inr ⟨rfl, _, h2, h3⟩⟩)))

theorem accepts_unique {x : Ctx} {es : List Exc} {c : Constants} {i : Item} {y : Y} {b b' : Bool} (h : Accepts x es c i y b)
    (h' : Accepts x es c i y b') : b = b' := by
  have key {d : Dict} {k : String} {y : Y} (hd : Y.map d = .map [(k, y)]) : d.get? k = some y := by
    cases hd
    simp [Dict.get?]
  induction h generalizing b' with
  | all h ih =>
    rcases accepts_cases h' with ⟨l, hy, h⟩ | ⟨l, hy, h⟩ | ⟨z, hy, h⟩ | ⟨d, yif, hy, h1, h2, h⟩ | ⟨d, hy, h1, h⟩
    · cases hy
      rcases h with ⟨rfl, _⟩ | ⟨rfl, z, hz, h⟩
      · rfl
      · exact ih z hz h
    · simp at hy
    · simp at hy
    · have := h1 "$and" (by simp); rw [key hy.symm] at this; cases this
    · have := h1 "$and" (by simp); rw [key hy.symm] at this; cases this
  | @notAll l z hz h ih =>
    rcases accepts_cases h' with ⟨l, hy, h⟩ | ⟨l, hy, h⟩ | ⟨z, hy, h⟩ | ⟨d, yif, hy, h1, h2, h⟩ | ⟨d, hy, h1, h⟩
    · cases hy
      rcases h with ⟨rfl, h⟩ | ⟨rfl, _⟩
      · exact ih (h z hz)
      · rfl
    · simp at hy
    · simp at hy
    · have := h1 "$and" (by simp); rw [key hy.symm] at this; cases this
    · have := h1 "$and" (by simp); rw [key hy.symm] at this; cases this
  | @any l z hz h ih =>
    rcases accepts_cases h' with ⟨l, hy, h⟩ | ⟨l, hy, h⟩ | ⟨z, hy, h⟩ | ⟨d, yif, hy, h1, h2, h⟩ | ⟨d, hy, h1, h⟩
    · simp at hy
    · cases hy
      rcases h with ⟨rfl, _⟩ | ⟨rfl, h⟩
      · rfl
      · exact ih (h z hz)
    · simp at hy
    · have := h1 "$or" (by simp); rw [key hy.symm] at this; cases this
    · have := h1 "$or" (by simp); rw [key hy.symm] at this; cases this
  | none h ih =>
    rcases accepts_cases h' with ⟨l, hy, h⟩ | ⟨l, hy, h⟩ | ⟨z, hy, h⟩ | ⟨d, yif, hy, h1, h2, h⟩ | ⟨d, hy, h1, h⟩
    · simp at hy
    · cases hy
      rcases h with ⟨rfl, z, hz, h⟩ | ⟨rfl, _⟩
      · exact ih z hz h
      · rfl
    · simp at hy
    · have := h1 "$or" (by simp); rw [key hy.symm] at this; cases this
    · have := h1 "$or" (by simp); rw [key hy.symm] at this; cases this
  | not h ih =>
    rcases accepts_cases h' with ⟨l, hy, h⟩ | ⟨l, hy, h⟩ | ⟨z, hy, h⟩ | ⟨d, yif, hy, h1, h2, h⟩ | ⟨d, hy, h1, h⟩
    · simp at hy
    · simp at hy
    · cases hy
      rw [ih h]
      simp
    · have := h1 "$not" (by simp); rw [key hy.symm] at this; cases this
    · have := h1 "$not" (by simp); rw [key hy.symm] at this; cases this
  | thenPart g1 g2 g3 g4 g5 ih =>
    rcases accepts_cases h' with ⟨l, hy, h⟩ | ⟨l, hy, h⟩ | ⟨z, hy, h⟩ | ⟨d, yif, hy, h1, h2, h⟩ | ⟨d, hy, h1, h⟩
    · have := g1 "$and" (by simp); rw [key hy] at this; cases this
    · have := g1 "$or" (by simp); rw [key hy] at this; cases this
    · have := g1 "$not" (by simp); rw [key hy] at this; cases this
    · cases hy
      rw [g2] at h2; cases h2
      rcases h with ⟨_, yt, h3, h4⟩ | ⟨hd, _⟩ | ⟨hd, _⟩
      · rw [g4] at h3; cases h3
        exact ih h4
      · cases decides_unique g3 hd
      · cases decides_unique g3 hd
    · cases hy
      have := h1 "$if" (by simp); rw [g2] at this; cases this
  | elsePart g1 g2 g3 g4 g5 ih =>
    rcases accepts_cases h' with ⟨l, hy, h⟩ | ⟨l, hy, h⟩ | ⟨z, hy, h⟩ | ⟨d, yif, hy, h1, h2, h⟩ | ⟨d, hy, h1, h⟩
    · have := g1 "$and" (by simp); rw [key hy] at this; cases this
    · have := g1 "$or" (by simp); rw [key hy] at this; cases this
    · have := g1 "$not" (by simp); rw [key hy] at this; cases this
    · cases hy
      rw [g2] at h2; cases h2
      rcases h with ⟨hd, _⟩ | ⟨_, ye, h3, h4⟩ | ⟨_, h3, _⟩
      · cases decides_unique g3 hd
      · rw [g4] at h3; cases h3
        exact ih h4
      · rw [g4] at h3; cases h3
    · cases hy
      have := h1 "$if" (by simp); rw [g2] at this; cases this
  | noElse g1 g2 g3 g4 =>
    rcases accepts_cases h' with ⟨l, hy, h⟩ | ⟨l, hy, h⟩ | ⟨z, hy, h⟩ | ⟨d, yif, hy, h1, h2, h⟩ | ⟨d, hy, h1, h⟩
    · have := g1 "$and" (by simp); rw [key hy] at this; cases this
    · have := g1 "$or" (by simp); rw [key hy] at this; cases this
    · have := g1 "$not" (by simp); rw [key hy] at this; cases this
    · cases hy
      rw [g2] at h2; cases h2
      rcases h with ⟨hd, _⟩ | ⟨_, ye, h3, h4⟩ | ⟨_, _, rfl⟩
      · cases decides_unique g3 hd
      · rw [g4] at h3; cases h3
      · rfl
    · cases hy
      have := h1 "$if" (by simp); rw [g2] at this; cases this
  | every g1 g2 =>
    rcases accepts_cases h' with ⟨l, hy, h⟩ | ⟨l, hy, h⟩ | ⟨z, hy, h⟩ | ⟨d, yif, hy, h1, h2, h⟩ | ⟨d, hy, h1, h⟩
    · have := g1 "$and" (by simp); rw [key hy] at this; cases this
    · have := g1 "$or" (by simp); rw [key hy] at this; cases this
    · have := g1 "$not" (by simp); rw [key hy] at this; cases this
    · cases hy
      have := g1 "$if" (by simp); rw [h2] at this; cases this
    · cases hy
      rcases h with ⟨rfl, _⟩ | ⟨rfl, e, he, h⟩
      · rfl
      · exact compares_unique (g2 e he) h
  | notEvery g1 g2 g3 =>
    rcases accepts_cases h' with ⟨l, hy, h⟩ | ⟨l, hy, h⟩ | ⟨z, hy, h⟩ | ⟨d, yif, hy, h1, h2, h⟩ | ⟨d, hy, h1, h⟩
    · have := g1 "$and" (by simp); rw [key hy] at this; cases this
    · have := g1 "$or" (by simp); rw [key hy] at this; cases this
    · have := g1 "$not" (by simp); rw [key hy] at this; cases this
    · cases hy
      have := g1 "$if" (by simp); rw [h2] at this; cases this
    · cases hy
      rcases h with ⟨rfl, h⟩ | ⟨rfl, _⟩
      · exact compares_unique g3 (h _ g2)
      · rfl

/-! ### C63 -/

/-- **C63.** A filter of an area file selects what it says: whenever the filter can be read and has an answer for a record
(course, declared area, performance or recital), the answer is the one its text gives: `$and`, `$or`, `$not` and
`$if` as usual, a dictionary asks for all of its comparisons, and a comparison compares the attribute that its key names with
the value behind its operator. -/
theorem C63_filter_selects_what_it_says (x : Ctx) (es : List Exc) (hx : x.exceptions = groupExceptions es) (c : Constants)
    (mode : DataType) (y : Y) (p : Pred) (hp : loadFilter x c mode y = .ok p) (i : Item) (b : Bool)
    (hb : p.apply i.applyLeaf = .ok b) : Accepts x es c i y b :=
  loadPred_says hx y.size y p hp b hb

/-- **C63.** No filter both accepts and refuses a record. -/
theorem C63_not_both (x : Ctx) (es : List Exc) (c : Constants) (i : Item) (y : Y)
    (h : Accepts x es c i y true) : ¬ Accepts x es c i y false := by
  intro h'
  cases accepts_unique h h'

/-- **C63**, for lists of records: filtering keeps the records that the text accepts, in their order. -/
theorem C63_filtering_keeps_what_is_accepted (x : Ctx) (es : List Exc) (hx : x.exceptions = groupExceptions es) (c : Constants)
    (mode : DataType) (y : Y) (p : Pred) (hp : loadFilter x c mode y = .ok p) (is kept : List Item)
    (hk : filterItems p is = .ok kept) :
    kept.Sublist is ∧ ∀ i ∈ is, (i ∈ kept ↔ Accepts x es c i y true) := by
  obtain ⟨h1, _, h3⟩ := C17_record_filters_are_boolean p is
  obtain ⟨h4, h5⟩ := h3 kept hk
  refine ⟨h4, fun i hi => ?_⟩
  have hans : ∃ b, p.apply i.applyLeaf = .ok b := by
    clear h1 h3 h4 h5
    induction is generalizing kept with
    | nil => cases hi
    | cons j is ih =>
      unfold filterItems at hk
      split at hk
      · cases hk
      rename_i b hb
      split at hk
      · cases hk
      rename_i rest hrest
      rcases List.mem_cons.1 hi with rfl | hi
      · exact ⟨b, hb⟩
      · exact ih rest hrest hi
  obtain ⟨b, hb⟩ := hans
  have hacc := C63_filter_selects_what_it_says x es hx c mode y p hp i b hb
  rw [h5 i hi, ← h1 i b hb]
  constructor
  · rintro rfl; exact hacc
  · intro h; exact (accepts_unique hacc h)

/-- a filter with a negation, a condition, a list, a grade and a constant -/
def filterText : Y :=
  .map [("$and", .list [
    .map [("subject", .map [("$in", .list [.str "MATH", .str "STAT"])]), ("level", .map [("$gte", .int 200)])],
    .map [("$not", .map [("attributes", .map [("$eq", .str "intro")])])],
    .map [("$if", .map [("has-course", .str "MATH 126")]), ("$then", .map [("grade", .map [("$gte", .str "C-")])])],
    .map [("credits", .map [("$lt", .str "1.50")])],
    .map [("year", .map [("$gte", .str "$matriculation-year")])]])]

/-- a student with three courses -/
def filterCtx : Ctx :=
  { transcript := [
      { clbid := "1", identity := "MATH 126", isStolaf := true, subject := "MATH", level := 100, gradeCode := .A, credits := 1, year := 2018 },
      { clbid := "2", identity := "MATH 220", isStolaf := true, subject := "MATH", level := 200, gradeCode := .B, credits := 1, year := 2018 },
      { clbid := "3", identity := "MATH 226", isStolaf := true, subject := "MATH", level := 200, gradeCode := .D, credits := 1, year := 2018 }] }

/-- the filter can be read, and selects one of the three -/
example : (match loadFilter filterCtx { matriculationYear := 2018 } .course filterText with
    | .ok p => (match filterItems p (filterCtx.transcript.map .course) with
      | .ok l => some (l.map (fun i => match i with | .course k => k.clbid | _ => ""))
      | .error _ => none)
    | .error _ => none) = some ["2"] := by decide +kernel

/-- a dictionary without comparisons accepts everything -/
example : (loadFilter filterCtx {} .course (.map [])).toOption.isSome = true := by decide +kernel

end Dp
