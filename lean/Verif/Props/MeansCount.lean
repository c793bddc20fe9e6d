import Verif.Props.MeansRule

/-
C66: the parts of a count rule and how many of them it asks for, in terms of the text of the area file.
-/
namespace Dp

/-! ### Specification -/

/-- the parts that are listed: behind the first of the keys that is there -/
def ListsParts (d : Dict) (l : List Y) : Prop :=
  ∃ before k after, ["all", "any", "both", "either", "of"] = before ++ k :: after ∧ (∀ j ∈ before, d.get? j = none) ∧
    d.get? k = some (.list l)

/-- the whole number that a text writes -/
inductive WholeText : List Char → Int → Prop
  | plain {cs : List Char} {n : Int} : cs ≠ [] → (∀ ch ∈ cs, ch.isDigit) → (n : Rat) = digitsNumber cs → WholeText cs n
  | minus {cs : List Char} {n : Int} : cs ≠ [] → (∀ ch ∈ cs, ch.isDigit) → (n : Rat) = digitsNumber cs → WholeText ('-' :: cs) (-n)

/-- an entry if there is a text for it -/
def entryFor (key s value : String) : Dict := if s = "" then [] else [(key, .str value)]

/-- the course rule that a course of a template stands for -/
def TemplateStands (t : TemplateCourse) (y : Y) : Prop :=
  ∃ extra, y = .map (entryFor "clbid" t.clbid t.clbid ++ entryFor "course" t.subject (t.subject ++ " " ++ t.num)
      ++ entryFor "section" t.section' t.section' ++ entryFor "sub_type" t.subType t.subType
      ++ entryFor "institution" t.institution t.institution ++ entryFor "ap" t.name t.name ++ extra) ∧
    ((t.year = "" ∧ extra = []) ∨
      (t.year ≠ "" ∧ t.term ≠ "" ∧ ∃ n, WholeText t.year.toList n ∧ extra = [("year", .int n), ("term", .str t.term)]))

/-- the parts with the student's templates in the places where they are named -/
inductive ExpandsTo (templates : List (String × TemplateCourse)) : List Y → List Y → Prop
  | nil : ExpandsTo templates [] []
  | plain {d : Dict} {ys zs : List Y} : d.get? "template" = none → ExpandsTo templates ys zs →
      ExpandsTo templates (.map d :: ys) (.map d :: zs)
  | template {d : Dict} {key : String} {rs ys zs : List Y} : TextAt d "template" key →
      List.Forall₂ (fun e r => TemplateStands e.2 r) (templates.filter (fun e => e.1 = key)) rs →
      ExpandsTo templates ys zs → ExpandsTo templates (.map d :: ys) (rs ++ zs)

/-- the emphasis only lists requirements, which then become requirements of the major -/
def Flattens (emph result : Dict) : Prop :=
  ∃ rules : List Dict, result.get? "all" = some (.list (rules.map .map)) ∧
    (emph.get? "requirements" ≠ none ∨ ∃ r ∈ rules, Dict.get? r "name" ≠ none) ∧ result.get? "audit" = none ∧
    ∀ r ∈ rules, Dict.get? r "requirement" ≠ none ∨ Dict.get? r "name" ≠ none

/-- `EmphasisAdds emph name parts`: the emphasis of that name adds the requirements `parts` (names and texts) -/
inductive EmphasisAdds (emph : Dict) (name : String) : List (String × Y) → Prop
  | whole {result : Dict} : TextAt emph "name" name → emph.get? "result" = some (.map result) → ¬ Flattens emph result →
      EmphasisAdds emph name [("Emphasis: " ++ name, .map emph)]
  | named {result reqs : Dict} : TextAt emph "name" name → emph.get? "result" = some (.map result) → Flattens emph result →
      emph.get? "requirements" = some (.map reqs) →
      EmphasisAdds emph name (reqs.map (fun r => ("Emphasis: " ++ name ++ " → " ++ r.1, r.2)))
  | inline {result : Dict} {rules : List Dict} {names : List String} : TextAt emph "name" name →
      emph.get? "result" = some (.map result) → Flattens emph result → emph.get? "requirements" = none →
      result.get? "all" = some (.list (rules.map .map)) → List.Forall₂ (fun r n => TextAt r "name" n) rules names →
      EmphasisAdds emph name ((names.zip rules).map (fun r => ("Emphasis: " ++ name ++ " → " ++ r.1, .map r.2)))

/-- the part of the major that stands for a requirement of the emphasis -/
def emphasisPart (requirement emphasis : String) : Y :=
  .map [("requirement", .str requirement), ("__emphasis", .str emphasis)]

/-- `WithEmphases kids ems kids' added`: with the emphases `ems`, the requirements `kids` become `kids'`, and the parts `added`
are added; of equal names the later counts -/
inductive WithEmphases : Dict → List Dict → Dict → List Y → Prop
  | nil (kids : Dict) : WithEmphases kids [] kids []
  | cons {kids kids1 kids' emph : Dict} {name : String} {parts : List (String × Y)} {ems : List Dict} {added : List Y} :
      EmphasisAdds emph name parts →
      (∀ k, kids1.get? k = ((parts.reverse.find? (fun e => e.1 = k)).map (·.2)).or (kids.get? k)) →
      WithEmphases kids1 ems kids' added →
      WithEmphases kids (emph :: ems) kids' (parts.map (fun e => emphasisPart e.1 name) ++ added)

/-- the parts that insertions at the place `q` add: one for each, asking for the inserted class -/
def InsertedParts (st : Student) (es : List Exc) (q : Path) (l : List Y) : Prop :=
  List.Forall₂ (fun e y => ∃ k forced, e = ⟨q, .insertion k forced⟩ ∧ ∃ c ∈ st.courses, c.clbid = k ∧
      y = .map [("course", .str c.identity), ("clbid", .str c.clbid), ("allow_claimed", .bool forced), ("inserted", .bool true)])
    (es.filter (fun e => e.isInsertion && e.path == q)) l

/-- what a rule is read against: the student, the exceptions, the constants and the student's templates -/
structure Setting where
  st : Student
  es : List Exc
  c : Constants
  templates : List (String × TemplateCourse)

/-- the record that conditions in the text are about -/
def Setting.record (w : Setting) : Ctx := loadCtx w.st w.es

/-- `PartsWritten w kids ems d q kids' parts inserted`: the count rule `d` at `q` has the parts `parts`; they are about the
requirements `kids'`.  `inserted`: an exception inserts some. -/
def PartsWritten (w : Setting) (kids : Dict) (ems : List Dict) (d : Dict) (q : Path) (kids' : Dict) (parts : List Y)
    (inserted : Prop) : Prop :=
  ∃ listed expanded added ins, ListsParts d listed ∧ ExpandsTo w.templates listed expanded ∧ WithEmphases kids ems kids' added ∧
    InsertedParts w.st w.es q ins ∧ parts = expanded ++ added ++ ins ∧ (inserted ↔ ins ≠ [])

/-- a conditional that is not shown: its condition does not hold, its text says to hide it then, and it is not waived -/
def HiddenAt (w : Setting) (p : Path) (y : Y) : Prop :=
  ∃ (d : Dict) (yif : Y), y = .map d ∧ ruleKind d = .conditional ∧ d.get? "$if" = some yif ∧ Decides w.record w.es yif false ∧
    FlagSet d "$hide-when-false" ∧ ¬ WaivedAt w.es (p ++ [".cond"])

/-- `n` of the parts, of which the first has the number `i`, are shown -/
inductive ShownParts (w : Setting) (q : Path) : Nat → List Y → Nat → Prop
  | nil (i : Nat) : ShownParts w q i [] 0
  | hidden {i n : Nat} {y : Y} {ys : List Y} : HiddenAt w (q ++ [itemSeg i y]) y → ShownParts w q (i + 1) ys n →
      ShownParts w q i (y :: ys) n
  | shown {i n : Nat} {y : Y} {ys : List Y} : ¬ HiddenAt w (q ++ [itemSeg i y]) y → ShownParts w q (i + 1) ys n →
      ShownParts w q i (y :: ys) (n + 1)

/-- the number of parts asked for -/
inductive AsksFor (d : Dict) (inserted : Prop) (shown : Nat) : Nat → Prop
  | all : d.get? "all" ≠ none ∨ TextAt d "count" "all" → AsksFor d inserted shown shown
  | any : d.get? "all" = none → ¬ TextAt d "count" "all" → d.get? "any" ≠ none ∨ TextAt d "count" "any" →
      AsksFor d inserted shown 1
  | bothMore : d.get? "all" = none → d.get? "any" = none → ¬ TextAt d "count" "all" → ¬ TextAt d "count" "any" →
      d.get? "both" ≠ none → inserted → AsksFor d inserted shown shown
  | both : d.get? "all" = none → d.get? "any" = none → ¬ TextAt d "count" "all" → ¬ TextAt d "count" "any" →
      d.get? "both" ≠ none → ¬ inserted → AsksFor d inserted shown 2
  | either : d.get? "all" = none → d.get? "any" = none → d.get? "both" = none → ¬ TextAt d "count" "all" →
      ¬ TextAt d "count" "any" → d.get? "either" ≠ none → AsksFor d inserted shown 1
  | number {n : Nat} : (∀ k ∈ ["all", "any", "both", "either"], d.get? k = none) → d.get? "count" = some (.int n) →
      AsksFor d inserted shown n
  | text {s : String} {n : Nat} : (∀ k ∈ ["all", "any", "both", "either"], d.get? k = none) → s ≠ "all" → s ≠ "any" →
      TextAt d "count" s → WholeText s.toList n → AsksFor d inserted shown n

/-! ### The parts -/

theorem has_get {d : Dict} {k : String} : d.has k = true ↔ d.get? k ≠ none := by
  unfold Dict.has
  cases d.get? k <;> simp

theorem has_not {d : Dict} {k : String} : d.has k = false ↔ d.get? k = none := by
  unfold Dict.has
  cases d.get? k <;> simp

theorem countItems_says {d : Dict} {l : List Y} (h : countItems d = .ok l) : ListsParts d l := by
  unfold countItems at h
  split at h
  · rw [ld_asList] at h; subst h
    exact ⟨[], "all", _, rfl, by simp, by assumption⟩
  split at h
  · rw [ld_asList] at h; subst h
    exact ⟨["all"], "any", _, rfl, by simp_all, by assumption⟩
  split at h
  · rw [ld_asList] at h; subst h
    exact ⟨["all", "any"], "both", _, rfl, by simp_all, by assumption⟩
  split at h
  · rw [ld_asList] at h; subst h
    exact ⟨["all", "any", "both"], "either", _, rfl, by simp_all, by assumption⟩
  split at h
  · rw [ld_asList] at h; subst h
    exact ⟨["all", "any", "both", "either"], "of", _, rfl, by simp_all, by assumption⟩
  · cases h

theorem parseInt_says {cs : List Char} {n : Int} (h : parseInt cs = some n) : WholeText cs n := by
  unfold parseInt at h
  split at h
  · cases h
  · cases h
  · rename_i ds hne
    rw [Option.map_eq_some_iff] at h
    obtain ⟨m, hm, rfl⟩ := h
    obtain ⟨h1, h2⟩ := parseDigits_says hm
    exact .minus (by rintro rfl; exact hne rfl) h1 h2
  · rename_i hne _ _
    obtain ⟨h1, h2⟩ := parseDigits_says h
    exact .plain hne h1 h2

theorem template_says {t : TemplateCourse} {y : Y} (h : t.asRule = .ok y) : TemplateStands t y := by
  unfold TemplateCourse.asRule at h
  dsimp only at h
  split at h
  · cases h
    refine ⟨[], ?_, .inl ⟨by assumption, rfl⟩⟩
    rw [List.append_nil]
    rfl
  split at h
  · cases h
  split at h
  · cases h
    exact ⟨_, rfl, .inr ⟨by assumption, by assumption, _, parseInt_says (by assumption), rfl⟩⟩
  · cases h

theorem expandTemplates_says {templates : List (String × TemplateCourse)} {l r : List Y}
    (h : expandTemplates templates l = .ok r) : ExpandsTo templates l r := by
  induction l generalizing r with
  | nil => cases h; exact .nil
  | cons y ys ih =>
    simp only [expandTemplates, ld_bind_ok, ld_asDict] at h
    obtain ⟨d, rfl, here, hh, rest, hrest, h⟩ := h
    cases h
    split at hh
    · rename_i k hk
      simp only [ld_bind_ok, ld_asText] at hh
      obtain ⟨key, rfl, hh⟩ := hh
      refine .template hk ?_ (ih hrest)
      have := ld_mapE hh
      have e : (templates.filter fun e => e.1 == key) = templates.filter (fun e => e.1 = key) := by
        congr 1
      rw [e] at this
      exact this.imp (fun _ _ h => template_says h)
    · cases hh
      exact .plain (by assumption) (ih hrest)

/-! ### Emphases -/

theorem flattens_says {emph result : Dict} {b : Bool} (h : flattens emph result = .ok b) : b = true ↔ Flattens emph result := by
  unfold flattens at h
  split at h
  · rename_i hall
    split at h
    · cases h
      simp only [Bool.false_eq_true, false_iff]
      rintro ⟨rules, h1, _⟩
      rw [hall] at h1
      cases h1
    · cases h
  · rename_i v hall
    simp only [ld_bind_ok, ld_asList] at h
    obtain ⟨l, rfl, rules, hr, h⟩ := h
    cases h
    have hl : l = rules.map .map := by
      have := ld_mapE hr
      clear hall hr
      induction this with
      | nil => rfl
      | cons h _ ih => rw [ld_asDict] at h; rw [h, List.map_cons, ← ih]
    subst hl
    simp only [Bool.and_eq_true, Bool.or_eq_true, has_get, List.any_eq_true, List.all_eq_true, Bool.not_eq_true', has_not]
    constructor
    · rintro ⟨⟨h1, h2⟩, h3⟩
      exact ⟨rules, hall, h1, h2, h3⟩
    · rintro ⟨rules', hall', h1, h2, h3⟩
      rw [hall] at hall'
      cases List.map_injective_iff.2 (fun a b h => by cases h; rfl) (Y.list.inj (Option.some.inj hall'))
      exact ⟨⟨h1, h2⟩, h3⟩

theorem namedRules_says {l : List Y} {r : Dict} (h : namedRules l = .ok r) :
    ∃ rules names, l = rules.map .map ∧ List.Forall₂ (fun r n => TextAt r "name" n) rules names ∧
      r = (names.zip rules).map (fun e => (e.1, .map e.2)) := by
  induction l generalizing r with
  | nil => cases h; exact ⟨[], [], rfl, .nil, rfl⟩
  | cons y ys ih =>
    simp only [namedRules, ld_bind_ok, ld_asDict, ld_need, ld_asText] at h
    obtain ⟨d, rfl, _, hn, name, rfl, rest, hrest, h⟩ := h
    cases h
    obtain ⟨rules, names, rfl, h1, rfl⟩ := ih hrest
    exact ⟨d :: rules, name :: names, rfl, .cons hn h1, rfl⟩

theorem emphasisParts_says {emph : Dict} {parts : List (String × Y)} {name : String}
    (h : emphasisParts emph = .ok (parts, name)) : EmphasisAdds emph name parts := by
  unfold emphasisParts at h
  simp only [ld_bind_ok, ld_need, ld_asText, ld_asDict] at h
  obtain ⟨_, h1, n, rfl, _, h2, result, rfl, b, hb, h⟩ := h
  have hf := flattens_says hb
  cases b with
  | false =>
    simp only [Bool.false_eq_true, if_false] at h
    cases h
    exact .whole h1 h2 (fun hc => by have := hf.2 hc; cases this)
  | true =>
    rw [if_pos rfl] at h
    simp only [ld_bind_ok] at h
    obtain ⟨reqs, hr, h⟩ := h
    cases h
    have hf := hf.1 rfl
    split at hr
    · rename_i v hv
      rw [ld_asDict] at hr
      subst hr
      exact .named h1 h2 hf hv
    · rename_i hv
      simp only [ld_bind_ok, ld_need, ld_asList] at hr
      obtain ⟨_, hall, l, rfl, hr⟩ := hr
      obtain ⟨rules, names, rfl, hn, rfl⟩ := namedRules_says hr
      have := EmphasisAdds.inline h1 h2 hf hv hall hn
      rw [List.map_map]
      exact this

theorem get_set (d : Dict) (k j : String) (y : Y) : (d.set k y).get? j = if k = j then some y else d.get? j := by
  induction d with
  | nil => simp [Dict.set, Dict.get?]
  | cons e d ih =>
    obtain ⟨k', v⟩ := e
    unfold Dict.set
    by_cases h : k' = k
    · subst h
      simp only [beq_self_eq_true, if_true, Dict.get?, beq_iff_eq]
      split <;> rfl
    · rw [if_neg (by simpa using h)]
      simp only [Dict.get?, beq_iff_eq, ih]
      by_cases h2 : k' = j
      · subst h2
        rw [if_pos rfl, if_pos rfl, if_neg (fun e => h e.symm)]
      · rw [if_neg h2, if_neg h2]

theorem get_setAll (parts : List (String × Y)) (d : Dict) (j : String) :
    (parts.foldl (fun (c : Dict) p => c.set p.1 p.2) d).get? j =
      ((parts.reverse.find? (fun e => e.1 = j)).map (·.2)).or (d.get? j) := by
  induction parts generalizing d with
  | nil => rfl
  | cons e parts ih =>
    rw [List.foldl_cons, ih, get_set, List.reverse_cons, List.find?_append]
    cases hf : parts.reverse.find? (fun e => e.1 = j) with
    | some _ => simp
    | none =>
      by_cases h : e.1 = j <;> simp [h]

theorem addEmphases_says {kids kids' : Dict} {ems : List Dict} {added : List Y}
    (h : addEmphases kids ems = .ok (kids', added)) : WithEmphases kids ems kids' added := by
  induction ems generalizing kids kids' added with
  | nil => cases h; exact .nil _
  | cons emph ems ih =>
    simp only [addEmphases, ld_bind_ok] at h
    obtain ⟨⟨parts, name⟩, hp, ⟨final, items⟩, hr, h⟩ := h
    cases h
    exact .cons (emphasisParts_says hp) (get_setAll parts kids) (ih hr)

/-! ### Insertions -/

theorem forced_loadCtx {st : Student} {es : List Exc} {k : String} {c : Course}
    (h : (loadCtx st es).forcedCourseByClbid k = .ok c) : c ∈ st.courses ∧ c.clbid = k := by
  unfold Ctx.forcedCourseByClbid at h
  split at h
  · cases h
    rename_i hf
    exact findCourseByClbid_some hf
  · split at h
    · rename_i hf
      simp [Ctx.forcedGet, loadCtx] at hf
    · cases h

theorem insertedItems_says {st : Student} {es : List Exc} {q : Path} {l : List Y}
    (h : insertedItems (loadCtx st es) (getInsertExceptions (loadCtx st es).exceptions q) = .ok l) : InsertedParts st es q l := by
  unfold InsertedParts
  have he : getInsertExceptions (loadCtx st es).exceptions q = es.filter (fun e => e.isInsertion && e.path == q) := by
    show getInsertExceptions (groupExceptions es) q = _
    rw [(C07_exact_path_first_wins es q).1]
  rw [he] at h
  have hall : ∀ e ∈ es.filter (fun e => e.isInsertion && e.path == q), e.isInsertion = true ∧ e.path = q := by
    intro e he
    have := (List.mem_filter.1 he).2
    simpa using this
  generalize es.filter (fun e => e.isInsertion && e.path == q) = l0 at h hall
  induction l0 generalizing l with
  | nil => cases h; exact .nil
  | cons e l0 ih =>
    obtain ⟨h1, h2⟩ := hall e (by simp)
    obtain ⟨ep, ek⟩ := e
    cases h2
    cases ek with
    | insertion k forced =>
      simp only [insertedItems, ld_bind_ok] at h
      obtain ⟨c, hc, rest, hr, h⟩ := h
      cases h
      obtain ⟨hc1, hc2⟩ := forced_loadCtx hc
      exact .cons ⟨k, forced, rfl, c, hc1, hc2, rfl⟩ (ih hr (fun e he => hall e (by simp [he])))
    | _ => simp [Exc.isInsertion] at h1

/-! ### How many -/

theorem countIs_iff {d : Dict} {s : String} : countIs d s = true ↔ TextAt d "count" s := by
  unfold countIs TextAt
  split
  · rename_i t ht; rw [ht]; simp
  · rename_i hn
    simp only [Bool.false_eq_true, false_iff]
    exact fun h => hn s h

theorem countNumber_says {y : Y} {n : Int} (h : countNumber y = .ok n) :
    y = .int n ∨ ∃ s, y = .str s ∧ WholeText s.toList n := by
  unfold countNumber at h
  split at h
  · cases h; exact .inl rfl
  · split at h
    · cases h; exact .inr ⟨_, rfl, parseInt_says (by assumption)⟩
    · cases h
  · cases h

theorem neededCount_says {d : Dict} {b : Bool} {shown : Nat} {n : Int} (h : neededCount d b shown = .ok n) (hn : 0 ≤ n) :
    AsksFor d (b = true) shown n.toNat := by
  unfold neededCount at h
  have e1 : (d.has "all" || countIs d "all") = true ↔ d.get? "all" ≠ none ∨ TextAt d "count" "all" := by
    rw [Bool.or_eq_true, has_get, countIs_iff]
  have e2 : (d.has "any" || countIs d "any") = true ↔ d.get? "any" ≠ none ∨ TextAt d "count" "any" := by
    rw [Bool.or_eq_true, has_get, countIs_iff]
  split at h
  · rename_i h1; cases h; exact .all (e1.1 h1)
  rename_i h1
  rw [e1, not_or, not_ne_iff] at h1
  split at h
  · rename_i h2; cases h; exact .any h1.1 h1.2 (e2.1 h2)
  rename_i h2
  rw [e2, not_or, not_ne_iff] at h2
  simp only [has_get] at h
  split at h
  · split at h
    · cases h; exact .bothMore h1.1 h2.1 h1.2 h2.2 (by assumption) (by assumption)
    split at h
    · cases h; exact .both h1.1 h2.1 h1.2 h2.2 (by assumption) (by assumption)
    · cases h
  rename_i h3
  rw [not_ne_iff] at h3
  split at h
  · split at h
    · cases h; exact .either h1.1 h2.1 h3 h1.2 h2.2 (by assumption)
    · cases h
  rename_i h4
  rw [not_ne_iff] at h4
  simp only [ld_bind_ok, ld_need] at h
  obtain ⟨y, hy, h⟩ := h
  have hnone : ∀ k ∈ ["all", "any", "both", "either"], d.get? k = none := by
    intro k hk
    simp only [List.mem_cons, List.not_mem_nil, or_false] at hk
    rcases hk with rfl | rfl | rfl | rfl
    exacts [h1.1, h2.1, h3, h4]
  obtain ⟨m, rfl⟩ := Int.eq_ofNat_of_zero_le hn
  rcases countNumber_says h with rfl | ⟨s, rfl, hs⟩
  · exact .number hnone hy
  · refine .text hnone ?_ ?_ hy hs
    · rintro rfl; exact h1.2 hy
    · rintro rfl; exact h2.2 hy

/-! ### Count rules -/

/-- what loading reads besides the area file -/
def Setting.env (w : Setting) : Env := ⟨w.record, w.c, w.templates⟩

theorem Setting.exceptions (w : Setting) : w.record.exceptions = groupExceptions w.es := rfl

theorem Built.hidden {w : Setting} {kids : Dict} {ems : List Dict} {p : Path} {y : Y} {o : Option Node}
    (h : Built w.env kids ems p y o) : o = none ↔ HiddenAt w p y := by
  have other {d : Dict} (hk : ruleKind d ≠ .conditional) : ¬ HiddenAt w p (.map d) := by
    rintro ⟨d', _, hd, hk', _⟩
    cases hd
    exact hk hk'
  cases h with
  | prof hk _ => exact ⟨fun h => (by cases h), fun h => absurd h (other (by rw [hk]; decide))⟩
  | course hk _ => exact ⟨fun h => (by cases h), fun h => absurd h (other (by rw [hk]; decide))⟩
  | query hk _ => exact ⟨fun h => (by cases h), fun h => absurd h (other (by rw [hk]; decide))⟩
  | count hk => exact ⟨fun h => (by cases h), fun h => absurd h (other (by rw [hk]; decide))⟩
  | req hr =>
    refine ⟨fun h => (by cases h), fun h => absurd h (other ?_)⟩
    rcases hr with ⟨hk, _⟩ | ⟨hk, _⟩ <;> rw [hk] <;> decide
  | @cond _ _ _ d yif b _ t f hide hk _ hif hb _ _ _ _ hh =>
    have hb := cond_decides w.exceptions _ _ hb
    have hw : (getWaiveException w.env.ctx.exceptions (p ++ [".cond"])).isSome = true ↔ WaivedAt w.es (p ++ [".cond"]) :=
      waivedAt_iff w.exceptions
    constructor
    · intro h
      split at h
      · rename_i hc
        simp only [Bool.and_eq_true, Bool.not_eq_true'] at hc
        obtain ⟨⟨h1, rfl⟩, rfl⟩ := hc
        refine ⟨d, yif, rfl, hk, hif, hb, (flag_says hh).1 rfl, fun hc => ?_⟩
        rw [hw.2 hc] at h1
        cases h1
      · cases h
    · rintro ⟨d', yif', hd, _, hif', hdec, hf, hnw⟩
      cases hd
      rw [hif] at hif'
      cases hif'
      have e1 := decides_unique hb hdec
      have e2 := (flag_says hh).2 hf
      have e3 : (getWaiveException w.env.ctx.exceptions (p ++ [".cond"])).isSome = false := by
        rw [← Bool.not_eq_true, hw]; exact hnw
      subst e1 e2
      rw [e3]
      rfl

theorem shownParts_of {w : Setting} {q : Path} : ∀ (l : List (Y × Option Node)) (i : Nat),
    (∀ j y o, l[j]? = some (y, o) → (o = none ↔ HiddenAt w (q ++ [itemSeg (i + j) y]) y)) →
    ShownParts w q i (l.map (·.1)) (l.filterMap (·.2)).length := by
  intro l
  induction l with
  | nil => intro i _; exact .nil i
  | cons e l ih =>
    intro i h
    obtain ⟨y, o⟩ := e
    have h0 := h 0 y o rfl
    have hr := ih (i + 1) (fun j y o hj => by
      have := h (j + 1) y o (by simpa using hj)
      rwa [show i + (j + 1) = i + 1 + j by omega] at this)
    cases o with
    | none => exact .hidden (h0.1 rfl) hr
    | some n => exact .shown (fun hc => by have := h0.2 hc; cases this) hr

/-- **C66.** A count rule read from a text has the parts that the text lists (with the student's templates in their places, the
requirements of the emphases and the inserted classes added), without the conditionals that are hidden, in this order; and
it asks for as many of them as the text says. -/
theorem C66_count_rule_reads_its_text (w : Setting) (fuel : Nat) (kids : Dict) (ems : List Dict) (p : Path) (d : Dict) (n : Node)
    (hk : ruleKind d = .count) (h : loadRule w.env fuel kids ems p (.map d) = .ok (some n)) :
    ∃ kids' inserted cd, ∃ parts : List (Y × Option Node),
      PartsWritten w kids ems d (p ++ [".count"]) kids' (parts.map (·.1)) inserted ∧
      n = .count .rule cd (parts.filterMap (·.2)) ∧ cd.path = p ++ [".count"] ∧ (cd.atMost = true ↔ FlagSet d "at_most") ∧
      (∀ i y o, parts[i]? = some (y, o) → Built w.env kids' [] (p ++ [".count", itemSeg i y]) y o ∧
        (o = none ↔ HiddenAt w (p ++ [".count", itemSeg i y]) y)) ∧
      ∃ shown, ShownParts w (p ++ [".count"]) 0 (parts.map (·.1)) shown ∧ AsksFor d inserted shown cd.count := by
  have hb := loadRule_built _ h
  generalize ho : some n = o at hb
  cases hb with
  | prof hk' => rw [hk] at hk'; cases hk'
  | course hk' => rw [hk] at hk'; cases hk'
  | query hk' => rw [hk] at hk'; cases hk'
  | cond hk' => rw [hk] at hk'; cases hk'
  | req hr => rcases hr with ⟨hk', _⟩ | ⟨hk', _⟩ <;> rw [hk] at hk' <;> cases hk'
  | @count _ _ _ _ kids' listed expanded emItems inserts audits atMost cnt parts _ _ hlist hexp hem hins _ hat hparts hall hcnt h0 _ =>
    cases ho
    refine ⟨kids', (!inserts.isEmpty) = true, _, parts, ⟨listed, expanded, emItems, inserts, countItems_says hlist,
      expandTemplates_says hexp, addEmphases_says hem, insertedItems_says hins, hparts, ?_⟩, rfl, rfl, flag_says hat,
      fun i y o hi => ⟨hall i y o hi, (hall i y o hi).hidden⟩, _, ?_, neededCount_says hcnt h0⟩
    · cases inserts <;> simp
    · exact shownParts_of parts 0 (fun j y o hj => by
        have := (hall j y o hj).hidden
        simpa using this)

/-! ### A non-trivial case -/

/-- both of two courses, one of a template, and a conditional that is hidden for students without MATH 999 -/
def bothText : Dict := [("both", .list [.map [("course", .str "MATH 252")], .map [("template", .str "plan")],
  .map [("$if", .map [("has-course", .str "MATH 999")]), ("$then", .map [("course", .str "MATH 390")]), ("$hide-when-false", .bool true)]])]

/-- a student with a template and an emphasis -/
def bothSetting (es : List Exc) : Setting where
  st := { courses := [{ clbid := "1", identity := "MATH 126" }] }
  es := es
  c := {}
  templates := [("plan", { subject := "MATH", num := "345", year := "2020", term := "1" }), ("other", { subject := "ART" })]

/-- an emphasis whose requirement becomes one of the major -/
def bothEmphasis : Dict := [("name", .str "Theory"), ("result", .map [("all", .list [.map [("requirement", .str "Logic")]])]),
  ("requirements", .map [("Logic", .map [("result", .map [("any", .list [.map [("course", .str "MATH 282")]])])])])]

/-- the number and the places of the parts of a count rule -/
def countShape : Except Err (Option Node) → Option (Nat × List Path)
  | .ok (some (.count _ d items)) => some (d.count, items.map Node.path)
  | _ => none

/-- the two parts that are shown -/
example : countShape (loadRule (bothSetting []).env 9 [] [] ["$"] (.map bothText)) =
    some (2, [["$", ".count", "[0]", "*MATH 252"], ["$", ".count", "[1]", "*MATH 345 2020-1"]]) := by decide +kernel

/-- with an insertion and an emphasis all shown parts are asked for -/
example : countShape (loadRule (bothSetting [⟨["$", ".count"], .insertion "1" false⟩]).env 9 [] [bothEmphasis] ["$"] (.map bothText)) =
    some (4, [["$", ".count", "[0]", "*MATH 252"], ["$", ".count", "[1]", "*MATH 345 2020-1"],
      ["$", ".count", ".emphasis", "%Emphasis: Theory → Logic"], ["$", ".count", "[4]", "*MATH 126"]]) := by decide +kernel

end Dp
