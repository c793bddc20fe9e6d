import Verif.Props.MeansCount
import Verif.Props.Reserved

/-
C53 at the level of the text: which classes are kept from queries, in terms of the area file.
-/
namespace Dp

/-! ### Specification -/

/-- the requirements that a requirement has of its own -/
def OwnRequirements (body own : Dict) : Prop :=
  body.get? "requirements" = some (.map own) ∨ (body.get? "requirements" = none ∧ own = [])

/-- `TextNeeds w kids ems p y cd q`: whoever fulfils what is written as `y` at `p` has to fulfil the course rule `cd`, which is
written beneath `q`: it is `y` itself, or is reached through counts that ask for all that they show, requirements, the branches
that conditions select, and proficiencies -/
inductive TextNeeds (w : Setting) : Dict → List Dict → Path → Y → Dict → Path → Prop
  | course {kids : Dict} {ems : List Dict} {p : Path} {d : Dict} : ruleKind d = .course → TextNeeds w kids ems p (.map d) d p
  | count {kids kids' : Dict} {ems : List Dict} {p q : Path} {d cd : Dict} {parts : List Y} {inserted : Prop} {n i : Nat} {y : Y} :
      ruleKind d = .count → PartsWritten w kids ems d (p ++ [".count"]) kids' parts inserted →
      ShownParts w (p ++ [".count"]) 0 parts n → AsksFor d inserted n n → parts[i]? = some y →
      ¬ HiddenAt w (p ++ [".count", itemSeg i y]) y → TextNeeds w kids' [] (p ++ [".count", itemSeg i y]) y cd q →
      TextNeeds w kids ems p (.map d) cd q
  | req {kids own : Dict} {ems : List Dict} {p q : Path} {d body cd : Dict} {name : String} {y : Y} : RefersTo kids d name body →
      body.get? "result" = some y → OwnRequirements body own → TextNeeds w own [] (p ++ ["%" ++ name]) y cd q →
      TextNeeds w kids ems p (.map d) cd q
  | condTrue {kids : Dict} {ems : List Dict} {p q : Path} {d cd : Dict} {yif y : Y} : ruleKind d = .conditional →
      d.get? "$if" = some yif → Decides w.record w.es yif true → d.get? "$then" = some y →
      TextNeeds w kids [] (p ++ [".cond", "/t"]) y cd q → TextNeeds w kids ems p (.map d) cd q
  | condFalse {kids : Dict} {ems : List Dict} {p q : Path} {d cd : Dict} {yif y : Y} : ruleKind d = .conditional →
      d.get? "$if" = some yif → Decides w.record w.es yif false → d.get? "$else" = some y →
      ¬ HiddenAt w (p ++ [".cond", "/f"]) y → TextNeeds w kids [] (p ++ [".cond", "/f"]) y cd q →
      TextNeeds w kids ems p (.map d) cd q
  | proficiency {kids : Dict} {ems : List Dict} {p : Path} {d cd : Dict} {name : String} : ruleKind d = .proficiency →
      TextAt d "proficiency" name → d.get? "course" = some (.map cd) →
      TextNeeds w kids ems p (.map d) cd (p ++ [".proficiency=" ++ name])

/-- `k` is the student's only class that the course rule `cd`, written beneath `q`, names, those aside that an exception inserts
there; and the rule does not ask for a class claimed elsewhere -/
def OnlyClassWritten (w : Setting) (cd : Dict) (q : Path) (k : String) : Prop :=
  ¬ FlagSet cd "from_claimed" ∧ (∃ c ∈ w.st.courses, c.clbid = k ∧ CourseNamed cd c) ∧
  ¬ InsertedBy w.es (q ++ [courseSegment cd]) k ∧
  ∀ c ∈ w.st.courses, CourseNamed cd c → c.clbid ≠ k → InsertedBy w.es (q ++ [courseSegment cd]) c.clbid

/-- the class is kept for a course rule that the text needs -/
def KeptByText (w : Setting) (kids : Dict) (ems : List Dict) (y : Y) (k : String) : Prop :=
  ∃ cd q, TextNeeds w kids ems ["$"] y cd q ∧ OnlyClassWritten w cd q k

/-- `AreaText st all spec kids ems y`: the area file `spec` says `y`, with the requirements `kids` and, of its emphases, `ems`:
those that the student declared (or all, for a check of the file) -/
structure AreaText (st : Student) (all : Bool) (spec kids : Dict) (ems : List Dict) (y : Y) : Prop where
  result : spec.get? "result" = some y
  requirements : OwnRequirements spec kids
  emphases : ∃ (written : Dict) (f : String × Y → Bool),
    (spec.get? "emphases" = some (.map written) ∨ (spec.get? "emphases" = none ∧ written = [])) ∧
    (∀ e, f e = true ↔ all = true ∨ ∃ a ∈ st.areas, a.kind = "Emphasis" ∧ a.code = e.1) ∧
    (written.filter f).map (·.2) = ems.map .map

/-! ### What is written is written once -/

theorem forall2_unique {α β : Type} {R : α → β → Prop} (h : ∀ a b b', R a b → R a b' → b = b') {l : List α} {r r' : List β}
    (h1 : List.Forall₂ R l r) (h2 : List.Forall₂ R l r') : r = r' := by
  induction h1 generalizing r' with
  | nil => cases h2; rfl
  | cons hab _ ih =>
    cases h2 with
    | cons hab' hrest => rw [h _ _ _ hab hab', ih hrest]

theorem listsParts_unique {d : Dict} {l l' : List Y} (h : ListsParts d l) (h' : ListsParts d l') : l = l' := by
  have key : ∀ {l : List Y}, ListsParts d l → countItems d = .ok l := by
    rintro l ⟨before, k, after, h1, h2, h3⟩
    unfold countItems
    match before, h1, h2 with
    | [], h1, h2 => simp at h1; obtain ⟨rfl, _⟩ := h1; simp [h3, Y.asList]
    | [a], h1, h2 =>
      simp at h1; obtain ⟨rfl, rfl, _⟩ := h1
      simp at h2
      simp [h2, h3, Y.asList]
    | [a, b], h1, h2 =>
      simp at h1; obtain ⟨rfl, rfl, rfl, _⟩ := h1
      simp at h2
      simp [h2, h3, Y.asList]
    | [a, b, c], h1, h2 =>
      simp at h1; obtain ⟨rfl, rfl, rfl, rfl, _⟩ := h1
      simp at h2
      simp [h2, h3, Y.asList]
    | [a, b, c, e], h1, h2 =>
      simp at h1; obtain ⟨rfl, rfl, rfl, rfl, rfl, _⟩ := h1
      simp at h2
      simp [h2, h3, Y.asList]
    | a :: b :: c :: e :: f :: rest, h1, h2 => simp at h1
  have := (key h).symm.trans (key h')
  cases this
  rfl

theorem wholeText_unique {cs : List Char} {n m : Int} (h : WholeText cs n) (h' : WholeText cs m) : n = m := by
  have hd : ('-' : Char).isDigit = false := by decide
  generalize hc : cs = cs' at h'
  cases h with
  | plain h1 h2 h3 =>
    cases h' with
    | plain _ _ h3' => subst hc; rw [← h3'] at h3; exact_mod_cast h3
    | minus => subst hc; have := h2 '-' List.mem_cons_self; rw [hd] at this; cases this
  | minus h1 h2 h3 =>
    cases h' with
    | plain _ h2' _ => subst hc; have := h2' '-' List.mem_cons_self; rw [hd] at this; cases this
    | minus _ _ h3' =>
      cases hc
      rw [← h3'] at h3
      rw [Rat.intCast_inj.1 h3]

theorem templateStands_unique {t : TemplateCourse} {y y' : Y} (h : TemplateStands t y) (h' : TemplateStands t y') : y = y' := by
  obtain ⟨e, rfl, h⟩ := h
  obtain ⟨e', rfl, h'⟩ := h'
  have : e = e' := by
    rcases h with ⟨h1, rfl⟩ | ⟨h1, _, n, hn, rfl⟩ <;> rcases h' with ⟨h2, rfl⟩ | ⟨h2, _, m, hm, rfl⟩
    · rfl
    · exact absurd h1 h2
    · exact absurd h2 h1
    · rw [wholeText_unique hn hm]
  rw [this]

theorem expandsTo_unique {templates : List (String × TemplateCourse)} {l r r' : List Y} (h : ExpandsTo templates l r)
    (h' : ExpandsTo templates l r') : r = r' := by
  induction h generalizing r' with
  | nil => cases h'; rfl
  | plain hn _ ih =>
    cases h' with
    | plain _ h2 => rw [ih h2]
    | template ht => unfold TextAt at ht; rw [hn] at ht; cases ht
  | template ht hf _ ih =>
    cases h' with
    | plain hn => unfold TextAt at ht; rw [hn] at ht; cases ht
    | template ht' hf' h2 =>
      unfold TextAt at ht ht'
      rw [ht] at ht'
      cases ht'
      have := forall2_unique (R := fun (e : String × TemplateCourse) r => TemplateStands e.2 r)
        (fun _ _ _ h h' => templateStands_unique h h') hf hf'
      rw [this, ih h2]

theorem map_injective {l l' : List Dict} (h : l.map Y.map = l'.map Y.map) : l = l' :=
  List.map_injective_iff.2 (fun _ _ h => by cases h; rfl) h

theorem emphasisAdds_unique {e : Dict} {name name' : String} {parts parts' : List (String × Y)} (h : EmphasisAdds e name parts)
    (h' : EmphasisAdds e name' parts') : name = name' ∧ parts = parts' := by
  have htext : ∀ {d : Dict} {k s s' : String}, TextAt d k s → TextAt d k s' → s = s' := by
    intro d k s s' h1 h2
    unfold TextAt at h1 h2
    rw [h1] at h2
    cases h2
    rfl
  cases h with
  | whole h1 h2 h3 =>
    cases h' with
    | whole h1' _ _ => cases htext h1 h1'; exact ⟨rfl, rfl⟩
    | named _ h2' h3' => rw [h2] at h2'; cases h2'; exact absurd h3' h3
    | inline _ h2' h3' => rw [h2] at h2'; cases h2'; exact absurd h3' h3
  | named h1 h2 h3 h4 =>
    cases h' with
    | whole _ h2' h3' => rw [h2] at h2'; cases h2'; exact absurd h3 h3'
    | named h1' _ _ h4' => cases htext h1 h1'; rw [h4] at h4'; cases h4'; exact ⟨rfl, rfl⟩
    | inline _ _ _ h4' => rw [h4] at h4'; cases h4'
  | inline h1 h2 h3 h4 h5 h6 =>
    cases h' with
    | whole _ h2' h3' => rw [h2] at h2'; cases h2'; exact absurd h3 h3'
    | named _ _ _ h4' => rw [h4] at h4'; cases h4'
    | inline h1' h2' _ _ h5' h6' =>
      cases htext h1 h1'
      rw [h2] at h2'
      cases h2'
      rw [h5] at h5'
      simp only [Option.some.injEq, Y.list.injEq] at h5'
      cases map_injective h5'
      cases forall2_unique (R := fun (r : Dict) n => TextAt r "name" n) (fun _ _ _ h h' => htext h h') h6 h6'
      exact ⟨rfl, rfl⟩

/-- the same requirements under the same names -/
def SameKids (a b : Dict) : Prop := ∀ k, a.get? k = b.get? k

theorem withEmphases_unique {ems : List Dict} {a b a' b' : Dict} {l l' : List Y} (hab : SameKids a b) (h : WithEmphases a ems a' l)
    (h' : WithEmphases b ems b' l') : SameKids a' b' ∧ l = l' := by
  induction h generalizing b b' l' with
  | nil => cases h'; exact ⟨hab, rfl⟩
  | cons h1 h2 _ ih =>
    cases h' with
    | cons h1' h2' h3' =>
      obtain ⟨rfl, rfl⟩ := emphasisAdds_unique h1 h1'
      obtain ⟨h4, h5⟩ := ih (fun k => by rw [h2, h2', hab k]) h3'
      exact ⟨h4, by rw [h5]⟩

theorem insertedParts_unique {st : Student} (hnd : (st.courses.map (·.clbid)).Nodup) {es : List Exc} {q : Path} {l l' : List Y}
    (h : InsertedParts st es q l) (h' : InsertedParts st es q l') : l = l' := by
  refine forall2_unique ?_ h h'
  rintro e y y' ⟨k, forced, rfl, c, hc, hk, rfl⟩ ⟨k', forced', he, c', hc', hk', rfl⟩
  cases he
  have : c = c' := List.inj_on_of_nodup_map hnd hc hc' (hk.trans hk'.symm)
  rw [this]

theorem shownParts_unique {w : Setting} {q : Path} {i n m : Nat} {l : List Y} (h : ShownParts w q i l n) (h' : ShownParts w q i l m) :
    n = m := by
  induction h generalizing m with
  | nil => cases h'; rfl
  | hidden h1 _ ih =>
    cases h' with
    | hidden _ h2 => exact ih h2
    | shown h2 => exact absurd h1 h2
  | shown h1 _ ih =>
    cases h' with
    | hidden h2 => exact absurd h2 h1
    | shown _ h2 => rw [ih h2]

theorem asksFor_unique {d : Dict} {a b : Prop} (hab : a ↔ b) {shown n m : Nat} (h : AsksFor d a shown n) (h' : AsksFor d b shown m) :
    n = m := by
  cases h <;> cases h' <;> simp_all [TextAt]
  rename_i h1 _ _ _ _ h2
  exact_mod_cast wholeText_unique h1 h2

theorem partsWritten_unique {w : Setting} (hnd : (w.st.courses.map (·.clbid)).Nodup) {a b a' b' : Dict} {ems : List Dict} {d : Dict}
    {q : Path} {l l' : List Y} {i i' : Prop} (hab : SameKids a b) (h : PartsWritten w a ems d q a' l i)
    (h' : PartsWritten w b ems d q b' l' i') : SameKids a' b' ∧ l = l' ∧ (i ↔ i') := by
  obtain ⟨l1, l2, l3, l4, h1, h2, h3, h4, rfl, h5⟩ := h
  obtain ⟨m1, m2, m3, m4, g1, g2, g3, g4, rfl, g5⟩ := h'
  cases listsParts_unique h1 g1
  cases expandsTo_unique h2 g2
  obtain ⟨hs, rfl⟩ := withEmphases_unique hab h3 g3
  cases insertedParts_unique hnd h4 g4
  exact ⟨hs, rfl, h5.trans g5.symm⟩

/-! ### What a rule needs is what its text needs -/

theorem loadCourse_plain {d : Dict} {p : Path} {c : CourseData} (h : loadCourseRule d p = .ok c) :
    { c with excluded := [] } = c := by
  obtain ⟨_, _, _, _, _, _, _, _, _, _, _, _, _, _, _, _, _, _, _, _, _, _, _, _, _, _, _, _, _, _, _, _, _, _, _, _, _, _, h6⟩ :=
    loadCourse_inv h
  cases c
  cases h6
  rfl

theorem ownRequirements_of {d own : Dict} (h : d.dict "requirements" = .ok own) : OwnRequirements d own := by
  unfold Dict.dict at h
  unfold OwnRequirements
  split at h
  · cases h; exact .inr ⟨by assumption, rfl⟩
  · cases h; exact .inl (by assumption)
  · cases h

theorem ownRequirements_unique {d own own' : Dict} (h : OwnRequirements d own) (h' : OwnRequirements d own') : own = own' := by
  unfold OwnRequirements at h h'
  rcases h with h | ⟨h, rfl⟩ <;> rcases h' with h' | ⟨h', rfl⟩
  · rw [h] at h'; cases h'; rfl
  · rw [h] at h'; cases h'
  · rw [h] at h'; cases h'
  · rfl

theorem Built.needs_written {w : Setting} {kids : Dict} {ems : List Dict} {p : Path} {y : Y} {o : Option Node}
    (hb : Built w.env kids ems p y o) : ∀ n, o = some n → ∀ c, Needs n c →
    ∃ cd q, TextNeeds w kids ems p y cd q ∧ loadCourseRule cd q = .ok c := by
  induction hb with
  | @prof kids ems p d n hk h =>
    intro n' hn c hc
    cases hn
    obtain ⟨name, co, h1, _, rfl, hco⟩ := loadProficiency_inv h
    rw [needs_prof] at hc
    obtain ⟨⟨s, c'⟩, hp, rfl⟩ := hc
    obtain ⟨_, cd, h2, h3⟩ := hco _ hp
    exact ⟨cd, _, .proficiency hk h1 h2, by rw [h3]; exact congrArg _ (loadCourse_plain h3).symm⟩
  | @course kids ems p d c' hk h =>
    intro n' hn c hc
    cases hn
    rw [needs_course] at hc
    subst hc
    exact ⟨d, p, .course hk, by rw [h]; exact congrArg _ (loadCourse_plain h).symm⟩
  | query => intro n' hn c hc; cases hn; exact absurd hc needs_query
  | @cond kids ems p d yif b yt t f hide hk hkeys hif hb hyt hbt hbf hno hh iht ihf =>
    intro n' hn c hc
    split at hn
    · cases hn
    cases hn
    have hdec := cond_decides w.exceptions _ _ hb
    rw [needs_cond] at hc
    rcases hc with ⟨hc, hn⟩ | ⟨hc, m, hm, hn⟩
    · cases hc
      obtain ⟨cd, q, h1, h2⟩ := iht _ rfl c hn
      exact ⟨cd, q, .condTrue hk hif hdec hyt h1, h2⟩
    · cases hc
      cases ho : Dict.opt d "$else" with
      | none => have := hno ho; rw [this] at hm; cases hm
      | some yf =>
        obtain ⟨cd, q, h1, h2⟩ := ihf yf ho m hm c hn
        refine ⟨cd, q, .condFalse hk hif hdec (Dict.opt_get ho) (fun hh => ?_) h1, h2⟩
        rw [← (hbf yf ho).hidden] at hh
        rw [hh] at hm
        cases hm
  | @count kids ems p d kids' listed expanded emItems inserts audits atMost cnt parts hk hkeys hlist hexp hem hins haud hat hparts
      hall hcnt h0 hle ih =>
    intro n' hn c hc
    cases hn
    rw [needs_count] at hc
    obtain ⟨hc, n, hn, hneed⟩ := hc
    obtain ⟨⟨y, o⟩, ht, ho⟩ := List.mem_filterMap.1 hn
    obtain ⟨i, hi⟩ := List.mem_iff_getElem?.1 ht
    dsimp only at ho
    subst ho
    obtain ⟨cd, q, h1, h2⟩ := ih i y _ hi n rfl c hneed
    have hasks := neededCount_says hcnt h0
    dsimp only at hc
    rw [hc] at hasks
    refine ⟨cd, q, .count (parts := parts.map (·.1)) (inserted := (!inserts.isEmpty) = true) hk
      ⟨listed, expanded, emItems, inserts, countItems_says hlist, expandTemplates_says hexp, addEmphases_says hem,
        insertedItems_says hins, hparts, by cases inserts <;> simp⟩
      (shownParts_of parts 0 (fun j y o hj => by simpa using (hall j y o hj).hidden)) hasks (i := i) (y := y) (by simp [hi])
      (fun hh => ?_) h1, h2⟩
    rw [← (hall i y _ hi).hidden] at hh
    cases hh
  | @req kids ems p d name body rd r' hr hkeys hnone hsome hbr hex hpath hname hov hor hws haud hcon hig hdj ih =>
    intro n' hn c hc
    cases hn
    rw [needs_req] at hc
    obtain ⟨m, hm, hneed⟩ := hc
    cases hres : Dict.opt body "result" with
    | none => have := hnone hres; rw [this] at hm; cases hm
    | some yr =>
      obtain ⟨own, hown, _⟩ := hex yr hres
      obtain ⟨cd, q, h1, h2⟩ := ih yr own hres hown m hm c hneed
      exact ⟨cd, q, .req hr (Dict.opt_get hres) (ownRequirements_of hown) h1, h2⟩

theorem RefersTo.same {a b d : Dict} {name name' : String} {body body' : Dict} (hab : SameKids a b) (h : RefersTo a d name body)
    (h' : RefersTo b d name' body') : name = name' ∧ body = body' := by
  rcases h with ⟨h1, h2, rfl⟩ | ⟨h1, h2, h3⟩ <;> rcases h' with ⟨g1, g2, rfl⟩ | ⟨g1, g2, g3⟩
  · rw [h2] at g2; cases g2; exact ⟨rfl, rfl⟩
  · rw [h1] at g1; cases g1
  · rw [h1] at g1; cases g1
  · rw [h2] at g2; cases g2
    rw [hab] at h3; rw [h3] at g3; cases g3
    exact ⟨rfl, rfl⟩

theorem RefersTo.kind {a d : Dict} {name : String} {body : Dict} (h : RefersTo a d name body) :
    ruleKind d = .inline ∨ ruleKind d = .reference := h.imp (·.1) (·.1)

theorem Built.written_needs {w : Setting} (hnd : (w.st.courses.map (·.clbid)).Nodup) {kids : Dict} {ems : List Dict} {p : Path}
    {y : Y} {o : Option Node} (hb : Built w.env kids ems p y o) : ∀ n, o = some n → ∀ kids2, SameKids kids kids2 → ∀ cd q,
    TextNeeds w kids2 ems p y cd q → ∃ c, loadCourseRule cd q = .ok c ∧ Needs n c := by
  induction hb with
  | @prof kids ems p d n hk h =>
    intro n' hn kids2 hsame cd q hc
    cases hn
    generalize hy : Y.map d = y at hc
    cases hc with
    | proficiency hk2 h1 h2 =>
      cases hy
      unfold loadProficiency at h
      simp only [ld_bind_ok, ld_need, ld_asText, ld_check_ok] at h
      obtain ⟨_, h1', name, rfl, _, _, c, h3, h⟩ := h
      cases h
      unfold TextAt at h1
      rw [h1'] at h1
      cases h1
      rw [h2] at h3
      simp only [ld_bind_ok, ld_asDict, Y.map.injEq] at h3
      obtain ⟨_, rfl, r, hr, h3⟩ := h3
      cases h3
      exact ⟨r, hr, needs_prof.2 ⟨_, rfl, (loadCourse_plain hr).symm⟩⟩
    | course hk2 => cases hy; rw [hk] at hk2; cases hk2
    | count hk2 => cases hy; rw [hk] at hk2; cases hk2
    | req hr => cases hy; rcases hr.kind with hk2 | hk2 <;> (rw [hk] at hk2; cases hk2)
    | condTrue hk2 => cases hy; rw [hk] at hk2; cases hk2
    | condFalse hk2 => cases hy; rw [hk] at hk2; cases hk2
  | @course kids ems p d c' hk h =>
    intro n' hn kids2 hsame cd q hc
    cases hn
    generalize hy : Y.map d = y at hc
    cases hc with
    | course =>
      cases hy
      exact ⟨c', h, needs_course.2 (loadCourse_plain h).symm⟩
    | proficiency hk2 => cases hy; rw [hk] at hk2; cases hk2
    | count hk2 => cases hy; rw [hk] at hk2; cases hk2
    | req hr => cases hy; rcases hr.kind with hk2 | hk2 <;> (rw [hk] at hk2; cases hk2)
    | condTrue hk2 => cases hy; rw [hk] at hk2; cases hk2
    | condFalse hk2 => cases hy; rw [hk] at hk2; cases hk2
  | @query kids ems p d qd hk h =>
    intro n' hn kids2 hsame cd q hc
    exfalso
    generalize hy : Y.map d = y at hc
    cases hc with
    | course hk2 => cases hy; rw [hk] at hk2; cases hk2
    | proficiency hk2 => cases hy; rw [hk] at hk2; cases hk2
    | count hk2 => cases hy; rw [hk] at hk2; cases hk2
    | req hr => cases hy; rcases hr.kind with hk2 | hk2 <;> (rw [hk] at hk2; cases hk2)
    | condTrue hk2 => cases hy; rw [hk] at hk2; cases hk2
    | condFalse hk2 => cases hy; rw [hk] at hk2; cases hk2
  | @cond kids ems p d yif b yt t f hide hk hkeys hif hb hyt hbt hbf hno hh iht ihf =>
    intro n' hn kids2 hsame cd q hc
    split at hn
    · cases hn
    cases hn
    have hdec := cond_decides w.exceptions _ _ hb
    generalize hy : Y.map d = y at hc
    cases hc with
    | course hk2 => cases hy; rw [hk] at hk2; cases hk2
    | proficiency hk2 => cases hy; rw [hk] at hk2; cases hk2
    | count hk2 => cases hy; rw [hk] at hk2; cases hk2
    | req hr => cases hy; rcases hr.kind with hk2 | hk2 <;> (rw [hk] at hk2; cases hk2)
    | condTrue _ hif2 hdec2 hyt2 hc =>
      cases hy
      rw [hif] at hif2; cases hif2
      rw [hyt] at hyt2; cases hyt2
      cases decides_unique hdec hdec2
      obtain ⟨c, h1, h2⟩ := iht _ rfl kids2 hsame cd q hc
      exact ⟨c, h1, needs_cond.2 (.inl ⟨rfl, h2⟩)⟩
    | @condFalse _ _ _ _ _ _ _ yf _ hif2 hdec2 hyf hhid hc =>
      cases hy
      rw [hif] at hif2; cases hif2
      cases decides_unique hdec hdec2
      by_cases hnull : yf = .null
      · subst hnull; cases hc
      have ho : Dict.opt d "$else" = some yf := by
        unfold Dict.opt
        rw [hyf]
        cases yf <;> simp_all
      rw [← (hbf yf ho).hidden] at hhid
      obtain ⟨m, hm⟩ := Option.ne_none_iff_exists'.1 hhid
      obtain ⟨c, h1, h2⟩ := ihf yf ho m hm kids2 hsame cd q hc
      exact ⟨c, h1, needs_cond.2 (.inr ⟨rfl, m, hm, h2⟩)⟩
  | @count kids ems p d kids' listed expanded emItems inserts audits atMost cnt parts hk hkeys hlist hexp hem hins haud hat hparts
      hall hcnt h0 hle ih =>
    intro n' hn kids2 hsame cd q hc
    cases hn
    generalize hy : Y.map d = y at hc
    cases hc with
    | course hk2 => cases hy; rw [hk] at hk2; cases hk2
    | proficiency hk2 => cases hy; rw [hk] at hk2; cases hk2
    | req hr => cases hy; rcases hr.kind with hk2 | hk2 <;> (rw [hk] at hk2; cases hk2)
    | condTrue hk2 => cases hy; rw [hk] at hk2; cases hk2
    | condFalse hk2 => cases hy; rw [hk] at hk2; cases hk2
    | @count _ kids2' _ _ _ _ _ parts2 _ n2 i y2 _ hw hs ha hi hhid hc =>
      cases hy
      have hw1 : PartsWritten w kids ems d (p ++ [".count"]) kids' (parts.map (·.1)) ((!inserts.isEmpty) = true) :=
        ⟨listed, expanded, emItems, inserts, countItems_says hlist, expandTemplates_says hexp, addEmphases_says hem,
          insertedItems_says hins, hparts, by cases inserts <;> simp⟩
      obtain ⟨hk', rfl, hii⟩ := partsWritten_unique hnd hsame hw1 hw
      have hs1 := shownParts_of (w := w) (q := p ++ [".count"]) parts 0 (fun j y o hj => by simpa using (hall j y o hj).hidden)
      cases shownParts_unique hs1 hs
      have hcount := asksFor_unique hii (neededCount_says hcnt h0) ha
      rw [List.getElem?_map, Option.map_eq_some_iff] at hi
      obtain ⟨⟨y, o⟩, hi, rfl⟩ := hi
      rw [← (hall i y o hi).hidden] at hhid
      obtain ⟨m, rfl⟩ := Option.ne_none_iff_exists'.1 hhid
      obtain ⟨c, h1, h2⟩ := ih i y _ hi m rfl kids2' hk' cd q hc
      exact ⟨c, h1, needs_count.2 ⟨hcount, m, List.mem_filterMap.2 ⟨_, List.mem_of_getElem? hi, rfl⟩, h2⟩⟩
  | @req kids ems p d name body rd r' hr hkeys hnone hsome hbr hex hpath hname hov hor hws haud hcon hig hdj ih =>
    intro n' hn kids2 hsame cd q hc
    cases hn
    generalize hy : Y.map d = y at hc
    have hkind := hr.kind
    cases hc with
    | course hk2 => cases hy; rw [hk2] at hkind; rcases hkind with h | h <;> cases h
    | proficiency hk2 => cases hy; rw [hk2] at hkind; rcases hkind with h | h <;> cases h
    | count hk2 => cases hy; rw [hk2] at hkind; rcases hkind with h | h <;> cases h
    | condTrue hk2 => cases hy; rw [hk2] at hkind; rcases hkind with h | h <;> cases h
    | condFalse hk2 => cases hy; rw [hk2] at hkind; rcases hkind with h | h <;> cases h
    | @req _ own2 _ _ _ _ body2 _ name2 yr hr2 hres2 hown2 hc =>
      cases hy
      obtain ⟨rfl, rfl⟩ := RefersTo.same hsame hr hr2
      by_cases hnull : yr = .null
      · subst hnull; cases hc
      have ho : Dict.opt body "result" = some yr := by
        unfold Dict.opt
        rw [hres2]
        cases yr <;> simp_all
      obtain ⟨own, hown, _⟩ := hex yr ho
      cases ownRequirements_unique (ownRequirements_of hown) hown2
      obtain ⟨m, hm⟩ := Option.isSome_iff_exists.1 (hsome yr ho)
      obtain ⟨c, h1, h2⟩ := ih yr own2 ho hown m hm own2 (fun _ => rfl) cd q hc
      exact ⟨c, h1, needs_req.2 ⟨m, hm, h2⟩⟩

theorem onlyClass_written {w : Setting} {cd : Dict} {q : Path} {c : CourseData} (h : loadCourseRule cd q = .ok c) (k : String) :
    OnlyClass w.st w.es c k ↔ OnlyClassWritten w cd q k := by
  have hnamed : ∀ k, IsNamed c k ↔ CourseNamed cd k := fun k => named_as_written h
  have hpath := loadCourse_segment h
  have hfrom : c.fromClaimed = false ↔ ¬ FlagSet cd "from_claimed" := by
    obtain ⟨_, _, _, _, _, _, fromClaimed, allow, rest⟩ := loadCourse_inv h
    obtain ⟨_, _, _, _, _, _, _, _, _, _, _, _, _, _, _, _, _, _, _, _, _, hf, _, he, _⟩ := rest
    rw [he, ← flag_says hf]
    simp
  unfold OnlyClass OnlyClassWritten
  simp only [hnamed, hpath, hfrom]

/-- the classes that a loaded rule reserves are those that its text keeps -/
theorem reserved_written {w : Setting} (hnd : (w.st.courses.map (·.clbid)).Nodup) {kids : Dict} {ems : List Dict} {y : Y} {n : Node}
    (hb : Built w.env kids ems ["$"] y (some n)) (k : String) : Reserved w.st w.es n k ↔ KeptByText w kids ems y k := by
  constructor
  · rintro ⟨c, hc, ho⟩
    obtain ⟨cd, q, h1, h2⟩ := hb.needs_written n rfl c hc
    exact ⟨cd, q, h1, (onlyClass_written h2 k).1 ho⟩
  · rintro ⟨cd, q, h1, ho⟩
    obtain ⟨c, h2, h3⟩ := hb.written_needs hnd n rfl kids (fun _ => rfl) cd q h1
    exact ⟨c, h3, (onlyClass_written h2 k).2 ho⟩

theorem dict_written {d own : Dict} {k : String} (h : d.dict k = .ok own) :
    d.get? k = some (.map own) ∨ (d.get? k = none ∧ own = []) := by
  unfold Dict.dict at h
  split at h
  · cases h; exact .inr ⟨by assumption, rfl⟩
  · cases h; exact .inl (by assumption)
  · cases h

theorem declared_written {st : Student} {all : Bool} {written : Dict} {ems : List Dict}
    (h : declaredEmphases st written all = .ok ems) : ∃ f : String × Y → Bool,
    (∀ e, f e = true ↔ all = true ∨ ∃ a ∈ st.areas, a.kind = "Emphasis" ∧ a.code = e.1) ∧
    (written.filter f).map (·.2) = ems.map .map := by
  unfold declaredEmphases at h
  refine ⟨fun e => all || st.areas.any (fun a => a.kind == "Emphasis" && a.code == e.1), ?_, ?_⟩
  · intro e
    simp
  · generalize List.filter _ written = l at h
    induction l generalizing ems with
    | nil => cases h; rfl
    | cons e l ih =>
      unfold mapE at h
      simp only [ld_bind_ok, ld_asDict] at h
      obtain ⟨d, hd, ds, hds, h⟩ := h
      cases h
      rw [List.map_cons, List.map_cons, hd, ih hds]

theorem reserved_prepared {st : Student} {es : List Exc} {x : Ctx} {n : Node} {k : String} :
    Reserved st es (prepareRule x es n) k ↔ Reserved st es n k := by
  unfold Reserved
  simp only [prepareRule, applyBlocks_needs, Node.exclude_needs]

/-- **C53**, in terms of the area file: a query of a loaded area may not use exactly those classes that the text keeps for
its course rules, and those that exceptions block at its place. -/
theorem C53_kept_as_written (c : Constants) (templates : List (String × TemplateCourse)) (st : Student) (es : List Exc)
    (all : Bool) (spec : Dict) (a : Area) (hload : loadArea c templates st es all spec = .ok a)
    (hnd : (st.courses.map (·.clbid)).Nodup) :
    ∃ kids ems y, AreaText st all spec kids ems y ∧ ∀ s d, .query s d ∈ a.result.leaves → ∀ k,
      k ∈ d.excluded ↔ KeptByText ⟨st, es, c, templates⟩ kids ems y k ∨ ∃ e ∈ es, e.path = d.path ∧ e.kind = .block k := by
  obtain ⟨emphases, declared, children, data, rule, code, dept, h1, h2, h3, h4, hb, hres, _⟩ := loadArea_inv hload
  obtain ⟨f, hf1, hf2⟩ := declared_written h2
  refine ⟨children, declared, data, ⟨h4, dict_written h3, emphases, f, dict_written h1, hf1, hf2⟩, ?_⟩
  intro s d hq k
  rw [C53_kept_from_queries c templates st es all spec a hload hnd s d hq k, hres, reserved_prepared]
  have := reserved_written (w := ⟨st, es, c, templates⟩) hnd hb k
  rw [this]

/-! ### A non-trivial case -/

/-- the result of `reservedText`: a course, and one more course of the same subject -/
def keptText : Dict :=
  [("all", .list [.map [("course", .str "CSCI 121")],
    .map [("from", .str "courses"), ("where", .map [("subject", .map [("$eq", .str "CSCI")])]),
      ("assert", .map [("count(courses)", .map [("$gte", .int 1)])])]])]

/-- Class 1 is kept for the course rule of the text. -/
example : KeptByText ⟨sampleTaken, [], {}, []⟩ [] [] (.map keptText) "1" := by
  have hnh : ∀ (q : Path) (d : Dict), d.get? "$if" = none → ¬ HiddenAt ⟨sampleTaken, [], {}, []⟩ q (.map d) := by
    rintro q d hd ⟨d', yif, h, _, h2, _⟩
    cases h
    rw [hd] at h2
    cases h2
  refine ⟨[("course", .str "CSCI 121")], ["$", ".count", "[0]"], ?_, ?_⟩
  · refine .count (kids' := []) (parts := [_, _]) (inserted := False) (n := 2) (i := 0) (by decide)
      ⟨_, _, [], [], ⟨[], "all", _, rfl, by simp, rfl⟩, .plain (by rfl) (.plain (by rfl) .nil), .nil _, .nil, rfl, by simp⟩
      ?_ (.all (.inl (by decide))) rfl (hnh _ _ rfl) ?_
    · exact .shown (hnh _ _ rfl) (.shown (hnh _ _ rfl) (.nil _))
    · exact .course (by decide)
  · refine ⟨by unfold FlagSet; simp [Dict.get?], ⟨_, List.mem_cons_self, rfl, ?_⟩, by simp [InsertedBy], ?_⟩
    · constructor <;> simp [TextAt, Dict.get?]
    · intro c hc hn hk
      have := (hn.course (by simp [TextAt, Dict.get?]) "CSCI 121" rfl).1
      exfalso
      simp only [sampleTaken, List.mem_cons, List.not_mem_nil, or_false] at hc
      rcases hc with rfl | rfl | rfl | rfl <;> simp_all

end Dp
