import Verif.Props.MeansArea

/-
The dictionaries of an area file that the parts of the loaded rule are read from.
-/
namespace Dp

/-- the keys of the dictionaries that the program itself writes: course rules of templates and of inserted classes, and the
items for emphases -/
def programKeys : List String :=
  ["clbid", "course", "section", "sub_type", "institution", "ap", "year", "term", "allow_claimed", "inserted", "requirement",
   "__emphasis"]

/-- all dictionaries of the text have the property -/
def Throughout (Q : Dict → Prop) (y : Y) : Prop := ∀ d, Occurs d y → Q d

/-- the property holds of the dictionaries that the program writes -/
def FlatOk (Q : Dict → Prop) : Prop := ∀ d : Dict, (∀ k y, (k, y) ∈ d → k ∈ programKeys ∧ ∀ e, ¬ Occurs e y) → Q d

theorem Throughout.here {Q : Dict → Prop} {d : Dict} (h : Throughout Q (.map d)) : Q d := h d .here

theorem Throughout.get {Q : Dict → Prop} {d : Dict} (h : Throughout Q (.map d)) {k : String} {y : Y} (hk : d.get? k = some y) :
    Throughout Q y := fun e he => h e (.entry (get_mem hk) he)

theorem Throughout.mem {Q : Dict → Prop} {l : List Y} (h : Throughout Q (.list l)) {y : Y} (hy : y ∈ l) : Throughout Q y :=
  fun e he => h e (.item hy he)

theorem throughout_flat {Q : Dict → Prop} (hQ : FlatOk Q) {d : Dict}
    (hf : ∀ k y, (k, y) ∈ d → k ∈ programKeys ∧ ∀ e, ¬ Occurs e y) : Throughout Q (.map d) := by
  intro e he
  cases he with
  | here => exact hQ _ hf
  | entry hm ho => exact absurd ho ((hf _ _ hm).2 _)

/-- all requirements of a list of them -/
def EachKid (Q : Dict → Prop) (kids : Dict) : Prop := ∀ k y, (k, y) ∈ kids → Throughout Q y

theorem Throughout.kids {Q : Dict → Prop} {d : Dict} (h : Throughout Q (.map d)) : EachKid Q d :=
  fun _ _ hm e he => h e (.entry hm he)

theorem each_dict {Q : Dict → Prop} {d own : Dict} {k : String} (h : Throughout Q (.map d)) (hd : d.dict k = .ok own) :
    EachKid Q own := by
  unfold Dict.dict at hd
  split at hd
  · cases hd; intro _ _ hm; cases hm
  · rename_i heq; cases hd; exact (h.get heq).kids
  · cases hd

theorem each_set {Q : Dict → Prop} {d : Dict} {k : String} {y : Y} (h : EachKid Q d) (hy : Throughout Q y) : EachKid Q (d.set k y) := by
  induction d with
  | nil =>
    intro k' y' hm
    simp only [Dict.set, List.mem_singleton, Prod.mk.injEq] at hm
    rw [hm.2]; exact hy
  | cons e rest ih =>
    obtain ⟨k0, v⟩ := e
    intro k' y' hm
    unfold Dict.set at hm
    split at hm
    · rcases List.mem_cons.1 hm with h1 | h1
      · cases h1; exact hy
      · exact h k' y' (List.mem_cons_of_mem _ h1)
    · rcases List.mem_cons.1 hm with h1 | h1
      · cases h1; exact h _ _ List.mem_cons_self
      · exact ih (fun k y hm => h k y (List.mem_cons_of_mem _ hm)) _ _ h1

theorem template_each {Q : Dict → Prop} (hQ : FlatOk Q) {t : TemplateCourse} {y : Y} (h : t.asRule = .ok y) : Throughout Q y := by
  have hg : ∀ key s value k y, (k, y) ∈ givenEntry key s value → k = key ∧ ∃ v, y = .str v := by
    intro key s value k y hm
    unfold givenEntry at hm
    split at hm
    · cases hm
    · cases List.mem_singleton.1 hm; exact ⟨rfl, _, rfl⟩
  have hno : ∀ {e : Dict} {v : String}, ¬ Occurs e (.str v) := fun h => by cases h
  have hni : ∀ {e : Dict} {v : Int}, ¬ Occurs e (.int v) := fun h => by cases h
  have key : ∀ {d : Dict}, (∀ k y, (k, y) ∈ d → k ∈ programKeys ∧ ((∃ v, y = .str v) ∨ ∃ v, y = .int v)) → Throughout Q (.map d) := by
    intro d hd
    refine throughout_flat hQ (fun k y hm => ⟨(hd k y hm).1, fun e ho => ?_⟩)
    rcases (hd k y hm).2 with ⟨v, rfl⟩ | ⟨v, rfl⟩
    · exact hno ho
    · exact hni ho
  have hall : ∀ k y, (k, y) ∈ givenEntry "clbid" t.clbid t.clbid ++ givenEntry "course" t.subject (t.subject ++ " " ++ t.num) ++
      givenEntry "section" t.section' t.section' ++ givenEntry "sub_type" t.subType t.subType ++
      givenEntry "institution" t.institution t.institution ++ givenEntry "ap" t.name t.name →
      k ∈ programKeys ∧ ((∃ v, y = Y.str v) ∨ ∃ v, y = Y.int v) := by
    intro k y hm
    simp only [List.mem_append] at hm
    rcases hm with ((((hm | hm) | hm) | hm) | hm) | hm <;>
    · obtain ⟨rfl, h⟩ := hg _ _ _ _ _ hm
      exact ⟨by decide, .inl h⟩
  unfold TemplateCourse.asRule at h
  dsimp only at h
  repeat' split at h
  · cases h; exact key hall
  · cases h
  · cases h
    refine key (fun k y hm => ?_)
    rcases List.mem_append.1 hm with hm | hm
    · exact hall k y hm
    · simp only [List.mem_cons, Prod.mk.injEq, List.not_mem_nil, or_false] at hm
      rcases hm with ⟨rfl, rfl⟩ | ⟨rfl, rfl⟩
      · exact ⟨by decide, by simp⟩
      · exact ⟨by decide, by simp⟩
  · cases h

theorem expand_each {Q : Dict → Prop} (hQ : FlatOk Q) {templates : List (String × TemplateCourse)} : ∀ {l r : List Y},
    (∀ y ∈ l, Throughout Q y) → expandTemplates templates l = .ok r → ∀ y ∈ r, Throughout Q y := by
  intro l
  induction l with
  | nil => intro r _ h; cases h; simp
  | cons y ys ih =>
    intro r hl h
    simp only [expandTemplates, ld_bind_ok, ld_asDict] at h
    obtain ⟨d, rfl, here, hh, rest, hrest, h⟩ := h
    cases h
    intro z hz
    rcases List.mem_append.1 hz with hz | hz
    · split at hh
      · simp only [ld_bind_ok, ld_asText] at hh
        obtain ⟨key, rfl, hh⟩ := hh
        obtain ⟨t, _, ht⟩ := ld_mapE_mem hh z hz
        exact template_each hQ ht
      · cases hh
        cases List.mem_singleton.1 hz
        exact hl _ List.mem_cons_self
    · exact ih (fun y hy => hl y (List.mem_cons_of_mem _ hy)) hrest z hz

theorem inserted_each {Q : Dict → Prop} (hQ : FlatOk Q) {x : Ctx} : ∀ {es : List Exc} {r : List Y}, insertedItems x es = .ok r →
    ∀ y ∈ r, Throughout Q y := by
  intro es
  induction es with
  | nil => intro r h; simp [insertedItems] at h; simp [h]
  | cons e es ih =>
    intro r h
    rw [insertedItems] at h
    split at h
    · simp only [ld_bind_ok] at h
      obtain ⟨c, _, rest, hr, h⟩ := h
      cases h
      intro y hy
      rcases List.mem_cons.1 hy with rfl | hy
      · refine throughout_flat hQ (fun k y hm => ?_)
        simp only [List.mem_cons, Prod.mk.injEq, List.not_mem_nil, or_false] at hm
        rcases hm with ⟨rfl, rfl⟩ | ⟨rfl, rfl⟩ | ⟨rfl, rfl⟩ | ⟨rfl, rfl⟩
        all_goals exact ⟨by decide, fun e ho => by cases ho⟩
      · exact ih hr y hy
    · exact ih h

theorem namedRules_each {Q : Dict → Prop} : ∀ {l : List Y} {r : Dict}, (∀ y ∈ l, Throughout Q y) → namedRules l = .ok r →
    EachKid Q r := by
  intro l
  induction l with
  | nil => intro r _ h; simp [namedRules] at h; subst h; intro _ _ hm; cases hm
  | cons y ys ih =>
    intro r hc h
    simp only [namedRules, ld_bind_ok] at h
    obtain ⟨_, _, _, _, _, _, rest, hr, h⟩ := h
    cases h
    intro k z hz
    rcases List.mem_cons.1 hz with h1 | h1
    · cases h1; exact hc _ List.mem_cons_self
    · exact ih (fun y hy => hc y (List.mem_cons_of_mem _ hy)) hr _ _ h1

theorem emphasisParts_each {Q : Dict → Prop} {e : Dict} {parts : List (String × Y)} {name : String} (he : Throughout Q (.map e))
    (h : emphasisParts e = .ok (parts, name)) : EachKid Q parts := by
  unfold emphasisParts at h
  simp only [ld_bind_ok, ld_need, ld_asDict, ld_asText] at h
  obtain ⟨y0, _, nm, _, y1, hres, result, hr1, flat, hflat, h⟩ := h
  subst hr1
  split at h
  · simp only [ld_bind_ok] at h
    obtain ⟨reqs, hreqs, h⟩ := h
    cases h
    intro k y hp
    obtain ⟨r, hr, heq⟩ := List.mem_map.1 hp
    cases heq
    split at hreqs
    · rename_i v hv
      rw [ld_asDict] at hreqs
      subst hreqs
      exact (he.get hv).kids _ _ hr
    · simp only [ld_bind_ok, ld_need, ld_asList] at hreqs
      obtain ⟨_, hall, l, rfl, hl⟩ := hreqs
      exact namedRules_each (fun y hy => ((he.get hres).get hall).mem hy) hl _ _ hr
  · cases h
    intro k y hp
    cases List.mem_singleton.1 hp
    exact he

theorem emphasisItem_each {Q : Dict → Prop} (hQ : FlatOk Q) (key name : String) : Throughout Q (emphasisItem key name) := by
  refine throughout_flat hQ (fun k y hm => ?_)
  simp only [List.mem_cons, Prod.mk.injEq, List.not_mem_nil, or_false] at hm
  rcases hm with ⟨rfl, rfl⟩ | ⟨rfl, rfl⟩
  all_goals exact ⟨by decide, fun e ho => by cases ho⟩

theorem addEmphases_each {Q : Dict → Prop} (hQ : FlatOk Q) : ∀ {ems : List Dict} {kids kids' : Dict} {items : List Y}, EachKid Q kids →
    (∀ e ∈ ems, Throughout Q (.map e)) → addEmphases kids ems = .ok (kids', items) → EachKid Q kids' ∧ ∀ y ∈ items, Throughout Q y := by
  intro ems
  induction ems with
  | nil => intro kids kids' items hk _ h; simp [addEmphases] at h; obtain ⟨rfl, rfl⟩ := h; exact ⟨hk, by simp⟩
  | cons e es ih =>
    intro kids kids' items hk he h
    simp only [addEmphases, ld_bind_ok] at h
    obtain ⟨⟨parts, name⟩, hp, ⟨final, rest⟩, hr, h⟩ := h
    cases h
    have h3 : ∀ (ps : List (String × Y)) (c : Dict), EachKid Q c → EachKid Q ps →
        EachKid Q (ps.foldl (fun (c : Dict) p => c.set p.1 p.2) c) := by
      intro ps
      induction ps with
      | nil => intro c hc _; exact hc
      | cons a as ih' =>
        intro c hc h2
        exact ih' _ (each_set hc (h2 _ _ List.mem_cons_self)) (fun k y hp => h2 k y (List.mem_cons_of_mem _ hp))
    have heach := h3 parts kids hk (emphasisParts_each (he e List.mem_cons_self) hp)
    obtain ⟨h4, h5⟩ := ih heach (fun e' he' => he e' (List.mem_cons_of_mem _ he')) hr
    refine ⟨h4, fun y hy => ?_⟩
    rcases List.mem_append.1 hy with hy | hy
    · obtain ⟨p, _, rfl⟩ := List.mem_map.1 hy
      exact emphasisItem_each hQ _ _
    · exact h5 y hy

/-- what the part of a rule was read from -/
def ReadFrom (env : Env) (d : Dict) : Node → Prop
  | .course _ c => ∃ p, loadCourseRule d p = .ok c
  | .query _ q => ∃ p, loadQuery env d p = .ok q
  | .count _ c _ => loadAudits env c.path d = .ok c.audits ∧ d.flag "at_most" false = .ok c.atMost ∧ ruleKind d = .count
  | .req _ r _ => auditedFlag d = .ok r.isAudited ∧ d.flag "contract" false = .ok r.isContract ∧ d.flag "in_gpa" true = .ok r.inGpa
  | .cond _ c _ _ => ruleKind d = .conditional ∧ ∃ yif b, d.get? "$if" = some yif ∧ loadCond env.ctx yif = .ok b ∧ c.condition = some b
  | .prof s q c => ∃ p, loadProficiency d p = .ok (.prof s q c)

/-- Every part of a rule was read from one of the dictionaries of its text. -/
theorem Built.each {Q : Dict → Prop} (hQ : FlatOk Q) {env : Env} {kids : Dict} {ems : List Dict} {p : Path} {y : Y} {o : Option Node}
    (h : Built env kids ems p y o) : Throughout Q y → EachKid Q kids → (∀ e ∈ ems, Throughout Q (.map e)) → ∀ n, o = some n →
    ∀ m ∈ n.within, ∃ d, Throughout Q (.map d) ∧ ReadFrom env d m := by
  induction h with
  | @prof _ _ p d _ hk h =>
    intro hy _ _ n hn
    cases hn
    obtain ⟨name, c, hname, hc, rfl, hcourse⟩ := loadProficiency_inv h
    intro m hm
    rw [Node.within, List.mem_cons, List.mem_map] at hm
    rcases hm with rfl | ⟨q, hq, rfl⟩
    · exact ⟨d, hy, _, h⟩
    · cases c with
      | none => simp at hq
      | some c =>
        have : q = c := by simpa using hq
        subst this
        obtain ⟨_, cd, h1, h2⟩ := hcourse q rfl
        exact ⟨cd, hy.get h1, _, h2⟩
  | @course _ _ _ d c hk h =>
    intro hy _ _ n hn
    cases hn
    intro m hm
    rw [Node.within, List.mem_singleton] at hm
    subst hm
    exact ⟨d, hy, _, h⟩
  | @query _ _ _ d qd hk h =>
    intro hy _ _ n hn
    cases hn
    intro m hm
    rw [Node.within, List.mem_singleton] at hm
    subst hm
    exact ⟨d, hy, _, h⟩
  | @cond kids ems p d yif b yt t f hide hk hkeys hif hb hyt hbt hbf hno hh iht ihf =>
    intro hy hkids _ n hn
    split at hn
    · cases hn
    cases hn
    intro m hm
    rw [Node.within, List.mem_cons, List.mem_append] at hm
    rcases hm with rfl | hm | hm
    · exact ⟨d, hy, hk, yif, b, hif, hb, rfl⟩
    · exact iht (hy.get hyt) hkids (by simp) t rfl m hm
    · cases f with
      | none => simp [Node.withinOpt] at hm
      | some f' =>
        cases ho : Dict.opt d "$else" with
        | none => have := hno ho; cases this
        | some yf => exact ihf yf ho (hy.get (Dict.opt_get ho)) hkids (by simp) f' rfl m hm
  | @count kids ems p d kids' listed expanded emItems inserts audits atMost cnt parts hk hkeys hlist hexp hem hins haud hat hparts
      hall hcnt h0 hle ih =>
    intro hy hkids hems n hn
    cases hn
    have hlisted : ∀ y ∈ listed, Throughout Q y := by
      have hk : ∀ k v, d.get? k = some v → v.asList = .ok listed → ∀ y ∈ listed, Throughout Q y := by
        intro k v hv hl
        rw [ld_asList] at hl
        subst hl
        exact fun y h => (hy.get hv).mem h
      unfold countItems at hlist
      repeat' split at hlist
      all_goals first | (rename_i heq; exact hk _ _ heq hlist) | cases hlist
    obtain ⟨hk', hei⟩ := addEmphases_each hQ hkids hems hem
    have heach : ∀ t ∈ parts, Throughout Q t.1 := by
      intro t ht
      have : t.1 ∈ expanded ++ emItems ++ inserts := by
        rw [← hparts]
        exact List.mem_map_of_mem ht
      simp only [List.mem_append] at this
      rcases this with (h | h) | h
      · exact expand_each hQ hlisted hexp _ h
      · exact hei _ h
      · exact inserted_each hQ hins _ h
    intro m hm
    rw [Node.within, List.mem_cons, Node.mem_withinList] at hm
    rcases hm with rfl | ⟨n0, hn0, hm⟩
    · exact ⟨d, hy, haud, hat, hk⟩
    · obtain ⟨⟨y, o⟩, ht, ho⟩ := List.mem_filterMap.1 hn0
      dsimp only at ho
      subst ho
      obtain ⟨i, hi⟩ := List.mem_iff_getElem?.1 ht
      exact ih i y _ hi (heach _ ht) hk' (by simp) n0 rfl m hm
  | @req kids ems p d name body rd r' hr hkeys hnone hsome hbr hex hpath hname hov hor hws haud hcon hig hdj ih =>
    intro hy hkids _ n hn
    cases hn
    have hbody : Throughout Q (.map body) := by
      rcases hr with ⟨_, _, rfl⟩ | ⟨_, _, h⟩
      · exact hy
      · exact hkids _ _ (get_mem h)
    intro m hm
    rw [Node.within, List.mem_cons] at hm
    rcases hm with rfl | hm
    · exact ⟨body, hbody, haud, hcon, hig⟩
    · cases r' with
      | none => simp [Node.withinOpt] at hm
      | some n =>
        cases hres : Dict.opt body "result" with
        | none => have := hnone hres; cases this
        | some yr =>
          obtain ⟨own, hown, _⟩ := hex yr hres
          exact ih yr own hres hown (hbody.get (Dict.opt_get hres)) (each_dict hbody hown) (by simp) n rfl m hm

end Dp
