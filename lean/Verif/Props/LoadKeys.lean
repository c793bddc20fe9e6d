import Verif.Props.LoadArea

/-
A misspelt key in an area file is noticed (C47): which dictionaries of a text are checked for
keys that mean nothing, and which are not.
-/
namespace Dp

/-! ### Specification -/

/-- all keys of the dictionary are among these -/
def Dict.Only (d : Dict) (ks : List String) : Prop := ∀ k ∈ d.map (·.1), k ∈ ks

/-- the kinds of dictionaries in the text of an area; a rule comes with the requirements it may name, an
assertion may or may not be a `$when` -/
inductive TextPart where
  | area | rule (kids : Dict) | requirement | course | limit
  | assertion (t : DataType) (dynamic : Bool) | single (t : DataType) | comparison | filter (t : DataType)

/-- the keys rules can have, other than those that name a requirement: proficiencies, courses, queries,
conditionals, counts, requirements -/
def ruleTables : List (List String) :=
  [["proficiency", "course"],
   ["course", "grade", "allow_claimed", "from_claimed", "hidden", "ap", "grade_option", "institution",
    "name", "clbid", "inserted", "waived", "optional", "year", "term", "section", "sub_type", "crsid"],
   ["where", "limit", "claim", "assert", "all", "allow_claimed", "from", "load_potentials", "include_failed"],
   ["$if", "$then", "$else", "$hide-when-false"],
   ["of", "all", "count", "any", "either", "both", "at_most", "audit"],
   ["in_gpa", "name", "result", "disjoint", "message", "contract", "requirements", "department_audited",
    "department-audited"]]

/-- what can be asked of a record -/
def recordFields : DataType → List String
  | .course => ["ap", "attributes", "attribute", "clbid", "course", "course_type", "credits", "crsid", "gereqs",
      "grade", "grade_option", "institution", "is_in_gpa", "is_in_progress", "is_stolaf", "lab", "level",
      "name", "number", "semester", "subject", "type", "year"]
  | .area => ["code", "status", "kind", "type", "name", "degree", "gpa"]
  | .musicPerformance => ["name", "status", "role"]
  | .recital => []

/-- The keys such a dictionary may have.  Nothing is said of rules that name a requirement, of the dictionaries
around the comparison of an assertion, and of filters with `$if`: see the refutations below. -/
def TextPart.Known : TextPart → Dict → Prop
  | .area, d => d.Only ["name", "type", "major", "degree", "code", "emphases", "result", "requirements", "limit",
      "multicountable", "credit", "exceptions-migrations"]
  | .rule _, d => d.has "requirement" = true ∨ ∃ ks ∈ ruleTables, d.Only ks
  | .requirement, d => d.Only ["in_gpa", "name", "result", "disjoint", "message", "contract", "requirements",
      "department_audited", "department-audited"]
  | .course, d => d.Only ["course", "grade", "allow_claimed", "from_claimed", "hidden", "ap", "grade_option",
      "institution", "name", "clbid", "inserted", "waived", "optional", "year", "term", "section", "sub_type",
      "crsid"]
  | .limit, d => d.Only ["at most", "at-most", "at_most", "where", "message"]
  | .assertion _ _, _ => True
  | .single _, _ => True
  | .comparison, d => d.Only ["where", "message", "label", "assert", "$changes", "at_most",
      "treat_in_progress_as_pass", "$lt", "$lte", "$gt", "$gte", "$eq", "$neq", "$in", "$nin"]
  | .filter t, d => d.has "$if" = true ∨ d.Only ["$and"] ∨ d.Only ["$or"] ∨ d.Only ["$not"] ∨ d.Only (recordFields t)

/-- the records a query looks at -/
def sourceRecords (s : String) : DataType :=
  if s = "areas" then .area
  else if s = "music performances" then .musicPerformance
  else if s = "music recitals" then .recital
  else .course

/-- the list of a count rule: of several, the first in this order -/
def listOf (d : Dict) : Option Y :=
  (["all", "any", "both", "either", "of"].filterMap (fun k => d.get? k)).head?

/-- `Written spec part d`: the dictionary `d` is written in the area file `spec` in a place where it is read, as
a part of that kind. -/
inductive Written (spec : Dict) : TextPart → Dict → Prop
  | top : Written spec .area spec
  | emphasis {a es k e} : Written spec .area a → a.get? "emphases" = some (.map es) → (k, .map e) ∈ es →
      Written spec .area e
  | result {a kids d} : Written spec .area a → a.dict "requirements" = .ok kids → a.get? "result" = some (.map d) →
      Written spec (.rule kids) d
  | areaLimit {a l d} : Written spec .area a → a.get? "limit" = some (.list l) → .map d ∈ l → Written spec .limit d
  | item {kids d l d'} : Written spec (.rule kids) d → d.has "from" = false → d.has "requirement" = false →
      listOf d = some (.list l) → .map d' ∈ l → d'.has "template" = false → Written spec (.rule kids) d'
  | then' {kids d d'} : Written spec (.rule kids) d → d.has "$if" = true → d.get? "$then" = some (.map d') →
      Written spec (.rule kids) d'
  | else' {kids d d'} : Written spec (.rule kids) d → d.has "$if" = true → d.get? "$else" = some (.map d') →
      Written spec (.rule kids) d'
  | inline {kids d y} : Written spec (.rule kids) d → d.get? "name" = some (.str y) → d.has "result" = true →
      Written spec .requirement d
  | named {kids d name body} : Written spec (.rule kids) d → d.get? "requirement" = some (.str name) →
      (∀ e, name ≠ "Emphasis: " ++ e) → kids.get? name = some (.map body) →
      (∀ k ∈ d.map (·.1), k = "requirement") → Written spec .requirement body
  | reqResult {d kids d'} : Written spec .requirement d → d.dict "requirements" = .ok kids →
      d.get? "result" = some (.map d') → Written spec (.rule kids) d'
  | profCourse {kids d d'} : Written spec (.rule kids) d → d.has "proficiency" = true →
      d.get? "course" = some (.map d') → Written spec .course d'
  | queryLimit {kids d l d'} : Written spec (.rule kids) d → d.has "from" = true →
      d.get? "limit" = some (.list l) → .map d' ∈ l → Written spec .limit d'
  | queryWhere {kids d s d'} : Written spec (.rule kids) d → d.get? "from" = some (.str s) →
      d.get? "where" = some (.map d') → Written spec (.filter (sourceRecords s)) d'
  | queryAssert {kids d s y} : Written spec (.rule kids) d → d.get? "from" = some (.str s) →
      d.get? "assert" = some y → Written spec (.assertion (sourceRecords s) true) [("assert", y)]
  | queryAll {kids d s l d'} : Written spec (.rule kids) d → d.get? "from" = some (.str s) →
      d.get? "all" = some (.list l) → .map d' ∈ l → Written spec (.assertion (sourceRecords s) true) d'
  | audit {kids d} {d' : Dict} : Written spec (.rule kids) d → d.get? "audit" = some (.map d') → d'.has "all" = false →
      d.has "requirement" = false → Written spec (.assertion .course false) d'
  | audits {kids d} {a : Dict} {l d'} : Written spec (.rule kids) d → d.get? "audit" = some (.map a) →
      d.has "requirement" = false →
      a.get? "all" = some (.list l) → .map d' ∈ l → Written spec (.assertion .course false) d'
  | plain {t b d} : Written spec (.assertion t b) d → d.has "$if" = false → (b = true → d.has "$when" = false) →
      Written spec (.single t) d
  | holds {t b d d'} : Written spec (.assertion t b) d → (d.has "$if" = true ∨ (b = true ∧ d.has "$when" = true)) →
      d.get? "$then" = some (.map d') → Written spec (.single t) d'
  | otherwise {t b d d'} : Written spec (.assertion t b) d → d.has "$if" = true →
      (b = true → d.has "$when" = false) → d.get? "$else" = some (.map d') → Written spec (.single t) d'
  | compared {t d k d'} : Written spec (.single t) d → d.get? "assert" = some (.map [(k, .map d')]) →
      Written spec .comparison d'
  | assertWhere {t d d'} : Written spec (.single t) d → d.get? "where" = some (.map d') → Written spec (.filter t) d'
  | limitWhere {d d'} : Written spec .limit d → d.get? "where" = some (.map d') → Written spec (.filter .course) d'
  | allOf {t d k l d'} : Written spec (.filter t) d → k ∈ ["$and", "$or"] → d.get? k = some (.list l) →
      .map d' ∈ l → Written spec (.filter t) d'
  | notOf {t d d'} : Written spec (.filter t) d → d.get? "$not" = some (.map d') → Written spec (.filter t) d'
  | filterThen {t d k d'} : Written spec (.filter t) d → d.has "$if" = true → k ∈ ["$then", "$else"] →
      d.get? k = some (.map d') → Written spec (.filter t) d'

/-! ### Helper lemmas -/

theorem onlyKeys_iff {ks : List String} {d : Dict} : onlyKeys ks d = true ↔ d.Only ks := by
  simp [onlyKeys, Dict.Only, List.all_eq_true]


theorem Dict.has_mem {d : Dict} {k : String} (h : d.has k = true) : k ∈ d.map (·.1) := by
  unfold Dict.has at h
  induction d with
  | nil => simp [Dict.get?] at h
  | cons a as ih =>
    obtain ⟨k', v⟩ := a
    simp only [Dict.get?] at h
    split at h
    · rename_i hk; simp at hk; simp [hk]
    · simp only [List.map_cons, List.mem_cons]; exact Or.inr (ih h)

theorem Dict.has_of_get {d : Dict} {k : String} {y : Y} (h : d.get? k = some y) : d.has k = true := by
  simp [Dict.has, h]

theorem Dict.Only.has {d : Dict} {ks : List String} (h : d.Only ks) {k : String} (hk : d.has k = true) : k ∈ ks :=
  h k (Dict.has_mem hk)

theorem Dict.opt_map {d : Dict} {k : String} {m : Dict} (h : d.get? k = some (.map m)) : d.opt k = some (.map m) := by
  simp [Dict.opt, h]

theorem Dict.opt_list {d : Dict} {k : String} {m : List Y} (h : d.get? k = some (.list m)) : d.opt k = some (.list m) := by
  simp [Dict.opt, h]

/-- the keys of a rule of some kind -/
def kindKeys : RuleKind → List String
  | .proficiency => ["proficiency", "course"]
  | .course => courseRuleKeys
  | .query => queryKeys
  | .conditional => ["$if", "$then", "$else", "$hide-when-false"]
  | .count => countKeys
  | .inline => requirementKeys
  | _ => []

theorem Built.keys {env : Env} {kids : Dict} {ems : List Dict} {p : Path} {d : Dict} {o : Option Node}
    (h : Built env kids ems p (.map d) o) : ruleKind d = .reference ∨ d.Only (kindKeys (ruleKind d)) := by
  generalize hy : Y.map d = y at h
  cases h with
  | prof hk hl =>
    cases hy
    refine Or.inr ?_
    unfold loadProficiency at hl
    simp only [ld_bind_ok, ld_check_ok] at hl
    obtain ⟨_, _, _, _, _, h, _⟩ := hl
    rw [hk]; exact onlyKeys_iff.1 h
  | course hk hl =>
    cases hy
    refine Or.inr ?_
    obtain ⟨_, _, _, _, _, _, _, _, _, _, h, _⟩ := loadCourse_inv hl
    rw [hk]; exact onlyKeys_iff.1 h
  | query hk hl =>
    cases hy
    refine Or.inr ?_
    obtain ⟨_, _, _, _, _, _, _, _, _, _, _, _, _, _, h, _⟩ := loadQuery_inv hl
    rw [hk]; exact onlyKeys_iff.1 h
  | cond hk ho => cases hy; rw [hk]; exact Or.inr (onlyKeys_iff.1 ho)
  | count hk ho => cases hy; rw [hk]; exact Or.inr (onlyKeys_iff.1 ho)
  | req hr ho =>
    cases hy
    rcases hr with ⟨hk, _, rfl⟩ | ⟨hk, _⟩
    · rw [hk]; exact Or.inr (onlyKeys_iff.1 ho)
    · exact Or.inl hk

/-- a key tells the kind of a rule that is not the name of a requirement -/
theorem Built.kind_of {env : Env} {kids : Dict} {ems : List Dict} {p : Path} {d : Dict} {o : Option Node}
    (h : Built env kids ems p (.map d) o) {k : String} {K : RuleKind} (hk : d.has k = true)
    (hr : ruleKind d ≠ .reference) (hK : ∀ K', k ∈ kindKeys K' → K' = K) : ruleKind d = K := by
  rcases h.keys with h | h
  · exact absurd h hr
  · exact hK _ (h.has hk)

theorem ruleKind_reference {d : Dict} (h : ruleKind d = .reference) :
    d.has "proficiency" = false ∧ d.has "course" = false ∧ d.has "from" = false ∧ d.has "$if" = false ∧
      isCount d = false ∧ d.has "name" = false ∧ d.has "requirement" = true := by
  unfold ruleKind at h
  split at h; · cases h
  split at h; · cases h
  split at h; · cases h
  split at h; · cases h
  split at h; · cases h
  split at h; · cases h
  split at h
  · simp_all
  · cases h

theorem Dict.get_set_ne (d : Dict) {k k' : String} (v : Y) (h : k' ≠ k) : (d.set k v).get? k' = d.get? k' := by
  induction d with
  | nil => simp [Dict.set, Dict.get?, Ne.symm h]
  | cons a as ih =>
    obtain ⟨q, w⟩ := a
    simp only [Dict.set]
    split
    · rename_i hq
      simp at hq; subst hq
      simp [Dict.get?, Ne.symm h]
    · simp only [Dict.get?, ih]

theorem emphasisParts_named {e : Dict} {parts : List (String × Y)} {name : String}
    (h : emphasisParts e = .ok (parts, name)) : ∀ p ∈ parts, ∃ s, p.1 = "Emphasis: " ++ s := by
  unfold emphasisParts at h
  simp only [ld_bind_ok, ld_need, ld_asDict, ld_asText] at h
  obtain ⟨y0, _, nm, _, y1, hres, result, hr1, flat, hflat, h⟩ := h
  split at h
  · simp only [ld_bind_ok] at h
    obtain ⟨reqs, hreqs, h⟩ := h
    cases h
    intro p hp
    obtain ⟨r, _, rfl⟩ := List.mem_map.1 hp
    exact ⟨name ++ (" → " ++ r.1), by simp only [String.append_assoc]⟩
  · cases h
    intro p hp
    simp only [List.mem_singleton] at hp
    subst hp
    exact ⟨name, rfl⟩

theorem addEmphases_get : ∀ {ems : List Dict} {kids kids' : Dict} {items : List Y},
    addEmphases kids ems = .ok (kids', items) → ∀ k, (∀ e, k ≠ "Emphasis: " ++ e) → kids'.get? k = kids.get? k := by
  intro ems
  induction ems with
  | nil => intro kids kids' items h k _; simp [addEmphases] at h; rw [h.1]
  | cons e rest ih =>
    intro kids kids' items h k hk
    simp only [addEmphases, ld_bind_ok] at h
    obtain ⟨⟨parts, name⟩, hp, ⟨fin, its⟩, hr, h⟩ := h
    cases h
    rw [ih hr k hk]
    have hn := emphasisParts_named hp
    clear hr hp
    induction parts generalizing kids with
    | nil => rfl
    | cons p ps ih2 =>
      simp only [List.foldl_cons]
      rw [ih2 (fun q hq => hn q (List.mem_cons_of_mem _ hq))]
      obtain ⟨s, hs⟩ := hn p List.mem_cons_self
      exact Dict.get_set_ne _ _ (by rw [hs]; exact hk s)

theorem expandTemplates_keeps {ts : List (String × TemplateCourse)} : ∀ {l r : List Y},
    expandTemplates ts l = .ok r → ∀ d : Dict, .map d ∈ l → d.has "template" = false → .map d ∈ r := by
  intro l
  induction l with
  | nil => intro r h d hd; cases hd
  | cons a as ih =>
    intro r h d hd ht
    simp only [expandTemplates, ld_bind_ok, ld_asDict] at h
    obtain ⟨d', rfl, here, hh, rest, hr, h⟩ := h
    cases h
    rcases List.mem_cons.1 hd with hd | hd
    · cases hd
      have : d.get? "template" = none := by simpa [Dict.has] using ht
      rw [this] at hh
      cases hh
      exact List.mem_append_left _ (List.mem_singleton.2 rfl)
    · exact List.mem_append_right _ (ih hr d hd ht)

theorem countItems_listOf {d : Dict} {l : List Y} (h : listOf d = some (.list l)) : countItems d = .ok l := by
  unfold listOf at h
  unfold countItems
  simp only [List.filterMap_cons, List.filterMap_nil] at h
  cases h1 : d.get? "all" with
  | some v => simp only [h1, List.head?_cons] at h ⊢; cases h; rfl
  | none =>
  cases h2 : d.get? "any" with
  | some v => simp only [h1, h2, List.head?_cons] at h ⊢; cases h; rfl
  | none =>
  cases h3 : d.get? "both" with
  | some v => simp only [h1, h2, h3, List.head?_cons] at h ⊢; cases h; rfl
  | none =>
  cases h4 : d.get? "either" with
  | some v => simp only [h1, h2, h3, h4, List.head?_cons] at h ⊢; cases h; rfl
  | none =>
  cases h5 : d.get? "of" with
  | some v => simp only [h1, h2, h3, h4, h5, List.head?_cons] at h ⊢; cases h; rfl
  | none => simp [h1, h2, h3, h4, h5] at h

theorem listOf_has {d : Dict} {y : Y} (h : listOf d = some y) :
    ∃ k ∈ ["all", "any", "both", "either", "of"], d.has k = true := by
  unfold listOf at h
  have := List.mem_of_mem_head? (Option.mem_def.2 h)
  obtain ⟨k, hk, hy⟩ := List.mem_filterMap.1 this
  exact ⟨k, hk, Dict.has_of_get hy⟩

theorem ld_mapE_all {α β : Type} {f : α → Except Err β} : ∀ {l : List α} {r : List β}, mapE f l = .ok r →
    ∀ a ∈ l, ∃ b, f a = .ok b := by
  intro l
  induction l with
  | nil => intro r _ a ha; cases ha
  | cons x xs ih =>
    intro r h a ha
    simp only [mapE, ld_bind_ok] at h
    obtain ⟨b, hb, bs, hbs, h⟩ := h
    rcases List.mem_cons.1 ha with rfl | ha
    · exact ⟨b, hb⟩
    · exact ih hbs a ha

theorem ld_mapIdxE_all {α β : Type} {f : Nat → α → Except Err β} : ∀ {l : List α} {i : Nat} {r : List β},
    mapIdxE f i l = .ok r → ∀ a ∈ l, ∃ j b, f j a = .ok b := by
  intro l
  induction l with
  | nil => intro i r _ a ha; cases ha
  | cons x xs ih =>
    intro i r h a ha
    simp only [mapIdxE, ld_bind_ok] at h
    obtain ⟨b, hb, bs, hbs, h⟩ := h
    rcases List.mem_cons.1 ha with rfl | ha
    · exact ⟨i, b, hb⟩
    · exact ih hbs a ha

/-- an area or emphasis that was loaded, with its emphases -/
def AreaRead (c : Constants) (ts : List (String × TemplateCourse)) (st : Student) (a : Dict) : Prop :=
  ∃ es all chk em n r, a.dict "emphases" = .ok em ∧ checkEmphases c ts st n em = .ok () ∧
    loadAreaRules c ts st es all chk a em = .ok r

theorem checkEmphases_inv {c : Constants} {ts : List (String × TemplateCourse)} {st : Student} :
    ∀ {n : Nat} {es : Dict}, checkEmphases c ts st n es = .ok () → ∀ k e, (k, Y.map e) ∈ es → AreaRead c ts st e := by
  intro n
  induction n with
  | zero => intro es h; simp [checkEmphases] at h
  | succ n ih =>
    intro es h k e he
    cases es with
    | nil => cases he
    | cons a rest =>
      obtain ⟨k', y⟩ := a
      simp only [checkEmphases, ld_bind_ok, ld_asDict] at h
      obtain ⟨spec, rfl, em, hem, u, hu, r, hr, h⟩ := h
      rcases List.mem_cons.1 he with he | he
      · cases he
        exact ⟨[], false, true, em, n, r, hem, hu, hr⟩
      · exact ih h k e he

theorem AreaRead.inv {c : Constants} {ts : List (String × TemplateCourse)} {st : Student} {a : Dict}
    (h : AreaRead c ts st a) : a.Only areaKeys ∧
      (∀ kids d, a.dict "requirements" = .ok kids → a.get? "result" = some (.map d) →
        ∃ env ems p o, Built env kids ems p (.map d) o) ∧
      (∀ l, a.get? "limit" = some (.list l) → ∀ d, .map d ∈ l → ∃ x lim, loadLimit x c (.map d) = .ok lim) := by
  obtain ⟨es, all, chk, em, n, r, hem, hc, h⟩ := h
  unfold loadAreaRules at h
  simp only [ld_bind_ok, ld_need] at h
  obtain ⟨code, h2, declared, h3, children, h4, data, h5, loaded, h6, h⟩ := h
  cases loaded with
  | none => cases h
  | some rule =>
    simp only [ld_bind_ok, ld_check_ok] at h
    obtain ⟨limit, h7, md, h8, multi, h9, _, h10, h⟩ := h
    refine ⟨onlyKeys_iff.1 h10, ?_, ?_⟩
    · intro kids d hkids hd
      rw [h4] at hkids; cases hkids
      rw [h5] at hd; cases hd
      exact ⟨_, _, _, _, loadRule_built _ h6⟩
    · intro l hl d hd
      rw [Dict.opt_list hl] at h7
      simp only [loadLimits, ld_bind_ok, ld_asList] at h7
      obtain ⟨l', hl', h7⟩ := h7
      cases hl'
      obtain ⟨b, hb⟩ := ld_mapE_all h7 _ hd
      exact ⟨_, b, hb⟩

/-- what is known of a part that was read -/
def TextPart.Read (c : Constants) (ts : List (String × TemplateCourse)) (st : Student) : TextPart → Dict → Prop
  | .area, d => AreaRead c ts st d
  | .rule kids, d => ∃ env kids' ems p o, Built env kids' ems p (.map d) o ∧
      ∀ k, (∀ e, k ≠ "Emphasis: " ++ e) → kids'.get? k = kids.get? k
  | .requirement, d => d.Only requirementKeys ∧
      ∀ own y, d.dict "requirements" = .ok own → d.opt "result" = some y → ∃ env p o, Built env own [] p y o
  | .course, d => d.Only courseRuleKeys
  | .limit, d => ∃ x c l, loadLimit x c (.map d) = .ok l
  | .assertion t b, d => ∃ x c p a, (if b then loadAnyAssertion x c t p (.map d) else loadAssertion x c t p (.map d)) = .ok a
  | .single t, d => ∃ x c p a, loadSingle x c t p (.map d) = .ok a
  | .comparison, d => d.Only comparisonKeys
  | .filter t, d => ∃ x c n p, loadPred x c t n (.map d) = .ok p

theorem TextPart.Read.known {c : Constants} {ts : List (String × TemplateCourse)} {st : Student} {part : TextPart} {d : Dict}
    (h : part.Read c ts st d) : part.Known d := by
  cases part with
  | area => exact h.inv.1
  | rule kids =>
    obtain ⟨env, kids', ems, p, o, hb, _⟩ := h
    rcases hb.keys with hk | hk
    · exact Or.inl (ruleKind_reference hk).2.2.2.2.2.2
    · cases hk' : ruleKind d <;> rw [hk'] at hk
      · exact Or.inr ⟨_, by simp only [ruleTables]; exact List.mem_cons_self, hk⟩
      · exact Or.inr ⟨_, by simp only [ruleTables]; exact .tail _ (.head _), hk⟩
      · exact Or.inr ⟨_, by simp only [ruleTables]; exact .tail _ (.tail _ (.head _)), hk⟩
      · exact Or.inr ⟨_, by simp only [ruleTables]; exact .tail _ (.tail _ (.tail _ (.head _))), hk⟩
      · exact Or.inr ⟨_, by simp only [ruleTables]; exact .tail _ (.tail _ (.tail _ (.tail _ (.head _)))), hk⟩
      · exact Or.inr ⟨_, by simp only [ruleTables]; exact .tail _ (.tail _ (.tail _ (.tail _ (.tail _ (.head _))))), hk⟩
      · exact Or.inl (ruleKind_reference hk').2.2.2.2.2.2
      · refine Or.inr ⟨["proficiency", "course"], by simp only [ruleTables]; exact List.mem_cons_self, ?_⟩
        intro k hk2
        exact absurd (hk k hk2) (by simp [kindKeys])
  | requirement => exact h.1
  | course => exact h
  | limit =>
    obtain ⟨x, c, l, h⟩ := h
    unfold loadLimit at h
    simp only [ld_bind_ok, ld_asDict, ld_check_ok] at h
    obtain ⟨d', hd, v, _, _, h, _⟩ := h
    cases hd
    exact onlyKeys_iff.1 h
  | assertion t b => trivial
  | single t => trivial
  | comparison => exact h
  | filter t =>
    obtain ⟨x, c, n, p, h⟩ := h
    cases n with
    | zero => simp [loadPred] at h
    | succ n =>
      simp only [loadPred, ld_bind_ok, ld_asDict] at h
      obtain ⟨d', hd, h⟩ := h
      cases hd
      have one : ∀ k, d.has k = true → d.length = 1 → d.Only [k] := by
        intro k hk hl
        match d, hl with
        | [(k', v)], _ =>
          have := Dict.has_mem hk
          simp at this
          subst this
          intro q hq
          simpa using hq
      split at h
      · rename_i hk
        simp only [ld_bind_ok, ld_check_ok] at h
        obtain ⟨_, hl, _⟩ := h
        exact Or.inr (Or.inl (one _ hk (by simpa using hl)))
      split at h
      · rename_i hk
        simp only [ld_bind_ok, ld_check_ok] at h
        obtain ⟨_, hl, _⟩ := h
        exact Or.inr (Or.inr (Or.inl (one _ hk (by simpa using hl))))
      split at h
      · rename_i hk
        simp only [ld_bind_ok, ld_check_ok] at h
        obtain ⟨_, hl, _⟩ := h
        exact Or.inr (Or.inr (Or.inr (Or.inl (one _ hk (by simpa using hl)))))
      split at h
      · rename_i hk; exact Or.inl hk
      · simp only [ld_bind_ok] at h
        obtain ⟨ls, hls, _⟩ := h
        refine Or.inr (Or.inr (Or.inr (Or.inr ?_)))
        intro k hk
        obtain ⟨e, he, rfl⟩ := List.mem_map.1 hk
        obtain ⟨leaf, hleaf⟩ := ld_mapE_all hls e he
        unfold loadLeaf at hleaf
        simp only [ld_bind_ok, ld_check_ok] at hleaf
        obtain ⟨_, _, al, hal, _, hin, _⟩ := hleaf
        cases t <;> simp only [filterKeys] at hal <;> cases hal <;> simpa [recordFields, courseKeys] using hin

theorem kindKeys_lists (K : RuleKind) : ∀ k ∈ ["all", "any", "both", "either", "of"], k ∈ kindKeys K →
    K = .count ∨ K = .query := by
  cases K <;> decide

theorem Built.query_of {env : Env} {kids : Dict} {ems : List Dict} {p : Path} {d : Dict} {o : Option Node}
    (h : Built env kids ems p (.map d) o) (hf : d.has "from" = true) : ∃ r, loadQuery env d p = .ok r := by
  have hnref : ruleKind d ≠ .reference := fun h => by
    have := (ruleKind_reference h).2.2.1
    rw [hf] at this; cases this
  have hK := h.kind_of hf hnref (K := .query) (by intro K'; cases K' <;> decide)
  generalize hy : Y.map d = y at h
  cases h with
  | prof hk' => cases hy; rw [hK] at hk'; cases hk'
  | course hk' => cases hy; rw [hK] at hk'; cases hk'
  | count hk' => cases hy; rw [hK] at hk'; cases hk'
  | cond hk' => cases hy; rw [hK] at hk'; cases hk'
  | req hr =>
    cases hy
    rcases hr with ⟨hk', _⟩ | ⟨hk', _⟩ <;> rw [hK] at hk' <;> cases hk'
  | query _ h1 => cases hy; exact ⟨_, h1⟩

theorem Built.audits_of {env : Env} {kids : Dict} {ems : List Dict} {p : Path} {d : Dict} {o : Option Node}
    (h : Built env kids ems p (.map d) o) (hf : d.has "audit" = true) (hnr : d.has "requirement" = false) :
    ∃ q as, loadAudits env q d = .ok as := by
  have hnref : ruleKind d ≠ .reference := fun h => by
    have := (ruleKind_reference h).2.2.2.2.2.2
    rw [hnr] at this; cases this
  have hK := h.kind_of hf hnref (K := .count) (by intro K'; cases K' <;> decide)
  generalize hy : Y.map d = y at h
  cases h with
  | prof hk' => cases hy; rw [hK] at hk'; cases hk'
  | course hk' => cases hy; rw [hK] at hk'; cases hk'
  | query hk' => cases hy; rw [hK] at hk'; cases hk'
  | cond hk' => cases hy; rw [hK] at hk'; cases hk'
  | req hr =>
    cases hy
    rcases hr with ⟨hk', _⟩ | ⟨hk', _⟩ <;> rw [hK] at hk' <;> cases hk'
  | count _ _ _ _ _ _ h1 => cases hy; exact ⟨_, _, h1⟩

theorem parseSource_records {s : String} {q : QuerySource} (h : parseSource s = some q) :
    q.dataType = sourceRecords s := by
  unfold parseSource at h
  unfold sourceRecords
  split at h
  · rename_i hs; cases h; simp at hs; subst hs; rfl
  split at h
  · rename_i hs; cases h; simp at hs; subst hs; rfl
  split at h
  · rename_i hs; cases h; simp at hs; subst hs; rfl
  split at h
  · rename_i hs; cases h; simp at hs; subst hs; rfl
  split at h
  · rename_i hs; cases h; simp at hs; subst hs; rfl
  · cases h

theorem Written.read {c : Constants} {ts : List (String × TemplateCourse)} {st : Student} {spec : Dict}
    (hs : AreaRead c ts st spec) {part : TextPart} {d : Dict} (h : Written spec part d) : part.Read c ts st d := by
  induction h with
  | top => exact hs
  | @emphasis a es k e _ he hm ih =>
    obtain ⟨_, _, _, em, n, r, hem, hc, _⟩ := ih
    have : em = es := by simp [Dict.dict, he] at hem; exact hem.symm
    subst this
    exact checkEmphases_inv hc k e hm
  | result _ hk hd ih =>
    obtain ⟨env, ems, p, o, hb⟩ := ih.inv.2.1 _ _ hk hd
    exact ⟨env, _, ems, p, o, hb, fun _ _ => rfl⟩
  | areaLimit _ hl hd ih =>
    obtain ⟨x, lim, h⟩ := ih.inv.2.2 _ hl _ hd
    exact ⟨x, _, lim, h⟩
  | @item kids d l d' _ hnf hnr hl hm ht ih =>
    obtain ⟨env, kids', ems, p, o, hb, hg⟩ := ih
    have hnref : ruleKind d ≠ .reference := fun h => by
      have := (ruleKind_reference h).2.2.2.2.2.2
      rw [hnr] at this; cases this
    obtain ⟨k, hk, hh⟩ := listOf_has hl
    have hK : ruleKind d = .count := by
      rcases hb.keys with h | h
      · exact absurd h hnref
      · rcases kindKeys_lists _ k hk (h.has hh) with hK | hK
        · exact hK
        · exfalso
          unfold ruleKind at hK
          rw [hnf] at hK
          split at hK; · cases hK
          split at hK; · cases hK
          rw [if_neg (by simp)] at hK
          split at hK; · cases hK
          split at hK; · cases hK
          split at hK; · cases hK
          split at hK <;> cases hK
    generalize hy : Y.map d = y at hb
    cases hb with
    | prof hk' => cases hy; rw [hK] at hk'; cases hk'
    | course hk' => cases hy; rw [hK] at hk'; cases hk'
    | query hk' => cases hy; rw [hK] at hk'; cases hk'
    | cond hk' => cases hy; rw [hK] at hk'; cases hk'
    | req hr =>
      cases hy
      rcases hr with ⟨hk', _⟩ | ⟨hk', _⟩ <;> rw [hK] at hk' <;> cases hk'
    | @count _ _ _ _ kids2 listed expanded emItems inserts audits atMost cnt parts h0 h1 h2 h3 h4 h5 h6 h7 h8 h9 h10 =>
      cases hy
      rw [countItems_listOf hl] at h2
      cases h2
      have hmem := expandTemplates_keeps h3 d' hm ht
      have hmem2 : Y.map d' ∈ parts.map (·.1) := by
        rw [h8]; exact List.mem_append_left _ (List.mem_append_left _ hmem)
      obtain ⟨⟨y', n⟩, hp, hy'⟩ := List.mem_map.1 hmem2
      obtain ⟨i, hi⟩ := List.getElem?_of_mem hp
      simp only at hy'
      subst hy'
      refine ⟨env, kids2, [], _, n, h9 i _ n hi, ?_⟩
      intro k hk
      rw [addEmphases_get h4 k hk]
      exact hg k hk
  | @then' kids d d' _ hif ht ih =>
    obtain ⟨env, kids', ems, p, o, hb, hg⟩ := ih
    have hnref : ruleKind d ≠ .reference := fun h => by
      have := (ruleKind_reference h).2.2.2.1
      rw [hif] at this; cases this
    have hK := hb.kind_of hif hnref (K := .conditional) (by intro K'; cases K' <;> decide)
    generalize hy : Y.map d = y at hb
    cases hb with
    | prof hk' => cases hy; rw [hK] at hk'; cases hk'
    | course hk' => cases hy; rw [hK] at hk'; cases hk'
    | query hk' => cases hy; rw [hK] at hk'; cases hk'
    | count hk' => cases hy; rw [hK] at hk'; cases hk'
    | req hr =>
      cases hy
      rcases hr with ⟨hk', _⟩ | ⟨hk', _⟩ <;> rw [hK] at hk' <;> cases hk'
    | cond h0 h1 h2 h3 h4 h5 =>
      cases hy
      rw [ht] at h4; cases h4
      exact ⟨env, kids', [], _, _, h5, hg⟩
  | @else' kids d d' _ hif ht ih =>
    obtain ⟨env, kids', ems, p, o, hb, hg⟩ := ih
    have hnref : ruleKind d ≠ .reference := fun h => by
      have := (ruleKind_reference h).2.2.2.1
      rw [hif] at this; cases this
    have hK := hb.kind_of hif hnref (K := .conditional) (by intro K'; cases K' <;> decide)
    generalize hy : Y.map d = y at hb
    cases hb with
    | prof hk' => cases hy; rw [hK] at hk'; cases hk'
    | course hk' => cases hy; rw [hK] at hk'; cases hk'
    | query hk' => cases hy; rw [hK] at hk'; cases hk'
    | count hk' => cases hy; rw [hK] at hk'; cases hk'
    | req hr =>
      cases hy
      rcases hr with ⟨hk', _⟩ | ⟨hk', _⟩ <;> rw [hK] at hk' <;> cases hk'
    | cond h0 h1 h2 h3 h4 h5 h6 =>
      cases hy
      exact ⟨env, kids', [], _, _, h6 _ (Dict.opt_map ht), hg⟩
  | @inline kids d nm _ hn hr ih =>
    obtain ⟨env, kids', ems, p, o, hb, hg⟩ := ih
    have hnref : ruleKind d ≠ .reference := fun h => by
      have := (ruleKind_reference h).2.2.2.2.2.1
      rw [Dict.has_of_get hn] at this; cases this
    have hK := hb.kind_of hr hnref (K := .inline) (by intro K'; cases K' <;> decide)
    generalize hy : Y.map d = y at hb
    cases hb with
    | prof hk' => cases hy; rw [hK] at hk'; cases hk'
    | course hk' => cases hy; rw [hK] at hk'; cases hk'
    | query hk' => cases hy; rw [hK] at hk'; cases hk'
    | count hk' => cases hy; rw [hK] at hk'; cases hk'
    | cond hk' => cases hy; rw [hK] at hk'; cases hk'
    | req h0 h1 h2 h3 h4 =>
      cases hy
      rcases h0 with ⟨_, _, hbody⟩ | ⟨hk', _⟩
      · rw [hbody] at h1 h4
        exact ⟨onlyKeys_iff.1 h1, fun own y ho hy => ⟨env, _, _, h4 y own hy ho⟩⟩
      · rw [hK] at hk'; cases hk'
  | @named kids d name body _ hn he hbody honly ih =>
    obtain ⟨env, kids', ems, p, o, hb, hg⟩ := ih
    have hK : ruleKind d = .reference := by
      rcases hb.keys with h | h
      · exact h
      · have hin := h.has (Dict.has_of_get hn)
        cases hK : ruleKind d <;> rw [hK] at hin <;> revert hin <;> decide
    generalize hy : Y.map d = y at hb
    cases hb with
    | prof hk' => cases hy; rw [hK] at hk'; cases hk'
    | course hk' => cases hy; rw [hK] at hk'; cases hk'
    | query hk' => cases hy; rw [hK] at hk'; cases hk'
    | count hk' => cases hy; rw [hK] at hk'; cases hk'
    | cond hk' => cases hy; rw [hK] at hk'; cases hk'
    | req h0 h1 h2 h3 h4 =>
      cases hy
      rcases h0 with ⟨hk', _⟩ | ⟨_, hn', hb'⟩
      · rw [hK] at hk'; cases hk'
      · rw [hn] at hn'; cases hn'
        rw [hg _ he, hbody] at hb'; cases hb'
        exact ⟨onlyKeys_iff.1 h1, fun own y ho hy => ⟨env, _, _, h4 y own hy ho⟩⟩
  | reqResult _ hk hd ih =>
    obtain ⟨env, p, o, hb⟩ := ih.2 _ _ hk (Dict.opt_map hd)
    exact ⟨env, _, _, _, _, hb, fun _ _ => rfl⟩
  | @profCourse kids d d' _ hp hc ih =>
    obtain ⟨env, kids', ems, p, o, hb, hg⟩ := ih
    have hnref : ruleKind d ≠ .reference := fun h => by
      have := (ruleKind_reference h).1
      rw [hp] at this; cases this
    have hK := hb.kind_of hp hnref (K := .proficiency) (by intro K'; cases K' <;> decide)
    generalize hy : Y.map d = y at hb
    cases hb with
    | course hk' => cases hy; rw [hK] at hk'; cases hk'
    | query hk' => cases hy; rw [hK] at hk'; cases hk'
    | count hk' => cases hy; rw [hK] at hk'; cases hk'
    | cond hk' => cases hy; rw [hK] at hk'; cases hk'
    | req hr =>
      cases hy
      rcases hr with ⟨hk', _⟩ | ⟨hk', _⟩ <;> rw [hK] at hk' <;> cases hk'
    | prof h0 h1 =>
      cases hy
      unfold loadProficiency at h1
      simp only [ld_bind_ok, ld_check_ok, hc, ld_asDict] at h1
      obtain ⟨_, _, _, _, _, _, _, ⟨cd, hcd, r, hr, _⟩, _⟩ := h1
      cases hcd
      obtain ⟨_, _, _, _, _, _, _, _, _, _, h, _⟩ := loadCourse_inv hr
      exact onlyKeys_iff.1 h
  | @queryLimit kids d l d' _ hf hl hm ih =>
    obtain ⟨env, kids', ems, p, o, hb, hg⟩ := ih
    obtain ⟨r, hq⟩ := hb.query_of hf
    obtain ⟨_, _, lim, _, _, _, _, _, _, hlim, _⟩ := loadQuery_inv hq
    rw [Dict.opt_list hl] at hlim
    simp only [loadLimits, ld_bind_ok, ld_asList] at hlim
    obtain ⟨l', hl', hlim⟩ := hlim
    cases hl'
    obtain ⟨b, hb⟩ := ld_mapE_all hlim _ hm
    exact ⟨_, _, b, hb⟩
  | @queryWhere kids d s d' _ hf hw ih =>
    obtain ⟨env, kids', ems, p, o, hb, hg⟩ := ih
    obtain ⟨r, hq⟩ := hb.query_of (Dict.has_of_get hf)
    obtain ⟨src, w, lim, _, _, _, hsrc, hps, hwh, _⟩ := loadQuery_inv hq
    rw [hf] at hsrc; cases hsrc
    rw [parseSource_records hps, Dict.opt_map hw] at hwh
    simp only [loadOptFilter, ld_map_ok, loadFilter] at hwh
    obtain ⟨q, hq, _⟩ := hwh
    exact ⟨_, _, _, q, hq⟩
  | @queryAssert kids d s y _ hf ha ih =>
    obtain ⟨env, kids', ems, p, o, hb, hg⟩ := ih
    obtain ⟨r, hq⟩ := hb.query_of (Dict.has_of_get hf)
    obtain ⟨src, w, lim, as, _, _, hsrc, hps, hwh, _, _, has, _⟩ := loadQuery_inv hq
    rw [hf] at hsrc; cases hsrc
    rw [parseSource_records hps] at has
    unfold loadQueryAssertions at has
    rw [ha] at has
    simp only [ld_bind_ok] at has
    obtain ⟨a, ha, _⟩ := has
    exact ⟨_, _, _, a, ha⟩
  | @queryAll kids d s l d' _ hf ha hm ih =>
    obtain ⟨env, kids', ems, p, o, hb, hg⟩ := ih
    obtain ⟨r, hq⟩ := hb.query_of (Dict.has_of_get hf)
    obtain ⟨src, w, lim, as, _, _, hsrc, hps, hwh, _, _, has, _, hno, _⟩ := loadQuery_inv hq
    rw [hf] at hsrc; cases hsrc
    rw [parseSource_records hps] at has
    have hna : d.get? "assert" = none := by
      rw [Dict.has_of_get ha] at hno
      simpa [Dict.has] using hno
    unfold loadQueryAssertions at has
    rw [hna] at has
    simp only [ha, ld_bind_ok, ld_asList] at has
    obtain ⟨l', hl', has⟩ := has
    cases hl'
    obtain ⟨j, b, hb⟩ := ld_mapIdxE_all has _ hm
    exact ⟨_, _, _, b, hb⟩
  | @audit kids d d' _ ha hall hnr ih =>
    obtain ⟨env, kids', ems, p, o, hb, hg⟩ := ih
    obtain ⟨q, as, hq⟩ := hb.audits_of (Dict.has_of_get ha) hnr
    unfold loadAudits at hq
    rw [Dict.opt_map ha] at hq
    simp only [ld_bind_ok, ld_asDict] at hq
    obtain ⟨a, hda, hq⟩ := hq
    cases hda
    have hn : d'.get? "all" = none := by simpa [Dict.has] using hall
    rw [hn] at hq
    simp only [ld_bind_ok] at hq
    obtain ⟨r, hr, _⟩ := hq
    exact ⟨_, _, _, r, hr⟩
  | @audits kids d a l d' _ ha hnr hall hm ih =>
    obtain ⟨env, kids', ems, p, o, hb, hg⟩ := ih
    obtain ⟨q, as, hq⟩ := hb.audits_of (Dict.has_of_get ha) hnr
    unfold loadAudits at hq
    rw [Dict.opt_map ha] at hq
    simp only [ld_bind_ok, ld_asDict] at hq
    obtain ⟨a', hda, hq⟩ := hq
    cases hda
    rw [hall] at hq
    simp only [ld_bind_ok, ld_asList] at hq
    obtain ⟨l', hl', hq⟩ := hq
    cases hl'
    obtain ⟨j, b, hb⟩ := ld_mapIdxE_all hq _ hm
    exact ⟨_, _, _, b, hb⟩
  | @plain t b d _ hni hnw ih =>
    obtain ⟨x, c, p, a, h⟩ := ih
    have h' : loadAssertion x c t p (.map d) = .ok a := by
      cases b
      · exact h
      · simp only [if_true] at h
        unfold loadAnyAssertion at h
        simp only [ld_bind_ok, ld_asDict] at h
        obtain ⟨_, hd, h⟩ := h
        cases hd
        rw [hnw rfl] at h
        exact h
    unfold loadAssertion at h'
    simp only [ld_bind_ok, ld_asDict] at h'
    obtain ⟨_, hd, h'⟩ := h'
    cases hd
    rw [hni] at h'
    simp only [Bool.false_eq_true, if_false, ld_bind_ok] at h'
    obtain ⟨s, hs, _⟩ := h'
    exact ⟨_, _, _, s, hs⟩
  | @holds t b d d' _ hc ht ih =>
    obtain ⟨x, c, p, a, h⟩ := ih
    have plainIf : loadAssertion x c t p (.map d) = .ok a → d.has "$if" = true →
        ∃ q s, loadSingle x c t q (.map d') = .ok s := by
      intro h' hif
      unfold loadAssertion at h'
      simp only [ld_bind_ok, ld_asDict] at h'
      obtain ⟨_, hd, h'⟩ := h'
      cases hd
      rw [hif] at h'
      simp only [if_true, ld_bind_ok, ld_need] at h'
      obtain ⟨yif, _, cb, _, yt, hyt, s, hs, _⟩ := h'
      rw [ht] at hyt; cases hyt
      exact ⟨_, s, hs⟩
    cases b
    · rcases hc with hc | ⟨hc, _⟩
      · obtain ⟨q, s, hs⟩ := plainIf h hc
        exact ⟨_, _, q, s, hs⟩
      · cases hc
    · simp only [if_true] at h
      unfold loadAnyAssertion at h
      simp only [ld_bind_ok, ld_asDict] at h
      obtain ⟨_, hd, h⟩ := h
      cases hd
      split at h
      · simp only [ld_bind_ok, ld_need] at h
        obtain ⟨_, _, yw, _, cd, _, yt, hyt, s, hs, _⟩ := h
        rw [ht] at hyt; cases hyt
        exact ⟨_, _, _, s, hs⟩
      · rename_i hnw
        rcases hc with hc | ⟨_, hc⟩
        · obtain ⟨q, s, hs⟩ := plainIf h hc
          exact ⟨_, _, q, s, hs⟩
        · exact absurd hc hnw
  | @otherwise t b d d' _ hif hnw ht ih =>
    obtain ⟨x, c, p, a, h⟩ := ih
    have h' : loadAssertion x c t p (.map d) = .ok a := by
      cases b
      · exact h
      · simp only [if_true] at h
        unfold loadAnyAssertion at h
        simp only [ld_bind_ok, ld_asDict] at h
        obtain ⟨_, hd, h⟩ := h
        cases hd
        rw [hnw rfl] at h
        exact h
    unfold loadAssertion at h'
    simp only [ld_bind_ok, ld_asDict] at h'
    obtain ⟨_, hd, h'⟩ := h'
    cases hd
    rw [hif] at h'
    simp only [if_true, ld_bind_ok, ld_need, Dict.opt_map ht, ld_map_ok] at h'
    obtain ⟨yif, _, cb, _, yt, hyt, s, hs, f, ⟨s', hs', _⟩, _⟩ := h'
    exact ⟨_, _, _, s', hs'⟩
  | @compared t d k d' _ ha ih =>
    obtain ⟨x, c, p, a, h⟩ := ih
    obtain ⟨data, key, d2, _, _, _, _, _, _, _, _, hd, hb, _, _, _, _, _, _, _, _, _, _, _, hk, _⟩ := loadSingle_inv h
    cases hd
    rw [ha] at hb; cases hb
    exact onlyKeys_iff.1 hk
  | @assertWhere t d d' _ hw ih =>
    obtain ⟨x, c, p, a, h⟩ := ih
    obtain ⟨data, key, d2, _, _, _, _, _, w, _, _, hd, hb, _, _, _, _, _, _, _, _, hwh, _⟩ := loadSingle_inv h
    cases hd
    rw [Dict.opt_map hw] at hwh
    simp only [loadOptFilter, ld_map_ok, loadFilter] at hwh
    obtain ⟨q, hq, _⟩ := hwh
    exact ⟨_, _, _, q, hq⟩
  | @limitWhere d d' _ hw ih =>
    obtain ⟨x, c, l, h⟩ := ih
    unfold loadLimit at h
    simp only [ld_bind_ok, ld_asDict, ld_need] at h
    obtain ⟨d2, hd, v, _, _, _, y, hy, w, hwf, _⟩ := h
    cases hd
    rw [hw] at hy; cases hy
    exact ⟨_, _, _, w, hwf⟩
  | @allOf t d k l d' _ hk hl hm ih =>
    obtain ⟨x, c, n, p, h⟩ := ih
    have hkn := TextPart.Read.known (c := c) (ts := ts) (st := st) (part := .filter t) (d := d) ⟨x, c, n, p, h⟩
    cases n with
    | zero => simp [loadPred] at h
    | succ n =>
      simp only [loadPred, ld_bind_ok, ld_asDict] at h
      obtain ⟨_, hd, h⟩ := h
      cases hd
      simp only [List.mem_cons, List.not_mem_nil, or_false] at hk
      split at h
      · rename_i hand
        simp only [ld_bind_ok, ld_check_ok, ld_need, ld_asList] at h
        obtain ⟨_, hlen, y, hy, l', hl', ps, hps, _⟩ := h
        subst hl'
        have hk' : k = "$and" := by
          match d, (by simpa using hlen : d.length = 1) with
          | [(k', v)], _ =>
            have h1 := Dict.has_mem hand
            have h2 := Dict.has_mem (Dict.has_of_get hl)
            simp at h1 h2
            rw [h2, h1]
        subst hk'
        rw [hl] at hy; cases hy
        obtain ⟨b, hb⟩ := ld_mapE_all hps _ hm
        exact ⟨_, _, _, b, hb⟩
      · rename_i hnand
        have hk' : k = "$or" := by
          rcases hk with hk | hk
          · subst hk; exact absurd (Dict.has_of_get hl) hnand
          · exact hk
        subst hk'
        rw [if_pos (Dict.has_of_get hl)] at h
        simp only [ld_bind_ok, ld_check_ok, ld_need, ld_asList] at h
        obtain ⟨_, hlen, y, hy, l', hl', ps, hps, _⟩ := h
        subst hl'
        rw [hl] at hy; cases hy
        obtain ⟨b, hb⟩ := ld_mapE_all hps _ hm
        exact ⟨_, _, _, b, hb⟩
  | @notOf t d d' _ hl ih =>
    obtain ⟨x, c, n, p, h⟩ := ih
    cases n with
    | zero => simp [loadPred] at h
    | succ n =>
      simp only [loadPred, ld_bind_ok, ld_asDict] at h
      obtain ⟨_, hd, h⟩ := h
      cases hd
      have single : ∀ k, d.has k = true → d.length = 1 → k = "$not" := by
        intro k hk hlen
        match d, hlen with
        | [(k', v)], _ =>
          have h1 := Dict.has_mem hk
          have h2 := Dict.has_mem (Dict.has_of_get hl)
          simp at h1 h2
          rw [h2, h1]
      split at h
      · rename_i hand
        simp only [ld_bind_ok, ld_check_ok] at h
        obtain ⟨_, hlen, _⟩ := h
        exact absurd (single _ hand (by simpa using hlen)) (by decide)
      split at h
      · rename_i hand
        simp only [ld_bind_ok, ld_check_ok] at h
        obtain ⟨_, hlen, _⟩ := h
        exact absurd (single _ hand (by simpa using hlen)) (by decide)
      rw [if_pos (Dict.has_of_get hl)] at h
      simp only [ld_bind_ok, ld_check_ok, ld_need] at h
      obtain ⟨_, hlen, y, hy, q, hq, _⟩ := h
      rw [hl] at hy; cases hy
      exact ⟨_, _, _, q, hq⟩
  | @filterThen t d k d' _ hif hk hl ih =>
    obtain ⟨x, c, n, p, h⟩ := ih
    cases n with
    | zero => simp [loadPred] at h
    | succ n =>
      simp only [loadPred, ld_bind_ok, ld_asDict] at h
      obtain ⟨_, hd, h⟩ := h
      cases hd
      have single : ∀ k, d.has k = true → d.length = 1 → k = "$if" := by
        intro k hk hlen
        match d, hlen with
        | [(k', v)], _ =>
          have h1 := Dict.has_mem hk
          have h2 := Dict.has_mem hif
          simp at h1 h2
          rw [h2, h1]
      split at h
      · rename_i hand
        simp only [ld_bind_ok, ld_check_ok] at h
        obtain ⟨_, hlen, _⟩ := h
        exact absurd (single _ hand (by simpa using hlen)) (by decide)
      split at h
      · rename_i hand
        simp only [ld_bind_ok, ld_check_ok] at h
        obtain ⟨_, hlen, _⟩ := h
        exact absurd (single _ hand (by simpa using hlen)) (by decide)
      split at h
      · rename_i hand
        simp only [ld_bind_ok, ld_check_ok] at h
        obtain ⟨_, hlen, _⟩ := h
        exact absurd (single _ hand (by simpa using hlen)) (by decide)
      simp only [ld_bind_ok, ld_need] at h
      obtain ⟨yi, _, b, _, yt, hyt, q, hq, e, he, _⟩ := h
      simp only [List.mem_cons, List.not_mem_nil, or_false] at hk
      rcases hk with hk | hk
      · subst hk
        rw [hl] at hyt; cases hyt
        exact ⟨_, _, _, q, hq⟩
      · subst hk
        rw [Dict.opt_map hl] at he
        simp only [ld_map_ok] at he
        obtain ⟨q', hq', _⟩ := he
        exact ⟨_, _, _, q', hq'⟩

/-! ### C47 -/

/-- **C47.**  If an area can be loaded, no dictionary of its text (nor of one of its emphases, declared by the
student or not) has a key that its kind does not know: the area itself, its rules, requirements, limits, the
comparisons of its assertions, and its filters, wherever they are read.  Missing (refuted below): the dictionary
around the comparison of an assertion, the value of a field in a filter, filters with `$if`, further keys beside
`requirement`, and requirements no rule names. -/
theorem C47_unknown_keys_are_refused_partial (c : Constants) (ts : List (String × TemplateCourse)) (st : Student)
    (es : List Exc) (all : Bool) (spec : Dict) (a : Area) (h : loadArea c ts st es all spec = .ok a)
    (part : TextPart) (d : Dict) (hd : Written spec part d) : part.Known d := by
  unfold loadArea at h
  simp only [ld_bind_ok] at h
  obtain ⟨em, hem, u, hu, h⟩ := h
  exact (Written.read ⟨es, all, false, em, _, a, hem, hu, h⟩ hd).known

/-- Non-trivial case: the sample area can be loaded, and its text has a query with a filter and a comparison, and
an emphasis with a course rule. -/
example : (loadArea {} [] sampleStudent [] false sampleText).toOption.isSome = true ∧
    Written sampleText (.filter .course) [("subject", .map [("$eq", .str "CSCI")])] ∧
    Written sampleText .comparison [("$gte", .int 2)] ∧
    ∃ kids, Written sampleText (.rule kids) [("course", .str "MATH 252")] := by
  have hel : ∃ kids, Written sampleText (.rule kids) [("from", .str "courses"),
        ("where", .map [("subject", .map [("$eq", .str "CSCI")])]),
        ("assert", .map [("count(courses)", .map [("$gte", .int 2)])])] := by
    refine ⟨_, .reqResult (.named (.item (.result .top rfl rfl) rfl rfl rfl (.tail _ (.head _)) rfl) rfl ?_ rfl ?_) rfl rfl⟩
    · intro e h
      have := congrArg (fun t => (t.toList.drop 1).head?) h
      simp [String.toList_append] at this
    · decide
  obtain ⟨kids, hel⟩ := hel
  refine ⟨by decide +kernel, .queryWhere hel rfl rfl, .compared (.plain (.queryAssert hel rfl rfl) rfl (fun _ => rfl)) rfl, ?_⟩
  refine ⟨_, .item (.reqResult (.named (.item (.result (.emphasis .top rfl (.head _)) rfl rfl) rfl rfl rfl (.head _) rfl) rfl ?_ rfl ?_)
    rfl rfl) rfl rfl rfl (.head _) rfl⟩
  · intro e h
    have := congrArg (fun t => t.toList.head?) h
    simp [String.toList_append] at this
  · decide

/-- A misspelt key is refused: the sample with `wher` for `where`. -/
example : (loadArea {} [] sampleStudent [] false
    [("result", .map [("from", .str "courses"), ("wher", .map [("subject", .map [("$eq", .str "CSCI")])]),
      ("assert", .map [("count(courses)", .map [("$gte", .int 2)])])])]).toOption.isSome = false := by
  decide +kernel

/-- What C47 leaves out: beside the comparison of an assertion, every key but five is ignored, whatever its value.
So a misspelt `where` there turns the assertion into one about all courses. -/
theorem C47_assertion_refuted (x : Ctx) (c : Constants) (t : DataType) (p : Path) (d : Dict) (k : String) (v : Y)
    (hk : k ∉ ["where", "message", "label", "assert", "$if", "$when", "$then", "$else"]) :
    loadAnyAssertion x c t p (.map (d ++ [(k, v)])) = loadAnyAssertion x c t p (.map d) := by
  have hg : ∀ q ∈ ["where", "message", "label", "assert", "$if", "$when", "$then", "$else"],
      Dict.get? (d ++ [(k, v)]) q = Dict.get? d q := by
    intro q hq
    have : ¬ (k = q) := fun h => hk (h ▸ hq)
    rw [Dict.get_append]
    simp [Dict.get?, this]
  have e0 : ∀ q : String, (hq : q ∈ ["where", "message", "label", "assert", "$if", "$when", "$then", "$else"]) →
      Dict.need (d ++ [(k, v)]) q = Dict.need d q ∧ Dict.opt (d ++ [(k, v)]) q = Dict.opt d q ∧
        Dict.text (d ++ [(k, v)]) q = Dict.text d q ∧ Dict.has (d ++ [(k, v)]) q = Dict.has d q := by
    intro q hq
    simp only [Dict.need, Dict.opt, Dict.text, Dict.has, hg q hq, and_self]
  have s1 : loadSingle x c t p (.map (d ++ [(k, v)])) = loadSingle x c t p (.map d) := by
    unfold loadSingle
    simp only [Y.asDict, bind, Except.bind]
    rw [(e0 "where" (by decide)).2.1, (e0 "message" (by decide)).2.2.1, (e0 "label" (by decide)).2.2.1,
      (e0 "assert" (by decide)).1]
  have s2 : loadAssertion x c t p (.map (d ++ [(k, v)])) = loadAssertion x c t p (.map d) := by
    unfold loadAssertion
    rw [s1]
    simp only [Y.asDict, bind, Except.bind]
    rw [(e0 "$if" (by decide)).2.2.2, (e0 "$if" (by decide)).1, (e0 "$then" (by decide)).1, (e0 "$else" (by decide)).2.1]
  unfold loadAnyAssertion
  rw [s2]
  simp only [Y.asDict, bind, Except.bind]
  rw [(e0 "$when" (by decide)).2.2.2, (e0 "$when" (by decide)).1, (e0 "$then" (by decide)).1]

/-- The same in an area: an assertion with `wheree` can be loaded. -/
example : (loadArea {} [] sampleStudent [] false
    [("result", .map [("from", .str "courses"), ("all", .list [.map [
      ("wheree", .map [("subject", .map [("$eq", .str "CSCI")])]),
      ("assert", .map [("count(courses)", .map [("$gte", .int 2)])])]])])]).toOption.isSome = true := by
  decide +kernel

/-- What C47 leaves out: beside an operator in a filter, every key but `$during_covid` is ignored. -/
theorem C47_field_value_refuted (c : Constants) (t : DataType) (key : String) (d : Dict) (k : String) (v : Y)
    (hk : k ∉ ["$lt", "$lte", "$gt", "$gte", "$eq", "$neq", "$in", "$nin", "$during_covid"]) :
    loadLeaf c t key (.map (d ++ [(k, v)])) = loadLeaf c t key (.map d) := by
  have h1 : Dict.get? (d ++ [(k, v)]) "$during_covid" = Dict.get? d "$during_covid" := by
    have : ¬ (k = "$during_covid") := by rintro rfl; exact hk (by decide)
    rw [Dict.get_append]
    simp [Dict.get?, this]
  have h2 : parseOperator k = none := by
    simp only [List.mem_cons, List.not_mem_nil, or_false, not_or] at hk
    obtain ⟨a1, a2, a3, a4, a5, a6, a7, a8, _⟩ := hk
    simp [parseOperator, a1, a2, a3, a4, a5, a6, a7, a8]
  have h3 : theOperator (d ++ [(k, v)]) = theOperator d := by
    simp [theOperator, List.filterMap_append, h2]
  simp only [loadLeaf, Y.asDict, bind, Except.bind, h1, h3]

/-- What C47 leaves out: a filter with `$if` ignores every key but `$then` and `$else`. -/
theorem C47_filter_if_refuted (x : Ctx) (c : Constants) (t : DataType) (n : Nat) (d : Dict) (k : String) (v : Y)
    (hif : d.has "$if" = true) (hk : k ∉ ["$and", "$or", "$not", "$if", "$then", "$else"]) :
    loadPred x c t n (.map (d ++ [(k, v)])) = loadPred x c t n (.map d) ∨ d.has "$and" = true ∨ d.has "$or" = true ∨
      d.has "$not" = true := by
  by_cases h1 : d.has "$and" = true
  · exact Or.inr (Or.inl h1)
  by_cases h2 : d.has "$or" = true
  · exact Or.inr (Or.inr (Or.inl h2))
  by_cases h3 : d.has "$not" = true
  · exact Or.inr (Or.inr (Or.inr h3))
  refine Or.inl ?_
  have hg : ∀ q ∈ ["$and", "$or", "$not", "$if", "$then", "$else"], Dict.get? (d ++ [(k, v)]) q = Dict.get? d q := by
    intro q hq
    have : ¬ (k = q) := fun h => hk (h ▸ hq)
    rw [Dict.get_append]
    simp [Dict.get?, this]
  have hh : ∀ q ∈ ["$and", "$or", "$not", "$if", "$then", "$else"], Dict.has (d ++ [(k, v)]) q = Dict.has d q := by
    intro q hq
    simp only [Dict.has, hg q hq]
  cases n with
  | zero => rfl
  | succ n =>
    have e1 := hh "$and" (by decide)
    have e2 := hh "$or" (by decide)
    have e3 := hh "$not" (by decide)
    have e4 := hh "$if" (by decide)
    have g1 := hg "$if" (by decide)
    have g2 := hg "$then" (by decide)
    have g3 := hg "$else" (by decide)
    simp only [loadPred, Y.asDict, bind, Except.bind, e1, e2, e3, e4, h1, h2, h3, hif, if_true, if_false, Dict.need, Dict.opt, g1,
      g2, g3, Bool.false_eq_true]

/-- What C47 leaves out: beside `requirement`, keys that do not make it another kind of rule are ignored. -/
theorem C47_reference_refuted (env : Env) (n : Nat) (kids : Dict) (ems : List Dict) (p : Path) (name k : String) (v : Y)
    (hk : k ∉ ["requirement", "proficiency", "course", "clbid", "crsid", "ap", "from", "$if", "count", "of", "all", "any",
      "both", "either", "name"]) :
    loadRule env n kids ems p (.map [("requirement", .str name), (k, v)]) =
      loadRule env n kids ems p (.map [("requirement", .str name)]) := by
  cases n with
  | zero => rfl
  | succ n =>
    simp only [List.mem_cons, List.not_mem_nil, or_false, not_or] at hk
    obtain ⟨a1, a2, a3, a4, a5, a6, a7, a8, a9, a10, a11, a12, a13, a14, a15⟩ := hk
    rw [loadRule_kind, loadRule_kind]
    have e1 : isCount [("requirement", .str name), (k, v)] = isCount [("requirement", .str name)] := by
      simp [isCount, Dict.has, Dict.get?, a9, a10, a11, a12, a13, a14]
    have e2 : ruleKind [("requirement", .str name), (k, v)] = ruleKind [("requirement", .str name)] := by
      unfold ruleKind
      rw [e1]
      simp [Dict.has, Dict.get?, a2, a3, a4, a5, a6, a7, a8, a15]
    have e3 : ruleKind [("requirement", .str name)] = .reference := kind_reference name
    rw [e1, e2, e3]
    rfl

/-- What C47 leaves out: `waived` is a known key of a course rule, and yet it changes nothing. -/
theorem C47_waived_refuted (d : Dict) (p : Path) (v : Y) :
    loadCourseRule (d ++ [("waived", v)]) p = loadCourseRule d p := by
  have hg : ∀ q, q ≠ "waived" → Dict.get? (d ++ [("waived", v)]) q = Dict.get? d q := by
    intro q hq
    rw [Dict.get_append]
    simp [Dict.get?, hq.symm]
  have ho : onlyKeys courseRuleKeys (d ++ [("waived", v)]) = onlyKeys courseRuleKeys d := by
    simp [onlyKeys, courseRuleKeys]
  have g1 := hg "course" (by decide)
  have g2 := hg "ap" (by decide)
  have g3 := hg "name" (by decide)
  have g4 := hg "institution" (by decide)
  have g5 := hg "grade" (by decide)
  have g6 := hg "grade_option" (by decide)
  have g7 := hg "clbid" (by decide)
  have g8 := hg "crsid" (by decide)
  have g9 := hg "inserted" (by decide)
  have g10 := hg "auto_waived" (by decide)
  have g11 := hg "section" (by decide)
  have g12 := hg "sub_type" (by decide)
  have g13 := hg "year" (by decide)
  have g14 := hg "term" (by decide)
  have g15 := hg "from_claimed" (by decide)
  have g16 := hg "allow_claimed" (by decide)
  have g17 := hg "optional" (by decide)
  simp only [loadCourseRule, Dict.text, Dict.flag, Dict.number, Dict.opt, g1, g2, g3, g4, g5, g6, g7, g8, g9, g10, g11,
    g12, g13, g14, g15, g16, g17, ho]

/-- What C47 leaves out: of a rule with two lists only one is read, the number beside `all` is not either, and
neither is a requirement no rule names. -/
theorem C47_unread_parts_refuted :
    (loadArea {} [] sampleStudent [] false
      [("result", .map [("all", .list [.map [("course", .str "CSCI 121")]]), ("count", .int 7),
          ("any", .list [.map [("curse", .str "CSCI 251")]])]),
       ("requirements", .map [("Core", .map [("reslt", .null)])])]).toOption.map
        (fun a => (a.result.allPaths)) =
      some [["$", ".count"], ["$", ".count", "[0]", "*CSCI 121"]] := by
  decide +kernel

end Dp
