import Verif.Props.LoadTree

/-
The depth given to the loading functions is always enough: they never stop for lack of it.
-/
namespace Dp

/-! ### Helper lemmas -/

/-- not stopped by the depth -/
def Sure {α : Type} (x : Except Err α) : Prop := x ≠ .error .outOfFuel

theorem sure_ok {α : Type} (a : α) : Sure (.ok a : Except Err α) := by simp [Sure]

theorem sure_err {α : Type} {e : Err} (h : e ≠ .outOfFuel) : Sure (.error e : Except Err α) := by
  simpa [Sure] using h

theorem sure_bind {α β : Type} {x : Except Err α} {f : α → Except Err β} (hx : Sure x)
    (hf : ∀ a, x = .ok a → Sure (f a)) : Sure (x >>= f) := by
  cases x with
  | error e => simpa [Sure, bind, Except.bind] using hx
  | ok a => exact hf a rfl

theorem sure_map {α β : Type} {x : Except Err α} {f : α → β} (hx : Sure x) : Sure (x.map f) := by
  cases x with
  | error e => simpa [Sure, Except.map] using hx
  | ok a => simp [Sure, Except.map]

theorem sure_check {b : Bool} {e : Err} (h : e ≠ .outOfFuel) : Sure (check b e) := by
  unfold check; split
  · exact sure_ok _
  · exact sure_err h

theorem sure_text (d : Dict) (k : String) : Sure (d.text k) := by
  unfold Dict.text; split <;> simp [Sure]
theorem sure_number (d : Dict) (k : String) : Sure (d.number k) := by
  unfold Dict.number; split <;> simp [Sure]
theorem sure_flag (d : Dict) (k : String) (b : Bool) : Sure (d.flag k b) := by
  unfold Dict.flag; split <;> simp [Sure]
theorem sure_dict (d : Dict) (k : String) : Sure (d.dict k) := by
  unfold Dict.dict; split <;> simp [Sure]
theorem sure_need (d : Dict) (k : String) : Sure (d.need k) := by
  unfold Dict.need; split <;> simp [Sure]
theorem sure_asDict (y : Y) : Sure y.asDict := by unfold Y.asDict; split <;> simp [Sure]
theorem sure_asList (y : Y) : Sure y.asList := by unfold Y.asList; split <;> simp [Sure]
theorem sure_asText (y : Y) : Sure y.asText := by unfold Y.asText; split <;> simp [Sure]
theorem sure_asDecimal (y : Y) : Sure y.asDecimal := by
  unfold Y.asDecimal; split
  · simp [Sure]
  · split <;> simp [Sure]
  · simp [Sure]

theorem sure_mapE {α β : Type} {f : α → Except Err β} : ∀ {l : List α}, (∀ a ∈ l, Sure (f a)) → Sure (mapE f l) := by
  intro l
  induction l with
  | nil => intro _; exact sure_ok _
  | cons a as ih =>
    intro h
    exact sure_bind (h a List.mem_cons_self) (fun _ _ => sure_bind (ih (fun b hb => h b (List.mem_cons_of_mem _ hb)))
      (fun _ _ => sure_ok _))

theorem sure_mapIdxE {α β : Type} {f : Nat → α → Except Err β} : ∀ {l : List α} {i : Nat},
    (∀ i, ∀ a ∈ l, Sure (f i a)) → Sure (mapIdxE f i l) := by
  intro l
  induction l with
  | nil => intro i _; exact sure_ok _
  | cons a as ih =>
    intro i h
    exact sure_bind (h i a List.mem_cons_self) (fun _ _ => sure_bind (ih (fun i b hb => h i b (List.mem_cons_of_mem _ hb)))
      (fun _ _ => sure_ok _))

theorem sure_exam (m : Proficiencies) (s : String) : Sure (m.passedExam s) := by
  unfold Proficiencies.passedExam
  split
  · rename_i e h
    refine sure_err ?_
    rintro rfl
    unfold Proficiencies.status Proficiencies.lookup at h
    split at h
    · rename_i heq
      cases h
      repeat' split at heq
      all_goals cases heq
    · split at h <;> cases h
  · exact sure_ok _

theorem sure_fact (x : Ctx) (k s : String) : Sure (x.fact k s) := by
  unfold Ctx.fact
  repeat' split
  all_goals first
    | exact sure_ok _
    | exact sure_err (by decide)
    | exact sure_exam _ _

mutual
theorem sure_cond (x : Ctx) : (y : Y) → Sure (loadCond x y)
  | .map [(k, .list l)] => by
    rw [loadCond]
    repeat' split
    · exact sure_bind (sure_conds x l) (fun _ _ => sure_ok _)
    · exact sure_bind (sure_conds x l) (fun _ _ => sure_ok _)
    · exact sure_err (by decide)
  | .map [(k, .str s)] => by rw [loadCond]; exact sure_fact x k s
  | .map [(k, .map d)] => by
    have := sure_cond x (.map d)
    rw [loadCond]
    · split
      · exact sure_bind this (fun _ _ => sure_ok _)
      · exact sure_err (by decide)
    all_goals simp
  | .map [(k, .null)] => by
    rw [loadCond]
    · split
      · exact sure_bind (by rw [loadCond] <;> simp [Sure]) (fun _ _ => sure_ok _)
      · exact sure_err (by decide)
    all_goals simp
  | .map [(k, .bool b)] => by
    rw [loadCond]
    · split
      · exact sure_bind (by rw [loadCond] <;> simp [Sure]) (fun _ _ => sure_ok _)
      · exact sure_err (by decide)
    all_goals simp
  | .map [(k, .int b)] => by
    rw [loadCond]
    · split
      · exact sure_bind (by rw [loadCond] <;> simp [Sure]) (fun _ _ => sure_ok _)
      · exact sure_err (by decide)
    all_goals simp
  | .map [(k, .float b)] => by
    rw [loadCond]
    · split
      · exact sure_bind (by rw [loadCond] <;> simp [Sure]) (fun _ _ => sure_ok _)
      · exact sure_err (by decide)
    all_goals simp
  | .map [] => by rw [loadCond] <;> simp [Sure]
  | .map (_ :: _ :: _) => by rw [loadCond] <;> simp [Sure]
  | .null => by rw [loadCond] <;> simp [Sure]
  | .bool _ => by rw [loadCond] <;> simp [Sure]
  | .int _ => by rw [loadCond] <;> simp [Sure]
  | .float _ => by rw [loadCond] <;> simp [Sure]
  | .str _ => by rw [loadCond] <;> simp [Sure]
  | .list _ => by rw [loadCond] <;> simp [Sure]
theorem sure_conds (x : Ctx) : (l : List Y) → Sure (loadConds x l)
  | [] => by rw [loadConds]; exact sure_ok _
  | y :: ys => by
    rw [loadConds]
    exact sure_bind (sure_cond x y) (fun _ _ => sure_bind (sure_conds x ys) (fun _ _ => sure_ok _))
end

mutual
theorem sure_dyn : (y : Y) → Sure (loadDyn y)
  | .map [(k, .list l)] => by
    rw [loadDyn]
    repeat' split
    · exact sure_bind (sure_dyns l) (fun _ _ => sure_ok _)
    · exact sure_bind (sure_dyns l) (fun _ _ => sure_ok _)
    · exact sure_err (by decide)
  | .map [(k, .str s)] => by
    rw [loadDyn]
    repeat' split
    · exact sure_ok _
    · exact sure_ok _
    · exact sure_err (by decide)
  | .map [(_, .map _)] => by rw [loadDyn] <;> simp [Sure]
  | .map [(_, .null)] => by rw [loadDyn] <;> simp [Sure]
  | .map [(_, .bool _)] => by rw [loadDyn] <;> simp [Sure]
  | .map [(_, .int _)] => by rw [loadDyn] <;> simp [Sure]
  | .map [(_, .float _)] => by rw [loadDyn] <;> simp [Sure]
  | .map [] => by rw [loadDyn] <;> simp [Sure]
  | .map (_ :: _ :: _) => by rw [loadDyn] <;> simp [Sure]
  | .null => by rw [loadDyn] <;> simp [Sure]
  | .bool _ => by rw [loadDyn] <;> simp [Sure]
  | .int _ => by rw [loadDyn] <;> simp [Sure]
  | .float _ => by rw [loadDyn] <;> simp [Sure]
  | .str _ => by rw [loadDyn] <;> simp [Sure]
  | .list _ => by rw [loadDyn] <;> simp [Sure]
theorem sure_dyns : (l : List Y) → Sure (loadDyns l)
  | [] => by rw [loadDyns]; exact sure_ok _
  | y :: ys => by
    rw [loadDyns]
    exact sure_bind (sure_dyn y) (fun _ _ => sure_bind (sure_dyns ys) (fun _ _ => sure_ok _))
end

/-- steps through a sequence whose parts are known not to be stopped -/
macro "sure_steps" : tactic => `(tactic| repeat' (first
  | exact sure_ok _ | exact sure_err (by decide) | exact sure_text _ _ | exact sure_number _ _ | exact sure_flag _ _ _
  | exact sure_dict _ _ | exact sure_need _ _ | exact sure_asDict _ | exact sure_asList _ | exact sure_asText _
  | exact sure_asDecimal _ | exact sure_check (by decide) | exact sure_cond _ _ | exact sure_dyn _ | assumption
  | (with_reducible apply sure_bind) | (with_reducible apply sure_map) | (with_reducible intro _ _) | split | dsimp only))

theorem sure_getByName (c : Constants) (s : String) : Sure (c.getByName s) := by
  unfold Constants.getByName
  sure_steps

theorem sure_operator (d : Dict) : Sure (theOperator d) := by
  unfold theOperator; sure_steps

theorem sure_element (c : Constants) (y : Y) : Sure (loadElement c y) := by
  have := sure_getByName c
  unfold loadElement; sure_steps
  exact this _

theorem sure_raw (c : Constants) (y : Y) : Sure (loadRawValue c y) := by
  have := sure_getByName c
  unfold loadRawValue; sure_steps
  · exact this _
  · exact sure_mapE (fun a _ => sure_element c a)

theorem sure_gradeElement (s : Sc) : Sure (gradeElement s) := by
  unfold gradeElement; sure_steps

theorem sure_process (k : String) (v : Val) : Sure (processValue k v) := by
  unfold processValue; sure_steps
  · exact sure_mapE (fun a _ => sure_gradeElement a)
  · exact sure_gradeElement _

theorem sure_value (c : Constants) (k : String) (y : Y) : Sure (loadValue c k y) :=
  sure_bind (sure_raw c y) (fun _ _ => sure_process k _)

theorem sure_leaf (c : Constants) (m : DataType) (k : String) (y : Y) : Sure (loadLeaf c m k y) := by
  have h1 := sure_operator
  have h2 := sure_value c
  have h3 : Sure (filterKeys m) := by unfold filterKeys; sure_steps
  have h4 : ∀ op v, Sure (valueOk op v) := by intro op v; unfold valueOk; sure_steps
  unfold loadLeaf
  sure_steps
  all_goals first | exact h1 _ | exact h2 _ _ | exact h4 _ _

theorem Y.size_entry {d : Dict} {k : String} {y : Y} (h : d.get? k = some y) : y.size < (Y.map d).size := by
  have := Dict.size_get h
  simp only [Y.size]; omega

theorem Dict.opt_get {d : Dict} {k : String} {y : Y} (h : d.opt k = some y) : d.get? k = some y := by
  unfold Dict.opt at h
  split at h
  · cases h
  · exact h

theorem sure_pred (x : Ctx) (c : Constants) (m : DataType) : ∀ n y, Y.size y ≤ n → Sure (loadPred x c m n y) := by
  intro n
  induction n with
  | zero => intro y h; have := Y.size_pos y; omega
  | succ n ih =>
    intro y hy
    rw [loadPred]
    refine sure_bind (sure_asDict _) (fun d hd => ?_)
    rw [ld_asDict] at hd
    subst hd
    have hlist : ∀ k l, d.get? k = some (.list l) → Sure (mapE (loadPred x c m n) l) := by
      intro k l hk
      refine sure_mapE (fun a ha => ih a ?_)
      have := Y.size_entry hk
      have := Y.sizeList_mem ha
      simp only [Y.size] at *
      omega
    have hone : ∀ k y, d.get? k = some y → Sure (loadPred x c m n y) := by
      intro k y hk
      refine ih y ?_
      have := Y.size_entry hk
      omega
    split
    · refine sure_bind (sure_check (by decide)) (fun _ _ => sure_bind (sure_need _ _) (fun v hv => sure_bind (sure_asList _) (fun l hl => ?_)))
      rw [ld_need] at hv; rw [ld_asList] at hl; subst hl
      exact sure_bind (hlist _ _ hv) (fun _ _ => sure_bind (sure_check (by decide)) (fun _ _ => sure_ok _))
    · split
      · refine sure_bind (sure_check (by decide)) (fun _ _ => sure_bind (sure_need _ _) (fun v hv => sure_bind (sure_asList _) (fun l hl => ?_)))
        rw [ld_need] at hv; rw [ld_asList] at hl; subst hl
        exact sure_bind (hlist _ _ hv) (fun _ _ => sure_bind (sure_check (by decide)) (fun _ _ => sure_ok _))
      · split
        · refine sure_bind (sure_check (by decide)) (fun _ _ => sure_bind (sure_need _ _) (fun v hv => ?_))
          rw [ld_need] at hv
          exact sure_bind (hone _ _ hv) (fun _ _ => sure_ok _)
        · split
          · refine sure_bind (sure_need _ _) (fun _ _ => sure_bind (sure_cond _ _) (fun _ _ => sure_bind (sure_need _ _) (fun v hv => ?_)))
            rw [ld_need] at hv
            refine sure_bind (hone _ _ hv) (fun _ _ => ?_)
            refine sure_bind ?_ (fun _ _ => sure_ok _)
            split
            · exact sure_ok _
            · rename_i ye he; exact sure_map (hone _ _ (Dict.opt_get he))
          · refine sure_bind (sure_mapE (fun a _ => sure_leaf c m a.1 a.2)) (fun _ _ => ?_)
            split <;> exact sure_ok _

theorem sure_filter (x : Ctx) (c : Constants) (m : DataType) (y : Y) : Sure (loadFilter x c m y) :=
  sure_pred x c m _ _ (Nat.le_refl _)

theorem sure_optFilter (x : Ctx) (c : Constants) (m : DataType) (o : Option Y) : Sure (loadOptFilter x c m o) := by
  unfold loadOptFilter
  split
  · exact sure_ok _
  · exact sure_map (sure_filter _ _ _ _)

theorem sure_limit (x : Ctx) (c : Constants) (y : Y) : Sure (loadLimit x c y) := by
  have h1 := sure_filter x c
  have h2 : ∀ d, Sure (atMostValue d) := by intro d; unfold atMostValue; split <;> simp [Sure]
  have h3 : ∀ y, Sure (loadAmount y) := by intro y; unfold loadAmount; sure_steps
  unfold loadLimit
  sure_steps
  all_goals first | exact h1 _ _ | exact h2 _ | exact h3 _

theorem sure_limits (x : Ctx) (c : Constants) (y : Option Y) : Sure (loadLimits x c y) := by
  unfold loadLimits
  sure_steps
  exact sure_mapE (fun a _ => sure_limit x c a)

theorem sure_changes (x : Ctx) : ∀ (l : List Y) (q : Rat), Sure (applyChanges x q l) := by
  intro l
  induction l with
  | nil => intro q; exact sure_ok _
  | cons y ys ih =>
    intro q
    rw [applyChanges]
    refine sure_bind ?_ (fun _ _ => ih _)
    unfold applyChange
    sure_steps

theorem sure_expected (c : Constants) (y : Y) : Sure (loadExpected c y) := by
  have := sure_getByName c
  unfold loadExpected; sure_steps
  exact this _

theorem sure_single (x : Ctx) (c : Constants) (t : DataType) (p : Path) (y : Y) : Sure (loadSingle x c t p y) := by
  have h1 := sure_optFilter x c t
  have h2 := sure_operator
  have h3 := sure_expected c
  have h4 := sure_changes x
  have h5 : ∀ d, Sure (changesOf d) := by intro d; unfold changesOf; sure_steps
  unfold loadSingle
  sure_steps
  all_goals first | exact h1 _ | exact h2 _ | exact h3 _ | exact h4 _ _ | exact h5 _

theorem sure_assertion (x : Ctx) (c : Constants) (t : DataType) (p : Path) (y : Y) : Sure (loadAssertion x c t p y) := by
  have h1 := sure_single x c t
  unfold loadAssertion
  sure_steps
  all_goals exact h1 _ _

theorem sure_anyAssertion (x : Ctx) (c : Constants) (t : DataType) (p : Path) (y : Y) : Sure (loadAnyAssertion x c t p y) := by
  have h1 := sure_single x c t
  have h2 := sure_assertion x c t
  unfold loadAnyAssertion
  sure_steps
  all_goals first | exact h1 _ _ | exact h2 _ _

theorem sure_course (d : Dict) (p : Path) : Sure (loadCourseRule d p) := by
  have h1 : ∀ a b c d e, Sure (courseLabel a b c d e) := by intro a b c d e; unfold courseLabel; sure_steps
  have h2 : ∀ a b, Sure (yearAndTerm a b) := by intro a b; unfold yearAndTerm; sure_steps
  have h3 : ∀ a, Sure (loadMinGrade a) := by intro a; unfold loadMinGrade; sure_steps
  have h4 : ∀ a, Sure (loadGradeOption a) := by intro a; unfold loadGradeOption; sure_steps
  unfold loadCourseRule
  sure_steps
  all_goals first | exact h1 _ _ _ _ _ | exact h2 _ _ | exact h3 _ | exact h4 _

theorem sure_proficiency (d : Dict) (p : Path) : Sure (loadProficiency d p) := by
  have h1 := sure_course
  unfold loadProficiency
  sure_steps
  all_goals exact h1 _ _

theorem sure_query (env : Env) (d : Dict) (p : Path) : Sure (loadQuery env d p) := by
  have h1 := sure_optFilter env.ctx env.c
  have h2 := sure_limits env.ctx env.c
  have h3 : ∀ t p d, Sure (loadQueryAssertions env t p d) := by
    intro t p d
    unfold loadQueryAssertions
    sure_steps
    · exact sure_anyAssertion _ _ _ _ _
    · exact sure_mapIdxE (fun _ _ _ => sure_anyAssertion _ _ _ _ _)
  unfold loadQuery
  sure_steps
  all_goals first | exact h1 _ _ | exact h2 _ | exact h3 _ _ _

theorem sure_audits (env : Env) (p : Path) (d : Dict) : Sure (loadAudits env p d) := by
  unfold loadAudits
  sure_steps
  · exact sure_mapIdxE (fun _ _ _ => sure_assertion _ _ _ _ _)
  · exact sure_assertion _ _ _ _ _

theorem sure_template (t : TemplateCourse) : Sure t.asRule := by
  unfold TemplateCourse.asRule; sure_steps

theorem sure_expand (ts : List (String × TemplateCourse)) : ∀ l, Sure (expandTemplates ts l) := by
  intro l
  induction l with
  | nil => exact sure_ok _
  | cons y ys ih =>
    rw [expandTemplates]
    sure_steps
    exact sure_mapE (fun a _ => sure_template _)

theorem sure_inserted (x : Ctx) : ∀ l, Sure (insertedItems x l) := by
  intro l
  induction l with
  | nil => exact sure_ok _
  | cons e es ih =>
    rw [insertedItems]
    split
    · refine sure_bind ?_ (fun _ _ => sure_bind ih (fun _ _ => sure_ok _))
      unfold Ctx.forcedCourseByClbid
      repeat' split
      all_goals first | exact sure_ok _ | exact sure_err (by decide)
    · exact ih

theorem sure_emphasisParts (e : Dict) : Sure (emphasisParts e) := by
  have h1 : ∀ l, Sure (namedRules l) := by
    intro l
    induction l with
    | nil => exact sure_ok _
    | cons y ys ih => rw [namedRules]; sure_steps
  have h2 : ∀ a b, Sure (flattens a b) := by
    intro a b
    unfold flattens
    sure_steps
    exact sure_mapE (fun _ _ => sure_asDict _)
  unfold emphasisParts
  sure_steps
  all_goals first | exact h1 _ | exact h2 _ _

theorem sure_addEmphases : ∀ (l : List Dict) (kids : Dict), Sure (addEmphases kids l) := by
  intro l
  induction l with
  | nil => intro kids; exact sure_ok _
  | cons e es ih =>
    intro kids
    rw [addEmphases]
    refine sure_bind (sure_emphasisParts e) (fun r _ => ?_)
    exact sure_bind (ih _) (fun _ _ => sure_ok _)

theorem emphasisParts_size {e : Dict} {parts : List (String × Y)} {name : String}
    (h : emphasisParts e = .ok (parts, name)) : Y.sizeDict parts ≤ Y.sizeDict e + 1 := by
  have hren : ∀ (f : String → String) (l : Dict), Y.sizeDict (l.map (fun r => (f r.1, r.2))) = Y.sizeDict l := by
    intro f l
    induction l with
    | nil => rfl
    | cons a as ih => simp only [List.map_cons, Y.sizeDict, ih]
  have hnamed : ∀ (l : List Y) (r : Dict), namedRules l = .ok r → Y.sizeDict r = Y.sizeList l := by
    intro l
    induction l with
    | nil => intro r h; simp [namedRules] at h; subst h; rfl
    | cons y ys ih =>
      intro r h
      simp only [namedRules, ld_bind_ok] at h
      obtain ⟨_, _, _, _, _, _, rest, hr, h⟩ := h
      cases h
      simp only [Y.sizeDict, Y.sizeList, ih _ hr]
  unfold emphasisParts at h
  simp only [ld_bind_ok, ld_need, ld_asDict, ld_asText] at h
  obtain ⟨y0, _, nm, _, y1, hres, result, hr1, flat, hflat, h⟩ := h
  subst hr1
  split at h
  · simp only [ld_bind_ok] at h
    obtain ⟨reqs, hreqs, h⟩ := h
    cases h
    rw [hren (fun s => "Emphasis: " ++ name ++ " → " ++ s)]
    split at hreqs
    · rename_i v hv
      rw [ld_asDict] at hreqs
      subst hreqs
      have := Dict.size_get hv
      simp only [Y.size] at this
      omega
    · simp only [ld_bind_ok, ld_need, ld_asList] at hreqs
      obtain ⟨_, hall, l, rfl, hl⟩ := hreqs
      rw [hnamed _ _ hl]
      have h1 := Dict.size_get hres
      have h2 := Dict.size_get hall
      simp only [Y.size] at h1 h2
      omega
  · cases h
    simp only [Y.sizeDict, Y.size]
    omega

theorem addEmphases_size : ∀ {ems : List Dict} {kids kids' : Dict} {items : List Y},
    addEmphases kids ems = .ok (kids', items) →
    Y.sizeDict kids' ≤ Y.sizeDict kids + (ems.map (fun e => Y.sizeDict e + 1)).sum := by
  intro ems
  induction ems with
  | nil => intro kids kids' items h; simp [addEmphases] at h; simp [h.1]
  | cons e es ih =>
    intro kids kids' items h
    simp only [addEmphases, ld_bind_ok] at h
    obtain ⟨⟨parts, name⟩, hp, ⟨final, rest⟩, hr, h⟩ := h
    cases h
    have h1 := ih hr
    have h2 := emphasisParts_size hp
    have h3 : ∀ (ps : List (String × Y)) (c : Dict), Y.sizeDict (ps.foldl (fun (c : Dict) p => c.set p.1 p.2) c)
        ≤ Y.sizeDict c + Y.sizeDict ps := by
      intro ps
      induction ps with
      | nil => intro c; simp [Y.sizeDict]
      | cons a as ih' =>
        intro c
        have h4 := ih' (c.set a.1 a.2)
        have h5 := Dict.size_set c a.1 a.2
        simp only [List.foldl_cons, Y.sizeDict]
        omega
    have h4 := h3 parts kids
    simp only [List.map_cons, List.sum_cons]
    simp only at h1
    omega

/-- every item an emphasis adds refers to a requirement -/
theorem addEmphases_items : ∀ {ems : List Dict} {kids kids' : Dict} {items : List Y},
    addEmphases kids ems = .ok (kids', items) → ∀ y ∈ items, ∃ key name, y = emphasisItem key name := by
  intro ems
  induction ems with
  | nil => intro kids kids' items h; simp [addEmphases] at h; simp [h.2]
  | cons e es ih =>
    intro kids kids' items h
    simp only [addEmphases, ld_bind_ok] at h
    obtain ⟨⟨parts, name⟩, hp, ⟨final, rest⟩, hr, h⟩ := h
    cases h
    intro y hy
    rcases List.mem_append.1 hy with hy | hy
    · obtain ⟨p, _, rfl⟩ := List.mem_map.1 hy
      exact ⟨_, _, rfl⟩
    · exact ih hr y hy

theorem Dict.get_append (d e : Dict) (k : String) : (d ++ e : Dict).get? k = (d.get? k).or (e.get? k) := by
  induction d with
  | nil => simp [Dict.get?]
  | cons a as ih =>
    obtain ⟨k', v⟩ := a
    simp only [List.cons_append, Dict.get?]
    split
    · rfl
    · exact ih

theorem template_kind {t : TemplateCourse} {y : Y} (h : t.asRule = .ok y) :
    ∃ d, y = .map d ∧ (ruleKind d = .course ∨ ruleKind d = .unknown) := by
  have hg : ∀ key s value k, key ≠ k → Dict.get? (givenEntry key s value) k = none := by
    intro key s value k hne
    unfold givenEntry
    split
    · rfl
    · simp [Dict.get?, hne]
  have hno : ∀ d : Dict, (∀ k ∈ ["proficiency", "from", "$if", "count", "all", "any", "both", "either", "name", "requirement"],
      d.get? k = none) → ruleKind d = .course ∨ ruleKind d = .unknown := by
    intro d hd
    simp only [List.forall_mem_cons] at hd
    obtain ⟨h1, h2, h3, h4, h5, h6, h7, h8, h9, h10, _⟩ := hd
    unfold ruleKind isCount Dict.has
    simp only [h1, h2, h3, h4, h5, h6, h7, h8, h9, h10, Option.isSome_none, Bool.false_and, Bool.or_false, Bool.false_eq_true,
      if_false]
    split
    · exact Or.inl rfl
    · exact Or.inr rfl
  unfold TemplateCourse.asRule at h
  dsimp only at h
  split at h
  · cases h
    refine ⟨_, rfl, hno _ ?_⟩
    intro k hk
    simp only [Dict.get_append]
    simp only [List.mem_cons, List.not_mem_nil, or_false] at hk
    rcases hk with rfl | rfl | rfl | rfl | rfl | rfl | rfl | rfl | rfl | rfl <;> simp [hg]
  · split at h
    · cases h
    · split at h
      · cases h
        refine ⟨_, rfl, hno _ ?_⟩
        intro k hk
        simp only [Dict.get_append]
        simp only [List.mem_cons, List.not_mem_nil, or_false] at hk
        rcases hk with rfl | rfl | rfl | rfl | rfl | rfl | rfl | rfl | rfl | rfl <;> simp [hg, Dict.get?]
      · cases h

/-- an item of a count rule is listed in the file, or a template course -/
theorem expandTemplates_items {ts : List (String × TemplateCourse)} : ∀ {l r : List Y},
    expandTemplates ts l = .ok r → ∀ y ∈ r, y ∈ l ∨ ∃ t, TemplateCourse.asRule t = .ok y := by
  intro l
  induction l with
  | nil => intro r h; simp [expandTemplates] at h; simp [h]
  | cons a as ih =>
    intro r h
    simp only [expandTemplates, ld_bind_ok, ld_asDict] at h
    obtain ⟨d, rfl, here, hh, rest, hr, h⟩ := h
    cases h
    intro y hy
    rcases List.mem_append.1 hy with hy | hy
    · split at hh
      · simp only [ld_bind_ok] at hh
        obtain ⟨key, _, hh⟩ := hh
        obtain ⟨t, _, ht⟩ := ld_mapE_mem hh y hy
        exact Or.inr ⟨_, ht⟩
      · cases hh
        rw [List.mem_singleton] at hy
        exact Or.inl (by rw [hy]; exact List.mem_cons_self)
    · rcases ih hr y hy with h | h
      · exact Or.inl (List.mem_cons_of_mem _ h)
      · exact Or.inr h

theorem inserted_kind {x : Ctx} : ∀ {es : List Exc} {r : List Y}, insertedItems x es = .ok r →
    ∀ y ∈ r, ∃ d, y = .map d ∧ ruleKind d = .course := by
  intro es
  induction es with
  | nil => intro r h; simp [insertedItems] at h; simp [h]
  | cons e es ih =>
    intro r h
    rw [insertedItems] at h
    split at h
    · simp only [ld_bind_ok] at h
      obtain ⟨c, _, rest, hr, h⟩ := h
      cases h
      intro y hy
      rcases List.mem_cons.1 hy with rfl | hy
      · exact ⟨_, rfl, rfl⟩
      · exact ih hr y hy
    · exact ih h

theorem countItems_size {d : Dict} {l : List Y} (h : countItems d = .ok l) : Y.sizeList l < Y.sizeDict d := by
  have hk : ∀ k v, d.get? k = some v → v.asList = .ok l → Y.sizeList l < Y.sizeDict d := by
    intro k v hv hl
    rw [ld_asList] at hl
    subst hl
    have := Dict.size_get hv
    simp only [Y.size] at this
    omega
  unfold countItems at h
  repeat' split at h
  all_goals first | (rename_i heq; exact hk _ _ heq h) | cases h

theorem sure_items {load : Loader} {kids : Dict} {path : Path} : ∀ {ys : List Y} {i : Nat},
    (∀ y ∈ ys, ∀ p, Sure (load kids p y)) → Sure (loadItems load kids path i ys) := by
  intro ys
  induction ys with
  | nil => intro i _; exact sure_ok _
  | cons y ys ih =>
    intro i h
    rw [loadItems]
    refine sure_bind ?_ (fun p _ => sure_bind (h y List.mem_cons_self p) (fun _ _ => sure_bind (ih (fun y hy => h y (List.mem_cons_of_mem _ hy)))
      (fun _ _ => sure_ok _)))
    unfold childPath
    sure_steps

theorem sure_requirement {load : Loader} {name : String} {body : Dict} {p : Path}
    (h : ∀ yr own p, body.opt "result" = some yr → body.dict "requirements" = .ok own → Sure (load own p yr)) :
    Sure (loadRequirement load name body p) := by
  have h1 : ∀ p, Sure (loadReqResult load body p) := by
    intro p
    unfold loadReqResult
    split
    · exact sure_ok _
    · rename_i yr hyr
      refine sure_bind (sure_dict _ _) (fun own hown => sure_bind (h yr own p hyr hown) (fun o _ => ?_))
      sure_steps
  have h2 : Sure (auditedFlag body) := by unfold auditedFlag; sure_steps
  unfold loadRequirement
  sure_steps
  exact h1 _

/-- the result and the requirements of a requirement are parts of it -/
theorem Dict.result_size {body : Dict} {yr : Y} {own : Dict} (h1 : body.opt "result" = some yr)
    (h2 : body.dict "requirements" = .ok own) : yr.size + Y.sizeDict own ≤ Y.sizeDict body := by
  have h1 := Dict.opt_get h1
  unfold Dict.dict at h2
  split at h2
  · cases h2
    have := Dict.size_get h1
    simp only [Y.sizeDict]
    omega
  · rename_i v hv
    cases h2
    have := Dict.size_get_two (by decide) h1 hv
    simp only [Y.size] at this
    omega
  · cases h2

/-- a rule without rules beneath it needs no depth -/
theorem sure_flat {env : Env} {n : Nat} {kids : Dict} {ems : List Dict} {p : Path} {d : Dict}
    (h : ruleKind d = .course ∨ ruleKind d = .unknown) : Sure (loadRule env (n + 1) kids ems p (.map d)) := by
  rw [loadRule_kind]
  rcases h with h | h <;> simp only [h]
  · exact sure_bind (sure_check (by decide)) (fun _ _ => sure_bind (sure_course _ _) (fun _ _ => sure_ok _))
  · exact sure_bind (sure_check (by decide)) (fun _ _ => sure_err (by decide))

theorem isCount_size {d : Dict} {l : List Y} (h : countItems d = .ok l) : 1 ≤ Y.sizeDict d := by
  have := countItems_size h; omega

/-- The depth given by `ruleFuel` is enough: loading never stops for lack of it. -/
theorem sure_loadRule {env : Env} : ∀ n kids (ems : List Dict) p (y : Y),
    y.size + Y.sizeDict kids + (ems.map (fun e => Y.sizeDict e + 1)).sum + 1 ≤ n →
    Sure (loadRule env n kids ems p y) := by
  intro n
  induction n using Nat.strongRecOn with
  | _ n ih =>
    intro kids ems p y hn
    cases n with
    | zero => omega
    | succ n =>
      -- a reference only needs depth for the requirements by name
      have href : ∀ m, m < n + 1 → ∀ kids p d, ruleKind d = .reference → Y.sizeDict kids + 2 ≤ m →
          Sure (loadRule env m kids [] p (.map d)) := by
        intro m hm kids p d hk hsize
        cases m with
        | zero => omega
        | succ m =>
          rw [loadRule_kind]
          simp only [hk]
          refine sure_bind (sure_check (by decide)) (fun _ _ => sure_bind (sure_need _ _) (fun _ _ => sure_bind (sure_asText _) (fun name _ =>
            sure_bind (sure_need _ _) (fun yb hb => sure_bind (sure_asDict _) (fun body hbody => sure_bind ?_ (fun _ _ => sure_ok _))))))
          rw [ld_need] at hb
          rw [ld_asDict] at hbody
          subst hbody
          refine sure_requirement (fun yr own p h1 h2 => ih m (by omega) own [] p yr ?_)
          have h3 := Dict.result_size h1 h2
          have h4 := Dict.size_get hb
          simp only [Y.size] at h4
          simp only [List.map_nil, List.sum_nil]
          omega
      have hy : (∃ d, y = .map d) ∨ ¬ ∃ d, y = .map d := Classical.em _
      rcases hy with ⟨d, rfl⟩ | hy
      swap
      · rw [loadRule]
        refine sure_bind (sure_asDict _) (fun d hd => ?_)
        rw [ld_asDict] at hd
        exact absurd ⟨d, hd⟩ hy
      simp only [Y.size] at hn
      rw [loadRule_kind]
      refine sure_bind (sure_check (by decide)) (fun _ _ => ?_)
      split
      · exact sure_bind (sure_proficiency _ _) (fun _ _ => sure_ok _)
      · exact sure_bind (sure_course _ _) (fun _ _ => sure_ok _)
      · exact sure_bind (sure_query _ _ _) (fun _ _ => sure_ok _)
      · have hone : ∀ k y p, Dict.get? d k = some y → Sure (loadRule env n kids [] p y) := by
          intro k y p hk
          have := Dict.size_get hk
          exact ih n (by omega) kids [] p y (by simp only [List.map_nil, List.sum_nil]; omega)
        unfold loadConditional
        dsimp only
        refine sure_bind (sure_check (by decide)) (fun _ _ => sure_bind (sure_need _ _) (fun _ _ => sure_bind (sure_cond _ _) (fun _ _ =>
          sure_bind (sure_need _ _) (fun yt hyt => ?_))))
        rw [ld_need] at hyt
        refine sure_bind (hone _ _ _ hyt) (fun t _ => ?_)
        split
        · exact sure_err (by decide)
        · refine sure_bind ?_ (fun _ _ => sure_bind (sure_flag _ _ _) (fun _ _ => sure_ok _))
          split
          · exact sure_ok _
          · rename_i yf hyf
            exact hone _ _ _ (Dict.opt_get hyf)
      · refine sure_bind ?_ (fun _ _ => sure_ok _)
        unfold loadCount
        dsimp only
        refine sure_bind ?_ (fun listed h1 => sure_bind (sure_expand _ _) (fun expanded h2 => sure_bind (sure_addEmphases _ _) (fun r h3 =>
          sure_bind (sure_inserted _ _) (fun inserts h4 => sure_bind (sure_flag _ _ _) (fun atMost _ => sure_bind (sure_audits _ _ _) (fun _ _ => ?_))))))
        · unfold countItems
          sure_steps
        obtain ⟨kids', emItems⟩ := r
        have hs1 := countItems_size h1
        have hs2 := addEmphases_size h3
        refine sure_bind (sure_items ?_) (fun loaded _ => ?_)
        · intro y hy p
          rcases List.mem_append.1 hy with hy | hy
          · rcases List.mem_append.1 hy with hy | hy
            · rcases expandTemplates_items h2 y hy with hy | ⟨t, ht⟩
              · have := Y.sizeList_mem hy
                refine ih n (by omega) kids' [] p y ?_
                simp only [List.map_nil, List.sum_nil]
                omega
              · obtain ⟨d', rfl, hk⟩ := template_kind ht
                obtain ⟨m, rfl⟩ : ∃ m, n = m + 1 := ⟨n - 1, by omega⟩
                exact sure_flat hk
            · obtain ⟨key, name, rfl⟩ := addEmphases_items h3 y hy
              exact href n (by omega) kids' p _ rfl (by omega)
          · obtain ⟨d', rfl, hk⟩ := inserted_kind h4 y hy
            obtain ⟨m, rfl⟩ : ∃ m, n = m + 1 := ⟨n - 1, by omega⟩
            exact sure_flat (Or.inl hk)
        · have hcnt : ∀ b m, Sure (neededCount d b m) := by
            intro b m
            unfold neededCount
            sure_steps
            unfold countNumber
            sure_steps
          have := hcnt (!inserts.isEmpty) loaded.length
          sure_steps
      · refine sure_bind (sure_need _ _) (fun _ _ => sure_bind (sure_asText _) (fun name _ => sure_bind ?_ (fun _ _ => sure_ok _)))
        refine sure_requirement (fun yr own p h1 h2 => ih n (by omega) own [] p yr ?_)
        have h3 := Dict.result_size h1 h2
        simp only [List.map_nil, List.sum_nil]
        omega
      · refine sure_bind (sure_need _ _) (fun _ _ => sure_bind (sure_asText _) (fun name _ =>
          sure_bind (sure_need _ _) (fun yb hb => sure_bind (sure_asDict _) (fun body hbody => sure_bind ?_ (fun _ _ => sure_ok _)))))
        rw [ld_need] at hb
        rw [ld_asDict] at hbody
        subst hbody
        refine sure_requirement (fun yr own p h1 h2 => ih n (by omega) own [] p yr ?_)
        have h3 := Dict.result_size h1 h2
        have h4 := Dict.size_get hb
        simp only [Y.size] at h4
        simp only [List.map_nil, List.sum_nil]
        omega
      · exact sure_err (by decide)

end Dp
