import Verif.Props.LoadFuel

/-
Loading the same text in two settings: what loads in a setting whose constants are empty loads in every other.
-/
namespace Dp

/-! ### Two runs of one loading function -/

/-- when the first run succeeds, so does the second (unless it was not given enough depth), with a related result -/
def Leads {α β : Type} (r : Except Err α) (s : Except Err β) (R : α → β → Prop) : Prop :=
  ∀ a, r = .ok a → s = .error .outOfFuel ∨ ∃ b, s = .ok b ∧ R a b

theorem leads_ok {α β : Type} {R : α → β → Prop} {a : α} {b : β} (h : R a b) : Leads (.ok a) (.ok b) R := by
  intro a' ha; cases ha; exact .inr ⟨b, rfl, h⟩

theorem leads_error {α β : Type} {R : α → β → Prop} {e : Err} {s : Except Err β} : Leads (.error e : Except Err α) s R := by
  intro a ha; cases ha

theorem leads_bind {α β γ δ : Type} {r : Except Err α} {s : Except Err β} {R : α → β → Prop} {f : α → Except Err γ}
    {g : β → Except Err δ} {Q : γ → δ → Prop} (h : Leads r s R)
    (hf : ∀ a b, r = .ok a → s = .ok b → R a b → Leads (f a) (g b) Q) : Leads (r >>= f) (s >>= g) Q := by
  intro c hc
  rw [ld_bind_ok] at hc
  obtain ⟨a, ha, hc⟩ := hc
  rcases h a ha with hs | ⟨b, hb, hR⟩
  · left; rw [hs]; rfl
  · rcases hf a b ha hb hR c hc with h' | ⟨d, hd, hQ⟩
    · left; rw [hb]; exact h'
    · right; exact ⟨d, by rw [hb]; exact hd, hQ⟩

/-- the same step in both -/
theorem leads_same {α γ δ : Type} {r : Except Err α} {f : α → Except Err γ} {g : α → Except Err δ} {Q : γ → δ → Prop}
    (hf : ∀ a, r = .ok a → Leads (f a) (g a) Q) : Leads (r >>= f) (r >>= g) Q :=
  leads_bind (R := fun a b => a = b) (fun a h => .inr ⟨a, h, rfl⟩) (fun a b ha _ e => by subst e; exact hf a ha)

theorem leads_refl {α : Type} {r : Except Err α} : Leads r r (fun _ _ => True) := fun a h => .inr ⟨a, h, trivial⟩

theorem Leads.mono {α β : Type} {r : Except Err α} {s : Except Err β} {R Q : α → β → Prop} (h : Leads r s R)
    (hq : ∀ a b, R a b → Q a b) : Leads r s Q := by
  intro a ha
  rcases h a ha with h | ⟨b, hb, hR⟩
  · exact .inl h
  · exact .inr ⟨b, hb, hq _ _ hR⟩

theorem leads_map {α β γ δ : Type} {r : Except Err α} {s : Except Err β} {R : α → β → Prop} {f : α → γ} {g : β → δ}
    {Q : γ → δ → Prop} (h : Leads r s R) (hq : ∀ a b, R a b → Q (f a) (g b)) : Leads (r.map f) (s.map g) Q := by
  intro c hc
  rw [ld_map_ok] at hc
  obtain ⟨a, ha, rfl⟩ := hc
  rcases h a ha with hs | ⟨b, hb, hR⟩
  · left; rw [hs]; rfl
  · right; exact ⟨g b, by rw [hb]; rfl, hq _ _ hR⟩

theorem leads_mapE {α β γ : Type} {f : α → Except Err β} {g : α → Except Err γ} {R : β → γ → Prop} : ∀ {l : List α},
    (∀ a ∈ l, Leads (f a) (g a) R) → Leads (mapE f l) (mapE g l) (List.Forall₂ R)
  | [], _ => leads_ok .nil
  | a :: as, h => by
    unfold mapE
    refine leads_bind (h a List.mem_cons_self) (fun b c _ _ hR => leads_bind (leads_mapE (fun x hx => h x (List.mem_cons_of_mem _ hx)))
      (fun bs cs _ _ hs => leads_ok (.cons hR hs)))

theorem leads_mapIdxE {α β γ : Type} {f : Nat → α → Except Err β} {g : Nat → α → Except Err γ} {R : β → γ → Prop} : ∀ {l : List α}
    {i : Nat}, (∀ i, ∀ a ∈ l, Leads (f i a) (g i a) R) → Leads (mapIdxE f i l) (mapIdxE g i l) (List.Forall₂ R)
  | [], _, _ => leads_ok .nil
  | a :: as, i, h => by
    unfold mapIdxE
    refine leads_bind (h i a List.mem_cons_self) (fun b c _ _ hR => leads_bind
      (leads_mapIdxE (fun j x hx => h j x (List.mem_cons_of_mem _ hx))) (fun bs cs _ _ hs => leads_ok (.cons hR hs)))

/-- any result will do -/
abbrev Loads {α β : Type} (r : Except Err α) (s : Except Err β) : Prop := Leads r s (fun _ _ => True)

theorem forall₂_isEmpty {α β : Type} {R : α → β → Prop} {l : List α} {m : List β} (h : List.Forall₂ R l m) :
    l.isEmpty = m.isEmpty := by cases h <;> rfl

/-! ### Conditions -/

theorem fact_leads (x y : Ctx) (f a : String) : Loads (x.fact f a) (y.fact f a) := by
  intro b hb
  right
  unfold Ctx.fact at hb ⊢
  split
  · exact ⟨_, rfl, trivial⟩
  rename_i h1; rw [if_neg h1] at hb
  split
  · exact ⟨_, rfl, trivial⟩
  rename_i h2; rw [if_neg h2] at hb
  split
  · exact ⟨_, rfl, trivial⟩
  rename_i h3; rw [if_neg h3] at hb
  split
  · exact ⟨_, rfl, trivial⟩
  rename_i h4; rw [if_neg h4] at hb
  split
  · exact ⟨_, rfl, trivial⟩
  rename_i h5; rw [if_neg h5] at hb
  split
  · rename_i h6; rw [if_pos h6] at hb
    unfold Proficiencies.passedExam Proficiencies.status Proficiencies.lookup at hb ⊢
    by_cases g1 : a == "Keyboard Level I"
    · simp [g1]
    by_cases g2 : a == "Keyboard Level II"
    · simp [g1, g2]
    by_cases g3 : a == "Keyboard Level III"
    · simp [g1, g2, g3]
    by_cases g4 : a == "Keyboard Level IV"
    · simp [g1, g2, g3, g4]
    by_cases g5 : a == "Guitar"
    · simp [g1, g2, g3, g4, g5]
    · simp [g1, g2, g3, g4, g5] at hb
  rename_i h6; rw [if_neg h6] at hb
  split
  · exact ⟨_, rfl, trivial⟩
  rename_i h7; rw [if_neg h7] at hb
  cases hb

mutual
theorem cond_leads (x x' : Ctx) : ∀ y : Y, Loads (loadCond x y) (loadCond x' y)
  | .map [] => by simp only [loadCond]; exact leads_error
  | .map (_ :: _ :: _) => by simp only [loadCond]; exact leads_error
  | .map [(k, .list l)] => by
    unfold loadCond
    split
    · exact leads_bind (conds_leads x x' l) (fun _ _ _ _ _ => leads_ok trivial)
    split
    · exact leads_bind (conds_leads x x' l) (fun _ _ _ _ _ => leads_ok trivial)
    · exact leads_error
  | .map [(k, .str s)] => by unfold loadCond; exact fact_leads x x' k s
  | .map [(k, .null)] => by
    unfold loadCond
    split
    · exact leads_bind (cond_leads x x' .null) (fun _ _ _ _ _ => leads_ok trivial)
    · exact leads_error
  | .map [(k, .bool b)] => by
    unfold loadCond
    split
    · exact leads_bind (cond_leads x x' (.bool b)) (fun _ _ _ _ _ => leads_ok trivial)
    · exact leads_error
  | .map [(k, .int n)] => by
    unfold loadCond
    split
    · exact leads_bind (cond_leads x x' (.int n)) (fun _ _ _ _ _ => leads_ok trivial)
    · exact leads_error
  | .map [(k, .float t)] => by
    unfold loadCond
    split
    · exact leads_bind (cond_leads x x' (.float t)) (fun _ _ _ _ _ => leads_ok trivial)
    · exact leads_error
  | .map [(k, .map d)] => by
    unfold loadCond
    split
    · exact leads_bind (cond_leads x x' (.map d)) (fun _ _ _ _ _ => leads_ok trivial)
    · exact leads_error
  | .null | .bool _ | .int _ | .float _ | .str _ | .list _ => by simp only [loadCond]; exact leads_error
theorem conds_leads (x x' : Ctx) : ∀ l : List Y, Loads (loadConds x l) (loadConds x' l)
  | [] => leads_ok trivial
  | y :: ys => by
    unfold loadConds
    exact leads_bind (cond_leads x x' y) (fun _ _ _ _ _ => leads_bind (conds_leads x x' ys) (fun _ _ _ _ _ => leads_ok trivial))
end

/-! ### Values -/

/-- constants of nobody: the texts are empty -/
structure Constants.Blank (c : Constants) : Prop where
  medium : c.primaryPerformingMedium = .str ""
  code : c.currentAreaCode = ""

/-- constants of a student: the medium is a text or a list of texts -/
def Constants.Real (c : Constants) : Prop := ∀ n, c.primaryPerformingMedium ≠ .int n

/-- how a constant of nobody and one of a student are related -/
inductive SameConst : ConstVal → ConstVal → Prop
  | same (v : ConstVal) (h : ∀ l, v ≠ .strs l) : SameConst v v
  | ints (m n : Int) : SameConst (.int m) (.int n)
  | text (s t : String) (h : s = "" ∨ s = "Exam: ") : SameConst (.str s) (.str t)
  | texts (s : String) (l : List String) (h : s = "" ∨ s = "Exam: ") : SameConst (.str s) (.strs l)

theorem byName_leads {c c' : Constants} (h : c.Blank) (h' : c'.Real) (v : String) : Leads (c.getByName v) (c'.getByName v) SameConst := by
  unfold Constants.getByName
  split
  · exact leads_ok (.same _ (fun l h => by cases h))
  split
  · exact leads_ok (.ints _ _)
  split
  · exact leads_ok (.ints _ _)
  split
  · rw [h.medium]
    refine leads_ok ?_
    cases hm : c'.primaryPerformingMedium with
    | int n => exact absurd hm (h' n)
    | str t => exact .text _ _ (.inl rfl)
    | strs l => exact .texts _ _ (.inl rfl)
  split
  · rw [h.code]; exact leads_ok (.text _ _ (.inl rfl))
  split
  · rw [h.code]; exact leads_ok (.text _ _ (.inr rfl))
  · exact leads_error

/-- an element that is not a grade -/
def BadGrade (l : List Sc) : Prop := ∃ s ∈ l, ∀ g, gradeElement s ≠ .ok g

/-- how a list of nobody and one of a student are related -/
def SameList (l m : List Sc) : Prop := l = m ∨ (BadGrade l ∧ (Sc.missing ∈ m → Sc.missing ∈ l))

theorem badGrade_blank {s : String} (h : s = "" ∨ s = "Exam: ") : ∀ g, gradeElement (.str s) ≠ .ok g := by
  intro g
  have : parseGrade s = none := by rcases h with rfl | rfl <;> decide
  simp [gradeElement, this]

theorem element_leads {c c' : Constants} (h : c.Blank) (h' : c'.Real) (y : Y) :
    Leads (loadElement c y) (loadElement c' y) SameList := by
  cases y with
  | null => exact leads_ok (.inl rfl)
  | bool b => exact leads_ok (.inl rfl)
  | int n => exact leads_ok (.inl rfl)
  | float t => exact leads_error
  | list l => exact leads_error
  | map d => exact leads_error
  | str s =>
    unfold loadElement
    refine leads_bind (byName_leads h h' s) (fun v w _ _ hvw => ?_)
    cases hvw with
    | same v hv =>
      cases v with
      | int n => exact leads_ok (.inl rfl)
      | str t => exact leads_ok (.inl rfl)
      | strs l => exact absurd rfl (hv l)
    | ints m n => exact leads_ok (.inr ⟨⟨_, List.mem_singleton.2 rfl, by simp [gradeElement]⟩, by simp⟩)
    | text s t hs => exact leads_ok (.inr ⟨⟨_, List.mem_singleton.2 rfl, badGrade_blank hs⟩, by simp⟩)
    | texts s l hs => exact leads_ok (.inr ⟨⟨_, List.mem_singleton.2 rfl, badGrade_blank hs⟩, by simp⟩)

/-- how a value of nobody and one of a student are related -/
inductive SameVal : Val → Val → Prop
  | same (v : Val) : SameVal v v
  | num (q r : Rat) (t u : String) : SameVal (.sc (.num q t)) (.sc (.num r u))
  | text (s t : String) (h : s = "" ∨ s = "Exam: ") : SameVal (.sc (.str s)) (.sc (.str t))
  | texts (s : String) (l : List String) (h : s = "" ∨ s = "Exam: ") : SameVal (.sc (.str s)) (.tup (l.map .str))
  | list (l m : List Sc) : BadGrade l → (Sc.missing ∈ m → Sc.missing ∈ l) → SameVal (.tup l) (.tup m)

theorem sameList_flatten : ∀ {ls ms : List (List Sc)}, List.Forall₂ SameList ls ms → SameList ls.flatten ms.flatten := by
  intro ls ms h
  induction h with
  | nil => exact .inl rfl
  | cons hab _ ih =>
    rename_i a b as bs
    simp only [List.flatten_cons]
    have miss : ∀ {l m : List Sc}, SameList l m → Sc.missing ∈ m → Sc.missing ∈ l := by
      intro l m h hm
      rcases h with rfl | ⟨_, h⟩
      · exact hm
      · exact h hm
    rcases hab with rfl | ⟨⟨s, hs, hg⟩, hm⟩
    · rcases ih with ih | ⟨⟨s, hs, hg⟩, hm⟩
      · exact .inl (by rw [ih])
      · refine .inr ⟨⟨s, List.mem_append_right _ hs, hg⟩, ?_⟩
        intro h
        rcases List.mem_append.1 h with h | h
        · exact List.mem_append_left _ h
        · exact List.mem_append_right _ (hm h)
    · refine .inr ⟨⟨s, List.mem_append_left _ hs, hg⟩, ?_⟩
      intro h
      rcases List.mem_append.1 h with h | h
      · exact List.mem_append_left _ (hm h)
      · exact List.mem_append_right _ (miss ih h)

theorem rawValue_leads {c c' : Constants} (h : c.Blank) (h' : c'.Real) (y : Y) :
    Leads (loadRawValue c y) (loadRawValue c' y) SameVal := by
  cases y with
  | null => exact leads_error
  | bool b => exact leads_ok (.same _)
  | int n => exact leads_ok (.same _)
  | float t => exact leads_error
  | map d => exact leads_error
  | str s =>
    unfold loadRawValue
    refine leads_bind (byName_leads h h' s) (fun v w _ _ hvw => leads_ok ?_)
    cases hvw with
    | same v hv => exact .same _
    | ints m n => exact .num _ _ _ _
    | text s t hs => exact .text _ _ hs
    | texts s l hs => exact .texts _ _ hs
  | list l =>
    unfold loadRawValue
    refine leads_bind (leads_mapE (fun a _ => element_leads h h' a)) (fun v w _ _ hvw => leads_ok ?_)
    rcases sameList_flatten hvw with e | ⟨h1, h2⟩
    · rw [e]; exact .same _
    · exact .list _ _ h1 h2

/-- what is checked of a value that is compared with `$in` or `$nin` is true of the student's when it is of nobody's -/
def KeepsValue (v w : Val) : Prop := ∀ op, valueOk op v = .ok () → valueOk op w = .ok ()

theorem mapE_badGrade : ∀ {l r : List Sc}, mapE gradeElement l = .ok r → ¬ BadGrade l
  | [], _, _ => by rintro ⟨s, hs, _⟩; cases hs
  | a :: as, r, h => by
    simp only [mapE, ld_bind_ok] at h
    obtain ⟨b, hb, bs, hbs, _⟩ := h
    rintro ⟨s, hs, hg⟩
    rcases List.mem_cons.1 hs with rfl | hs
    · exact hg b hb
    · exact mapE_badGrade hbs ⟨s, hs, hg⟩

theorem processValue_leads {v w : Val} (h : SameVal v w) (key : String) :
    Leads (processValue key v) (processValue key w) KeepsValue := by
  cases h with
  | same v => exact fun a ha => .inr ⟨a, ha, fun op h => h⟩
  | num q r t u =>
    unfold processValue
    split
    · simp only [gradeElement]; exact leads_error
    split
    · exact leads_error
    split
    · refine leads_ok (fun op hv => ?_)
      unfold valueOk at hv ⊢
      split at hv
      · cases hv
      · rename_i hn; rw [if_neg hn]
    · refine leads_ok (fun op hv => ?_)
      unfold valueOk at hv ⊢
      split at hv
      · cases hv
      · rename_i hn; rw [if_neg hn]
  | text s t hs =>
    have g1 : parseGrade s = none := by rcases hs with rfl | rfl <;> decide
    have g2 : parseGradeOption s = none := by rcases hs with rfl | rfl <;> decide
    have g3 : parseDecimal s = none := by rcases hs with rfl | rfl <;> decide
    unfold processValue
    split
    · simp only [gradeElement, g1]; exact leads_error
    split
    · simp only [g2]; exact leads_error
    split
    · simp only [g3]; exact leads_error
    · refine leads_ok (fun op hv => ?_)
      unfold valueOk at hv ⊢
      split <;> rfl
  | texts s l hs =>
    have g1 : parseGrade s = none := by rcases hs with rfl | rfl <;> decide
    have g2 : parseGradeOption s = none := by rcases hs with rfl | rfl <;> decide
    have g3 : parseDecimal s = none := by rcases hs with rfl | rfl <;> decide
    unfold processValue
    split
    · simp only [gradeElement, g1]; exact leads_error
    split
    · simp only [g2]; exact leads_error
    split
    · simp only [g3]; exact leads_error
    · refine leads_ok (fun op hv => ?_)
      unfold valueOk at hv ⊢
      split
      · simp [check]
      · rfl
  | list l m hb hm =>
    unfold processValue
    split
    · intro a ha
      simp only [ld_bind_ok] at ha
      obtain ⟨r, hr, _⟩ := ha
      exact absurd hb (mapE_badGrade hr)
    split
    · exact leads_error
    split
    · exact leads_error
    · refine leads_ok (fun op hv => ?_)
      unfold valueOk at hv ⊢
      split
      · rename_i ho
        rw [if_pos ho] at hv
        rw [ld_check_ok] at hv ⊢
        simp only [List.all_eq_true, decide_eq_true_eq] at hv ⊢
        intro s hs e
        subst e
        exact hv _ (hm hs) rfl
      · rfl

theorem value_leads {c c' : Constants} (h : c.Blank) (h' : c'.Real) (key : String) (y : Y) :
    Leads (loadValue c key y) (loadValue c' key y) KeepsValue := by
  unfold loadValue
  exact leads_bind (rawValue_leads h h' y) (fun v w _ _ hvw => processValue_leads hvw key)

/-! ### Filters and limits -/

theorem leaf_leads {c c' : Constants} (h : c.Blank) (h' : c'.Real) (mode : DataType) (key : String) (y : Y) :
    Loads (loadLeaf c mode key y) (loadLeaf c' mode key y) := by
  unfold loadLeaf
  refine leads_same fun d _ => leads_same fun allowed _ => leads_same fun _ _ => leads_same fun r _ => ?_
  obtain ⟨op, raw⟩ := r
  refine leads_bind (value_leads h h' key raw) fun v w _ _ hvw => ?_
  refine leads_bind (R := fun _ _ => True) ?_ fun o o' _ _ _ => ?_
  · split
    · exact leads_ok trivial
    · exact leads_map (value_leads h h' key _) (fun _ _ _ => trivial)
  · refine leads_bind (R := fun _ _ => True) ?_ fun _ _ _ _ _ => leads_ok trivial
    intro u hu
    exact .inr ⟨(), hvw op hu, trivial⟩

theorem pred_leads {c c' : Constants} (h : c.Blank) (h' : c'.Real) (x x' : Ctx) (mode : DataType) : ∀ (n : Nat) (y : Y),
    Loads (loadPred x c mode n y) (loadPred x' c' mode n y) := by
  intro n
  induction n with
  | zero => intro y; exact leads_error
  | succ n ih =>
    intro y
    unfold loadPred
    refine leads_same fun d _ => ?_
    split
    · refine leads_same fun _ _ => leads_same fun v _ => leads_same fun l _ => leads_bind (leads_mapE (fun a _ => ih a)) fun ps qs _ _ hpq => ?_
      rw [forall₂_isEmpty hpq]
      exact leads_same fun _ _ => leads_ok trivial
    split
    · refine leads_same fun _ _ => leads_same fun v _ => leads_same fun l _ => leads_bind (leads_mapE (fun a _ => ih a)) fun ps qs _ _ hpq => ?_
      rw [forall₂_isEmpty hpq]
      exact leads_same fun _ _ => leads_ok trivial
    split
    · exact leads_same fun _ _ => leads_same fun v _ => leads_bind (ih v) fun _ _ _ _ _ => leads_ok trivial
    split
    · refine leads_same fun v _ => leads_bind (cond_leads x x' v) fun _ _ _ _ _ => leads_same fun t _ => leads_bind (ih t) fun _ _ _ _ _ => ?_
      refine leads_bind (R := fun _ _ => True) ?_ fun _ _ _ _ _ => leads_ok trivial
      split
      · exact leads_ok trivial
      · exact leads_map (ih _) (fun _ _ _ => trivial)
    · refine leads_bind (leads_mapE (fun e _ => leaf_leads h h' mode e.1 e.2)) fun ls ms _ _ _ => ?_
      intro _ _
      right
      split <;> exact ⟨_, rfl, trivial⟩

theorem filter_leads {c c' : Constants} (h : c.Blank) (h' : c'.Real) (x x' : Ctx) (mode : DataType) (y : Y) :
    Loads (loadFilter x c mode y) (loadFilter x' c' mode y) := pred_leads h h' x x' mode _ y

theorem optFilter_leads {c c' : Constants} (h : c.Blank) (h' : c'.Real) (x x' : Ctx) (mode : DataType) (o : Option Y) :
    Loads (loadOptFilter x c mode o) (loadOptFilter x' c' mode o) := by
  unfold loadOptFilter
  cases o with
  | none => exact leads_ok trivial
  | some y => exact leads_map (filter_leads h h' x x' mode y) (fun _ _ _ => trivial)

theorem limits_leads {c c' : Constants} (h : c.Blank) (h' : c'.Real) (x x' : Ctx) (o : Option Y) :
    Loads (loadLimits x c o) (loadLimits x' c' o) := by
  unfold loadLimits
  cases o with
  | none => exact leads_ok trivial
  | some y =>
    refine leads_same fun l _ => (leads_mapE (R := fun _ _ => True) fun a _ => ?_).mono (fun _ _ _ => trivial)
    unfold loadLimit
    exact leads_same fun d _ => leads_same fun v _ => leads_same fun _ _ => leads_same fun w _ =>
      leads_bind (filter_leads h h' x x' _ w) fun _ _ _ _ _ => leads_same fun _ _ => leads_same fun _ _ => leads_ok trivial

/-! ### Assertions -/

theorem changes_leads (x x' : Ctx) : ∀ (l : List Y) (q q' : Rat), Loads (applyChanges x q l) (applyChanges x' q' l)
  | [], _, _ => leads_ok trivial
  | y :: ys, q, q' => by
    unfold applyChanges
    refine leads_bind (R := fun _ _ => True) ?_ fun r r' _ _ _ => changes_leads x x' ys r r'
    unfold applyChange
    split
    · refine leads_bind (cond_leads x x' _) fun _ _ _ _ _ => leads_same fun d _ => ?_
      split
      · exact leads_same fun _ _ => leads_same fun _ _ => leads_ok trivial
      · exact leads_error
    · exact leads_error

theorem expected_leads {c c' : Constants} (h : c.Blank) (h' : c'.Real) (y : Y) : Loads (loadExpected c y) (loadExpected c' y) := by
  cases y with
  | int n => exact leads_ok trivial
  | null => exact leads_error
  | bool b => exact leads_error
  | float t => exact leads_error
  | list l => exact leads_error
  | map d => exact leads_error
  | str s =>
    unfold loadExpected
    refine leads_bind (byName_leads h h' s) (fun v w _ _ hvw => ?_)
    have g : ∀ s, (s = "" ∨ s = "Exam: ") → (Y.str s).asDecimal = .error .other := by
      intro s hs
      have g3 : parseDecimal s = none := by rcases hs with rfl | rfl <;> decide
      simp [Y.asDecimal, g3]
    cases hvw with
    | same v hv => exact leads_refl
    | ints m n => exact leads_ok trivial
    | text s t hs => simp only [g s hs]; exact leads_error
    | texts s l hs => simp only [g s hs]; exact leads_error

theorem single_leads {c c' : Constants} (h : c.Blank) (h' : c'.Real) (x x' : Ctx) (dt : DataType) (p : Path) (y : Y) :
    Loads (loadSingle x c dt p y) (loadSingle x' c' dt p y) := by
  unfold loadSingle
  refine leads_same fun data _ => leads_bind (optFilter_leads h h' x x' dt _) fun _ _ _ _ _ => leads_same fun _ _ => leads_same fun _ _ =>
    leads_same fun v _ => leads_same fun body _ => ?_
  split
  · refine leads_same fun _ _ => leads_same fun d _ => leads_same fun r _ => ?_
    obtain ⟨op, raw⟩ := r
    exact leads_same fun _ _ => leads_same fun _ _ => leads_same fun changes _ => leads_bind (expected_leads h h' raw) fun q q' _ _ _ =>
      leads_bind (changes_leads x x' changes q q') fun _ _ _ _ _ => leads_same fun _ _ => leads_same fun _ _ => leads_same fun _ _ =>
      leads_ok trivial
  · exact leads_error

theorem assertion_leads {c c' : Constants} (h : c.Blank) (h' : c'.Real) (x x' : Ctx) (dt : DataType) (p : Path) (y : Y) :
    Loads (loadAssertion x c dt p y) (loadAssertion x' c' dt p y) := by
  unfold loadAssertion
  refine leads_same fun data _ => ?_
  split
  · refine leads_same fun v _ => leads_bind (cond_leads x x' v) fun _ _ _ _ _ => leads_same fun t _ =>
      leads_bind (single_leads h h' x x' dt _ t) fun _ _ _ _ _ => leads_bind (R := fun _ _ => True) ?_ fun _ _ _ _ _ => leads_ok trivial
    split
    · exact leads_ok trivial
    · exact leads_map (single_leads h h' x x' dt _ _) (fun _ _ _ => trivial)
  · exact leads_bind (single_leads h h' x x' dt p y) fun _ _ _ _ _ => leads_ok trivial

theorem anyAssertion_leads {c c' : Constants} (h : c.Blank) (h' : c'.Real) (x x' : Ctx) (dt : DataType) (p : Path) (y : Y) :
    Loads (loadAnyAssertion x c dt p y) (loadAnyAssertion x' c' dt p y) := by
  unfold loadAnyAssertion
  refine leads_same fun data _ => ?_
  split
  · exact leads_same fun _ _ => leads_same fun _ _ => leads_same fun _ _ => leads_same fun t _ =>
      leads_bind (single_leads h h' x x' dt _ t) fun _ _ _ _ _ => leads_ok trivial
  · exact assertion_leads h h' x x' dt p y

/-! ### Queries and the assertions of counts -/

theorem query_leads {e e' : Env} (h : e.c.Blank) (h' : e'.c.Real) (d : Dict) (p : Path) : Loads (loadQuery e d p) (loadQuery e' d p) := by
  unfold loadQuery
  refine leads_same fun v _ => leads_same fun src _ => leads_same fun source _ => leads_bind (optFilter_leads h h' _ _ _ _) fun _ _ _ _ _ =>
    leads_bind (limits_leads h h' _ _ _) fun _ _ _ _ _ => leads_same fun _ _ =>
    leads_bind (R := fun as bs => as.isEmpty = bs.isEmpty) ?_ fun as bs _ _ hab => ?_
  · unfold loadQueryAssertions
    split
    · exact leads_bind (anyAssertion_leads h h' _ _ _ _ _) fun _ _ _ _ _ => leads_ok rfl
    · exact leads_same fun l _ => (leads_mapIdxE (fun i a _ => anyAssertion_leads h h' _ _ _ _ _)).mono (fun _ _ => forall₂_isEmpty)
  · rw [hab]
    exact leads_same fun _ _ => leads_same fun _ _ => leads_same fun _ _ => leads_same fun _ _ => leads_same fun _ _ => leads_ok trivial

theorem audits_leads {e e' : Env} (h : e.c.Blank) (h' : e'.c.Real) (p : Path) (d : Dict) : Loads (loadAudits e p d) (loadAudits e' p d) := by
  unfold loadAudits
  split
  · exact leads_ok trivial
  · refine leads_same fun a _ => ?_
    split
    · exact leads_same fun l _ => (leads_mapIdxE (fun i a _ => assertion_leads h h' _ _ _ _ _)).mono (fun _ _ _ => trivial)
    · exact leads_bind (assertion_leads h h' _ _ _ _ _) fun _ _ _ _ _ => leads_ok trivial

end Dp
