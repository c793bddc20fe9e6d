import Verif.Props.AlikeApart
import Verif.Props.Fresh

/-
What makes an audit raise, and when it does not: assertions, courses and queries.
-/
namespace Dp

/-! ### The records of a context -/

/-- the records of a kind that the rules of a context can meet -/
def Ctx.Holds (x : Ctx) : DataType → Item → Prop
  | .course, .course c => x.Knows c
  | .area, .area a => a ∈ x.areas
  | .musicPerformance, .performance m => m ∈ x.performances
  | .recital, .attendance m => m ∈ x.attendances
  | _, _ => False

/-- the filter has an answer for every record of the kind -/
def Pred.AnswersOn (x : Ctx) (t : DataType) (p : Pred) : Prop :=
  ∀ i, x.Holds t i → ∃ b, p.apply i.applyLeaf = .ok b

/-- the class is among those looked up by id -/
def Ctx.Listed (x : Ctx) (k : String) : Prop := (x.findCourseByClbid k).isSome = true

/-- Every course is listed under its own id, and one that is in progress is in progress now, later, or incomplete.  `look` says
whether some query of the area looks at the courses claimed so far: then a course that is inserted by force must be among those
looked up by id. -/
structure Ctx.Sound (x : Ctx) (look : Bool) : Prop where
  forcedOk : x.ForcedOk
  dated : ∀ c, x.Knows c → c.Dated
  listed : look = true → ∀ e ∈ x.forced, x.Listed e.1

/-- a class is found for every insertion at the path -/
def Ctx.InsertsFound (x : Ctx) (p : Path) : Prop :=
  ∀ e ∈ getInsertExceptions x.exceptions p, ∀ k f, e.kind = .insertion k f → ∃ c, x.forcedCourseByClbid k = .ok c

/-- a class is found for every block at the path -/
def Ctx.BlocksFound (x : Ctx) (p : Path) : Prop :=
  ∀ e ∈ getBlockExceptions x.exceptions p, ∀ k, e.kind = .block k → ∃ c, x.forcedCourseByClbid k = .ok c

/-- the claims are all of classes that are listed, if somebody looks -/
def TableOk (x : Ctx) (look : Bool) (t : ClaimTable) : Prop := look = true → ∀ k ∈ t.map (·.1), x.Listed k

theorem TableOk.nil (x : Ctx) (look : Bool) : TableOk x look [] := fun _ _ h => by simp at h

theorem forcedCourse_knows {x : Ctx} {look : Bool} (hx : x.Sound look) {k : String} {c : Course}
    (h : x.forcedCourseByClbid k = .ok c) : x.Knows c ∧ (look = true → x.Listed c.clbid) := by
  obtain ⟨h1, h2⟩ := forcedCourseByClbid_ok hx.forcedOk h
  refine ⟨h2.elim .inl (fun h => .inr (.inr ⟨_, h⟩)), fun hl => ?_⟩
  rw [h1]
  rcases h2 with h2 | h2
  · unfold Ctx.Listed Ctx.findCourseByClbid
    rw [List.find?_isSome]
    exact ⟨c, List.mem_reverse.2 h2, by simpa using h1⟩
  · exact hx.listed hl _ h2

theorem listed_of_transcript {x : Ctx} {c : Course} (h : c ∈ x.transcript) : x.Listed c.clbid := by
  unfold Ctx.Listed Ctx.findCourseByClbid
  rw [List.find?_isSome]
  exact ⟨c, List.mem_reverse.2 h, by simp⟩

/-! ### Filters -/

theorem filterItems_answers {x : Ctx} {t : DataType} {p : Pred} (hp : p.AnswersOn x t) : ∀ is : List Item,
    (∀ i ∈ is, x.Holds t i) → ∃ out, filterItems p is = .ok out
  | [], _ => ⟨[], rfl⟩
  | i :: is, h => by
    obtain ⟨b, hb⟩ := hp i (h i List.mem_cons_self)
    obtain ⟨out, ho⟩ := filterItems_answers hp is (fun j hj => h j (List.mem_cons_of_mem _ hj))
    exact ⟨_, by simp only [filterItems, hb, ho]; rfl⟩

theorem anyItem_answers {x : Ctx} {t : DataType} {p : Pred} (hp : p.AnswersOn x t) : ∀ is : List Item,
    (∀ i ∈ is, x.Holds t i) → ∃ b, anyItem p is = .ok b
  | [], _ => ⟨false, rfl⟩
  | i :: is, h => by
    obtain ⟨b, hb⟩ := hp i (h i List.mem_cons_self)
    obtain ⟨b', hb'⟩ := anyItem_answers hp is (fun j hj => h j (List.mem_cons_of_mem _ hj))
    cases b
    · exact ⟨b', by simp only [anyItem, hb, hb']⟩
    · exact ⟨true, by simp only [anyItem, hb]⟩

theorem holds_course {x : Ctx} {is : List Item} (h : ∀ i ∈ is, x.Holds .course i) :
    ∃ cs, is = cs.map Item.course ∧ itemCourses is = .ok cs ∧ ∀ c ∈ cs, x.Knows c := by
  induction is with
  | nil => exact ⟨[], rfl, rfl, by simp⟩
  | cons i is ih =>
    obtain ⟨cs, h1, h2, h3⟩ := ih (fun j hj => h j (List.mem_cons_of_mem _ hj))
    have hi := h i List.mem_cons_self
    cases i with
    | course c =>
      refine ⟨c :: cs, by simp [h1], by simp [itemCourses, h2], fun c' hc' => ?_⟩
      rcases List.mem_cons.1 hc' with rfl | hc'
      · exact hi
      · exact h3 c' hc'
    | area a => exact hi.elim
    | performance m => exact hi.elim
    | attendance m => exact hi.elim

theorem holds_area {x : Ctx} {is : List Item} (h : ∀ i ∈ is, x.Holds .area i) : ∃ cs, itemCodes is = .ok cs := by
  induction is with
  | nil => exact ⟨[], rfl⟩
  | cons i is ih =>
    obtain ⟨cs, h1⟩ := ih (fun j hj => h j (List.mem_cons_of_mem _ hj))
    have hi := h i List.mem_cons_self
    cases i with
    | area a => exact ⟨a.code :: cs, by simp [itemCodes, h1]⟩
    | course a => exact hi.elim
    | performance m => exact hi.elim
    | attendance m => exact hi.elim

theorem holds_music {x : Ctx} {t : DataType} (ht : t = .musicPerformance ∨ t = .recital) {is : List Item}
    (h : ∀ i ∈ is, x.Holds t i) : ∃ cs, itemIds is = .ok cs := by
  induction is with
  | nil => exact ⟨[], rfl⟩
  | cons i is ih =>
    obtain ⟨cs, h1⟩ := ih (fun j hj => h j (List.mem_cons_of_mem _ hj))
    have hi := h i List.mem_cons_self
    rcases ht with rfl | rfl
    all_goals
      cases i with
      | area a => exact hi.elim
      | course a => exact hi.elim
      | performance m => exact ⟨m.id :: cs, by simp [itemIds, h1]⟩
      | attendance m => exact ⟨m.id :: cs, by simp [itemIds, h1]⟩

/-! ### Assertions -/

/-- An assertion about records of a kind that has a result: it counts something of that kind (`count(seminars)` is listed in the
code but has no function), its filter answers, and what is inserted or blocked at it is found. -/
structure Assertion.Safe (x : Ctx) (t : DataType) (a : Assertion) : Prop where
  type : a.dataType = t
  key : a.key ∈ actionKeys t
  seminars : a.key ≠ "count(seminars)"
  comparison : a.op.isComparison
  answers : ∀ p, a.where' = some p → p.AnswersOn x t
  inserts : x.InsertsFound a.path
  courses : t = .course ∨ getInsertExceptions x.exceptions a.path = []
  blocks : x.BlocksFound a.path

/-- an assertion, conditional or not, that has a result -/
structure AnyAssertion.Safe (x : Ctx) (t : DataType) (b : AnyAssertion) : Prop where
  branches : ∀ a ∈ b.branches, a.Safe x t
  known : ∀ t' f, b ≠ .cond none t' f
  dynamic : ∀ c r t', b = .dyn c r t' → t = .course

theorem applyCourses_key {key : String} (h : key ∈ actionKeys .course) (cs again : List Course) :
    ∃ r, applyCourses key cs again = .ok r := by
  have hs : ∀ l, ∃ r, (match bestSubject l with
      | none => (.ok { value := 0 } : Except Err Applied)
      | some s => .ok { value := sumCredits (l.filter (fun c => c.subject == s)), courses := l.filter (fun c => c.subject == s) })
      = .ok r := by
    intro l
    cases bestSubject l with
    | none => exact ⟨_, rfl⟩
    | some s => exact ⟨_, rfl⟩
  simp only [actionKeys, List.mem_cons, List.not_mem_nil, or_false] at h
  rcases h with rfl | rfl | rfl | rfl | rfl | rfl | rfl | rfl | rfl | rfl | rfl | rfl | rfl | rfl
  all_goals first
    | exact ⟨_, rfl⟩
    | exact hs _

theorem metStatus_dated {a : Assertion} (ha : a.key ∈ actionKeys .course) (hop : a.op.isComparison) {cs : List Course}
    {r : Applied} (hd : ∀ c ∈ r.courses, c.Dated) : ∃ s, metStatus a cs r = .ok s := by
  unfold metStatus
  dsimp only
  split
  · rename_i e he
    split at he
    · obtain ⟨r', hr'⟩ := applyCourses_key ha (cs.filter (fun c => !c.isInProgress)) []
      obtain ⟨b, hb, _⟩ := compareNum_iff hop r'.value a.expected
      rw [hr'] at he
      simp only [hb] at he
      cases he
    · cases he
  split
  · exact ⟨_, rfl⟩
  · split
    · rename_i hip
      obtain ⟨c, hc, hcp⟩ := List.any_eq_true.1 hip
      have hdc := hd c hc hcp
      have h3 : (r.courses.any (·.isInProgressThisTerm) || r.courses.any (·.isInProgressInFuture) ||
          r.courses.any (·.isIncomplete)) = true := by
        simp only [Bool.or_eq_true, List.any_eq_true]
        rcases hdc with h | h | h
        · exact .inl (.inl ⟨c, hc, h⟩)
        · exact .inl (.inr ⟨c, hc, h⟩)
        · exact .inr ⟨c, hc, h⟩
      generalize r.courses.any (·.isInProgressThisTerm) = e at h3 ⊢
      generalize r.courses.any (·.isInProgressInFuture) = f at h3 ⊢
      generalize r.courses.any (·.isIncomplete) = i at h3 ⊢
      cases e <;> cases f <;> cases i <;> first | exact ⟨_, rfl⟩ | simp at h3
    · exact ⟨_, rfl⟩

theorem evaluatePlain_ok {a : Assertion} (hop : a.op.isComparison) (r : Applied) : ∃ s, evaluatePlain a r = .ok s := by
  obtain ⟨b, hb, _⟩ := compareNum_iff hop r.value a.expected
  unfold evaluatePlain
  rw [hb]
  cases b <;> exact ⟨_, rfl⟩

theorem evaluate_safe {x : Ctx} {look : Bool} (hx : x.Sound look) {t : DataType} {a : Assertion} (ha : a.Safe x t)
    {is : List Item} (h : ∀ i ∈ is, x.Holds t i) : ∃ r, a.evaluate is = .ok r := by
  unfold Assertion.evaluate
  have hk := ha.key
  rw [ha.type]
  cases t with
  | course =>
    obtain ⟨cs, _, h2, h3⟩ := holds_course h
    simp only [h2]
    unfold evaluateCourses
    obtain ⟨r, hr⟩ := applyCourses_key hk cs cs
    obtain ⟨b, hb, _⟩ := compareNum_iff ha.comparison r.value a.expected
    simp only [hr, hb]
    cases b with
    | false => exact ⟨_, rfl⟩
    | true =>
      obtain ⟨s, hs⟩ := metStatus_dated (a := a) (cs := cs) hk ha.comparison
        (fun c hc => hx.dated c (h3 c (applyCourses_used (fun _ h => h) hr c hc)))
      simp only [hs]
      exact ⟨_, rfl⟩
  | area =>
    obtain ⟨cs, h1⟩ := holds_area h
    simp only [actionKeys, List.mem_singleton] at hk
    simp only [hk, applyAreas, BEq.rfl, if_true, h1]
    exact evaluatePlain_ok ha.comparison _
  | musicPerformance =>
    obtain ⟨cs, h1⟩ := holds_music (.inl rfl) h
    simp only [actionKeys, List.mem_cons, List.not_mem_nil, or_false] at hk
    rcases hk with hk | hk | hk | hk
    · simp only [hk, applyItems, BEq.rfl, if_true]
      exact evaluatePlain_ok ha.comparison _
    · simp only [hk, applyItems, h1]
      exact evaluatePlain_ok ha.comparison _
    · exact absurd hk ha.seminars
    · simp only [hk, applyItems, h1]
      exact evaluatePlain_ok ha.comparison _
  | recital =>
    obtain ⟨cs, h1⟩ := holds_music (.inr rfl) h
    simp only [actionKeys, List.mem_cons, List.not_mem_nil, or_false] at hk
    rcases hk with hk | hk | hk | hk
    · simp only [hk, applyItems, BEq.rfl, if_true]
      exact evaluatePlain_ok ha.comparison _
    · simp only [hk, applyItems, h1]
      exact evaluatePlain_ok ha.comparison _
    · exact absurd hk ha.seminars
    · simp only [hk, applyItems, h1]
      exact evaluatePlain_ok ha.comparison _

theorem insertInto_holds {x : Ctx} {look : Bool} (hx : x.Sound look) : ∀ (es : List Exc),
    (∀ e ∈ es, ∀ k f, e.kind = .insertion k f → ∃ c, x.forcedCourseByClbid k = .ok c) →
    ∀ (out : List Item) (ins : List String), (∀ i ∈ out, x.Holds .course i) →
    ∃ o' i', insertInto x es out ins = .ok (o', i') ∧ ∀ i ∈ o', x.Holds .course i
  | [], _, out, ins, h => ⟨out, ins, rfl, h⟩
  | e :: es, he, out, ins, h => by
    have ih := insertInto_holds hx es (fun e' h' => he e' (List.mem_cons_of_mem _ h'))
    have add : ∀ c, x.Knows c → ∀ i ∈ out ++ [Item.course c], x.Holds .course i := by
      intro c hc i hi
      rcases List.mem_append.1 hi with hi | hi
      · exact h i hi
      · rw [List.mem_singleton] at hi; subst hi; exact hc
    unfold insertInto
    cases hk : e.kind with
    | insertion k f =>
      obtain ⟨c, hc⟩ := he e List.mem_cons_self k f hk
      simp only [hc]
      cases f with
      | true => exact ih _ _ (add c (forcedCourse_knows hx hc).1)
      | false =>
        cases hf : x.findCourseByClbid k with
        | none => simpa [hf] using ih out ins h
        | some c' => simpa [hf] using ih _ (ins ++ [c'.clbid]) (add c' (.inl (findCourseByClbid_some hf).1))
    | _ => exact ih out ins h

theorem blockFrom_holds {x : Ctx} {t : DataType} : ∀ (es : List Exc),
    (∀ e ∈ es, ∀ k, e.kind = .block k → ∃ c, x.forcedCourseByClbid k = .ok c) →
    ∀ (out : List Item), (∀ i ∈ out, x.Holds t i) →
    ∃ o', blockFrom x es out = .ok o' ∧ ∀ i ∈ o', x.Holds t i
  | [], _, out, h => ⟨out, rfl, h⟩
  | e :: es, he, out, h => by
    have ih := blockFrom_holds (t := t) es (fun e' h' => he e' (List.mem_cons_of_mem _ h'))
    unfold blockFrom
    cases hk : e.kind with
    | block k =>
      obtain ⟨c, hc⟩ := he e List.mem_cons_self k hk
      simp only [hc]
      exact ih _ (fun i hi => h i (List.mem_of_mem_erase hi))
    | _ => exact ih out h

theorem Assertion.audit_safe {x : Ctx} {look : Bool} (hx : x.Sound look) {t : DataType} {a : Assertion} (ha : a.Safe x t)
    {is : List Item} (h : ∀ i ∈ is, x.Holds t i) : ∃ r, a.audit x is = .ok r := by
  unfold Assertion.audit
  split
  · exact ⟨_, rfl⟩
  · dsimp only
    split
    · rename_i e he
      split at he
      · cases he
      · rename_i p hw
        obtain ⟨out, ho⟩ := filterItems_answers (ha.answers p hw) is h
        rw [ho] at he
        cases he
    rename_i f hf
    have hfh : ∀ i ∈ f, x.Holds t i := by
      split at hf
      · cases hf; exact h
      · exact fun i hi => h i ((filterItems_sublist hf).subset hi)
    have hi : ∃ o' i', insertInto x (getInsertExceptions x.exceptions a.path) f [] = .ok (o', i') ∧
        ∀ i ∈ o', x.Holds t i := by
      rcases ha.courses with rfl | h0
      · exact insertInto_holds hx _ ha.inserts f [] hfh
      · rw [h0]
        exact ⟨f, [], rfl, hfh⟩
    obtain ⟨o', i', ho', hoh⟩ := hi
    obtain ⟨o'', hb, hbh⟩ := blockFrom_holds (t := t) _ ha.blocks o' hoh
    obtain ⟨⟨s, r⟩, hr⟩ := evaluate_safe hx ha hbh
    simp only [ho', hb, hr]
    exact ⟨_, rfl⟩

theorem AnyAssertion.audit_safe {x : Ctx} {look : Bool} (hx : x.Sound look) {t : DataType} {b : AnyAssertion}
    (hb : b.Safe x t) {is : List Item} (h : ∀ i ∈ is, x.Holds t i) : ∃ r, b.audit x is = .ok r := by
  cases b with
  | single a =>
    obtain ⟨r, hr⟩ := Assertion.audit_safe hx (hb.branches a (by simp [AnyAssertion.branches])) h
    exact ⟨_, by simp only [AnyAssertion.audit, hr]; rfl⟩
  | cond c th f =>
    rcases c with _ | c
    · exact absurd rfl (hb.known th f)
    · cases c with
      | true =>
        obtain ⟨r, hr⟩ := Assertion.audit_safe hx (hb.branches th (by simp [AnyAssertion.branches])) h
        exact ⟨_, by simp only [AnyAssertion.audit, hr]; rfl⟩
      | false =>
        cases f with
        | none => exact ⟨_, rfl⟩
        | some f =>
          obtain ⟨r, hr⟩ := Assertion.audit_safe hx (hb.branches f (by simp [AnyAssertion.branches])) h
          exact ⟨_, by simp only [AnyAssertion.audit, hr]; rfl⟩
  | dyn c r th =>
    have := hb.dynamic c r th rfl
    subst this
    obtain ⟨cs, _, h2, _⟩ := holds_course h
    simp only [AnyAssertion.audit, h2]
    split
    · obtain ⟨r, hr⟩ := Assertion.audit_safe hx (hb.branches th (by simp [AnyAssertion.branches])) h
      exact ⟨_, by simp only [hr]; rfl⟩
    · exact ⟨_, rfl⟩

theorem auditAssertions_safe {x : Ctx} {look : Bool} (hx : x.Sound look) {t : DataType} {is : List Item}
    (h : ∀ i ∈ is, x.Holds t i) : ∀ bs : List AnyAssertion, (∀ b ∈ bs, b.Safe x t) →
    ∃ r, auditAssertions x is bs = .ok r
  | [], _ => ⟨[], rfl⟩
  | b :: bs, hb => by
    obtain ⟨r, hr⟩ := AnyAssertion.audit_safe hx (hb b List.mem_cons_self) h
    obtain ⟨rs, hrs⟩ := auditAssertions_safe hx h bs (fun b' h' => hb b' (List.mem_cons_of_mem _ h'))
    exact ⟨r :: rs, by simp only [auditAssertions, hr, hrs]⟩

end Dp
