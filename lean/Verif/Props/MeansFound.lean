import Verif.Props.MeansSensible
import Verif.Props.MeansArea
import Verif.Props.FoundArea
import Verif.Props.Common
import Verif.Props.MeansKept

/-
C69: if a student has what is written in the area file, the area is reported as complete.
-/
namespace Dp

/-! ### Specification -/

/-- the query asks one thing, and this is its text and its place -/
def AssertsOnly (d : Dict) (q : Path) (y : Y) (q' : Path) : Prop :=
  q' = q ++ [".assertions", "[0]"] ∧
  ((∃ a, d.get? "assert" = some a ∧ y = .map [("assert", a)]) ∨ (d.get? "assert" = none ∧ d.get? "all" = some (.list [y])))

/-- the courses are as many as the comparison `key: d` at `q` asks for, or have as many credits -/
inductive EnoughOf (w : Setting) (q : Path) (key : String) (d : Dict) (cs : List Course) : Prop
  | courses {op : Operator} {raw : Y} (n : Nat) : key = "count(courses)" → OneOperator d op raw →
      Expects w.record w.es w.c q d raw n → NumHolds op cs.length n → (FlagSet d "at_most" → op = .gte → cs.length = n) →
      (op = .eq ∨ op = .neq → cs ≠ []) → EnoughOf w q key d cs
  | credits {raw : Y} {v : Rat} : key = "sum(credits)" → OneOperator d .gte raw → Expects w.record w.es w.c q d raw v →
      v ≤ sumCredits cs → cs ≠ [] → EnoughOf w q key d cs

/-- the query asks for these things, in this order -/
def AssertsAll (d : Dict) (ys : List Y) : Prop :=
  (∃ a, d.get? "assert" = some a ∧ ys = [.map [("assert", a)]]) ∨ (d.get? "assert" = none ∧ d.get? "all" = some (.list ys))

/-- these are the limits that the query is written with -/
def LimitsListed (d : Dict) (l : List Y) : Prop := (d.get? "limit" = none ∧ l = []) ∨ d.get? "limit" = some (.list l)

/-- The text `data` at `q` demands `m` of the courses, without a condition, and they meet it.  If it has a filter, it is about those
that the filter accepts.  No exception inserts anything there. -/
structure DemandMet (w : Setting) (q : Path) (data : Dict) (m : Demand) (cs : List Course) : Prop where
  always : data.get? "$when" = none ∧ data.get? "$if" = none
  written : ∃ amount raw, data.get? "assert" = some (.map [(m.key, .map amount)]) ∧ OneOperator amount m.op raw ∧
    Expects w.record w.es w.c q amount raw m.value ∧ (m.capped = true ↔ FlagSet amount "at_most")
  untouched : ∀ e ∈ w.es, e.path = q → e.isInsertion = false ∧ e.isBlock = false
  known : m.key ∉ mostCommonKeys
  sensible : ∀ y, data.opt "where" = some y → ∀ k ∈ cs, Sensible w.c (.course k) y
  met : ∃ (part : List Course) (v : Rat), KeepsWritten w.record w.es w.c (data.opt "where") (cs.map .course) (part.map .course) ∧
    Measures m.key part v ∧ NumHolds m.op v m.value

/-- `TextFulfilled w kids ems p y cs`: the courses `cs` of the student's fulfil what is written as `y` at the place `p`, with the
requirements `kids` and the emphases `ems`.  Not every way to fulfil a text is described here. -/
inductive TextFulfilled (w : Audited) : Dict → List Dict → Path → Y → List Course → Prop
  /-- what is waived needs nothing -/
  | waived {kids : Dict} {ems : List Dict} {p q : Path} {y : Y} : PlaceOf kids p y q → WaivedAt w.es q →
      TextFulfilled w kids ems p y []
  /-- a course on the transcript that is as written and not blocked -/
  | course {kids : Dict} {ems : List Dict} {p : Path} {d : Dict} (k : Course) : ruleKind d = .course → ¬ FlagSet d "from_claimed" →
      k ∈ w.x.transcript → CourseAsWritten d k → ¬ BlockedAt w.es (p ++ [courseSegment d]) k.clbid →
      (w.final = true → k.isInProgress = false) → TextFulfilled w kids ems p (.map d) [k]
  /-- a course that an exception puts in its place -/
  | inserted {kids : Dict} {ems : List Dict} {p : Path} {d : Dict} (k : Course) : ruleKind d = .course →
      PutInto w.x w.es (p ++ [courseSegment d]) k → ¬ BlockedAt w.es (p ++ [courseSegment d]) k.clbid →
      TextFulfilled w kids ems p (.map d) [k]
  /-- enough of the courses that the filter of a query accepts, in the order of the transcript.  The query has no limits and claims
  what it counts, it asks one thing without a condition or a filter, and no exception inserts anything. -/
  | query {kids : Dict} {ems : List Dict} {p q : Path} {d data amount : Dict} {key : String} (recs sel : List Item) (cs : List Course) :
      ruleKind d = .query → TextAt d "from" "courses" → ClaimsCounted d → d.get? "limit" = none →
      AssertsOnly d (p ++ [".query"]) (.map data) q → data.get? "$when" = none → data.get? "$if" = none →
      data.get? "where" = none → data.get? "assert" = some (.map [(key, .map amount)]) →
      (∀ e ∈ w.es, e.path = p ++ [".query"] → e.isInsertion = false) →
      (∀ e ∈ w.es, e.path = q ++ [".assert"] → e.isInsertion = false ∧ e.isBlock = false) →
      LooksThrough w d (p ++ [".query"]) .course recs → (∀ y, d.opt "where" = some y → ∀ i ∈ recs, Sensible w.c i y) →
      KeepsWritten w.record w.es w.c (d.opt "where") recs sel → (∀ k, Item.course k ∈ sel → 0 ≤ k.credits) →
      (cs.map Item.course).Sublist sel → EnoughOf w.toSetting (q ++ [".assert"]) key amount cs →
      (w.final = true → ∀ k ∈ cs, k.isInProgress = false) → TextFulfilled w kids ems p (.map d) cs
  /-- courses that the filter of a query accepts and its limits allow together, that meet all that the query asks for and are enough
  of them.  The query claims what it counts, nothing is asked under a condition, and no exception inserts anything. -/
  | queries {kids : Dict} {ems : List Dict} {p : Path} {d : Dict} (lim ys : List Y) (ms : List Demand) (recs : List Item)
      (all kept cs : List Course) : ruleKind d = .query → TextAt d "from" "courses" → ClaimsCounted d → LimitsListed d lim →
      AssertsAll d ys → (∀ e ∈ w.es, e.path = p ++ [".query"] → e.isInsertion = false) →
      LooksThrough w d (p ++ [".query"]) .course recs → (∀ y, d.opt "where" = some y → ∀ i ∈ recs, Sensible w.c i y) →
      KeepsWritten w.record w.es w.c (d.opt "where") recs (all.map .course) → (∀ k ∈ all, 0 ≤ k.credits) →
      LimitsSensible w.toSetting lim all → LimitsDiffer w.toSetting lim all →
      WithinLimitsOf w.toSetting lim all (fun _ => False) kept → cs ≠ [] →
      (∀ k ∈ cs, k ∈ all ∧ ((∃ e, Y.map e ∈ lim ∧ LimitTakes w.toSetting e k) → k ∈ kept)) → ms.length = ys.length →
      (∀ j y m, ys[j]? = some y → ms[j]? = some m →
        ∃ data, y = .map data ∧ DemandMet w.toSetting (p ++ [".query", ".assertions", indexSeg j, ".assert"]) data m cs) →
      LargeEnough ms cs → (w.final = true → ∀ k ∈ cs, k.isInProgress = false) → TextFulfilled w kids ems p (.map d) cs
  /-- as many parts as are asked for; the count has no further conditions -/
  | count {kids kids' : Dict} {ems : List Dict} {p : Path} {d : Dict} {parts : List Y} {inserted : Prop} {shown n : Nat}
      (chosen : List (Nat × Y × List Course)) : ruleKind d = .count → d.get? "audit" = none →
      PartsWritten w.toSetting kids ems d (p ++ [".count"]) kids' parts inserted →
      ShownParts w.toSetting (p ++ [".count"]) 0 parts shown → AsksFor d inserted shown n →
      chosen ≠ [] → (chosen.map (·.1)).Pairwise (· < ·) → (∀ e ∈ chosen, parts[e.1]? = some e.2.1) → n ≤ chosen.length →
      (FlagSet d "at_most" → chosen.length = n) →
      (∀ e ∈ chosen, TextFulfilled w kids' [] (p ++ [".count", itemSeg e.1 e.2.1]) e.2.1 e.2.2) →
      TextFulfilled w kids ems p (.map d) (chosen.flatMap (·.2.2))
  /-- a requirement that is not left to the department, by what its text says -/
  | req {kids own : Dict} {ems : List Dict} {p : Path} {d body : Dict} {name : String} {y : Y} {cs : List Course} :
      RefersTo kids d name body → ¬ DepartmentAudited body → body.get? "result" = some y → OwnRequirements body own →
      TextFulfilled w own [] (p ++ ["%" ++ name]) y cs → TextFulfilled w kids ems p (.map d) cs
  | condTrue {kids : Dict} {ems : List Dict} {p : Path} {d : Dict} {yif y : Y} {cs : List Course} : ruleKind d = .conditional →
      d.get? "$if" = some yif → Decides w.record w.es yif true → d.get? "$then" = some y →
      TextFulfilled w kids [] (p ++ [".cond", "/t"]) y cs → TextFulfilled w kids ems p (.map d) cs
  /-- a conditional whose condition does not hold and that is not hidden then -/
  | condFalse {kids : Dict} {ems : List Dict} {p : Path} {d : Dict} {yif y : Y} {cs : List Course} : ruleKind d = .conditional →
      d.get? "$if" = some yif → Decides w.record w.es yif false →
      ¬ HiddenAt w.toSetting p (.map d) → d.get? "$else" = some y → TextFulfilled w kids [] (p ++ [".cond", "/f"]) y cs → TextFulfilled w kids ems p (.map d) cs
  /-- the student's record shows a proficiency for which no course is named -/
  | prof {kids : Dict} {ems : List Dict} {p : Path} {d : Dict} {name : String} : ruleKind d = .proficiency →
      TextAt d "proficiency" name → d.get? "course" = none → RecordShows w.x.proficiencies name →
      TextFulfilled w kids ems p (.map d) []

/-- a rule that is a requirement with `disjoint: true`, or refers to one that consists of such a requirement -/
inductive MarkedDisjoint : Dict → Y → Prop
  | here {kids d body : Dict} {name : String} : RefersTo kids d name body → FlagSet body "disjoint" → MarkedDisjoint kids (.map d)
  | inside {kids d body own : Dict} {name : String} {y : Y} : RefersTo kids d name body → body.get? "result" = some y →
      OwnRequirements body own → MarkedDisjoint own y → MarkedDisjoint kids (.map d)

/-- what is written at the place asks for all of its parts, none of which is marked as disjoint, or has no parts; a conditional does if
the part that applies does -/
inductive WantsAllAt (w : Setting) (kids : Dict) : List Dict → Path → Y → Prop
  | parts {ems : List Dict} {p : Path} {d kids' : Dict} {parts : List Y} {inserted : Prop} {n : Nat} : ruleKind d = .count →
      PartsWritten w kids ems d (p ++ [".count"]) kids' parts inserted → ShownParts w (p ++ [".count"]) 0 parts n →
      AsksFor d inserted n n → (∀ y ∈ parts, ¬ MarkedDisjoint kids' y) → WantsAllAt w kids ems p (.map d)
  | single {ems : List Dict} {p : Path} {d : Dict} : ruleKind d ∈ [.course, .query, .proficiency, .inline, .reference] →
      WantsAllAt w kids ems p (.map d)
  | thenPart {ems : List Dict} {p : Path} {d : Dict} {yif y : Y} : ruleKind d = .conditional → d.get? "$if" = some yif →
      Decides w.record w.es yif true → d.get? "$then" = some y → WantsAllAt w kids [] (p ++ [".cond", "/t"]) y →
      WantsAllAt w kids ems p (.map d)
  | elsePart {ems : List Dict} {p : Path} {d : Dict} {yif y : Y} : ruleKind d = .conditional → d.get? "$if" = some yif →
      Decides w.record w.es yif false → d.get? "$else" = some y → ¬ HiddenAt w (p ++ [".cond", "/f"]) y →
      WantsAllAt w kids [] (p ++ [".cond", "/f"]) y → WantsAllAt w kids ems p (.map d)

/-- what is written at the top of an area asks for all of its parts -/
abbrev WantsAll (w : Setting) (kids : Dict) (ems : List Dict) (y : Y) : Prop := WantsAllAt w kids ems ["$"] y

/-- a course of the student's that counts only once: it is the only one with its id, is not forced in by an exception and is
not listed as multicountable in the area file -/
structure CountsOnceWritten (spec : Dict) (st : Student) (es : List Exc) (k : Course) : Prop where
  one : ∀ k' ∈ st.courses ++ st.coursesWithFailed, k'.clbid = k.clbid → k' = k
  notForced : ∀ e ∈ es, e.kind ≠ .insertion k.clbid true
  unlisted : ∀ m : Dict, spec.get? "multicountable" = some (.map m) → m.get? k.identity = none

/-! ### Places -/

theorem Built.at_place {env : Env} {kids kids2 : Dict} (hsame : SameKids kids kids2) {ems : List Dict} {p q : Path} {y : Y}
    {o : Option Node} (h : Built env kids ems p y o) (hp : PlaceOf kids2 p y q) :
    ∃ n, o = some n ∧ n.path = q ∧ ∀ s d t f, n ≠ .cond s d t f := by
  have hplace := h.place
  have hnc : ∀ (d : Dict), y = .map d → ruleKind d ≠ .conditional := by
    intro d hd
    cases hp with
    | course hk => cases hd; rw [hk]; simp
    | query hk => cases hd; rw [hk]; simp
    | count hk => cases hd; rw [hk]; simp
    | req hr => cases hd; rcases hr.kind with hk | hk <;> (rw [hk]; simp)
    | prof hk => cases hd; rw [hk]; simp
  have hsome : ∃ n, o = some n ∧ ∀ s d t f, n ≠ .cond s d t f := by
    cases h with
    | prof hk h =>
      obtain ⟨_, _, _, _, rfl, _⟩ := loadProficiency_inv h
      exact ⟨_, rfl, by simp⟩
    | course => exact ⟨_, rfl, by simp⟩
    | query => exact ⟨_, rfl, by simp⟩
    | cond hk => exact absurd hk (hnc _ rfl)
    | count => exact ⟨_, rfl, by simp⟩
    | req => exact ⟨_, rfl, by simp⟩
  obtain ⟨n, rfl, hn⟩ := hsome
  refine ⟨n, rfl, ?_, hn⟩
  have h1 := hplace n rfl hn
  have hdiff {d : Dict} {a b : RuleKind} (h1 : ruleKind d = a) (h2 : ruleKind d = b) : a = b := h1.symm.trans h2
  generalize n.path = q1 at h1
  cases h1 with
  | course hk => cases hp with
    | course => rfl
    | query hk2 => cases hdiff hk hk2
    | count hk2 => cases hdiff hk hk2
    | req hr => rcases hr.kind with hk2 | hk2 <;> cases hdiff hk hk2
    | prof hk2 => cases hdiff hk hk2
  | query hk => cases hp with
    | course hk2 => cases hdiff hk hk2
    | query => rfl
    | count hk2 => cases hdiff hk hk2
    | req hr => rcases hr.kind with hk2 | hk2 <;> cases hdiff hk hk2
    | prof hk2 => cases hdiff hk hk2
  | count hk => cases hp with
    | course hk2 => cases hdiff hk hk2
    | query hk2 => cases hdiff hk hk2
    | count => rfl
    | req hr => rcases hr.kind with hk2 | hk2 <;> cases hdiff hk hk2
    | prof hk2 => cases hdiff hk hk2
  | req hr => cases hp with
    | course hk2 => rcases hr.kind with hk | hk <;> cases hdiff hk hk2
    | query hk2 => rcases hr.kind with hk | hk <;> cases hdiff hk hk2
    | count hk2 => rcases hr.kind with hk | hk <;> cases hdiff hk hk2
    | req hr2 => rw [(RefersTo.same hsame hr hr2).1]
    | prof hk2 => rcases hr.kind with hk | hk <;> cases hdiff hk hk2
  | prof hk hn => cases hp with
    | course hk2 => cases hdiff hk hk2
    | query hk2 => cases hdiff hk hk2
    | count hk2 => cases hdiff hk hk2
    | req hr => rcases hr.kind with hk2 | hk2 <;> cases hdiff hk hk2
    | prof hk2 hn2 =>
      have := hn.symm.trans hn2
      cases this
      rfl

/-! ### Queries -/

theorem loadQueryAssertions_only {env : Env} {t : DataType} {q q' : Path} {d data : Dict} {as : List AnyAssertion}
    (h : loadQueryAssertions env t q d = .ok as) (ha : AssertsOnly d q (.map data) q') (hw : data.get? "$when" = none)
    (hif : data.get? "$if" = none) : ∃ a, as = [.single a] ∧ loadSingle env.ctx env.c t q' (.map data) = .ok a := by
  have key : ∀ {b : AnyAssertion}, loadAnyAssertion env.ctx env.c t q' (.map data) = .ok b →
      ∃ a, b = .single a ∧ loadSingle env.ctx env.c t q' (.map data) = .ok a := by
    intro b h
    unfold loadAnyAssertion at h
    simp only [ld_bind_ok, ld_asDict, Y.map.injEq] at h
    obtain ⟨_, rfl, h⟩ := h
    rw [if_neg (by simp [Dict.has, hw])] at h
    unfold loadAssertion at h
    simp only [ld_bind_ok, ld_asDict, Y.map.injEq] at h
    obtain ⟨_, rfl, h⟩ := h
    rw [if_neg (by simp [Dict.has, hif])] at h
    rw [ld_bind_ok] at h
    obtain ⟨a, ha, h⟩ := h
    cases h
    exact ⟨a, rfl, ha⟩
  obtain ⟨rfl, ha⟩ := ha
  unfold loadQueryAssertions at h
  rcases ha with ⟨a, ha, hd⟩ | ⟨hn, hall⟩
  · rw [ha] at h
    simp only [ld_bind_ok] at h
    obtain ⟨r, hr, h⟩ := h
    cases h
    rw [hd] at key
    obtain ⟨a', rfl, h2⟩ := key hr
    rw [hd]
    exact ⟨a', rfl, h2⟩
  · rw [hn] at h
    simp only [hall, ld_bind_ok, ld_asList, Y.list.injEq] at h
    obtain ⟨_, rfl, h⟩ := h
    simp only [mapIdxE, ld_bind_ok] at h
    obtain ⟨r, hr, _, h1, h⟩ := h
    cases h1
    cases h
    obtain ⟨a', rfl, h2⟩ := key hr
    exact ⟨a', rfl, h2⟩

theorem loadAnyAssertion_plain {x : Ctx} {c : Constants} {t : DataType} {q : Path} {data : Dict} {b : AnyAssertion}
    (h : loadAnyAssertion x c t q (.map data) = .ok b) (hw : data.get? "$when" = none) (hif : data.get? "$if" = none) :
    ∃ a, b = .single a ∧ loadSingle x c t q (.map data) = .ok a := by
  unfold loadAnyAssertion at h
  simp only [ld_bind_ok, ld_asDict, Y.map.injEq] at h
  obtain ⟨_, rfl, h⟩ := h
  rw [if_neg (by simp [Dict.has, hw])] at h
  unfold loadAssertion at h
  simp only [ld_bind_ok, ld_asDict, Y.map.injEq] at h
  obtain ⟨_, rfl, h⟩ := h
  rw [if_neg (by simp [Dict.has, hif])] at h
  rw [ld_bind_ok] at h
  obtain ⟨a, ha, h⟩ := h
  cases h
  exact ⟨a, rfl, ha⟩

theorem mapIdxE_says {α β : Type} {f : Nat → α → Except Err β} : ∀ {l : List α} {n : Nat} {r : List β}, mapIdxE f n l = .ok r →
    r.length = l.length ∧ ∀ j a b, l[j]? = some a → r[j]? = some b → f (n + j) a = .ok b := by
  intro l
  induction l with
  | nil => intro n r h; cases h; simp
  | cons y l ih =>
    intro n r h
    simp only [mapIdxE, ld_bind_ok] at h
    obtain ⟨b, hb, rest, hrest, h⟩ := h
    cases h
    obtain ⟨h1, h2⟩ := ih hrest
    refine ⟨by simp [h1], fun j a b' ha hb' => ?_⟩
    cases j with
    | zero => simp at ha hb'; subst ha; subst hb'; exact hb
    | succ j =>
      simp only [List.getElem?_cons_succ] at ha hb'
      have := h2 j a b' ha hb'
      rwa [show n + (j + 1) = n + 1 + j by omega]

theorem loadQueryAssertions_all {env : Env} {t : DataType} {q : Path} {d : Dict} {as : List AnyAssertion}
    (h : loadQueryAssertions env t q d = .ok as) {ys : List Y} (ha : AssertsAll d ys) :
    as.length = ys.length ∧ ∀ j y b, ys[j]? = some y → as[j]? = some b →
      loadAnyAssertion env.ctx env.c t (q ++ [".assertions", indexSeg j]) y = .ok b := by
  unfold loadQueryAssertions at h
  rcases ha with ⟨a, ha, rfl⟩ | ⟨hn, hall⟩
  · rw [ha] at h
    simp only [ld_bind_ok] at h
    obtain ⟨r, hr, h⟩ := h
    cases h
    refine ⟨rfl, fun j y b hy hb => ?_⟩
    cases j with
    | zero => simp at hy hb; subst hy; subst hb; exact hr
    | succ j => simp at hy
  · rw [hn] at h
    simp only [hall, ld_bind_ok, ld_asList, Y.list.injEq] at h
    obtain ⟨_, rfl, h⟩ := h
    obtain ⟨h1, h2⟩ := mapIdxE_says h
    refine ⟨h1, fun j y b hy hb => ?_⟩
    have := h2 j y b hy hb
    rwa [Nat.zero_add] at this

theorem selectsItems_selects {w : Option Pred} {cs part : List Course} (h : SelectsItems w (cs.map .course) (part.map .course)) :
    Selects w cs part := by
  have hinj : Function.Injective Item.course := fun _ _ h => by injection h
  cases w with
  | none => exact hinj.list_map h
  | some p =>
    obtain ⟨f, h1, h2⟩ := h
    refine ⟨fun k => f (.course k), fun k hk => h1 _ (List.mem_map_of_mem hk), hinj.list_map ?_⟩
    rw [h2, List.filter_map]
    rfl

theorem queries_fulfils {w : Audited} {p : Path} {d : Dict} {qd : QueryData} (h : loadQuery w.env d p = .ok qd) {s : Stage}
    {ex : List String} (hex : ∀ k, k ∈ ex ↔ LeftOut w (p ++ [".query"]) k) {lim ys : List Y} {ms : List Demand}
    {recs : List Item} {all kept cs : List Course} (h1 : TextAt d "from" "courses") (h2 : ClaimsCounted d) (h3 : LimitsListed d lim)
    (h4 : AssertsAll d ys) (h9 : ∀ e ∈ w.es, e.path = p ++ [".query"] → e.isInsertion = false)
    (h11 : LooksThrough w d (p ++ [".query"]) .course recs) (h12 : ∀ y, d.opt "where" = some y → ∀ i ∈ recs, Sensible w.c i y)
    (h13 : KeepsWritten w.record w.es w.c (d.opt "where") recs (all.map .course)) (h14 : ∀ k ∈ all, 0 ≤ k.credits)
    (l1 : LimitsSensible w.toSetting lim all) (l2 : LimitsDiffer w.toSetting lim all)
    (l3 : WithinLimitsOf w.toSetting lim all (fun _ => False) kept) (c1 : cs ≠ [])
    (c2 : ∀ k ∈ cs, k ∈ all ∧ ((∃ e, Y.map e ∈ lim ∧ LimitTakes w.toSetting e k) → k ∈ kept)) (m1 : ms.length = ys.length)
    (m2 : ∀ j y m, ys[j]? = some y → ms[j]? = some m →
      ∃ data, y = .map data ∧ DemandMet w.toSetting (p ++ [".query", ".assertions", indexSeg j, ".assert"]) data m cs)
    (m3 : LargeEnough ms cs) (h17 : w.final = true → ∀ k ∈ cs, k.isInProgress = false) :
    Fulfils w.final w.x w.es (.query s { qd with excluded := ex }) cs := by
  obtain ⟨src, wh, lims, as, allow, failed, g1, g2, g3, g4, _, g6, _, _, _, _, g11, hq⟩ := loadQuery_inv h
  have hpath : qd.path = p ++ [".query"] := by rw [hq]
  have hassert : qd.assertions = as := by rw [hq]
  have hwhere : qd.where' = wh := by rw [hq]
  have hfailed : qd.includeFailed = failed := by rw [hq]
  have hatt : qd.attemptClaims = (claimMode d).1 := by rw [hq]
  have hlim : qd.limit = lims := by rw [hq]
  have hsrc : qd.source = .courses := by
    have := g1.symm.trans h1
    cases this
    simpa using parseSource_says g2
  rw [hsrc] at g3 g6
  -- the assertions
  obtain ⟨a1, a2⟩ := loadQueryAssertions_all g6 h4
  have hone : ∀ (j : Nat) (b : AnyAssertion), as[j]? = some b → ∃ (a : Assertion) (m : Demand), b = .single a ∧ ms[j]? = some m ∧ a.demand = m ∧
      a.key ∉ mostCommonKeys ∧ MetBy a cs ∧ (∀ e ∈ w.es, e.path = a.path → e.isInsertion = false ∧ e.isBlock = false) := by
    intro j b hb
    have hj : j < as.length := (List.getElem?_eq_some_iff.1 hb).1
    have hy : ys[j]? = some (ys[j]'(by omega)) := List.getElem?_eq_getElem _
    have hm : ms[j]? = some (ms[j]'(by omega)) := List.getElem?_eq_getElem _
    obtain ⟨data, hdata, hmet⟩ := m2 j _ _ hy hm
    have hload := a2 j _ b hy hb
    rw [hdata] at hload
    obtain ⟨a, rfl, hl⟩ := loadAnyAssertion_plain hload hmet.always.1 hmet.always.2
    obtain ⟨_, hd, hread, _⟩ := loadSingle_says w.toSetting.exceptions hl
    cases hd
    have hq2 : p ++ [".query"] ++ [".assertions", indexSeg j] ++ [".assert"] = p ++ [".query", ".assertions", indexSeg j, ".assert"] := by
      simp
    rw [hq2] at hread
    obtain ⟨amount, raw, w1, w2, w3, w4⟩ := hmet.written
    obtain ⟨key', dd, raw', k1, k2, k3, k4, k5, _⟩ := hread.comparison
    rw [w1] at k1
    cases k1
    obtain ⟨e7, rfl⟩ := oneOperator_unique k3 w2
    have e8 := expects_unique k4 w3
    have hcap : a.atMost = (ms[j]'(by omega)).capped := by
      rw [Bool.eq_iff_iff, k5, w4]
    have hdem : a.demand = ms[j]'(by omega) := by
      unfold Assertion.demand
      rw [k2, e7, e8, hcap]
    refine ⟨a, _, rfl, hm, hdem, k2 ▸ hmet.known, ?_, hread.path ▸ hmet.untouched⟩
    obtain ⟨part, v, p1, p2, p3⟩ := hmet.met
    have hsel : Selects a.where' cs part := by
      obtain ⟨data', _, _, _, _, _, _, _, wh', _, _, hd, _, _, _, _, _, _, _, _, _, hw, _, _, _, rfl⟩ := loadSingle_inv hl
      cases hd
      refine selectsItems_selects (loadOptFilter_selects w.toSetting.exceptions hw p1 fun z hz i hi => ?_)
      obtain ⟨k, hk, rfl⟩ := List.mem_map.1 hi
      exact hmet.sensible z hz k hk
    exact ⟨part, v, hsel, k2 ▸ p2, by rw [e7, e8]; exact p3⟩
  -- the limits
  have hent : List.Forall₂ (fun y k => loadLimit w.record w.c y = .ok k) lim lims := by
    rcases h3 with ⟨hn, rfl⟩ | hs
    · have : d.opt "limit" = none := by unfold Dict.opt; rw [hn]
      rw [this] at g4
      unfold loadLimits at g4
      cases g4
      exact .nil
    · exact loadLimits_says g4 (by unfold Dict.opt; rw [hs])
  obtain ⟨hkept, hlimited⟩ := l3.kept hent (l2.nodup hent l1) (forced := []) (by simp) (l1.evaluable hent [])
  have hall : ∀ (l : List AnyAssertion) (ms : List Demand), l.length = ms.length →
      (∀ (j : Nat) b, l[j]? = some b → ∃ (a : Assertion) (m : Demand), b = .single a ∧ ms[j]? = some m ∧ a.demand = m ∧
        a.key ∉ mostCommonKeys ∧ MetBy a cs ∧ (∀ e ∈ w.es, e.path = a.path → e.isInsertion = false ∧ e.isBlock = false)) →
      ∃ bs : List Assertion, l = bs.map .single ∧ bs.map Assertion.demand = ms ∧ ∀ a ∈ bs, a.key ∉ mostCommonKeys ∧ MetBy a cs ∧
        (∀ e ∈ w.es, e.path = a.path → e.isInsertion = false ∧ e.isBlock = false) := by
    intro l
    induction l with
    | nil =>
      intro ms hlen _
      exact ⟨[], rfl, (List.length_eq_zero_iff.1 hlen.symm).symm, by simp⟩
    | cons b l ih =>
      intro ms hlen hs
      cases ms with
      | nil => simp at hlen
      | cons m ms =>
        obtain ⟨a, m', rfl, hm, hd, hk⟩ := hs 0 b rfl
        obtain ⟨bs, rfl, rfl, hb⟩ := ih ms (by simpa using hlen) fun j b hj => hs (j + 1) b (by simpa using hj)
        simp at hm
        subst hm
        refine ⟨a :: bs, rfl, by simp [hd], fun a' ha' => ?_⟩
        rcases List.mem_cons.1 ha' with rfl | ha'
        · exact hk
        · exact hb a' ha'
  obtain ⟨bs, hbs, rfl, hb⟩ := hall as ms (a1.trans m1.symm) hone
  refine .queries bs recs all kept cs hsrc ?_ ?_ ?_ (fun a ha => (hb a ha).2.2) ?_ ?_ ?_ h14 c1 ?_ m3
    (fun a ha => ⟨(hb a ha).1, (hb a ha).2.1⟩) h17
  · show qd.attemptClaims = true
    rw [hatt, claimMode_attempt]
    exact h2
  · show qd.assertions = _
    rw [hassert, hbs]
  · show ∀ e ∈ w.es, e.path = qd.path → _
    rw [hpath]
    exact h9
  · have hf : ∀ f : Course → Bool, (∀ k, f k = true ↔ ¬ LeftOut w (p ++ [".query"]) k.clbid) →
        f = fun k => !ex.contains k.clbid := by
      intro f hf
      funext k
      rw [Bool.eq_iff_iff, hf, ← hex]
      simp
    have hfl : qd.includeFailed = true ↔ FlagSet d "include_failed" := by rw [hfailed]; exact flag_says g11
    generalize DataType.course = t at h11
    cases h11 with
    | courses f _ hno hf' =>
      rw [hf f hf']
      exact .courses (d := { qd with excluded := ex }) hsrc (by rw [← hfl] at hno; simpa using hno)
    | failedToo f _ hno hf' =>
      rw [hf f hf']
      exact .failedToo (d := { qd with excluded := ex }) hsrc (hfl.2 hno)
    | claimed _ hc => have := h1.symm.trans hc; simp at this
    | areas hc => have := h1.symm.trans hc; simp at this
    | performances hc => have := h1.symm.trans hc; simp at this
    | attendances hc => have := h1.symm.trans hc; simp at this
  · show SelectsItems qd.where' recs _
    rw [hwhere]
    exact loadOptFilter_selects w.toSetting.exceptions g3 h13 h12
  · show KeptWithin qd.limit [] all kept
    rw [hlim]
    exact hkept
  · intro k hk
    obtain ⟨k1, k2⟩ := c2 k hk
    refine ⟨k1, fun hl => k2 ?_⟩
    rw [show ({ qd with excluded := ex } : QueryData).limit = lims from hlim] at hl
    exact ((hlimited k k1).1 hl).2

theorem query_fulfils {w : Audited} {p : Path} {d : Dict} {qd : QueryData} (h : loadQuery w.env d p = .ok qd) {s : Stage}
    {ex : List String} (hex : ∀ k, k ∈ ex ↔ LeftOut w (p ++ [".query"]) k) {q : Path} {data amount : Dict} {key : String}
    {recs sel : List Item} {cs : List Course} (h1 : TextAt d "from" "courses") (h2 : ClaimsCounted d) (h3 : d.get? "limit" = none)
    (h4 : AssertsOnly d (p ++ [".query"]) (.map data) q) (h5 : data.get? "$when" = none) (h6 : data.get? "$if" = none)
    (h7 : data.get? "where" = none) (h8 : data.get? "assert" = some (.map [(key, .map amount)]))
    (h9 : ∀ e ∈ w.es, e.path = p ++ [".query"] → e.isInsertion = false)
    (h10 : ∀ e ∈ w.es, e.path = q ++ [".assert"] → e.isInsertion = false ∧ e.isBlock = false)
    (h11 : LooksThrough w d (p ++ [".query"]) .course recs) (h12 : ∀ y, d.opt "where" = some y → ∀ i ∈ recs, Sensible w.c i y)
    (h13 : KeepsWritten w.record w.es w.c (d.opt "where") recs sel) (h14 : ∀ k, Item.course k ∈ sel → 0 ≤ k.credits)
    (h15 : (cs.map Item.course).Sublist sel) (h16 : EnoughOf w.toSetting (q ++ [".assert"]) key amount cs)
    (h17 : w.final = true → ∀ k ∈ cs, k.isInProgress = false) :
    Fulfils w.final w.x w.es (.query s { qd with excluded := ex }) cs := by
  obtain ⟨src, wh, lim, as, allow, failed, g1, g2, g3, g4, _, g6, _, _, _, _, g11, hq⟩ := loadQuery_inv h
  have hpath : qd.path = p ++ [".query"] := by rw [hq]
  have hassert : qd.assertions = as := by rw [hq]
  have hwhere : qd.where' = wh := by rw [hq]
  have hfailed : qd.includeFailed = failed := by rw [hq]
  have hatt : qd.attemptClaims = (claimMode d).1 := by rw [hq]
  have hlim : qd.limit = lim := by rw [hq]
  have hsrc : qd.source = .courses := by
    have := g1.symm.trans h1
    cases this
    simpa using parseSource_says g2
  rw [hsrc] at g3 g6
  obtain ⟨a, ha, hl⟩ := loadQueryAssertions_only g6 h4 h5 h6
  obtain ⟨_, hd, hread, _⟩ := loadSingle_says w.toSetting.exceptions hl
  cases hd
  have haw : a.where' = none := by
    obtain ⟨data', _, _, _, _, _, _, _, wh', _, _, hd, _, _, _, _, _, _, _, _, _, hw, _, _, _, rfl⟩ := loadSingle_inv hl
    cases hd
    have : data.opt "where" = none := by unfold Dict.opt; rw [h7]
    rw [this] at hw
    cases hw
    rfl
  refine .query a recs sel cs hsrc ?_ ?_ ?_ haw ?_ ?_ ?_ ?_ h15 ?_ ?_ h17
  · show qd.attemptClaims = true
    rw [hatt, claimMode_attempt]
    exact h2
  · show qd.limit = []
    have : d.opt "limit" = none := by unfold Dict.opt; rw [h3]
    rw [this] at g4
    rw [hlim]
    unfold loadLimits at g4
    cases g4
    rfl
  · show qd.assertions = _
    rw [hassert, ha]
  · show ∀ e ∈ w.es, e.path = qd.path → _
    rw [hpath]
    exact h9
  · rw [hread.path]
    exact h10
  · have hf : ∀ f : Course → Bool, (∀ k, f k = true ↔ ¬ LeftOut w (p ++ [".query"]) k.clbid) →
        f = fun k => !ex.contains k.clbid := by
      intro f hf
      funext k
      rw [Bool.eq_iff_iff, hf, ← hex]
      simp
    have hfl : qd.includeFailed = true ↔ FlagSet d "include_failed" := by rw [hfailed]; exact flag_says g11
    generalize DataType.course = t at h11
    cases h11 with
    | courses f _ hno hf' =>
      rw [hf f hf']
      exact .courses (d := { qd with excluded := ex }) hsrc (by rw [← hfl] at hno; simpa using hno)
    | failedToo f _ hno hf' =>
      rw [hf f hf']
      exact .failedToo (d := { qd with excluded := ex }) hsrc (hfl.2 hno)
    | claimed _ hc => have := h1.symm.trans hc; simp at this
    | areas hc => have := h1.symm.trans hc; simp at this
    | performances hc => have := h1.symm.trans hc; simp at this
    | attendances hc => have := h1.symm.trans hc; simp at this
  · show SelectsItems qd.where' recs sel
    rw [hwhere]
    exact loadOptFilter_selects w.toSetting.exceptions g3 h13 h12
  · rintro i hi k rfl
    exact h14 k hi
  · obtain ⟨key', dd, raw, k1, k2, k3, k4, k5, _⟩ := hread.comparison
    rw [h8] at k1
    cases k1
    cases h16 with
    | courses n e1 e2 e3 e4 e5 e6 =>
      obtain ⟨e7, rfl⟩ := oneOperator_unique k3 e2
      refine .courses n (k2.trans e1) (expects_unique k4 e3) (by rw [e7]; exact e4) (fun hm ho => e5 (k5.1 hm) (by rw [← e7]; exact ho))
        (by rw [e7]; exact e6)
    | credits e1 e2 e3 e4 e5 =>
      obtain ⟨e7, rfl⟩ := oneOperator_unique k3 e2
      refine .credits (k2.trans e1) e7 (by rw [expects_unique k4 e3]; exact e4) e5

/-! ### All rules -/

theorem sublist_of_increasing {α β : Type} (f : α → Option β) : ∀ (l : List α) (js : List (Nat × β)) (k : Nat),
    (js.map (·.1)).Pairwise (· < ·) → (∀ e ∈ js, k ≤ e.1 ∧ ∃ a, l[e.1 - k]? = some a ∧ f a = some e.2) →
    (js.map (·.2)).Sublist (l.filterMap f) := by
  intro l
  induction l with
  | nil =>
    intro js k _ h
    cases js with
    | nil => simp
    | cons e js => obtain ⟨_, a, ha, _⟩ := h e (by simp); simp at ha
  | cons a l ih =>
    intro js k hp h
    cases js with
    | nil => simp
    | cons e js =>
      rw [List.map_cons, List.pairwise_cons] at hp
      have hgt : ∀ e' ∈ js, e.1 < e'.1 := fun e' he' => hp.1 _ (List.mem_map_of_mem he')
      have shift : ∀ e' : Nat × β, k < e'.1 → (∃ b, (a :: l)[e'.1 - k]? = some b ∧ f b = some e'.2) →
          k + 1 ≤ e'.1 ∧ ∃ b, l[e'.1 - (k + 1)]? = some b ∧ f b = some e'.2 := by
        intro e' hlt hb
        refine ⟨hlt, ?_⟩
        rwa [show e'.1 - k = (e'.1 - (k + 1)) + 1 by omega, List.getElem?_cons_succ] at hb
      obtain ⟨hk, b, hb, hfb⟩ := h e (by simp)
      by_cases heq : e.1 = k
      · rw [heq, Nat.sub_self, List.getElem?_cons_zero, Option.some.injEq] at hb
        subst hb
        rw [List.filterMap_cons_some hfb, List.map_cons]
        refine List.Sublist.cons_cons _ (ih js (k + 1) hp.2 (fun e' he' => shift e' ?_ (h e' (by simp [he'])).2))
        have := hgt e' he'
        omega
      · have hall := ih (e :: js) (k + 1) (by rw [List.map_cons, List.pairwise_cons]; exact hp) (fun e' he' => shift e' (by
          rcases List.mem_cons.1 he' with rfl | he'
          · omega
          · have := hgt e' he'; omega) (h e' he').2)
        refine hall.trans ?_
        cases hfa : f a with
        | none => rw [List.filterMap_cons_none hfa]
        | some c => rw [List.filterMap_cons_some hfa]; exact List.sublist_cons_self _ _

theorem Built.fulfils {w : Audited} (hnd : (w.st.courses.map (·.clbid)).Nodup) {K : List String} (hK : ∀ k, k ∈ K ↔ w.reserved k)
    {kids : Dict} {ems : List Dict} {p : Path} {y : Y} {o : Option Node} (hb : Built w.env kids ems p y o) :
    ∀ kids2, SameKids kids kids2 → ∀ cs, TextFulfilled w kids2 ems p y cs →
      ∃ n, o = some n ∧ Fulfils w.final w.x w.es (prep K w.es n) cs := by
  have hwaived : ∀ {kids kids2 ems p q y o}, Built w.env kids ems p y o → SameKids kids kids2 → PlaceOf kids2 p y q →
      WaivedAt w.es q → ∃ n, o = some n ∧ Fulfils w.final w.x w.es (prep K w.es n) [] := by
    intro kids kids2 ems p q y o hb hsame hp hw
    obtain ⟨n, rfl, hq, hn⟩ := hb.at_place hsame hp
    refine ⟨n, rfl, .waived (by rw [prep_path, hq]; exact hw) ?_⟩
    intro s d t f hc
    cases n with
    | cond => exact hn _ _ _ _ rfl
    | count => rw [prep_count] at hc; cases hc
    | req => rw [prep_req] at hc; cases hc
    | prof => rw [prep_prof] at hc; cases hc
    | course s' d' =>
      obtain ⟨ks, he, _⟩ := applyBlocks_course w.es s' d'
      unfold prep at hc
      rw [Node.exclude, he] at hc
      cases hc
    | query s' d' =>
      obtain ⟨ks, he, _⟩ := applyBlocks_query w.es s' { d' with excluded := d'.excluded ++ K }
      unfold prep at hc
      rw [Node.exclude, he] at hc
      cases hc
  have hdiff {d : Dict} {a b : RuleKind} (h1 : ruleKind d = a) (h2 : ruleKind d = b) : a = b := h1.symm.trans h2
  induction hb with
  | @prof kids ems p d n hk h =>
    intro kids2 hsame cs hf
    have hb : Built w.env kids ems p (.map d) (some n) := .prof hk h
    generalize hy : Y.map d = y at hf
    cases hf with
    | waived hp hw => subst hy; exact hwaived hb hsame hp hw
    | course _ hk2 => cases hy; cases hdiff hk hk2
    | inserted _ hk2 => cases hy; cases hdiff hk hk2
    | query _ _ _ hk2 => cases hy; cases hdiff hk hk2
    | queries _ _ _ _ _ _ _ hk2 => cases hy; cases hdiff hk hk2
    | count _ hk2 => cases hy; cases hdiff hk hk2
    | req hr => cases hy; rcases hr.kind with hk2 | hk2 <;> cases hdiff hk hk2
    | condTrue hk2 => cases hy; cases hdiff hk hk2
    | condFalse hk2 => cases hy; cases hdiff hk hk2
    | prof _ hn hc hr =>
      cases hy
      obtain ⟨name, c, h1, _, rfl, hc'⟩ := loadProficiency_inv h
      have := h1.symm.trans hn
      cases this
      refine ⟨_, rfl, ?_⟩
      rw [prep_prof]
      cases c with
      | none => exact .prof hr
      | some c => obtain ⟨_, _, h2, _⟩ := hc' _ rfl; rw [hc] at h2; cases h2
  | @course kids ems p d c hk h =>
    intro kids2 hsame cs hf
    have hb : Built w.env kids ems p (.map d) (some (.course .rule c)) := .course hk h
    obtain ⟨ks, he, hks⟩ := applyBlocks_course w.es .rule c
    obtain ⟨_, _, _, _, _, _, fromClaimed, _, _, _, _, _, _, _, _, _, _, _, _, _, _, _, _, _, _, _, _, _, _, hfr, _, hfe, _, _, _, _, _, _, hex⟩ :=
      loadCourse_inv h
    replace hfr := flag_says hfr
    rw [← hfe] at hfr
    have hpr : prep K w.es (.course .rule c) = .course .rule { c with excluded := ks } := by
      unfold prep
      rw [Node.exclude, he, hex, List.nil_append]
    have hseg := loadCourse_segment h
    rw [hseg] at hks
    generalize hy : Y.map d = y at hf
    cases hf with
    | waived hp hw => subst hy; exact hwaived hb hsame hp hw
    | course k _ hfc hk1 hk2 hk3 hk4 =>
      cases hy
      refine ⟨_, rfl, ?_⟩
      rw [hpr]
      refine .course k (written_entitled h hk1 (fun hm => hk3 ((hks _).1 hm)) hk2) ?_ hk4
      show c.fromClaimed = false
      rw [← Bool.not_eq_true, hfr]
      exact hfc
    | inserted k _ hp hnb =>
      cases hy
      refine ⟨_, rfl, ?_⟩
      rw [hpr]
      obtain ⟨k', forced, hm, hc⟩ := hp
      exact .inserted k ⟨fun hm => hnb ((hks _).1 hm), _, hm, hseg.symm, k', forced, rfl, hc⟩
    | query _ _ _ hk2 => cases hy; cases hdiff hk hk2
    | queries _ _ _ _ _ _ _ hk2 => cases hy; cases hdiff hk hk2
    | count _ hk2 => cases hy; cases hdiff hk hk2
    | req hr => cases hy; rcases hr.kind with hk2 | hk2 <;> cases hdiff hk hk2
    | condTrue hk2 => cases hy; cases hdiff hk hk2
    | condFalse hk2 => cases hy; cases hdiff hk hk2
    | prof hk2 => cases hy; cases hdiff hk hk2
  | @query kids ems p d qd hk h =>
    intro kids2 hsame cs hf
    have hb : Built w.env kids ems p (.map d) (some (.query .rule qd)) := .query hk h
    obtain ⟨ks, he, hks⟩ := applyBlocks_query w.es .rule { qd with excluded := qd.excluded ++ K }
    have hex : qd.excluded = [] ∧ qd.path = p ++ [".query"] := by
      obtain ⟨src, wh, lim, as, allow, failed, _, _, _, _, _, _, _, _, _, _, _, hq⟩ := loadQuery_inv h
      rw [hq]
      exact ⟨rfl, rfl⟩
    generalize hy : Y.map d = y at hf
    cases hf with
    | waived hp hw => subst hy; exact hwaived hb hsame hp hw
    | course _ hk2 => cases hy; cases hdiff hk hk2
    | inserted _ hk2 => cases hy; cases hdiff hk hk2
    | query recs sel cs _ h1 h2 h3 h4 h5 h6 h7 h8 h9 h10 h11 h12 h13 h14 h15 h16 h17 =>
      cases hy
      refine ⟨_, rfl, ?_⟩
      unfold prep
      rw [Node.exclude, he]
      refine query_fulfils h (fun k => ?_) h1 h2 h3 h4 h5 h6 h7 h8 h9 h10 h11 h12 h13 h14 h15 h16 h17
      simp only [hex.1, List.nil_append, List.mem_append, hK, hks, hex.2]
      rfl
    | queries lim ys ms recs all kept cs _ h1 h2 h3 h4 h9 h11 h12 h13 h14 l1 l2 l3 c1 c2 m1 m2 m3 h17 =>
      cases hy
      refine ⟨_, rfl, ?_⟩
      unfold prep
      rw [Node.exclude, he]
      refine queries_fulfils h (fun k => ?_) h1 h2 h3 h4 h9 h11 h12 h13 h14 l1 l2 l3 c1 c2 m1 m2 m3 h17
      simp only [hex.1, List.nil_append, List.mem_append, hK, hks, hex.2]
      rfl
    | count _ hk2 => cases hy; cases hdiff hk hk2
    | req hr => cases hy; rcases hr.kind with hk2 | hk2 <;> cases hdiff hk hk2
    | condTrue hk2 => cases hy; cases hdiff hk hk2
    | condFalse hk2 => cases hy; cases hdiff hk hk2
    | prof hk2 => cases hy; cases hdiff hk hk2
  | @cond kids ems p d yif b yt t f hide hk hkeys hif hb hyt hbt hbf hno hh iht ihf =>
    intro kids2 hsame cs hf
    have hbt' : Built w.env kids ems p (.map d) _ := .cond hk hkeys hif hb hyt hbt hbf hno hh
    have hdec := cond_decides w.toSetting.exceptions _ _ hb
    generalize hy : Y.map d = y at hf
    cases hf with
    | waived hp hw => subst hy; exact hwaived hbt' hsame hp hw
    | course _ hk2 => cases hy; cases hdiff hk hk2
    | inserted _ hk2 => cases hy; cases hdiff hk hk2
    | query _ _ _ hk2 => cases hy; cases hdiff hk hk2
    | queries _ _ _ _ _ _ _ hk2 => cases hy; cases hdiff hk hk2
    | count _ hk2 => cases hy; cases hdiff hk hk2
    | req hr => cases hy; rcases hr.kind with hk2 | hk2 <;> cases hdiff hk hk2
    | condTrue _ hif2 hdec2 hyt2 hf =>
      cases hy
      rw [hif] at hif2; cases hif2
      rw [hyt] at hyt2; cases hyt2
      cases decides_unique hdec hdec2
      obtain ⟨m, hm, hful⟩ := iht kids2 hsame cs hf
      cases hm
      refine ⟨_, by simp; rfl, ?_⟩
      rw [prep_cond]
      exact .condTrue rfl hful
    | @condFalse _ _ _ _ _ yf _ _ hif2 hdec2 hhid hyf hf =>
      cases hy
      rw [hif] at hif2; cases hif2
      cases decides_unique hdec hdec2
      have hshown : _ ≠ none := fun h => hhid (hbt'.hidden.1 h)
      by_cases hnull : yf = .null
      · subst hnull
        cases hf with
        | waived hp => cases hp
      have ho : Dict.opt d "$else" = some yf := by
        unfold Dict.opt
        rw [hyf]
        cases yf <;> simp_all
      obtain ⟨m, hm, hful⟩ := ihf yf ho kids2 hsame cs hf
      split at hshown
      · exact absurd rfl hshown
      · rename_i hc
        refine ⟨_, if_neg hc, ?_⟩
        rw [prep_cond, hm]
        exact .condFalse rfl hful
    | prof hk2 => cases hy; cases hdiff hk hk2
  | @count kids ems p d kids' listed expanded emItems inserts audits atMost cnt parts hk hkeys hlist hexp hem hins haud hat hparts
      hall hcnt h0 hle ih =>
    intro kids2 hsame cs hf
    have hb : Built w.env kids ems p (.map d) _ := .count hk hkeys hlist hexp hem hins haud hat hparts hall hcnt h0 hle
    generalize hy : Y.map d = y at hf
    cases hf with
    | waived hp hw => subst hy; exact hwaived hb hsame hp hw
    | course _ hk2 => cases hy; cases hdiff hk hk2
    | inserted _ hk2 => cases hy; cases hdiff hk hk2
    | query _ _ _ hk2 => cases hy; cases hdiff hk hk2
    | queries _ _ _ _ _ _ _ hk2 => cases hy; cases hdiff hk hk2
    | @count _ kids2' _ _ _ parts2 _ _ n2 chosen _ hna hw hs ha hne hinc hidx hlen hat2 hful =>
      cases hy
      have hw1 : PartsWritten w.toSetting kids ems d (p ++ [".count"]) kids' (parts.map (·.1)) ((!inserts.isEmpty) = true) :=
        ⟨listed, expanded, emItems, inserts, countItems_says hlist, expandTemplates_says hexp, addEmphases_says hem,
          insertedItems_says hins, hparts, by cases inserts <;> simp⟩
      obtain ⟨hk', rfl, hii⟩ := partsWritten_unique hnd hsame hw1 hw
      have hs1 := shownParts_of (w := w.toSetting) (q := p ++ [".count"]) parts 0
        (fun j y o hj => by simpa using (hall j y o hj).hidden)
      cases shownParts_unique hs1 hs
      have hcount := asksFor_unique hii (neededCount_says hcnt h0) ha
      have haud' : audits = [] := by
        unfold loadAudits at haud
        have : d.opt "audit" = none := by unfold Dict.opt; rw [hna]
        rw [this] at haud
        cases haud
        rfl
      -- the loaded parts
      have hpick : ∃ picked : List (Nat × Node × List Course), picked.map (·.1) = chosen.map (·.1) ∧
          picked.flatMap (·.2.2) = chosen.flatMap (·.2.2) ∧
          ∀ e ∈ picked, (∃ y, parts[e.1]? = some (y, some e.2.1)) ∧ Fulfils w.final w.x w.es (prep K w.es e.2.1) e.2.2 := by
        clear hne hinc hlen hat2 ha
        induction chosen with
        | nil => exact ⟨[], rfl, rfl, by simp⟩
        | cons e chosen ihc =>
          obtain ⟨picked, g1, g2, g3⟩ := ihc (fun e he => hful e (by simp [he])) (fun e he => hidx e (by simp [he]))
          have hi := hidx e (by simp)
          rw [List.getElem?_map, Option.map_eq_some_iff] at hi
          obtain ⟨⟨y, o⟩, hi, hye⟩ := hi
          dsimp only at hye
          subst hye
          obtain ⟨m, rfl, hm⟩ := ih e.1 _ o hi kids2' hk' _ (hful e (by simp))
          refine ⟨(e.1, m, e.2.2) :: picked, by simp [g1], by simp [g2], ?_⟩
          intro e' he'
          rcases List.mem_cons.1 he' with rfl | he'
          · exact ⟨⟨_, hi⟩, hm⟩
          · exact g3 e' he'
      obtain ⟨picked, g1, g2, g3⟩ := hpick
      have glen : picked.length = chosen.length := by simpa using congrArg List.length g1
      refine ⟨_, rfl, ?_⟩
      rw [prep_count, ← g2]
      have hflat : picked.flatMap (·.2.2) = (picked.map (fun e => (prep K w.es e.2.1, e.2.2))).flatMap Prod.snd := by
        rw [List.flatMap_map]
      rw [hflat]
      refine .count _ haud' ?_ ?_ ?_ ?_ ?_
      · intro h
        rw [List.map_eq_nil_iff] at h
        subst h
        exact hne (List.length_eq_zero_iff.1 glen.symm)
      · have := sublist_of_increasing (fun e : Y × Option Node => e.2) parts (picked.map (fun e => (e.1, e.2.1))) 0
          (by rw [List.map_map]; exact g1 ▸ hinc) (by
            intro e he
            obtain ⟨e', he', rfl⟩ := List.mem_map.1 he
            obtain ⟨⟨y, hy⟩, _⟩ := g3 e' he'
            exact ⟨Nat.zero_le _, _, hy, rfl⟩)
        have := this.map (prep K w.es)
        simpa [List.map_map, Function.comp_def] using this
      · rw [List.length_map, glen]
        show cnt.toNat ≤ _
        rw [hcount]; exact hlen
      · intro hm
        rw [List.length_map, glen]
        show _ = cnt.toNat
        rw [hcount]
        exact hat2 ((flag_says hat).1 hm)
      · intro e he
        obtain ⟨e', he', rfl⟩ := List.mem_map.1 he
        exact (g3 e' he').2
    | req hr => cases hy; rcases hr.kind with hk2 | hk2 <;> cases hdiff hk hk2
    | condTrue hk2 => cases hy; cases hdiff hk hk2
    | condFalse hk2 => cases hy; cases hdiff hk hk2
    | prof hk2 => cases hy; cases hdiff hk hk2
  | @req kids ems p d name body rd r' hr hkeys hnone hsome hbr hex hpath hname hov hor hws haud hcon hig hdj ih =>
    intro kids2 hsame cs hf
    have hb : Built w.env kids ems p (.map d) _ := .req hr hkeys hnone hsome hbr hex hpath hname hov hor hws haud hcon hig hdj
    have hkind := hr.kind
    generalize hy : Y.map d = y at hf
    cases hf with
    | waived hp hw => subst hy; exact hwaived hb hsame hp hw
    | course _ hk2 => cases hy; rcases hkind with hk | hk <;> cases hdiff hk hk2
    | inserted _ hk2 => cases hy; rcases hkind with hk | hk <;> cases hdiff hk hk2
    | query _ _ _ hk2 => cases hy; rcases hkind with hk | hk <;> cases hdiff hk hk2
    | queries _ _ _ _ _ _ _ hk2 => cases hy; rcases hkind with hk | hk <;> cases hdiff hk hk2
    | count _ hk2 => cases hy; rcases hkind with hk | hk <;> cases hdiff hk hk2
    | condTrue hk2 => cases hy; rcases hkind with hk | hk <;> cases hdiff hk hk2
    | condFalse hk2 => cases hy; rcases hkind with hk | hk <;> cases hdiff hk hk2
    | prof hk2 => cases hy; rcases hkind with hk | hk <;> cases hdiff hk hk2
    | @req _ own2 _ _ _ body2 name2 yr _ hr2 hnau hres2 hown2 hf =>
      cases hy
      obtain ⟨rfl, rfl⟩ := RefersTo.same hsame hr hr2
      by_cases hnull : yr = .null
      · subst hnull
        cases hf with
        | waived hp => cases hp
      have ho : Dict.opt body "result" = some yr := by
        unfold Dict.opt
        rw [hres2]
        cases yr <;> simp_all
      obtain ⟨own, hown, _⟩ := hex yr ho
      cases ownRequirements_unique (ownRequirements_of hown) hown2
      obtain ⟨m, rfl, hful⟩ := ih yr own2 ho hown own2 (fun _ => rfl) cs hf
      refine ⟨_, rfl, ?_⟩
      rw [prep_req]
      refine .req ?_ hful
      rw [← Bool.not_eq_true, auditedFlag_says haud]
      exact hnau

/-! ### Areas -/

theorem Built.honest {env : Env} {K : List String} {es : List Exc} {kids : Dict} {ems : List Dict} {p : Path} {y : Y}
    {o : Option Node} (hb : Built env kids ems p y o) : ∀ kids2, SameKids kids kids2 → ¬ MarkedDisjoint kids2 y →
    ∀ n, o = some n → (prep K es n).alwaysDisjoint = true → ∀ leaf ∈ (prep K es n).liveLeaves, ¬ leaf.ClaimsForItself := by
  induction hb with
  | prof hk h =>
    intro kids2 _ _ n hn hd
    cases hn
    obtain ⟨_, _, _, _, rfl, _⟩ := loadProficiency_inv h
    rw [prep_prof] at hd
    cases hd
  | @course _ _ _ _ c =>
    intro kids2 _ _ n hn hd
    cases hn
    obtain ⟨ks, he, _⟩ := applyBlocks_course es .rule c
    unfold prep at hd
    rw [Node.exclude, he] at hd
    cases hd
  | @query _ _ _ _ qd =>
    intro kids2 _ _ n hn hd
    cases hn
    obtain ⟨ks, he, _⟩ := applyBlocks_query es .rule { qd with excluded := qd.excluded ++ K }
    unfold prep at hd ⊢
    rw [Node.exclude, he] at hd ⊢
    intro leaf hl hc
    simp only [Node.liveLeaves, List.mem_singleton] at hl
    subst hl
    simp only [Node.alwaysDisjoint, Bool.and_eq_true] at hd
    rw [hc.1] at hd
    exact absurd hd.1.1 (by simp)
  | cond =>
    intro kids2 _ _ n hn hd
    split at hn
    · cases hn
    cases hn
    rw [prep_cond] at hd
    cases hd
  | count =>
    intro kids2 _ _ n hn hd
    cases hn
    rw [prep_count] at hd
    cases hd
  | @req kids ems p d name body rd r' hr hkeys hnone hsome hbr hex hpath hname hov hor hws haud hcon hig hdj ih =>
    intro kids2 hsame hm n hn hd
    cases hn
    have hr2 : RefersTo kids2 d name body := by
      rcases hr with h | ⟨h1, h2, h3⟩
      · exact .inl h
      · exact .inr ⟨h1, h2, by rw [← hsame]; exact h3⟩
    rw [prep_req] at hd ⊢
    simp only [Node.alwaysDisjoint, Bool.or_eq_true, decide_eq_true_eq] at hd
    have hdis : rd.disjoint ≠ some true := by
      intro h
      rw [h] at hdj
      exact hm (.here hr2 (Dict.opt_get hdj))
    have hd := hd.resolve_left hdis
    cases r' with
    | none => cases hd
    | some m =>
      cases hres : Dict.opt body "result" with
      | none => have := hnone hres; cases this
      | some yr =>
        obtain ⟨own, hown, _⟩ := hex yr hres
        exact ih yr own hres hown own (fun _ => rfl)
          (fun h => hm (.inside hr2 (Dict.opt_get hres) (ownRequirements_of hown) h)) m rfl hd

theorem areaText_unique {st : Student} {all : Bool} {spec kids kids' : Dict} {ems ems' : List Dict} {y y' : Y}
    (h : AreaText st all spec kids ems y) (h' : AreaText st all spec kids' ems' y') : kids = kids' ∧ ems = ems' ∧ y = y' := by
  refine ⟨ownRequirements_unique h.requirements h'.requirements, ?_, Option.some.inj (h.result.symm.trans h'.result)⟩
  obtain ⟨wr, f, h1, h2, h3⟩ := h.emphases
  obtain ⟨wr', f', g1, g2, g3⟩ := h'.emphases
  have hw : wr = wr' := by
    rcases h1 with h1 | ⟨h1, rfl⟩ <;> rcases g1 with g1 | ⟨g1, rfl⟩
    · rw [h1] at g1; cases g1; rfl
    · rw [h1] at g1; cases g1
    · rw [h1] at g1; cases g1
    · rfl
  have hf : f = f' := by
    funext e
    rw [Bool.eq_iff_iff, h2, g2]
  subst hw hf
  exact List.map_injective_iff.2 (fun a b h => by cases h; rfl) (h3.symm.trans g3)

theorem loadMulticountable_unlisted {d : Dict} {m : Multicountable} (h : loadMulticountable d = .ok m) {k : String}
    (hk : d.get? k = none) : m.get? k = none := by
  have := ld_mapE h
  clear h
  induction this with
  | nil => rfl
  | @cons e r l rs hab _ ih =>
    obtain ⟨k', v⟩ := e
    simp only [ld_bind_ok] at hab
    obtain ⟨_, _, _, _, hab⟩ := hab
    cases hab
    simp only [Dict.get?] at hk
    simp only [Multicountable.get?]
    split at hk
    · cases hk
    · rename_i hne
      rw [if_neg hne]
      exact ih hk

theorem wantsAll_top {w : Setting} (hids : (w.st.courses.map (·.clbid)).Nodup) {kids : Dict} {ems : List Dict} {p : Path} {y : Y}
    (hall : WantsAllAt w kids ems p y) : ∀ rule, Built ⟨loadCtx w.st w.es, w.c, w.templates⟩ kids ems p y (some rule) → ∀ K : List String,
    AsksForAll (prep K w.es rule) ∧ HonestFlags (prep K w.es rule).topChildren := by
  have hdiff {d : Dict} {a b : RuleKind} (h1 : ruleKind d = a) (h2 : ruleKind d = b) : a = b := h1.symm.trans h2
  induction hall with
  | @parts ems p d kids2 ps inserted n hk2 hw hs ha hm =>
    intro rule hb K
    generalize hor : some rule = r at hb
    generalize hy : Y.map d = y at hb
    cases hb with
    | prof hk => cases hy; cases hdiff hk hk2
    | course hk => cases hy; cases hdiff hk hk2
    | query hk => cases hy; cases hdiff hk hk2
    | cond hk => cases hy; cases hdiff hk hk2
    | req hr => cases hy; rcases hr.kind with hk | hk <;> cases hdiff hk hk2
    | @count _ _ _ d kids' listed expanded emItems inserts audits atMost cnt parts hk hkeys hlist hexp hem hins haud hat hparts
        hallb hcnt h0 hle =>
      cases hy
      cases hor
      have hw1 : PartsWritten w kids ems d (p ++ [".count"]) kids' (parts.map (·.1)) ((!inserts.isEmpty) = true) :=
        ⟨listed, expanded, emItems, inserts, countItems_says hlist, expandTemplates_says hexp, addEmphases_says hem,
          insertedItems_says hins, hparts, by cases inserts <;> simp⟩
      obtain ⟨hk', rfl, hii⟩ := partsWritten_unique hids (fun _ => rfl) hw1 hw
      have hs1 := shownParts_of (w := w) (q := p ++ [".count"]) parts 0
        (fun j y o hj => by
          have := Built.hidden (w := w) (hallb j y o hj)
          simpa using this)
      cases shownParts_unique hs1 hs
      have hcount := asksFor_unique hii (neededCount_says hcnt h0) ha
      rw [prep_count]
      refine ⟨.count _ _ _ (by simpa using hcount), ?_⟩
      intro i hi
      obtain ⟨n, hn, rfl⟩ := List.mem_map.1 hi
      obtain ⟨⟨y, o⟩, ht, ho⟩ := List.mem_filterMap.1 hn
      dsimp only at ho
      subst ho
      obtain ⟨j, hj⟩ := List.mem_iff_getElem?.1 ht
      exact (hallb j y _ hj).honest _ hk' (hm y (List.mem_map.2 ⟨_, ht, rfl⟩)) n rfl
  | @single ems p d hk2 =>
    intro rule hb K
    generalize hor : some rule = r at hb
    generalize hy : Y.map d = y at hb
    cases hb with
    | prof hk h =>
      cases hor
      obtain ⟨_, _, _, _, rfl, _⟩ := loadProficiency_inv h
      rw [prep_prof]
      exact ⟨.prof _ _ _, by intro i hi; cases hi⟩
    | @course _ _ _ _ r =>
      cases hor
      obtain ⟨ks, he, _⟩ := applyBlocks_course w.es .rule r
      unfold prep
      rw [Node.exclude, he]
      exact ⟨.course _ _, by intro i hi; cases hi⟩
    | @query _ _ _ _ qd =>
      cases hor
      obtain ⟨ks, he, _⟩ := applyBlocks_query w.es .rule { qd with excluded := qd.excluded ++ K }
      unfold prep
      rw [Node.exclude, he]
      exact ⟨.query _ _, by intro i hi; cases hi⟩
    | req => cases hor; rw [prep_req]; exact ⟨.req _ _ _, by intro i hi; cases hi⟩
    | cond hk => cases hy; rw [hk] at hk2; simp at hk2
    | count hk => cases hy; rw [hk] at hk2; simp at hk2
  | @thenPart ems p d yif y hk2 hif2 hdec2 hyt2 _ ih =>
    intro rule hb K
    generalize hor : some rule = r at hb
    generalize hy : Y.map d = y' at hb
    cases hb with
    | prof hk => cases hy; cases hdiff hk hk2
    | course hk => cases hy; cases hdiff hk hk2
    | query hk => cases hy; cases hdiff hk hk2
    | count hk => cases hy; cases hdiff hk hk2
    | req hr => cases hy; rcases hr.kind with hk | hk <;> cases hdiff hk hk2
    | @cond kids ems p d yif b yt t f hide hk hkeys hif hb hyt hbt hbf hno hh =>
      cases hy
      have hdec := cond_decides w.exceptions _ _ hb
      rw [hif] at hif2; cases hif2
      rw [hyt] at hyt2; cases hyt2
      cases decides_unique hdec hdec2
      split at hor
      · cases hor
      · cases hor
        rw [prep_cond]
        obtain ⟨h1, h2⟩ := ih t hbt K
        exact ⟨.condTrue _ _ _ _ rfl h1, by simpa only [Node.topChildren] using h2⟩
  | @elsePart ems p d yif y hk2 hif2 hdec2 hyf hshown hwa ih =>
    intro rule hb K
    generalize hor : some rule = r at hb
    generalize hy : Y.map d = y' at hb
    cases hb with
    | prof hk => cases hy; cases hdiff hk hk2
    | course hk => cases hy; cases hdiff hk hk2
    | query hk => cases hy; cases hdiff hk hk2
    | count hk => cases hy; cases hdiff hk hk2
    | req hr => cases hy; rcases hr.kind with hk | hk <;> cases hdiff hk hk2
    | @cond kids ems p d yif b yt t f hide hk hkeys hif hb hyt hbt hbf hno hh =>
      cases hy
      have hdec := cond_decides w.exceptions _ _ hb
      rw [hif] at hif2; cases hif2
      cases decides_unique hdec hdec2
      have hmap : ∃ e, y = .map e := by cases hwa <;> exact ⟨_, rfl⟩
      obtain ⟨e, rfl⟩ := hmap
      have hbe := hbf (.map e) (by unfold Dict.opt; rw [hyf])
      split at hor
      · cases hor
      · cases hor
        rw [prep_cond]
        cases f with
        | none => exact absurd ((Built.hidden (w := w) hbe).1 rfl) hshown
        | some m =>
          obtain ⟨h1, h2⟩ := ih m hbe K
          exact ⟨.condFalse _ _ _ _ rfl h1, by simpa only [Node.topChildren, Option.map, Node.topChildrenOpt] using h2⟩

/-- `C69_area_with_what_is_written_is_complete_partial` with one of the transcripts that the limits of the area leave -/
theorem area_with_what_is_written (c : Constants) (templates : List (String × TemplateCourse)) (st : Student)
    (es : List Exc) (all : Bool) (spec : Dict) (a : Area) (hload : loadArea c templates st es all spec = .ok a)
    (htidy : TidyText st all spec) (hreal : RealText (.map spec)) (htype : ¬ TextAt spec "type" "major")
    (hids : (st.courses.map (·.clbid)).Nodup)
    (kids : Dict) (ems : List Dict) (y : Y) (htext : AreaText st all spec kids ems y)
    (hall : WantsAll ⟨st, es, c, templates⟩ kids ems y) (o : Orders) (ho : o.Lawful) (tr : List Course)
    (htr : tr ∈ (limitedTranscripts (o.limit []) a.limit st.courses (forcedClbids es)).items) (cs : List Course)
    (hcs : ∀ k ∈ cs, k ∈ tr ∧ k.Dated ∧ CountsOnceWritten spec st es k) (hnd : (cs.map (·.clbid)).Nodup)
    (hful : TextFulfilled ⟨⟨st, es, c, templates⟩, true, areaCtx a st es tr, KeptByText ⟨st, es, c, templates⟩ kids ems y⟩
      kids ems ["$"] y cs)
    (args : Args) (hp : args.Plain) (hest : args.estimateOnly = false) (hstop : args.stopAfter = none)
    (hok : (auditArea o a st es args).err = none) :
    ∃ r i n, (auditArea o a st es args).items.getLast? = some (.result r (some i) n n) ∧ Complete r.status := by
  obtain ⟨emphases, declared, children, data, rule, code, dept, h1, h2, h3, h4, hb, hres, _, _, _, _, _⟩ := loadArea_inv hload
  obtain ⟨f, hf1, hf2⟩ := declared_written h2
  obtain ⟨rfl, rfl, rfl⟩ := areaText_unique htext ⟨h4, dict_written h3, emphases, f, dict_written h1, hf1, hf2⟩
  have hK : ∀ k, k ∈ (rule.requiredCourses (loadCtx st es)).map (·.clbid) ↔
      KeptByText ⟨st, es, c, templates⟩ kids ems y k := fun k =>
    (Node.required_iff (es := es) hids k rule (hb.nothing_excluded rule rfl)).trans
      (reserved_written (w := ⟨st, es, c, templates⟩) hids hb k)
  have hprep : a.result = prep ((rule.requiredCourses (loadCtx st es)).map (·.clbid)) es rule := hres
  have hkindm : a.kind ≠ "major" ∧ ∃ m, spec.dict "multicountable" = .ok m ∧ loadMulticountable m = .ok a.multicountable := by
    unfold loadArea at hload
    simp only [ld_bind_ok] at hload
    obtain ⟨_, _, _, _, hload⟩ := hload
    unfold loadAreaRules at hload
    simp only [ld_bind_ok, ld_need] at hload
    obtain ⟨_, _, _, _, _, _, _, _, loaded, _, hload⟩ := hload
    cases loaded with
    | none => cases hload
    | some rule =>
      simp only [ld_bind_ok, ld_check_ok] at hload
      obtain ⟨_, _, md, h8, multi, h9, _, _, kind, h11, _, _, _, _, hload⟩ := hload
      cases hload
      refine ⟨?_, md, h8, h9⟩
      intro hk
      cases kind with
      | none => simp at hk
      | some k =>
        simp only [Option.getD_some] at hk
        subst hk
        exact htype ((text_at h11 _).1 rfl)
  obtain ⟨hkind, md, hmd, hmulti⟩ := hkindm
  obtain ⟨n, hn, hfn⟩ := Built.fulfils
    (w := ⟨⟨st, es, c, templates⟩, true, areaCtx a st es tr, KeptByText ⟨st, es, c, templates⟩ kids ems y⟩)
    hids hK hb kids (fun _ => rfl) cs hful
  cases hn
  rw [← hprep] at hfn
  have htop : AsksForAll a.result ∧ HonestFlags a.result.topChildren := by
    rw [hprep]
    exact wantsAll_top (w := ⟨st, es, c, templates⟩) hids hall rule hb _
  refine C59_area_is_complete_partial c templates st es all spec a hload htidy (loadArea_real hload hreal) hkind htop.1 htop.2 o ho
    hids tr htr cs (fun k hk => ?_) hnd hfn args hp hest hstop hok
  obtain ⟨k1, k2, k3⟩ := hcs k hk
  refine ⟨k1, k2, k3.one, k3.notForced, loadMulticountable_unlisted hmulti ?_⟩
  rcases dict_written hmd with h | ⟨_, rfl⟩
  · exact k3.unlisted _ h
  · rfl

/-- **C69, partial.** If a student has what is written in the area file, the audit reports the area as complete: `cs` are courses
on the student's transcript that fulfil the text, each used once and none of them counting more than once.  The area
has a type other than `major`, no limits, and asks for all of its parts, which are not marked as disjoint, perhaps by a conditional; the audit
runs without options that cut it short or print solutions, and raises no exception.
Missing: the general claim is false where `C59_independents_refuted` applies, that is for areas that ask for some of their parts;
majors, of which it is false (`C69_major_refuted`); limits of the area (`C69_area_with_limits_partial`); `disjoint: true`; courses that may
count several times; and ways to fulfil a text other than those in `TextFulfilled`. -/
theorem C69_area_with_what_is_written_is_complete_partial (c : Constants) (templates : List (String × TemplateCourse)) (st : Student)
    (es : List Exc) (all : Bool) (spec : Dict) (a : Area) (hload : loadArea c templates st es all spec = .ok a)
    (htidy : TidyText st all spec) (hreal : RealText (.map spec)) (htype : ¬ TextAt spec "type" "major")
    (hlimit : spec.get? "limit" = none) (hids : (st.courses.map (·.clbid)).Nodup)
    (kids : Dict) (ems : List Dict) (y : Y) (htext : AreaText st all spec kids ems y)
    (hall : WantsAll ⟨st, es, c, templates⟩ kids ems y) (cs : List Course)
    (hcs : ∀ k ∈ cs, k ∈ st.courses ∧ k.Dated ∧ CountsOnceWritten spec st es k) (hnd : (cs.map (·.clbid)).Nodup)
    (hful : TextFulfilled ⟨⟨st, es, c, templates⟩, true, areaCtx a st es st.courses, KeptByText ⟨st, es, c, templates⟩ kids ems y⟩
      kids ems ["$"] y cs)
    (o : Orders) (ho : o.Lawful) (args : Args) (hp : args.Plain) (hest : args.estimateOnly = false) (hstop : args.stopAfter = none)
    (hok : (auditArea o a st es args).err = none) :
    ∃ r i n, (auditArea o a st es args).items.getLast? = some (.result r (some i) n n) ∧ Complete r.status := by
  have hlim0 : a.limit = [] := by
    obtain ⟨_, _, _, _, _, _, _, _, _, _, _, _, _, _, _, _, hlim, _⟩ := loadArea_inv hload
    have : spec.opt "limit" = none := by unfold Dict.opt; rw [hlimit]
    rw [this] at hlim
    unfold loadLimits at hlim
    exact (Except.ok.inj hlim).symm
  exact area_with_what_is_written c templates st es all spec a hload htidy hreal htype hids kids ems y htext hall o ho st.courses
    (by rw [hlim0]; simp [limitedTranscripts, Gen.one]) cs hcs hnd hful args hp hest hstop hok

/-! ### A non-trivial case -/

/-- the requirements of `satisfiedText` -/
def satisfiedKids : Dict := [
  ("Core", .map [("result", .map [("all", .list [.map [("course", .str "CSCI 121")],
    .map [("either", .list [.map [("course", .str "CSCI 221")], .map [("course", .str "CSCI 251")]])]])])]),
  ("Electives", .map [("result", .map [("from", .str "courses"),
    ("where", .map [("subject", .map [("$eq", .str "CSCI")])]),
    ("assert", .map [("count(courses)", .map [("$gte", .int 2)])])])])]

/-- what `satisfiedText` says -/
def satisfiedResult : Y :=
  .map [("all", .list [.map [("requirement", .str "Core")], .map [("requirement", .str "Electives")]])]

theorem satisfied_areaText : AreaText sampleTaken false satisfiedText satisfiedKids [] satisfiedResult :=
  ⟨rfl, .inl rfl, [], fun e => sampleTaken.areas.any (fun a => a.kind == "Emphasis" && a.code == e.1),
    .inr ⟨rfl, rfl⟩, fun e => by simp, rfl⟩

/-- Class 1 is kept from the electives, and no other. -/
theorem satisfied_kept (k : String) : KeptByText ⟨sampleTaken, [], {}, []⟩ satisfiedKids [] satisfiedResult k ↔ k = "1" := by
  have h := satisfied_loaded
  cases hl : loadArea {} [] sampleTaken [] false satisfiedText with
  | error e => rw [hl] at h; cases h
  | ok a =>
    rw [hl] at h
    have ha : a.result = satisfiedRule := Except.ok.inj h
    obtain ⟨kids, ems, y, h1, h2⟩ := C53_kept_as_written {} [] sampleTaken [] false satisfiedText a hl (by decide)
    obtain ⟨rfl, rfl, rfl⟩ := areaText_unique satisfied_areaText h1
    have := h2 .rule satisfiedElectives (by
      rw [ha]
      simp [satisfiedRule, Node.leaves, Node.leavesList, Node.leavesOpt, apartItem]) k
    simpa [satisfiedElectives] using this.symm

/-- The hypotheses of `C69_area_with_what_is_written_is_complete_partial` for the area `satisfiedText` and the four classes of
`sampleTaken`: classes 1 and 2 fulfil the core, 3 and 4 the electives. -/
example : ∃ a : Area, loadArea {} [] sampleTaken [] false satisfiedText = .ok a ∧ ¬ TextAt satisfiedText "type" "major" ∧
    satisfiedText.get? "limit" = none ∧ (sampleTaken.courses.map (·.clbid)).Nodup ∧
    AreaText sampleTaken false satisfiedText satisfiedKids [] satisfiedResult ∧
    WantsAll ⟨sampleTaken, [], {}, []⟩ satisfiedKids [] satisfiedResult ∧
    (∀ k ∈ sampleTaken.courses, k.Dated ∧ CountsOnceWritten satisfiedText sampleTaken [] k) ∧
    TextFulfilled ⟨⟨sampleTaken, [], {}, []⟩, true, areaCtx a sampleTaken [] sampleTaken.courses,
      KeptByText ⟨sampleTaken, [], {}, []⟩ satisfiedKids [] satisfiedResult⟩ satisfiedKids [] ["$"] satisfiedResult
      sampleTaken.courses ∧
    (auditArea .insertion a sampleTaken [] {}).err = none := by
  have hruns : auditRuns sampleTaken satisfiedText = true := by decide +kernel
  unfold auditRuns at hruns
  cases hl : loadArea {} [] sampleTaken [] false satisfiedText with
  | error e => rw [hl] at hruns; cases hruns
  | ok a =>
    rw [hl] at hruns
    simp only [Bool.and_eq_true, decide_eq_true_eq] at hruns
    have hnh : ∀ (q : Path) (d : Dict), d.get? "$if" = none → ¬ HiddenAt ⟨sampleTaken, [], {}, []⟩ q (.map d) := by
      rintro q d hd ⟨d', yif, h, _, h2, _⟩
      cases h
      rw [hd] at h2
      cases h2
    have hparts : ∀ {kids d : Dict} {q : Path} {d1 d2 : Dict} (k : String) (before after : List String),
        ["all", "any", "both", "either", "of"] = before ++ k :: after → (∀ j ∈ before, d.get? j = none) →
        d.get? k = some (.list [.map d1, .map d2]) → d1.get? "template" = none → d2.get? "template" = none →
        PartsWritten ⟨sampleTaken, [], {}, []⟩ kids [] d q kids [.map d1, .map d2] False := by
      intro kids d q d1 d2 k before after h1 h2 h3 h4 h5
      exact ⟨_, _, [], [], ⟨before, k, after, h1, h2, h3⟩, .plain h4 (.plain h5 .nil), .nil _, .nil, rfl, by simp⟩
    have hshown : ∀ {q : Path} {d1 d2 : Dict}, d1.get? "$if" = none → d2.get? "$if" = none →
        ShownParts ⟨sampleTaken, [], {}, []⟩ q 0 [.map d1, .map d2] 2 :=
      fun h1 h2 => .shown (hnh _ _ h1) (.shown (hnh _ _ h2) (.nil _))
    refine ⟨a, rfl, by simp [TextAt, satisfiedText, Dict.get?], by simp [satisfiedText, Dict.get?], by decide, satisfied_areaText, ?_, ?_, ?_, hruns.1.1.1⟩
    · refine .parts (by decide) (hparts "all" [] _ rfl (by simp) rfl rfl rfl) (hshown rfl rfl) (.all (.inl (by decide))) ?_
      intro y hy hm
      have hbody : ∀ {kids : Dict} {d : Dict} {name : String} {body : Dict}, RefersTo satisfiedKids d name body →
          ruleKind d = .reference → (body.get? "disjoint" = none ∧
            ∀ r, body.get? "result" = some r → ∃ d', r = .map d' ∧ ruleKind d' ∉ [.inline, .reference]) := by
        intro _ d name body hr hk
        rcases hr with ⟨h, _⟩ | ⟨_, _, h⟩
        · rw [hk] at h; cases h
        · simp only [satisfiedKids, Dict.get?] at h
          split at h
          · cases h
            refine ⟨rfl, fun r hr => ?_⟩
            cases hr
            exact ⟨_, rfl, by decide⟩
          · split at h
            · cases h
              refine ⟨rfl, fun r hr => ?_⟩
              cases hr
              exact ⟨_, rfl, by decide⟩
            · cases h
      have hnone : ∀ {kids : Dict} {y : Y}, MarkedDisjoint kids y → ∀ d, y = .map d → ruleKind d ∈ [.inline, .reference] := by
        intro kids y h d hd
        cases h with
        | here hr => cases hd; rcases hr.kind with h | h <;> simp [h]
        | inside hr => cases hd; rcases hr.kind with h | h <;> simp [h]
      have hk : ∃ d, y = .map d ∧ ruleKind d = .reference := by
        simp only [List.mem_cons, List.not_mem_nil, or_false] at hy
        rcases hy with rfl | rfl
        · exact ⟨_, rfl, by decide⟩
        · exact ⟨_, rfl, by decide⟩
      obtain ⟨d, rfl, hk⟩ := hk
      generalize hz : Y.map d = z at hm
      cases hm with
      | here hr hf =>
        cases hz
        have := (hbody (kids := []) hr hk).1
        unfold FlagSet at hf
        rw [this] at hf
        cases hf
      | inside hr hres _ hin =>
        cases hz
        obtain ⟨d', rfl, hd'⟩ := (hbody (kids := []) hr hk).2 _ hres
        exact hd' (hnone hin d' rfl)
    · intro k hk
      refine ⟨?_, ?_, by simp, by simp [satisfiedText, Dict.get?]⟩
      · have : k.isInProgress = false := by revert k; decide
        intro h; rw [this] at h; cases h
      · revert k; decide
    · generalize hx : areaCtx a sampleTaken [] sampleTaken.courses = x
      have htr : x.transcript = sampleTaken.courses := by rw [← hx]; rfl
      generalize hw : (⟨⟨sampleTaken, [], {}, []⟩, true, x,
        KeptByText ⟨sampleTaken, [], {}, []⟩ satisfiedKids [] satisfiedResult⟩ : Audited) = w
      have hw1 : w.toSetting = ⟨sampleTaken, [], {}, []⟩ := by rw [← hw]
      have hw2 : w.x = x := by rw [← hw]
      have hw3 : ∀ k, w.reserved k ↔ k = "1" := by rw [← hw]; exact satisfied_kept
      have hes : w.es = [] := by rw [← hw]
      have one : ∀ k ∈ sampleTaken.courses, ∀ kids ems p, TextFulfilled w kids ems p (.map [("course", .str k.identity)]) [k] := by
        intro k hk kids ems p
        have h3 : k.isStolaf = true ∧ k.isInProgress = false := by revert k; decide
        refine .course k (by rfl) (by simp [FlagSet, Dict.get?]) (by rw [hw2, htr]; exact hk) ?_ (by simp [BlockedAt, hes]) (fun _ => h3.2)
        constructor
        · constructor <;> simp [TextAt, Dict.get?, h3.1]
        · simp [TextAt, Dict.get?]
        · simp [TextAt, Dict.get?]
      have count2 : ∀ {kids : Dict} {p : Path} {d d1 d2 : Dict} {cs1 cs2 : List Course}, ruleKind d = .count → d.get? "audit" = none →
          d.get? "all" = some (.list [.map d1, .map d2]) → d1.get? "template" = none → d2.get? "template" = none →
          d1.get? "$if" = none → d2.get? "$if" = none → d.get? "at_most" = none →
          TextFulfilled w kids [] (p ++ [".count", itemSeg 0 (.map d1)]) (.map d1) cs1 →
          TextFulfilled w kids [] (p ++ [".count", itemSeg 1 (.map d2)]) (.map d2) cs2 →
          TextFulfilled w kids [] p (.map d) (cs1 ++ cs2) := by
        intro kids p d d1 d2 cs1 cs2 h1 h2 h3 h4 h5 h6 h7 h8 h9 h10
        have := TextFulfilled.count (w := w) (kids := kids) (ems := []) (p := p) (n := 2) [(0, .map d1, cs1), (1, .map d2, cs2)] h1 h2
          (by rw [hw1]; exact hparts "all" [] _ rfl (by simp) h3 h4 h5) (by rw [hw1]; exact hshown h6 h7)
          (.all (.inl (by rw [h3]; simp))) (by simp) (by simp) (by simp) (by simp) (by simp) (by
            intro e he
            simp only [List.mem_cons, List.not_mem_nil, or_false] at he
            rcases he with rfl | rfl
            · exact h9
            · exact h10)
        simpa using this
      have c2 : ∀ kids p, TextFulfilled w kids [] p
          (.map [("either", .list [.map [("course", .str "CSCI 221")], .map [("course", .str "CSCI 251")]])])
          ((sampleTaken.courses.drop 1).take 1) := by
        intro kids p
        refine .count (n := 1) [(1, .map [("course", .str "CSCI 251")], (sampleTaken.courses.drop 1).take 1)] (by decide) (by rfl)
          (by rw [hw1]; exact hparts "either" ["all", "any", "both"] _ rfl (by simp [Dict.get?]) rfl rfl rfl)
          (by rw [hw1]; exact hshown rfl rfl)
          (.either rfl rfl rfl (by simp [TextAt, Dict.get?]) (by simp [TextAt, Dict.get?]) (by simp [Dict.get?])) (by simp) (by simp)
          (by simp) (by simp) (by simp) ?_
        intro e he
        rw [List.mem_singleton] at he
        subst he
        exact one { clbid := "2", identity := "CSCI 251", subject := "CSCI" } (by simp [sampleTaken]) _ _ _
      refine count2 (cs1 := sampleTaken.courses.take 2) (cs2 := sampleTaken.courses.drop 2) (by decide) rfl rfl rfl rfl rfl rfl rfl ?_ ?_
      · refine .req (own := []) (name := "Core") (.inr ⟨by decide, rfl, rfl⟩) ?_ rfl (.inr ⟨rfl, rfl⟩) ?_
        · simp [DepartmentAudited, FlagSet, Dict.get?]
        exact count2 (cs1 := sampleTaken.courses.take 1) (cs2 := (sampleTaken.courses.drop 1).take 1) (by decide) rfl rfl rfl rfl rfl rfl
          rfl (one { clbid := "1", identity := "CSCI 121", subject := "CSCI" } (by simp [sampleTaken]) _ _ _) (c2 _ _)
      · refine .req (own := []) (name := "Electives") (.inr ⟨by decide, rfl, rfl⟩) ?_ rfl (.inr ⟨rfl, rfl⟩) ?_
        · simp [DepartmentAudited, FlagSet, Dict.get?]
        have hrec : (w.x.transcript.filter (fun k => k.clbid != "1")).map Item.course = (sampleTaken.courses.drop 1).map .course := by
          rw [hw2, htr]
          congr 1
        have hsubj : ∀ k ∈ sampleTaken.courses.drop 1, k.subject = "CSCI" ∧ 0 ≤ k.credits ∧ k.isInProgress = false := by decide +kernel
        have hc : w.c = {} := by rw [← hw]
        have hxe : w.record.exceptions = groupExceptions w.es := w.toSetting.exceptions
        refine .query (key := "count(courses)") (data := [("assert", .map [("count(courses)", .map [("$gte", .int 2)])])])
          ((sampleTaken.courses.drop 1).map .course) ((sampleTaken.courses.drop 1).map .course) (sampleTaken.courses.drop 2) (by decide)
          rfl (.inl rfl) rfl ⟨rfl, .inl ⟨_, rfl, rfl⟩⟩ rfl rfl rfl rfl (by simp [hes]) (by simp [hes]) ?_ ?_ ?_ ?_ ?_ ?_ ?_
        · rw [← hrec]
          refine .courses (fun k => k.clbid != "1") rfl (by simp [FlagSet, Dict.get?]) (fun k => ?_)
          simp [LeftOut, hw3, BlockedAt, hes]
        · intro y hy i hi
          cases hy
          obtain ⟨k, hk, rfl⟩ := List.mem_map.1 hi
          refine .every (by simp [PlainFilter, Dict.get?]) ?_
          intro e he
          rw [List.mem_singleton] at he
          subst he
          refine (C68_comparison_answers_iff w.c .course "subject" _ { key := "subject", op := .eq, expected := .sc (.str "CSCI") }
            (by rw [hc]; rfl) (.course k)).1 ⟨true, ?_⟩
          revert k
          decide +kernel
        · refine ⟨fun _ => true, ?_, by simp⟩
          intro i hi
          obtain ⟨k, hk, rfl⟩ := List.mem_map.1 hi
          refine C63_filter_selects_what_it_says _ _ hxe _ .course _
            (.leaf { key := "subject", op := .eq, expected := .sc (.str "CSCI") }) (by rw [hc]; rfl) _ _ ?_
          have : ∀ k ∈ sampleTaken.courses.drop 1,
            applyCourseLeaf k { key := "subject", op := .eq, expected := .sc (.str "CSCI") } = .ok true := by decide +kernel
          exact this k hk
        · intro k hk
          obtain ⟨k', hk', he⟩ := List.mem_map.1 hk
          cases he
          exact (hsubj _ hk').2.1
        · exact (List.sublist_cons_self _ _).map _
        · refine .courses (op := .gte) 2 rfl ⟨"$gte", [], [], rfl, by decide, by simp⟩
            ⟨2, [], 2, .whole 2, .inl ⟨rfl, rfl⟩, .nil _, .inr ⟨by simp [hes], by norm_num⟩⟩ ?_ (by simp [FlagSet, Dict.get?]) (by simp)
          simp only [NumHolds]
          decide +kernel
        · intro _ k hk
          exact (hsubj k (List.mem_of_mem_drop (i := 1) hk)).2.2

/-! ### Majors -/

/-- the part of a major that asks for one of two courses -/
def choiceOf (a b : String) : Y := .map [("either", .list [.map [("course", .str a)], .map [("course", .str b)]])]

/-- five courses, and one of two -/
def sixParts (a b : String) : List Y := [.map [("course", .str "MUS 1")], .map [("course", .str "MUS 2")], .map [("course", .str "MUS 3")],
  .map [("course", .str "MUS 4")], .map [("course", .str "MUS 5")], choiceOf a b]

/-- a B.M. major that asks for them -/
def musicMajor (a b : String) : Dict :=
  [("name", .str "Music"), ("type", .str "major"), ("degree", .str "B.M."), ("code", .str "450"),
   ("result", .map [("all", .list (sixParts a b))])]

/-- a student who took seven courses, the last with a D -/
def musicStudent : Student :=
  { courses := (["1", "2", "3", "4", "5", "6"].map (fun n => { clbid := n, identity := "MUS " ++ n, subject := "MUS" })) ++
     [{ clbid := "7", identity := "MUS 7", subject := "MUS", gradeCode := .D }] }

/-- the status in the last message of an audit that raises nothing -/
def lastStatus (st : Student) (spec : Dict) : Option Status :=
  match loadArea {} [] st [] false spec with
  | .error _ => none
  | .ok a => match (auditArea .insertion a st [] {}).err, (auditArea .insertion a st [] {}).items.getLast? with
    | none, some (.result r _ _ _) => some r.status
    | _, _ => none

theorem realText_str (s : String) : RealText (.str s) := fun _ _ h => by cases h

theorem realText_int (i : Int) : RealText (.int i) := fun _ _ h => by cases h

theorem realText_list {l : List Y} : RealText (.list l) ↔ ∀ y ∈ l, RealText y := by
  refine ⟨fun h y hy d yw ho => h d yw (.item hy ho), fun h d yw ho => ?_⟩
  cases ho with
  | item hy ho => exact h _ hy d yw ho

theorem realText_map {d : Dict} :
    RealText (.map d) ↔ (∀ yw, d.get? "$when" = some yw → ¬ WhenHolds [] yw) ∧ ∀ e ∈ d, RealText e.2 := by
  refine ⟨fun h => ⟨fun yw => h d yw .here, fun k hy e yw ho => h e yw (.entry hy ho)⟩, fun h e yw ho => ?_⟩
  generalize hz : Y.map d = z at ho
  cases ho with
  | here => cases hz; exact h.1 yw
  | entry hm ho => cases hz; exact h.2 _ hm e yw ho
  | item _ _ => cases hz

example : RealText (.map satisfiedText) := by
  simp [satisfiedText, realText_map, realText_list, realText_str, realText_int, Dict.get?]

/-- one of the first six courses of `musicStudent` -/
def musicCourse (n : String) : Course := { clbid := n, identity := "MUS " ++ n, subject := "MUS" }

/-- **C69 is false of majors.**  A B.M. major asks for five courses and for one of two others; the student took all seven, the first
of the two others with a D.  With the second of them the student has what is written, and six credits with a C or better, none taken S/U,
which is what majors have in common.  The audit reports that items are missing: the choice between the two shares no course with the other
parts, so it is made for itself, by the first that completes it, before the common requirements are looked at.
With the two exchanged in the text the same student is complete. -/
theorem C69_major_refuted : ∃ (st : Student) (spec : Dict) (a : Area) (y : Y) (cs : List Course),
    loadArea {} [] st [] false spec = .ok a ∧ TextAt spec "type" "major" ∧ TextAt spec "degree" "B.M." ∧ TidyText st false spec ∧
    RealText (.map spec) ∧ spec.get? "limit" = none ∧ (st.courses.map (·.clbid)).Nodup ∧ AreaText st false spec [] [] y ∧
    WantsAll ⟨st, [], {}, []⟩ [] [] y ∧ (∀ k ∈ cs, k ∈ st.courses ∧ k.Dated ∧ CountsOnceWritten spec st [] k) ∧
    (cs.map (·.clbid)).Nodup ∧
    TextFulfilled ⟨⟨st, [], {}, []⟩, true, areaCtx a st [] st.courses, KeptByText ⟨st, [], {}, []⟩ [] [] y⟩ [] [] ["$"] y cs ∧
    CommonMet st (codeOf spec) True cs ∧
    lastStatus st spec = some .needsMoreItems ∧ lastStatus st (musicMajor "MUS 6" "MUS 7") = some .done := by
  have hload : (loadArea {} [] musicStudent [] false (musicMajor "MUS 7" "MUS 6")).isOk = true := by decide +kernel
  cases hl : loadArea {} [] musicStudent [] false (musicMajor "MUS 7" "MUS 6") with
  | error e => rw [hl] at hload; cases hload
  | ok a =>
    have hnh : ∀ (q : Path) (d : Dict), d.get? "$if" = none → ¬ HiddenAt ⟨musicStudent, [], {}, []⟩ q (.map d) := by
      rintro q d hd ⟨d', yif, h, _, h2, _⟩
      cases h
      rw [hd] at h2
      cases h2
    have hparts : ∀ q, PartsWritten ⟨musicStudent, [], {}, []⟩ [] [] [("all", .list (sixParts "MUS 7" "MUS 6"))] q []
        (sixParts "MUS 7" "MUS 6") False := fun q =>
      ⟨_, _, [], [], ⟨[], "all", _, rfl, by simp, rfl⟩,
        .plain rfl (.plain rfl (.plain rfl (.plain rfl (.plain rfl (.plain rfl .nil))))), .nil _, .nil, rfl, by simp⟩
    have hshown : ∀ q, ShownParts ⟨musicStudent, [], {}, []⟩ q 0 (sixParts "MUS 7" "MUS 6") 6 := fun q =>
      .shown (hnh _ _ rfl) (.shown (hnh _ _ rfl) (.shown (hnh _ _ rfl) (.shown (hnh _ _ rfl) (.shown (hnh _ _ rfl)
        (.shown (hnh _ _ rfl) (.nil _))))))
    refine ⟨musicStudent, musicMajor "MUS 7" "MUS 6", a, .map [("all", .list (sixParts "MUS 7" "MUS 6"))], musicStudent.courses.take 6,
      hl, rfl, rfl, ?_, ?_, rfl, by decide, ⟨rfl, .inr ⟨rfl, rfl⟩, [], fun _ => false, .inr ⟨rfl, rfl⟩, by simp [musicStudent], rfl⟩, ?_, ?_, by decide, ?_,
      ?_, by decide +kernel, by decide +kernel⟩
    · refine ⟨by simp [musicMajor, sixParts, choiceOf, Y.CleanDict, Y.Clean, Y.CleanList], ?_⟩
      intro emphases declared h1 h2
      have h1' : Dict.dict (musicMajor "MUS 7" "MUS 6") "emphases" = .ok [] := rfl
      rw [h1'] at h1
      cases h1
      cases h2
      decide
    · simp [musicMajor, sixParts, choiceOf, realText_map, realText_list, realText_str, Dict.get?]
    · refine .parts (by decide) (hparts _) (hshown _) (.all (.inl (by decide))) ?_
      intro y hy hm
      have hk : ∃ d, y = .map d ∧ ruleKind d ∉ [.inline, .reference] := by
        simp only [sixParts, choiceOf, List.mem_cons, List.not_mem_nil, or_false] at hy
        rcases hy with rfl | rfl | rfl | rfl | rfl | rfl <;> exact ⟨_, rfl, by decide⟩
      obtain ⟨d, rfl, hk⟩ := hk
      generalize hz : Y.map d = z at hm
      cases hm with
      | here hr hf => cases hz; rcases hr.kind with h | h <;> simp [h] at hk
      | inside hr hres _ hin => cases hz; rcases hr.kind with h | h <;> simp [h] at hk
    · intro k hk
      have hk' : k ∈ musicStudent.courses := List.mem_of_mem_take hk
      refine ⟨hk', ?_, ?_, by simp, by simp [musicMajor, Dict.get?]⟩
      · have : ∀ k ∈ musicStudent.courses, k.isInProgress = false := by decide
        intro h; rw [this k hk'] at h; cases h
      · have : ∀ k ∈ musicStudent.courses, ∀ c' ∈ musicStudent.courses ++ musicStudent.coursesWithFailed, c'.clbid = k.clbid → c' = k := by
          decide +kernel
        exact this k hk'
    · generalize hx : areaCtx a musicStudent [] musicStudent.courses = x
      have htr : x.transcript = musicStudent.courses := by rw [← hx]; rfl
      generalize hw : (⟨⟨musicStudent, [], {}, []⟩, true, x, KeptByText ⟨musicStudent, [], {}, []⟩ [] [] _⟩ : Audited) = w
      have hw1 : w.toSetting = ⟨musicStudent, [], {}, []⟩ := by rw [← hw]
      have hw2 : w.x = x := by rw [← hw]
      have hes : w.es = [] := by rw [← hw]
      have one : ∀ k ∈ musicStudent.courses, ∀ p, TextFulfilled w [] [] p (.map [("course", .str k.identity)]) [k] := by
        intro k hk p
        have h3 : k.isStolaf = true ∧ k.isInProgress = false := by revert k; decide
        refine .course k (by rfl) (by simp [FlagSet, Dict.get?]) (by rw [hw2, htr]; exact hk) ?_ (by simp [BlockedAt, hes]) (fun _ => h3.2)
        constructor
        · constructor <;> simp [TextAt, Dict.get?, h3.1]
        · simp [TextAt, Dict.get?]
        · simp [TextAt, Dict.get?]
      have c6 : ∀ p, TextFulfilled w [] [] p (choiceOf "MUS 7" "MUS 6") [musicCourse "6"] := by
        intro p
        refine .count (n := 1) (inserted := False) [(1, .map [("course", .str "MUS 6")], [musicCourse "6"])] (by decide) (by rfl)
          (by rw [hw1]; exact ⟨_, _, [], [], ⟨["all", "any", "both"], "either", _, rfl, by simp [Dict.get?], rfl⟩,
            .plain rfl (.plain rfl .nil), .nil _, .nil, rfl, by simp⟩)
          (by rw [hw1]; exact .shown (hnh _ _ rfl) (.shown (hnh _ _ rfl) (.nil _)))
          (.either rfl rfl rfl (by simp [TextAt, Dict.get?]) (by simp [TextAt, Dict.get?]) (by simp [Dict.get?])) (by simp) (by simp)
          (by simp) (by simp) (by simp) ?_
        intro e he
        rw [List.mem_singleton] at he
        subst he
        exact one (musicCourse "6") (by simp [musicStudent, musicCourse]) _
      refine .count (n := 6) (inserted := False) [(0, .map [("course", .str "MUS 1")], [musicCourse "1"]), (1, .map [("course", .str "MUS 2")], [musicCourse "2"]),
        (2, .map [("course", .str "MUS 3")], [musicCourse "3"]), (3, .map [("course", .str "MUS 4")], [musicCourse "4"]),
        (4, .map [("course", .str "MUS 5")], [musicCourse "5"]), (5, choiceOf "MUS 7" "MUS 6", [musicCourse "6"])] (by decide) (by rfl)
        (by rw [hw1]; exact hparts _) (by rw [hw1]; exact hshown _) (.all (.inl (by decide))) (by simp) (by simp) (by simp [sixParts])
        (by simp) (by simp) ?_
      intro e he
      simp only [List.mem_cons, List.not_mem_nil, or_false] at he
      rcases he with rfl | rfl | rfl | rfl | rfl | rfl
      · exact one (musicCourse "1") (by simp [musicStudent, musicCourse]) _
      · exact one (musicCourse "2") (by simp [musicStudent, musicCourse]) _
      · exact one (musicCourse "3") (by simp [musicStudent, musicCourse]) _
      · exact one (musicCourse "4") (by simp [musicStudent, musicCourse]) _
      · exact one (musicCourse "5") (by simp [musicStudent, musicCourse]) _
      · exact c6 _
    · exact ⟨by decide +kernel, fun _ => by decide, fun h => absurd trivial h, fun h => absurd trivial h⟩

end Dp
