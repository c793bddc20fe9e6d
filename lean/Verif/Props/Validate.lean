import Verif.Model.Validate
import Verif.Props.ValidateRule
import Verif.Props.LoadEnds
import Verif.Props.Independent
import Verif.Props.DiscoverTests

/-
C103: an area file that validates loads for every student.
-/
namespace Dp

/-! ### The common requirements -/

mutual
/-- no dictionary within the text has a condition or a template -/
def Y.calm : Y → Bool
  | .list l => Y.calmList l
  | .map d => !Dict.has d "$if" && !Dict.has d "template" && Y.calmDict d
  | _ => true
/-- of a list -/
def Y.calmList : List Y → Bool
  | [] => true
  | y :: ys => y.calm && Y.calmList ys
/-- of the entries of a dictionary -/
def Y.calmDict : List (String × Y) → Bool
  | [] => true
  | (_, y) :: ys => y.calm && Y.calmDict ys
end

theorem calmList_mem : ∀ {l : List Y} {y : Y}, Y.calmList l = true → y ∈ l → y.calm = true
  | a :: as, y, h, hy => by
    simp only [Y.calmList, Bool.and_eq_true] at h
    rcases List.mem_cons.1 hy with rfl | hy
    · exact h.1
    · exact calmList_mem h.2 hy

theorem calmDict_mem : ∀ {d : List (String × Y)} {k : String} {y : Y}, Y.calmDict d = true → (k, y) ∈ d → y.calm = true
  | (k', a) :: as, k, y, h, hy => by
    simp only [Y.calmDict, Bool.and_eq_true] at h
    rcases List.mem_cons.1 hy with e | hy
    · cases e; exact h.1
    · exact calmDict_mem h.2 hy

theorem calm_part {z y : Y} (h : PartOf z y) : y.calm = true → z.calm = true := by
  induction h with
  | self => exact id
  | item hm _ ih => intro h; unfold Y.calm at h; exact ih (calmList_mem h hm)
  | field hm _ ih =>
    intro h
    unfold Y.calm at h
    simp only [Bool.and_eq_true] at h
    exact ih (calmDict_mem h.2 hm)

theorem calm_settled {x : Ctx} {es : List Exc} {ts : List (String × TemplateCourse)} {y : Y} (h : y.calm = true) :
    SettledText x es ts y := by
  intro d hd
  have := calm_part hd h
  unfold Y.calm at this
  simp only [Bool.and_eq_true, Bool.not_eq_true'] at this
  obtain ⟨⟨h1, h2⟩, _⟩ := this
  refine ⟨.inr (by simpa [Dict.has] using h2), ?_⟩
  intro hk
  exfalso
  unfold ruleKind at hk
  rw [h1] at hk
  repeat' split at hk
  all_goals first | (cases hk; done) | simp_all

theorem common_leads {e e' : Env} {es : List Exc} (he : TwoEnvs e e' es) {name : String} {spec : Y} (hs : spec.calm = true) (i : Nat) :
    Loads (loadCommon e name spec i) (loadCommon e' name spec i) := by
  unfold loadCommon
  refine leads_bind (rule_leads he _ _ _ _ ?_ (calm_settled rfl)) fun o o' _ _ h => ?_
  · intro k v hv
    unfold Dict.get? at hv
    split at hv
    · cases hv; exact calm_settled hs
    · simp [Dict.get?] at hv
  · obtain ⟨n, n', rfl, rfl, _⟩ := h
    exact leads_ok trivial

theorem leads_sure {α β : Type} {r : Except Err α} {s : Except Err β} {R : α → β → Prop} (h : Leads r s R) (hs : Sure s) {a : α}
    (ha : r = .ok a) : ∃ b, s = .ok b ∧ R a b := by
  rcases h a ha with h | h
  · exact absurd h hs
  · exact h

theorem blank_validate : validateConstants.Blank := ⟨rfl, rfl⟩

theorem plainText_loads (c : Constants) {s : String} (h : s.toList.head? ≠ some '$') : c.getByName s = .ok (.str s) := by
  unfold Constants.getByName
  rw [if_pos h]

theorem subject_loads (x : Ctx) (c : Constants) {s : String} (h : s.toList.head? ≠ some '$') (n : Nat) :
    ∃ p, loadPred x c .course (n + 1) (clause "subject" "$neq" (.str s)) = .ok p := by
  have hv : loadValue c "subject" (.str s) = .ok (strVal s) := by
    have hr : loadRawValue c (.str s) = .ok (strVal s) := by
      show (c.getByName s >>= fun v => Except.ok v.val) = .ok (strVal s)
      rw [plainText_loads c h]
      rfl
    unfold loadValue
    rw [hr]
    rfl
  have hl : ∃ l, loadLeaf c .course "subject" (.map [("$neq", .str s)]) = .ok l := by
    have hop : theOperator [("$neq", .str s)] = .ok (.neq, .str s) := rfl
    have hg : Dict.get? [("$neq", Y.str s)] "$during_covid" = none := rfl
    have hk : courseKeys.contains "subject" = true := by decide
    unfold loadLeaf
    simp only [Y.asDict, filterKeys, hop, hv, hg, hk, check, bind, Except.bind, if_true]
    exact ⟨_, rfl⟩
  obtain ⟨l, hl⟩ := hl
  unfold loadPred
  have h1 : Dict.has [("subject", Y.map [("$neq", .str s)])] "$and" = false := rfl
  have h2 : Dict.has [("subject", Y.map [("$neq", .str s)])] "$or" = false := rfl
  have h3 : Dict.has [("subject", Y.map [("$neq", .str s)])] "$not" = false := rfl
  have h4 : Dict.has [("subject", Y.map [("$neq", .str s)])] "$if" = false := rfl
  simp only [clause, Y.asDict, h1, h2, h3, h4, mapE, hl, bind, Except.bind, Bool.false_eq_true, if_false]
  exact ⟨_, rfl⟩

theorem outsideFilter_loads (x : Ctx) (c : Constants) {s : String} (h : s.toList.head? ≠ some '$') :
    ∃ p, loadFilter x c .course (.map [("$and", .list [clause "subject" "$neq" (.str s), clause "subject" "$neq" (.str "REG"),
      clause "subject" "$neq" (.str "OFFC")])]) = .ok p := by
  obtain ⟨k, hk⟩ : ∃ k, Y.size (.map [("$and", .list [clause "subject" "$neq" (.str s), clause "subject" "$neq" (.str "REG"),
      clause "subject" "$neq" (.str "OFFC")])]) = k + 2 := ⟨_, rfl⟩
  unfold loadFilter
  rw [hk]
  obtain ⟨p1, h1⟩ := subject_loads x c h k
  obtain ⟨p2, h2⟩ := subject_loads x c (s := "REG") (by decide) k
  obtain ⟨p3, h3⟩ := subject_loads x c (s := "OFFC") (by decide) k
  unfold loadPred
  have h4 : ∀ l : Y, Dict.has [("$and", l)] "$and" = true := fun l => rfl
  have h5 : ∀ l : Y, Dict.need [("$and", l)] "$and" = .ok l := fun l => rfl
  simp only [Y.asDict, h4, h5, Y.asList, mapE, h1, h2, h3, bind, Except.bind, if_true, check, List.length_singleton, decide_true]
  exact ⟨_, rfl⟩

theorem commonQuery_loads (env : Env) {w : Dict} {p : Pred} (hw : loadFilter env.ctx env.c .course (.map w) = .ok p) (path : Path) (d : Dict)
    (hd : d = [("from", .str "courses"), ("allow_claimed", .bool true), ("claim", .bool false), ("where", .map w),
        ("assert", clause "sum(credits)" "$gte" (.int 21))]) : ∃ q, loadQuery env d path = .ok q := by
  have t1 : d.need "from" = .ok (.str "courses") := by rw [hd]; rfl
  have t2 : d.opt "where" = some (.map w) := by rw [hd]; rfl
  have t3 : d.opt "limit" = none := by rw [hd]; rfl
  have t4 : d.has "limits" = false := by rw [hd]; rfl
  have t5 : d.get? "assert" = some (clause "sum(credits)" "$gte" (.int 21)) := by rw [hd]; rfl
  have t6 : d.has "assert" = true := by rw [hd]; rfl
  have t7 : d.has "all" = false := by rw [hd]; rfl
  have t8 : onlyKeys queryKeys d = true := by rw [hd]; rfl
  have t9 : d.flag "allow_claimed" false = .ok true := by rw [hd]; rfl
  have t10 : d.flag "include_failed" false = .ok false := by rw [hd]; rfl
  have ha : ∃ a, loadAnyAssertion env.ctx env.c .course (path ++ [".query"] ++ [".assertions", "[0]"])
      (.map [("assert", clause "sum(credits)" "$gte" (.int 21))]) = .ok a := ⟨_, rfl⟩
  obtain ⟨a, ha⟩ := ha
  unfold loadQuery
  simp only [t1, t2, t3, t4, t6, t7, t8, t9, t10, Y.asText, bind, Except.bind, parseSource, QuerySource.dataType, loadOptFilter, hw,
    Except.map, loadLimits, loadQueryAssertions, t5, ha, check, beq_self_eq_true, if_true, List.isEmpty_cons, Bool.not_false, Bool.and_false]
  exact ⟨_, rfl⟩

theorem outside_loads (env : Env) {s : String} (h : s.toList.head? ≠ some '$') (m : String) (hm : m ≠ "") (i : Nat) :
    ∃ r, loadCommon env "Credits outside the major" (commonSpec m
      (commonQuery (.map [("$and", .list [clause "subject" "$neq" (.str s), clause "subject" "$neq" (.str "REG"),
          clause "subject" "$neq" (.str "OFFC")])]) "sum(credits)" "$gte" 21)) i = .ok r := by
  obtain ⟨p, hp⟩ := outsideFilter_loads env.ctx env.c h
  unfold loadCommon
  obtain ⟨qd, hqd⟩ : ∃ qd : Dict, qd = [("from", .str "courses"), ("allow_claimed", .bool true), ("claim", .bool false), ("where",
      .map [("$and", .list [clause "subject" "$neq" (.str s), clause "subject" "$neq" (.str "REG"),
          clause "subject" "$neq" (.str "OFFC")])]), ("assert", clause "sum(credits)" "$gte" (.int 21))] := ⟨_, rfl⟩
  have hq : commonQuery (.map [("$and", .list [clause "subject" "$neq" (.str s), clause "subject" "$neq" (.str "REG"),
          clause "subject" "$neq" (.str "OFFC")])]) "sum(credits)" "$gte" 21 = .map qd := by rw [hqd]; rfl
  rw [hq]
  have hkq : ruleKind qd = .query := by rw [hqd]; rfl
  obtain ⟨sd, hsd⟩ : ∃ sd : Dict, sd = [("message", .str m), ("result", .map qd)] := ⟨_, rfl⟩
  have hs : commonSpec m (.map qd) = .map sd := by rw [hsd]; rfl
  rw [hs]
  obtain ⟨k, hk⟩ : ∃ k, ruleFuel [("Credits outside the major", .map sd)] [] (.map [("requirement", .str "Credits outside the major")]) = k + 2 :=
    ⟨ruleFuel [("Credits outside the major", .map sd)] [] (.map [("requirement", .str "Credits outside the major")]) - 2,
      by unfold ruleFuel; omega⟩
  dsimp only
  rw [hk, loadRule_kind]
  have hkr : ruleKind [("requirement", .str "Credits outside the major")] = .reference := rfl
  have n1 : Dict.need [("requirement", Y.str "Credits outside the major")] "requirement" = .ok (.str "Credits outside the major") := rfl
  have n2 : Dict.need [("Credits outside the major", Y.map sd)] "Credits outside the major" = .ok (.map sd) := rfl
  have r1 : onlyKeys requirementKeys sd = true := by rw [hsd]; rfl
  have r2 : sd.opt "result" = some (.map qd) := by rw [hsd]; rfl
  have r3 : sd.dict "requirements" = .ok [] := by rw [hsd]; rfl
  have r4 : auditedFlag sd = .ok false := by rw [hsd]; rfl
  have r5 : sd.text "message" = .ok (some m) := by rw [hsd]; rfl
  have r6 : sd.flag "contract" false = .ok false := by rw [hsd]; rfl
  have r7 : sd.flag "in_gpa" true = .ok true := by rw [hsd]; rfl
  have r8 : sd.opt "disjoint" = none := by rw [hsd]; rfl
  have hname : (!("Credits outside the major".toList.all (·.isWhitespace))) = true := by decide
  simp only [hkr, n1, n2, Y.asText, Y.asDict, bind, Except.bind, check, List.isEmpty_nil, Bool.true_or, if_true]
  generalize ["$", "%Common Requirements", ".count", indexSeg i] = path
  obtain ⟨q, hlq⟩ := commonQuery_loads env hp (path ++ ["%" ++ "Credits outside the major"]) qd hqd
  have hres : loadRule env (k + 1) [] [] (path ++ ["%" ++ "Credits outside the major"]) (.map qd) = .ok (some (.query .rule q)) := by
    rw [loadRule_kind, hkq]
    simp only [hlq, check, bind, Except.bind, List.isEmpty_nil, Bool.true_or, if_true]
  unfold loadRequirement loadReqResult
  simp only [r1, r2, r3, r4, r5, r6, r7, r8, hres, hname, check, bind, Except.bind, if_true, Option.isSome_some, Bool.or_true,
    Dict.keys, List.map_nil, List.all_nil]
  have hmm : decide ¬some m = some "" = true := by simp [hm]
  simp only [ne_eq, hmm, if_true]
  exact ⟨_, rfl⟩


/-- the setting an area is validated in -/
def validateEnv : Env := { ctx := loadCtx {} [], c := validateConstants, templates := [] }

theorem isOk_ok {α : Type} {r : Except Err α} (h : r.isOk = true) : ∃ a, r = .ok a := by
  cases r with
  | ok a => exact ⟨a, rfl⟩
  | error e => cases h

theorem outsideSpec_loads {e' : Env} {es : List Exc} (he : TwoEnvs validateEnv e' es) (dept : Option String)
    (hd : ∀ d, dept = some d → d.toList.head? ≠ some '$') (code : String) (others : List String) :
    ∃ r, loadCommon e' "Credits outside the major" (outsideSpec dept code others) 2 = .ok r := by
  have closed : ∀ spec : Y, spec.calm = true → (∃ r, loadCommon validateEnv "Credits outside the major" spec 2 = .ok r) →
      ∃ r, loadCommon e' "Credits outside the major" spec 2 = .ok r := by
    intro spec hs ⟨r, hr⟩
    obtain ⟨b, hb, _⟩ := leads_sure (common_leads he hs 2) (sure_loadCommon _ _ _ _) hr
    exact ⟨b, hb⟩
  unfold outsideSpec
  cases dept with
  | none => dsimp only; exact closed _ rfl (isOk_ok (by decide +kernel))
  | some s =>
    dsimp only
    split
    · exact closed _ rfl (isOk_ok (by decide +kernel))
    split
    · exact closed _ rfl (isOk_ok (by decide +kernel))
    · refine outside_loads e' (hd s rfl) _ ?_ 2
      intro h
      have := congrArg String.length h
      simp only [String.length_append] at this
      have h2 : "'.".length = 2 := rfl
      rw [h2] at this
      have h0 : "".length = 0 := rfl
      rw [h0] at this
      omega

theorem commonRules_leads {e' : Env} {es : List Exc} (he : TwoEnvs validateEnv e' es) (degree : Option String) (dept : Option String)
    (hd : ∀ d, dept = some d → d.toList.head? ≠ some '$') (areas : List AreaPointer) (code : String) :
    ∃ l, prepareCommonRules e' degree dept areas code = .ok l := by
  have closed : ∀ name i (spec : Y), spec.calm = true → (∃ r, loadCommon validateEnv name spec i = .ok r) →
      ∃ r, loadCommon e' name spec i = .ok r := by
    intro name i spec hs ⟨r, hr⟩
    obtain ⟨b, hb, _⟩ := leads_sure (common_leads he hs i) (sure_loadCommon _ _ _ _) hr
    exact ⟨b, hb⟩
  obtain ⟨r0, h0⟩ := closed "Credits at a C or higher" 0 cOrBetterSpec rfl (isOk_ok (by decide +kernel))
  have hsu : ∃ r, loadCommon e' "Credits taken S/U" (suSpec (degree == some "B.M.")) 1 = .ok r := by
    cases (degree == some "B.M.") with
    | true => exact closed _ 1 _ rfl (isOk_ok (by decide +kernel))
    | false => exact closed _ 1 _ rfl (isOk_ok (by decide +kernel))
  obtain ⟨r1, h1⟩ := hsu
  unfold prepareCommonRules
  simp only [h0, h1, bind, Except.bind]
  split
  · exact ⟨_, rfl⟩
  · obtain ⟨r2, h2⟩ := outsideSpec_loads he dept hd code ((areas.filter (fun p => p.code ≠ code)).map (·.code))
    rw [h2]
    exact ⟨_, rfl⟩

/-! ### The area -/

/-- insertions into counts are of courses of the student -/
def InsertsTaken (st : Student) (es : List Exc) : Prop :=
  ∀ e ∈ es, ∀ p k f, e.path = p ++ [".count"] → e.kind = .insertion k f → k ≠ "" ∧ ∃ c ∈ st.courses, c.clbid = k

theorem twoEnvs_of {st : Student} {es : List Exc} {c : Constants} {ts : List (String × TemplateCourse)} (hc : c.Real)
    (hi : InsertsTaken st es) : TwoEnvs validateEnv { ctx := loadCtx st es, c := c, templates := ts } es where
  blank := blank_validate
  real := hc
  ctx := rfl
  templates := rfl
  grouped := rfl
  inserts := by
    intro p ex hex k f hk
    have he' : ex ∈ getInsertExceptions (groupExceptions es) (p ++ [".count"]) := hex
    rw [(C07_exact_path_first_wins es _).1, List.mem_filter] at he'
    simp only [Bool.and_eq_true, beq_iff_eq] at he'
    obtain ⟨hne, co, hco, hcl⟩ := hi ex he'.1 p k f he'.2.2 hk
    unfold Ctx.forcedCourseByClbid Ctx.findCourseByClbid
    cases hf : (loadCtx st es).transcript.reverse.find? (fun c => c.clbid == k) with
    | none =>
      rw [List.find?_eq_none] at hf
      exact absurd (beq_iff_eq.2 hcl) (hf co (List.mem_reverse.2 hco))
    | some c' =>
      have := List.find?_some hf
      exact ⟨c', rfl, by rw [beq_iff_eq.1 this]; exact hne⟩

theorem areaRules_leads {st : Student} {es : List Exc} {c : Constants} {ts : List (String × TemplateCourse)} (hc : c.Real)
    (hi : InsertsTaken st es) (hem : ∀ a ∈ st.areas, a.kind ≠ "Emphasis")
    (hd : ∀ a ∈ st.areas, ∀ d, a.dept = some d → d.toList.head? ≠ some '$') (check' : Bool) (spec emphases : Dict)
    (ht : SettledText (loadCtx st es) es ts (.map spec)) :
    Loads (loadAreaRules validateConstants [] {} [] false check' spec emphases) (loadAreaRules c ts st es false check' spec emphases) := by
  have he := twoEnvs_of (ts := ts) hc hi
  have none1 : ∀ st : Student, (∀ a ∈ st.areas, a.kind ≠ "Emphasis") → declaredEmphases st emphases false = .ok [] := by
    intro st hem
    unfold declaredEmphases
    have : (emphases.filter (fun e => false || st.areas.any (fun a => a.kind == "Emphasis" && a.code == e.1))) = [] := by
      rw [List.filter_eq_nil_iff]
      intro e _
      simp only [Bool.false_or, List.any_eq_true, Bool.and_eq_true, beq_iff_eq, not_exists, not_and]
      intro a ha hk
      exact absurd hk (hem a ha)
    rw [this]
    rfl
  unfold loadAreaRules
  dsimp only
  rw [none1 {} (by simp), none1 st hem]
  refine leads_same fun code _ => leads_same fun declared hdec => leads_same fun children hch => leads_same fun data hdata => ?_
  cases hdec
  have hkids : ∀ k v, children.get? k = some v → SettledText (loadCtx st es) es ts v := by
    unfold Dict.dict at hch
    split at hch
    · cases hch; intro k v hv; simp [Dict.get?] at hv
    · rename_i v hv
      cases hch
      exact fun k w hw => (ht.get hv).get hw
    · cases hch
  refine leads_bind (rule_leads he _ children ["$"] data hkids (ht.get (ld_need.1 hdata))) fun o o' _ _ ho => ?_
  obtain ⟨n, n', rfl, rfl, _⟩ := ho
  dsimp only
  refine leads_bind (limits_leads blank_validate hc _ _ _) fun _ _ _ _ _ => leads_same fun _ _ => leads_same fun _ _ => leads_same fun _ _ =>
    leads_same fun _ _ => leads_same fun degree _ => ?_
  intro a _
  right
  obtain ⟨l, hl⟩ := commonRules_leads he degree
    ((st.areas.reverse.find? (fun p => p.code == code.getD "<null>")).bind (·.dept)) (by
      intro d hd'
      cases hf : st.areas.reverse.find? (fun p => p.code == code.getD "<null>") with
      | none => rw [hf] at hd'; cases hd'
      | some p =>
        rw [hf] at hd'
        exact hd p (List.mem_reverse.1 (List.mem_of_find?_eq_some hf)) d hd') st.areas (code.getD "<null>")
  rw [hl]
  exact ⟨_, rfl, trivial⟩

theorem emphases_leads {st : Student} {c : Constants} {ts : List (String × TemplateCourse)} (hc : c.Real)
    (hem : ∀ a ∈ st.areas, a.kind ≠ "Emphasis")
    (hd : ∀ a ∈ st.areas, ∀ d, a.dept = some d → d.toList.head? ≠ some '$') : ∀ (n : Nat) (d : Dict),
    (∀ k v, (k, v) ∈ d → SettledText (loadCtx st []) [] ts v) →
      Loads (checkEmphases validateConstants [] {} n d) (checkEmphases c ts st n d) := by
  intro n
  induction n with
  | zero => intro d _; exact leads_error
  | succ n ih =>
    intro d hs
    cases d with
    | nil => exact leads_ok trivial
    | cons e rest =>
      obtain ⟨k, y⟩ := e
      unfold checkEmphases
      refine leads_same fun spec hspec => leads_same fun emphases hemph => ?_
      have hy : y = .map spec := ld_asDict.1 hspec
      have hsy := hs k y List.mem_cons_self
      rw [hy] at hsy
      refine leads_bind (ih emphases ?_) fun _ _ _ _ _ =>
        leads_bind (areaRules_leads hc (fun e he => by cases he) hem hd true spec emphases hsy) fun _ _ _ _ _ =>
        ih rest (fun k v hv => hs k v (List.mem_cons_of_mem _ hv))
      unfold Dict.dict at hemph
      split at hemph
      · cases hemph; intro k v hv; cases hv
      · rename_i v hv
        cases hemph
        intro k' w hw e he
        exact hsy e (.field (dict_get_entry hv) (.field hw he))
      · cases hemph

/-- **C103** An area file that passes validation loads for a student whatever they have taken and whatever exceptions were made for them —
constants, conditions in filters and in assertions, and insertions cannot make it fail — if its text is settled for the student, no emphasis
was declared, and insertions into counts are of courses they have. -/
theorem C103_validated_area_loads_partial (spec : Dict) (st : Student) (es : List Exc) (c : Constants) (ts : List (String × TemplateCourse))
    (hv : validateFile (.ok spec) = none)
    (hc : ∀ n, c.primaryPerformingMedium ≠ .int n)
    (hem : ∀ a ∈ st.areas, a.kind ≠ "Emphasis")
    (hd : ∀ a ∈ st.areas, ∀ d, a.dept = some d → d.toList.head? ≠ some '$')
    (hi : ∀ e ∈ es, ∀ p k f, e.path = p ++ [".count"] → e.kind = .insertion k f → k ≠ "" ∧ ∃ c ∈ st.courses, c.clbid = k)
    (ht : SettledText (loadCtx st es) es ts (.map spec))
    (hte : ∀ y, spec.get? "emphases" = some y → SettledText (loadCtx st []) [] ts y) :
    ∃ a, loadArea c ts st es false spec = .ok a := by
  have hl : Loads (loadArea validateConstants [] {} [] false spec) (loadArea c ts st es false spec) := by
    unfold loadArea
    refine leads_same fun emphases he => leads_bind (emphases_leads hc hem hd _ emphases ?_) fun _ _ _ _ _ =>
      areaRules_leads hc hi hem hd false spec emphases ht
    unfold Dict.dict at he
    split at he
    · cases he; intro k v hv; cases hv
    · rename_i v hv
      cases he
      intro k w hw e h
      exact hte _ hv e (.field hw h)
    · cases he
  unfold validateFile at hv
  dsimp only at hv
  cases ha : loadArea validateConstants [] {} [] false spec with
  | error e => rw [ha] at hv; cases hv
  | ok a =>
    rcases hl a ha with h | ⟨b, hb, _⟩
    · rcases C82_loading_ends c ts st es false spec with ⟨b, hb⟩ | ⟨e, hne, he⟩
      · exact ⟨b, hb⟩
      · rw [he] at h; cases h; exact absurd rfl hne
    · exact ⟨b, hb⟩


/-! ### Cases and counterexamples -/

/-- the exception raised, if any -/
def raises {α : Type} : Except Err α → Option Err
  | .error e => some e
  | .ok _ => none

theorem raises_some {α : Type} {r : Except Err α} {e : Err} (h : raises r = some e) : r = .error e := by
  cases r with
  | error e' => cases h; rfl
  | ok a => cases h

/-- a student with a major and three classes -/
def validateStudent : Student :=
  { areas := [{ code := "740", kind := "major", dept := some "CSCI" }],
    courses := [{ clbid := "1", identity := "CSCI 121", subject := "CSCI" }, { clbid := "2", identity := "CSCI 251", subject := "CSCI" },
      { clbid := "3", identity := "ART 102", subject := "ART" }] }

/-- Non-trivial case for C103: the sample major, with an emphasis that was not declared, a class put into its core, a requirement waived and
a template that it does not use. -/
example : ∃ a, loadArea { matriculationYear := 2018, primaryPerformingMedium := .str "Voice" } [("a", { subject := "ART", num := "102" })]
    validateStudent [⟨["$", ".count", "[0]", "%Core", ".count"], .insertion "3" false⟩, ⟨["$", ".count", "[1]", "%Electives"], .override⟩]
    false sampleText = .ok a := by
  refine C103_validated_area_loads_partial _ _ _ _ _ (by decide +kernel) (fun n h => by cases h) (by decide) ?_ ?_ (calm_settled rfl)
    (fun y hy => ?_)
  · intro a ha d hd
    simp only [validateStudent, List.mem_singleton] at ha
    subst ha
    cases hd
    decide +kernel
  · intro e he p k f hp hk
    simp only [List.mem_cons, List.not_mem_nil, or_false] at he
    rcases he with rfl | rfl
    · cases hk
      exact ⟨by decide, { clbid := "3", identity := "ART 102", subject := "ART" }, by simp [validateStudent], rfl⟩
    · cases hk
  · have hy' : sampleText.get? "emphases" = some y := hy
    have : y.calm = true := by
      have h2 := congrArg (Option.map Y.calm) hy'
      have h3 : (sampleText.get? "emphases").map Y.calm = some true := by decide +kernel
      rw [h3] at h2
      exact (Option.some.inj h2).symm
    exact calm_settled this

/-- a requirement for the students who have not taken a course -/
def elseArea : Dict :=
  [("name", .str "Computer Science"), ("type", .str "major"), ("degree", .str "B.A."), ("code", .str "740"),
   ("result", .map [("all", .list [.map [("course", .str "CSCI 251")], .map [("requirement", .str "Core")]])]),
   ("requirements", .map [("Core", .map [
     ("result", .map [("$if", .map [("has-course", .str "CSCI 121")]), ("$then", .map [("course", .str "CSCI 125")]),
       ("$else", .map [("requirement", .str "Introduction")])]),
     ("requirements", .map [("Introduction", .map [("result", .map [("course", .str "CSCI 120")])])])])])]

/-- **C103**, refuted for a requirement that is only named where a condition fails: the file validates, but for a student for whom the
condition holds loading it raises AssertionError. -/
theorem C103_conditional_refuted : ∃ (spec : Dict) (st : Student), validateFile (.ok spec) = none ∧
    loadArea {} [] st [] false spec = .error .assertion :=
  ⟨elseArea, validateStudent, by decide +kernel, raises_some (by decide +kernel)⟩

/-- a student who declared an emphasis -/
def withEmphasis : Student :=
  { validateStudent with areas := validateStudent.areas ++ [{ code := "1", kind := "Emphasis" }] }

/-- an area with an emphasis of any one of two courses -/
def anyEmphasis : Dict := oneRule (.map [("course", .str "CSCI 121")]) ++ [("emphases", .map [
  ("1", .map [("name", .str "Theory"), ("result", .map [("any", .list [.map [("course", .str "MATH 252")], .map [("course", .str "MATH 262")]])])])])]

/-- an area with an emphasis that has a code and an option -/
def codedEmphasis : Dict := oneRule (.map [("course", .str "CSCI 121")]) ++ [("emphases", .map [
  ("1", .map [("name", .str "Theory"), ("code", .str "1"), ("result", .map [("any", .list [.map [("requirement", .str "Logic")]])]),
    ("requirements", .map [("Logic", .map [("result", .map [("course", .str "MATH 252")])])])])])]

/-- **C103**, refuted for students who declared an emphasis: the file validates, its emphasis too, but for them loading it raises KeyError,
when the emphasis offers a choice, and AssertionError, when it has a code. -/
theorem C103_emphasis_refuted : (∃ spec : Dict, validateFile (.ok spec) = none ∧
      loadArea {} [] withEmphasis [] false spec = .error .keyError) ∧
    ∃ spec : Dict, validateFile (.ok spec) = none ∧ loadArea {} [] withEmphasis [] false spec = .error .assertion :=
  ⟨⟨anyEmphasis, by decide +kernel, raises_some (by decide +kernel)⟩, ⟨codedEmphasis, by decide +kernel, raises_some (by decide +kernel)⟩⟩

/-- two courses, and those of the student's own plan -/
def plannedArea : Dict := oneRule (.map [("both", .list [.map [("course", .str "CSCI 121")], .map [("course", .str "CSCI 251")],
  .map [("template", .str "plan")]])])

/-- **C103**, refuted for templates: a `both` of two courses and a template validates; for a student with a course in the template loading
it raises AssertionError. -/
theorem C103_template_refuted : ∃ (spec : Dict) (ts : List (String × TemplateCourse)), validateFile (.ok spec) = none ∧
    loadArea {} ts validateStudent [] false spec = .error .assertion :=
  ⟨plannedArea, [("plan", { subject := "ART", num := "102" })], by decide +kernel, raises_some (by decide +kernel)⟩

/-- **C103**, refuted for insertions: with a class put into a count that the student does not have, loading a file that validates raises
an exception. -/
theorem C103_insertion_refuted : ∃ (spec : Dict) (es : List Exc), validateFile (.ok spec) = none ∧
    loadArea {} [] validateStudent es false spec = .error .missingClbid :=
  ⟨oneRule (.map [("course", .str "CSCI 121")]), [⟨["$", ".count"], .insertion "9" false⟩], by decide +kernel, raises_some (by decide +kernel)⟩

/-! ### What the program shows -/

/-- a file that can be read, and from which an area can be made for nobody -/
def Valid (file : Except Err Dict) : Prop :=
  ∃ spec a, file = .ok spec ∧ loadArea { matriculationYear := 200 } [] {} [] false spec = .ok a

theorem validateFile_none {file : Except Err Dict} : validateFile file = none ↔ Valid file := by
  unfold validateFile Valid
  cases file with
  | error e => simp
  | ok spec =>
    dsimp only
    cases h : loadArea validateConstants [] {} [] false spec with
    | error e =>
      have h' : loadArea { matriculationYear := 200 } [] {} [] false spec = .error e := h
      constructor
      · intro hh; cases hh
      · rintro ⟨s, a, hs, ha⟩; cases hs; rw [h'] at ha; cases ha
    | ok a => exact ⟨fun _ => ⟨spec, a, rfl, h⟩, fun _ => rfl⟩

/-- **C104** The files named on the command line are shown in their order; an exception is shown after just those that are not valid, and
only with `--break` are files left out: those after the first that is not valid. -/
theorem C104_validate_shows_partial (breakOnErr : Bool) (files : List (String × Except Err Dict)) : ∃ shown rest, files = shown ++ rest ∧
    List.Forall₂ (fun f out => out.1 = f.1 ∧ (out.2 = none ↔ Valid f.2)) shown (validateProgram breakOnErr files).1 ∧
    (breakOnErr = true → ∀ f ∈ shown.dropLast, Valid f.2) ∧
    (rest ≠ [] → breakOnErr = true ∧ ∃ f, shown.getLast? = some f ∧ ¬ Valid f.2) := by
  show ∃ shown rest, files = shown ++ rest ∧
    List.Forall₂ (fun f out => out.1 = f.1 ∧ (out.2 = none ↔ Valid f.2)) shown (validateLoop breakOnErr files) ∧
    (breakOnErr = true → ∀ f ∈ shown.dropLast, Valid f.2) ∧
    (rest ≠ [] → breakOnErr = true ∧ ∃ f, shown.getLast? = some f ∧ ¬ Valid f.2)
  induction files with
  | nil => exact ⟨[], [], rfl, .nil, by simp, fun h => absurd rfl h⟩
  | cons f files ih =>
    obtain ⟨name, file⟩ := f
    obtain ⟨shown, rest, rfl, h1, h2, h3⟩ := ih
    unfold validateLoop
    cases hv : validateFile file with
    | none =>
      have hvalid := validateFile_none.1 hv
      dsimp only
      refine ⟨(name, file) :: shown, rest, rfl, .cons ⟨rfl, by simp [hvalid]⟩ h1, fun hb f hf => ?_, fun hr => ?_⟩
      · cases shown with
        | nil => cases hf
        | cons g gs =>
          rw [List.dropLast_cons_of_ne_nil (by simp)] at hf
          rcases List.mem_cons.1 hf with rfl | hf
          · exact hvalid
          · exact h2 hb f hf
      · obtain ⟨hb, g, hg, hn⟩ := h3 hr
        refine ⟨hb, g, ?_, hn⟩
        cases shown with
        | nil => cases hg
        | cons a as => rw [List.getLast?_cons_cons]; exact hg
    | some e =>
      have hnot : ¬ Valid file := fun h => by rw [validateFile_none.2 h] at hv; cases hv
      cases breakOnErr with
      | true =>
        refine ⟨[(name, file)], shown ++ rest, rfl, ?_, fun _ f hf => (by cases hf), fun _ => ⟨rfl, _, rfl, hnot⟩⟩
        simp only [if_true]
        exact .cons ⟨rfl, by simp [hnot]⟩ .nil
      | false =>
        have hrest : rest = [] := by
          by_contra hr
          exact absurd (h3 hr).1 (by simp)
        subst hrest
        refine ⟨(name, file) :: shown, [], rfl, ?_, fun h => (by cases h), fun h => absurd rfl h⟩
        simp only [Bool.false_eq_true, if_false]
        exact .cons ⟨rfl, by simp [hnot]⟩ h1

/-- Non-trivial case for C104: three files, the second without a result. -/
example : validateProgram true [("a.yaml", .ok sampleText), ("b.yaml", .ok [("name", .str "Art")]), ("c.yaml", .ok elseArea)] =
      ([("a.yaml", none), ("b.yaml", some .keyError)], 0) ∧
    validateProgram false [("a.yaml", .ok sampleText), ("b.yaml", .ok [("name", .str "Art")]), ("c.yaml", .ok elseArea)] =
      ([("a.yaml", none), ("b.yaml", some .keyError), ("c.yaml", none)], 0) := by
  refine ⟨?_, ?_⟩ <;> decide +kernel

/-- **C104**, refuted for the exit code: it is that of success though no file is valid, with `--break` too. -/
theorem C104_exit_code_refuted : ∃ files : List (String × Except Err Dict), files ≠ [] ∧ (∀ f ∈ files, ¬ Valid f.2) ∧
    ∀ breakOnErr, (validateProgram breakOnErr files).2 = 0 := by
  refine ⟨[("b.yaml", .ok [("name", .str "Art")])], by simp, ?_, fun _ => rfl⟩
  intro f hf
  simp only [List.mem_singleton] at hf
  subst hf
  rw [← validateFile_none]
  decide +kernel

end Dp
