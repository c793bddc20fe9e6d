import Verif.Props.LoadBasic

/-
Reading the loading of assertions, course rules and query rules backwards.
-/
namespace Dp

/-! ### Helper lemmas -/

theorem loadSingle_inv {x : Ctx} {c : Constants} {t : DataType} {p : Path} {y : Y} {a : Assertion}
    (h : loadSingle x c t p y = .ok a) :
    ∃ (data : Dict) (key : String) (d : Dict) (op : Operator) (raw : Y) (changes : List Y) (written changed : Rat) (w : Option Pred) (atMost treat : Bool), y = .map data ∧
      data.get? "assert" = some (.map [(key, .map d)]) ∧ key ∈ actionKeys t ∧
      theOperator d = .ok (op, raw) ∧ op ≠ .in' ∧ op ≠ .nin ∧ d.has "$ifs" = false ∧ changesOf d = .ok changes ∧
      loadExpected c raw = .ok written ∧ applyChanges x written changes = .ok changed ∧
      loadOptFilter x c t (data.opt "where") = .ok w ∧ d.flag "at_most" false = .ok atMost ∧
      d.flag "treat_in_progress_as_pass" false = .ok treat ∧ onlyKeys comparisonKeys d = true ∧
      a = { path := p ++ [".assert"],
            state := if (getWaiveException x.exceptions (p ++ [".assert"])).isSome then .waived else .empty,
            dataType := t, where' := w, key := key, op := op,
            expected := overrideValue x.exceptions (p ++ [".assert"]) changed, atMost := atMost,
            treatInProgressAsPass := treat,
            overridden := (getWaiveException x.exceptions (p ++ [".assert"])).isSome } := by
  unfold loadSingle at h
  simp only [ld_bind_ok, ld_asDict, ld_need] at h
  obtain ⟨data, rfl, h⟩ := h
  obtain ⟨w, hw, _, _, _, _, yb, hyb, body, rfl, h⟩ := h
  split at h
  · rename_i key value
    simp only [ld_bind_ok, ld_asDict, ld_check_ok] at h
    obtain ⟨_, h1, d, rfl, ⟨op, raw⟩, h2, _, h3, _, h4, changes, h5, written, h6, changed, h7, atMost, h8, treat, h9, _, h10, h⟩ := h
    cases h
    exact ⟨data, key, d, op, raw, changes, written, changed, w, atMost, treat, rfl, hyb, by simpa using h1, h2,
      by simpa using (of_decide_eq_true h3).1, by simpa using (of_decide_eq_true h3).2, by simpa using h4, h5, h6, h7, hw, h8, h9,
      h10, rfl⟩
  · cases h

/-- what an assertion that is not a `$when` is made of -/
inductive AssertionParts (x : Ctx) (c : Constants) (t : DataType) (p : Path) : Y → AnyAssertion → Prop
  | single {y a} : loadSingle x c t p y = .ok a → AssertionParts x c t p y (.single a)
  | cond {data : Dict} {yif b yt a f} : data.get? "$if" = some yif → loadCond x yif = .ok b → data.get? "$then" = some yt →
      loadSingle x c t (p ++ ["/t"]) yt = .ok a →
      (∀ f', f = some f' → ∃ yf, data.opt "$else" = some yf ∧ loadSingle x c t (p ++ ["/f"]) yf = .ok f') →
      (f = none → data.opt "$else" = none) →
      AssertionParts x c t p (.map data) (.cond (some b) a f)
  | dyn {data : Dict} {yw cd yt a} : t = .course → data.get? "$when" = some yw → loadDyn yw = .ok cd → data.get? "$then" = some yt →
      loadSingle x c t (p ++ ["/t"]) yt = .ok a → AssertionParts x c t p (.map data) (.dyn cd none a)

theorem loadAssertion_inv {x : Ctx} {c : Constants} {t : DataType} {p : Path} {y : Y} {a : AnyAssertion}
    (h : loadAssertion x c t p y = .ok a) : AssertionParts x c t p y a := by
  unfold loadAssertion at h
  simp only [ld_bind_ok, ld_asDict] at h
  obtain ⟨data, rfl, h⟩ := h
  split at h
  · simp only [ld_bind_ok, ld_need] at h
    obtain ⟨yif, h1, b, h2, yt, h3, a', h4, h⟩ := h
    obtain ⟨f, hf, h⟩ := h
    cases h
    split at hf
    · rename_i ho
      cases hf
      exact .cond h1 h2 h3 h4 (by simp) (fun _ => ho)
    · rename_i yf ho
      rw [ld_map_ok] at hf
      obtain ⟨f', hf, rfl⟩ := hf
      refine .cond h1 h2 h3 h4 ?_ (by simp)
      intro f'' he
      cases he
      exact ⟨yf, ho, hf⟩
  · simp only [ld_bind_ok] at h
    obtain ⟨a', h1, h⟩ := h
    cases h
    exact .single h1

theorem loadAnyAssertion_inv {x : Ctx} {c : Constants} {t : DataType} {p : Path} {y : Y} {a : AnyAssertion}
    (h : loadAnyAssertion x c t p y = .ok a) : AssertionParts x c t p y a := by
  unfold loadAnyAssertion at h
  simp only [ld_bind_ok, ld_asDict] at h
  obtain ⟨data, rfl, h⟩ := h
  split at h
  · simp only [ld_bind_ok, ld_need, ld_check_ok] at h
    obtain ⟨_, h0, yw, h1, cd, h2, yt, h3, a', h4, h⟩ := h
    cases h
    exact .dyn (by simpa using h0) h1 h2 h3 h4
  · exact loadAssertion_inv h

theorem loadQuery_inv {env : Env} {d : Dict} {p : Path} {q : QueryData} (h : loadQuery env d p = .ok q) :
    ∃ src w lim as allow failed, d.get? "from" = some (.str src) ∧ parseSource src = some q.source ∧
      loadOptFilter env.ctx env.c q.source.dataType (d.opt "where") = .ok w ∧
      loadLimits env.ctx env.c (d.opt "limit") = .ok lim ∧ d.has "limits" = false ∧
      loadQueryAssertions env q.source.dataType (p ++ [".query"]) d = .ok as ∧ as ≠ [] ∧
      (d.has "assert" && d.has "all") = false ∧ onlyKeys queryKeys d = true ∧
      d.flag "allow_claimed" false = .ok allow ∧ d.flag "include_failed" false = .ok failed ∧
      q = { path := p ++ [".query"], source := q.source, dataType := q.source.dataType, assertions := as, limit := lim,
            where' := w, allowClaimed := allow || q.source = .claimed, attemptClaims := (claimMode d).1,
            recordClaims := (claimMode d).2, includeFailed := failed,
            overridden := (getWaiveException env.ctx.exceptions (p ++ [".query"])).isSome } := by
  unfold loadQuery at h
  simp only [ld_bind_ok, ld_need, ld_asText, ld_check_ok] at h
  obtain ⟨_, h1, src, rfl, source, h2, h⟩ := h
  have hsrc : parseSource src = some source := by
    split at h2
    · cases h2; assumption
    · cases h2
  obtain ⟨w, hw, lim, h3, _, h4, as, h5, _, h6, _, h7, _, h8, allow, h9, failed, h10, h⟩ := h
  cases h
  exact ⟨src, w, lim, as, allow, failed, h1, hsrc, hw, h3, by simpa using h4, h5,
    by simpa using h6, by simpa only [Bool.not_eq_true'] using h7, h8, h9, h10, rfl⟩

theorem loadQueryAssertions_inv {env : Env} {t : DataType} {p : Path} {d : Dict} {as : List AnyAssertion}
    (h : loadQueryAssertions env t p d = .ok as) (i : Nat) (a : AnyAssertion) (hi : as[i]? = some a) :
    ∃ y, AssertionParts env.ctx env.c t (p ++ [".assertions", indexSeg i]) y a := by
  unfold loadQueryAssertions at h
  split at h
  · simp only [ld_bind_ok] at h
    obtain ⟨r, hr, h⟩ := h
    cases h
    cases i with
    | zero => simp at hi; subst hi; exact ⟨_, loadAnyAssertion_inv hr⟩
    | succ i => simp at hi
  · simp only [ld_bind_ok] at h
    obtain ⟨l, _, h⟩ := h
    obtain ⟨y, _, h2⟩ := (ld_mapIdxE h).2 i a hi
    rw [Nat.zero_add] at h2
    exact ⟨y, loadAnyAssertion_inv h2⟩

theorem loadAudits_inv {env : Env} {p : Path} {d : Dict} {as : List AnyAssertion}
    (h : loadAudits env p d = .ok as) (i : Nat) (a : AnyAssertion) (hi : as[i]? = some a) :
    ∃ y, AssertionParts env.ctx env.c .course (p ++ [".audit", indexSeg i]) y a := by
  unfold loadAudits at h
  split at h
  · cases h; simp at hi
  · simp only [ld_bind_ok] at h
    obtain ⟨_, _, h⟩ := h
    split at h
    · simp only [ld_bind_ok] at h
      obtain ⟨l, _, h⟩ := h
      obtain ⟨y, _, h2⟩ := (ld_mapIdxE h).2 i a hi
      rw [Nat.zero_add] at h2
      exact ⟨y, loadAssertion_inv h2⟩
    · simp only [ld_bind_ok] at h
      obtain ⟨r, hr, h⟩ := h
      cases h
      cases i with
      | zero => simp at hi; subst hi; exact ⟨_, loadAssertion_inv hr⟩
      | succ i => simp at hi

theorem loadCourse_inv {d : Dict} {p : Path} {r : CourseData} (h : loadCourseRule d p = .ok r) :
    ∃ label rest minGrade gradeOption year term fromClaimed allow, courseLabel r.course r.ap r.name r.clbid r.crsid = .ok label ∧
      r.path = p ++ [label ++ rest] ∧ onlyKeys courseRuleKeys d = true ∧
      (given r.course || given r.ap || (given r.institution && given r.name) || given r.clbid || given r.crsid) = true ∧
      d.text "course" = .ok r.course ∧ d.text "ap" = .ok r.ap ∧ d.text "name" = .ok r.name ∧
      d.text "clbid" = .ok r.clbid ∧ d.text "crsid" = .ok r.crsid ∧ d.text "institution" = .ok r.institution ∧
      d.text "section" = .ok r.section' ∧ d.text "sub_type" = .ok r.subType ∧
      d.text "grade" = .ok minGrade ∧ loadMinGrade minGrade = .ok r.grade ∧
      d.text "grade_option" = .ok gradeOption ∧ loadGradeOption gradeOption = .ok r.gradeOption ∧
      d.number "year" = .ok year ∧ d.text "term" = .ok term ∧ yearAndTerm year term = .ok r.yearTerm ∧
      d.flag "inserted" false = .ok r.inserted ∧ d.flag "optional" false = .ok r.optional ∧
      d.flag "from_claimed" false = .ok fromClaimed ∧ d.flag "allow_claimed" false = .ok allow ∧
      r.fromClaimed = fromClaimed ∧ r.allowClaimed = (fromClaimed || allow) ∧
      d.flag "auto_waived" false = .ok r.autoWaived ∧
      r.claim = none ∧ r.matched = none ∧ r.forced = false ∧ r.overridden = false ∧ r.excluded = [] := by
  unfold loadCourseRule at h
  simp only [ld_bind_ok, ld_check_ok] at h
  obtain ⟨course, h1, ap, h2, name, h3, institution, h4, minGrade, h5, gradeOption, h6, clbid, h7, crsid, h8, inserted, h9, aw, h10,
    sect, h11, sub, h12, year, h13, term, h14, label, h15, yt, h16, fc, h17, ac, h18, opt, h19, _, h20, _, h21, grade, h22,
    option, h23, h⟩ := h
  cases h
  exact ⟨label, _, minGrade, gradeOption, year, term, fc, ac, h15, by simp only [String.append_assoc]; rfl, h20, h21, h1, h2, h3, h7, h8, h4, h11, h12, h5, h22, h6, h23,
    h13, h14, h16, h9, h19, h17, h18, rfl, rfl, h10, rfl, rfl, rfl, rfl, rfl⟩

end Dp
