import Verif.Props.Provenance
import Verif.Props.CountRule

/-
What the result of a rule looks like, as a relation between loaded rules and results: the base for properties of whole
results.
-/
namespace Dp

/-- `Becomes x o n r`: `r` is what an audit may make of the loaded rule `n`.  A rule that was not selected stays as it is;
of a count's children each result comes from one of its items (`f` tells which), and there is one for each item if the
items have different paths. -/
inductive Becomes (x : Ctx) (o : Orders) : Node → Node → Prop where
  | rule {n : Node} : Becomes x o n n
  | course {st : Stage} {d s r : CourseData} {t t' : ClaimTable} : s ∈ (courseSolutions x d).items →
      courseAudit x s t = .ok (r, t') → Becomes x o (.course st d) (.course .result r)
  | query {st : Stage} {d s r : QueryData} {t t' : ClaimTable} : s ∈ (querySolutions x o d).items →
      queryAudit x s t = .ok (r, t') → Becomes x o (.query st d) (.query .result r)
  | countWaived {st : Stage} {d : CountData} {items : List Node} : (getWaiveException x.exceptions d.path).isSome = true →
      Becomes x o (.count st d items) (.count .result { d with overridden := true } items)
  | count {st : Stage} {d : CountData} {items rs : List Node} {as : List AnyAssertion} (f : Node → Node) :
      (∀ r ∈ rs, f r ∈ items) → (∀ r ∈ rs, Becomes x o (f r) r) →
      ((∀ i ∈ items, CanonicalPath i.path) → (items.map Node.path).Nodup → (rs.map Node.path).Perm (items.map Node.path)) →
      auditAssertions x (matchedItems o rs) d.audits = .ok as →
      Becomes x o (.count st d items) (.count .result { d with overridden := false, audits := as } rs)
  | reqWaived {st : Stage} {d : ReqData} {c : Option Node} : (getWaiveException x.exceptions d.path).isSome = true →
      Becomes x o (.req st d c) (.req .result { d with overridden := true } c)
  | reqNone {st : Stage} {d : ReqData} : Becomes x o (.req st d none) (.req .result { d with overridden := false } none)
  | req {st : Stage} {d : ReqData} {n r : Node} : Becomes x o n r →
      Becomes x o (.req st d (some n)) (.req .result { d with overridden := false } (some r))
  | condTrue {st : Stage} {d : CondData} {n r : Node} {f : Option Node} : d.condition = some true → Becomes x o n r →
      Becomes x o (.cond st d n f) (.cond .result d r f)
  | condFalse {st : Stage} {d : CondData} {th n r : Node} : d.condition = some false → Becomes x o n r →
      Becomes x o (.cond st d th (some n)) (.cond .result d th (some r))
  | profWaived {st : Stage} {d : ProfData} {c : Option (Stage × CourseData)} :
      (getWaiveException x.exceptions d.path).isSome = true →
      Becomes x o (.prof st d c) (.prof .result { d with status := .waived, overridden := true } c)
  | profNone {st : Stage} {d : ProfData} {s : Status} : x.proficiencies.status d.proficiency false = .ok s →
      Becomes x o (.prof st d none) (.prof .result { d with status := s, overridden := false } none)
  | prof {st sg : Stage} {d : ProfData} {cd c r : CourseData} {s : Status} {rest : List CourseData} {t t' : ClaimTable} :
      x.proficiencies.status d.proficiency false = .ok s → (courseSolutions x cd).items = c :: rest →
      courseAudit x c t = .ok (r, t') →
      Becomes x o (.prof st d (some (sg, cd))) (.prof .result { d with status := s, overridden := false } (some (.result, r)))

/-- all results of a rule are outcomes -/
def AllOutcomes (x : Ctx) (o : Orders) (n : Node) : Prop := ∀ r, ResultOf x o n r → Becomes x o n r

theorem Node.auditList_paths {x : Ctx} {o : Orders} {l rs : List Node} {t t' : ClaimTable}
    (h : Node.auditList x o l t = .ok (rs, t')) : rs.map Node.path = l.map Node.path := by
  induction l generalizing t rs with
  | nil => cases h; rfl
  | cons n l ih =>
    simp only [Node.auditList] at h
    split at h
    · cases h
    rename_i r t1 hr
    split at h
    · cases h
    rename_i rs' t2 hrs
    obtain ⟨rfl, rfl⟩ := Prod.mk.inj (Except.ok.inj h)
    simp only [List.map_cons, Node.audit_path hr, ih hrs]

theorem waived_false {e : Option Exc} (h : ¬ e.isSome = true) : e.isSome = false := by simpa using h

theorem count_outcome {x : Ctx} {o : Orders} {st : Stage} {d d' : CountData} {items l : List Node} {t t' : ClaimTable} {r : Node}
    (hd : d' = { d with overridden := d'.overridden })
    (h : (Node.count .solution d' l).audit x o t = .ok (r, t'))
    (hov : d'.overridden = true → (getWaiveException x.exceptions d.path).isSome = true ∧ l = items)
    (hl : d'.overridden = false → ∀ n ∈ l, ∀ t1 t2 r', n.audit x o t1 = .ok (r', t2) → ∃ m ∈ items, Becomes x o m r')
    (hperm : d'.overridden = false → (∀ i ∈ items, CanonicalPath i.path) → (items.map Node.path).Nodup →
      (l.map Node.path).Perm (items.map Node.path)) :
    Becomes x o (.count st d items) r := by
  rcases Node.audit_count h with ⟨h1, rfl, _⟩ | ⟨h0, rs, as, hrs, has, rfl⟩
  · obtain ⟨h2, rfl⟩ := hov h1
    rw [hd, h1]
    exact .countWaived h2
  · have h0 : d'.overridden = false := by simpa using h0
    have key : ∀ r' : Node, ∃ m : Node, r' ∈ rs → m ∈ items ∧ Becomes x o m r' := by
      intro r'
      by_cases hr' : r' ∈ rs
      · obtain ⟨n, hn, t1, t2, ha⟩ := Node.auditList_mem hrs hr'
        obtain ⟨m, hm, hmo⟩ := hl h0 n hn t1 t2 r' ha
        exact ⟨m, fun _ => ⟨hm, hmo⟩⟩
      · exact ⟨r', fun h => absurd h hr'⟩
    choose f hf using key
    rw [hd, h0] at has ⊢
    refine .count f (fun r' hr' => (hf r' hr').1) (fun r' hr' => (hf r' hr').2) ?_ has
    rw [Node.auditList_paths hrs]
    exact hperm h0

theorem rule_outcome {x : Ctx} {o : Orders} {items : List Node} (hload : Node.LoadedList x items) {n : Node} (hn : n ∈ items)
    {t1 t2 : ClaimTable} {r' : Node} (ha : n.audit x o t1 = .ok (r', t2)) : ∃ m ∈ items, Becomes x o m r' := by
  have hl := Node.loadedList_iff.1 hload n hn
  rw [Node.audit_of_not_solution (by rw [Node.loaded_stage hl]; decide)] at ha
  obtain ⟨rfl, rfl⟩ := Prod.mk.inj (Except.ok.inj ha)
  exact ⟨n, hn, .rule⟩

theorem plainCount_outcome {x : Ctx} {o : Orders} (ho : o.Lawful) {st : Stage} {d : CountData} {items : List Node}
    (hload : Node.LoadedList x items) (ih : ∀ n ∈ items, AllOutcomes x o n)
    {s : Node} (hs : s ∈ (plainCountSolutions x d items (Node.solutionsList x o items)).items)
    {t t' : ClaimTable} {r : Node} (ha : s.audit x o t = .ok (r, t')) : Becomes x o (.count st d items) r := by
  have hs0 := hs
  unfold plainCountSolutions at hs
  split at hs
  · rename_i hw
    simp only [Gen.one, List.mem_singleton] at hs
    subst hs
    exact count_outcome rfl ha (fun _ => ⟨hw, rfl⟩) (fun h => by cases h) (fun h => by cases h)
  · rename_i hw
    split at hs
    · simp [Gen.raise] at hs
    · rename_i pot hpot
      split at hs
      · simp [Gen.raise] at hs
      · rename_i sorted hsorted
        obtain ⟨l, rfl, hl⟩ := countSolutions_items hs
        refine count_outcome rfl ha (fun h => by cases h) (fun _ n hn t1 t2 r' ha' => ?_) (fun _ hc hd => ?_)
        case refine_2 =>
          obtain ⟨l', he, hm⟩ := plainCount_accounts ho hc hd (waived_false hw) hs0
          cases he
          exact hm.once
        rcases hl n hn with ⟨p, hp, hi⟩ | hn' | hn'
        · have hp' := (mem_filterE hpot).1.subset ((sortByPath_perm hsorted).mem_iff.1 hp)
          obtain ⟨h1, h2⟩ := mem_solutionsList hp'
          rw [h2] at hi
          exact ⟨p.1, h1, ih p.1 h1 r' ⟨n, hi, t1, t2, ha'⟩⟩
        · exact rule_outcome hload hn' ha'
        · simp at hn'

mutual
theorem Node.outcomes (x : Ctx) (o : Orders) (ho : o.Lawful) : ∀ n : Node, n.Loaded x → AllOutcomes x o n
  | .course st d, _ => by
    rintro r ⟨s, hs, t, t', ha⟩
    simp only [Node.solutions] at hs
    obtain ⟨s', hs', rfl⟩ := Gen.mem_map.1 hs
    simp only [Node.audit] at ha
    split at ha
    · cases ha
    rename_i rd t2 hr
    obtain ⟨rfl, rfl⟩ := Prod.mk.inj (Except.ok.inj ha)
    exact .course hs' hr
  | .query st d, _ => by
    rintro r ⟨s, hs, t, t', ha⟩
    simp only [Node.solutions] at hs
    obtain ⟨s', hs', rfl⟩ := Gen.mem_map.1 hs
    simp only [Node.audit] at ha
    split at ha
    · cases ha
    rename_i rd t2 hr
    obtain ⟨rfl, rfl⟩ := Prod.mk.inj (Except.ok.inj ha)
    exact .query hs' hr
  | .count st d items, hl => by
    simp only [Node.Loaded] at hl
    rintro r ⟨s, hs, t, t', ha⟩
    simp only [Node.solutions] at hs
    exact plainCount_outcome ho hl.2.2 (Node.outcomesList x o ho items hl.2.2) hs ha
  | .req st d child, hl => by
    simp only [Node.Loaded] at hl
    rintro r ⟨s, hs, t, t', ha⟩
    simp only [Node.solutions] at hs
    split at hs
    · rename_i hw
      simp only [Gen.one, List.mem_singleton] at hs
      subst hs
      simp only [reqSolution, Node.audit, if_true] at ha
      obtain ⟨rfl, rfl⟩ := Prod.mk.inj (Except.ok.inj ha)
      exact .reqWaived hw
    · cases child with
      | none =>
        simp only [Node.solutionsOpt, Gen.one, List.mem_singleton] at hs
        subst hs
        simp only [reqSolution, Node.audit, Bool.false_eq_true, if_false, Node.auditOpt] at ha
        obtain ⟨rfl, rfl⟩ := Prod.mk.inj (Except.ok.inj ha)
        exact .reqNone
      | some n =>
        simp only [Node.solutionsOpt] at hs
        simp only [Node.LoadedOpt] at hl
        obtain ⟨s', hs', rfl⟩ := Gen.mem_map.1 hs
        simp only [reqSolution, Node.audit, Bool.false_eq_true, if_false, Node.auditOpt] at ha
        split at ha
        · cases ha
        · rename_i r' t2 hr'
          obtain ⟨rfl, rfl⟩ := Prod.mk.inj (Except.ok.inj ha)
          split at hr'
          · cases hr'
          · rename_i r'' t3 hr''
            obtain ⟨rfl, rfl⟩ := Prod.mk.inj (Except.ok.inj hr')
            exact .req (Node.outcomes x o ho n hl.2.2 r'' ⟨s', hs', _, _, hr''⟩)
  | .cond st d th f, hl => by
    simp only [Node.Loaded] at hl
    rintro r ⟨s, hs, t, t', ha⟩
    simp only [Node.solutions] at hs
    split at hs
    · rename_i hc
      obtain ⟨s', hs', rfl⟩ := Gen.mem_map.1 hs
      simp only [Node.audit, hc] at ha
      split at ha
      · cases ha
      · rename_i r' t2 hr'
        obtain ⟨rfl, rfl⟩ := Prod.mk.inj (Except.ok.inj ha)
        exact .condTrue hc (Node.outcomes x o ho th hl.2.2.1 r' ⟨s', hs', _, _, hr'⟩)
    · rename_i hc
      cases f with
      | none => simp [Node.solutionsOpt, Gen.nil] at hs
      | some n =>
        simp only [Node.LoadedOpt] at hl
        simp only [Node.solutionsOpt] at hs
        obtain ⟨s', hs', rfl⟩ := Gen.mem_map.1 hs
        simp only [Node.audit, hc, Node.auditOpt] at ha
        split at ha
        · cases ha
        · rename_i r' t2 hr'
          obtain ⟨rfl, rfl⟩ := Prod.mk.inj (Except.ok.inj ha)
          split at hr'
          · cases hr'
          · rename_i r'' t3 hr''
            obtain ⟨rfl, rfl⟩ := Prod.mk.inj (Except.ok.inj hr')
            exact .condFalse hc (Node.outcomes x o ho n hl.2.2.2 r'' ⟨s', hs', _, _, hr''⟩)
    · simp [Gen.nil] at hs
  | .prof st d c, hl => by
    rintro r ⟨s, hs, t, t', ha⟩
    simp only [Node.solutions, profSolutions] at hs
    split at hs
    · rename_i hw
      simp only [Gen.one, List.mem_singleton] at hs
      subst hs
      simp only [Node.audit, profAudit, if_true] at ha
      obtain ⟨rfl, rfl⟩ := Prod.mk.inj (Except.ok.inj ha)
      exact .profWaived hw
    · split at hs
      · simp only [Gen.one, List.mem_singleton] at hs
        subst hs
        simp only [Node.audit, profAudit, Bool.false_eq_true, if_false] at ha
        split at ha
        · cases ha
        · obtain ⟨rfl, rfl⟩ := Prod.mk.inj (Except.ok.inj ha)
          rename_i hst
          exact .profNone hst
      · split at hs
        · rename_i s0 rest hitems
          simp only [Gen.one, List.mem_singleton] at hs
          subst hs
          simp only [Node.audit, profAudit, Bool.false_eq_true, if_false] at ha
          split at ha
          · cases ha
          · rename_i hst
            split at ha
            · cases ha
            · rename_i cd' t2 hca
              obtain ⟨rfl, rfl⟩ := Prod.mk.inj (Except.ok.inj ha)
              exact .prof hst hitems hca
        · simp [Gen.raise] at hs
theorem Node.outcomesList (x : Ctx) (o : Orders) (ho : o.Lawful) : ∀ ns : List Node, Node.LoadedList x ns → ∀ n ∈ ns, AllOutcomes x o n
  | [], _ => by simp
  | n :: ns, hl => by
    simp only [Node.LoadedList] at hl
    intro n' hn'
    rcases List.mem_cons.1 hn' with he | hn'
    · rw [he]
      exact Node.outcomes x o ho n hl.1
    · exact Node.outcomesList x o ho ns hl.2 n' hn'
end

theorem topCount_outcome {x : Ctx} {o : Orders} (ho : o.Lawful) {es : List Exc} (hes : x.exceptions = groupExceptions es)
    {st : Stage} {d : CountData} {items : List Node}
    {t0 : ClaimTable} (hload : Node.LoadedList x items)
    {s : Node} (hs : s ∈ (topCountSolutions x o d items t0).1.items)
    {t t' : ClaimTable} {r : Node} (ha : s.audit x o t = .ok (r, t')) : Becomes x o (.count st d items) r := by
  have ih := Node.outcomesList x o ho items hload
  have hs0 := hs
  unfold topCountSolutions at hs
  split at hs
  · rename_i hw
    simp only [Gen.one, List.mem_singleton] at hs
    subst hs
    exact count_outcome rfl ha (fun _ => ⟨hw, rfl⟩) (fun h => by cases h) (fun h => by cases h)
  · rename_i hw
    split at hs
    · simp [Gen.raise] at hs
    · rename_i pot hpot
      split at hs
      · exact plainCount_outcome ho hload ih hs ha
      · split at hs
        · simp [Gen.raise] at hs
        · rename_i indep codep hind
          split at hs
          · simp [Gen.raise] at hs
          · rename_i solved t1 hsolved
            split at hs
            · simp [Gen.raise] at hs
            · rename_i results hresults
              dsimp only at hs
              split at hs
              · simp [Gen.raise] at hs
              · rename_i sorted hsorted
                obtain ⟨l, rfl, hl⟩ := countSolutions_items hs
                have hsub := (mem_filterE hpot).1
                obtain ⟨hi, hc⟩ := findIndependent_subset hind
                refine count_outcome rfl ha (fun h => by cases h) (fun _ n hn t1 t2 r' ha' => ?_) (fun _ hc hd => ?_)
                case refine_2 =>
                  obtain ⟨l', he, hm⟩ := C23_each_child_once_top x o ho es hes st d items (fun e he hp hk => hw
                    (by rw [hes]; exact (getWaive_isSome es d.path).2 ⟨e, he, hp, hk⟩)) hc hd t0 _ hs0
                  cases he
                  exact hm.once
                rcases hl n hn with ⟨p, hp, hin⟩ | hn' | hn'
                · obtain ⟨n', hn', rfl⟩ := List.mem_map.1 hp
                  have hm := hsub.subset (hc.subset ((sortByPath_perm hsorted).mem_iff.1 hn'))
                  exact ⟨n', hm, ih n' hm r' ⟨n, hin, t1, t2, ha'⟩⟩
                · exact rule_outcome hload (List.mem_of_mem_filter hn') ha'
                · have hn'' := (sortByPath_perm hresults).mem_iff.1 hn'
                  obtain ⟨p, hp, hpr⟩ := List.mem_filterMap.1 hn''
                  obtain ⟨h1, h2⟩ := solveIndependent_mem hsolved
                  obtain ⟨s', hs', t3, hs''⟩ := h2 p hp n hpr
                  have hstage := Node.audit_stage (Node.solutions_stage hs') hs''
                  rw [Node.audit_of_not_solution (by rw [hstage]; decide)] at ha'
                  obtain ⟨rfl, rfl⟩ := Prod.mk.inj (Except.ok.inj ha')
                  have hp1 : p.1 ∈ o.children indep := by
                    rw [← h1]
                    exact List.mem_map_of_mem hp
                  have hp1' := hsub.subset (hi.subset ((ho.2.2 indep).mem_iff.1 hp1))
                  exact ⟨p.1, hp1', ih p.1 hp1' _ ⟨s', hs', _, _, hs''⟩⟩

/-- the result of a rule has its path -/
theorem Becomes.path_eq {x : Ctx} {o : Orders} (ho : o.Lawful) {n r : Node} (h : Becomes x o n r) : r.path = n.path := by
  cases h with
  | rule => rfl
  | course hs ha => exact (courseAudit_fields ha).1.trans (courseSolutions_path hs)
  | @query st d s r t t' hs ha =>
    have h1 : (Node.query .result r).path = (Node.query .solution s).path :=
      Node.audit_path (x := x) (o := o) (t := t) (t' := t') (by simp only [Node.audit, ha])
    rw [h1]
    exact Node.solutions_path (x := x) ho (by simp only [Node.solutions]; exact Gen.mem_map.2 ⟨s, hs, rfl⟩)
  | _ => rfl

mutual
/-- the same for the solutions of the topmost rule -/
theorem Node.topOutcomes (x : Ctx) (o : Orders) (ho : o.Lawful) (es : List Exc) (hes : x.exceptions = groupExceptions es) : ∀ n : Node, n.Loaded x → ∀ t0 : ClaimTable,
    ∀ s ∈ (n.topSolutions x o t0).1.items, ∀ t t' r, s.audit x o t = .ok (r, t') → Becomes x o n r
  | .course s d, hl => by
    intro t0 s hs t t' r ha
    simp only [Node.topSolutions] at hs
    exact Node.outcomes x o ho _ hl r ⟨s, hs, t, t', ha⟩
  | .query s d, hl => by
    intro t0 s hs t t' r ha
    simp only [Node.topSolutions] at hs
    exact Node.outcomes x o ho _ hl r ⟨s, hs, t, t', ha⟩
  | .req s d c, hl => by
    intro t0 s hs t t' r ha
    simp only [Node.topSolutions] at hs
    exact Node.outcomes x o ho _ hl r ⟨s, hs, t, t', ha⟩
  | .prof s d c, hl => by
    intro t0 s hs t t' r ha
    simp only [Node.topSolutions] at hs
    exact Node.outcomes x o ho _ hl r ⟨s, hs, t, t', ha⟩
  | .count s d items, hl => by
    intro t0 s hs t t' r ha
    simp only [Node.Loaded] at hl
    simp only [Node.topSolutions] at hs
    exact topCount_outcome ho hes hl.2.2 hs ha
  | .cond s d th f, hl => by
    intro t0 s hs t t' r ha
    simp only [Node.Loaded] at hl
    simp only [Node.topSolutions] at hs
    split at hs
    · rename_i hc
      obtain ⟨s', hs', rfl⟩ := Gen.mem_map.1 hs
      simp only [Node.audit, hc] at ha
      split at ha
      · cases ha
      · rename_i r' t2 hr'
        obtain ⟨rfl, rfl⟩ := Prod.mk.inj (Except.ok.inj ha)
        exact .condTrue hc (Node.topOutcomes x o ho es hes th hl.2.2.1 t0 s' hs' _ _ _ hr')
    · rename_i hc
      cases f with
      | none => simp [Node.topSolutionsOpt, Gen.nil] at hs
      | some n =>
        simp only [Node.LoadedOpt] at hl
        simp only [Node.topSolutionsOpt] at hs
        obtain ⟨s', hs', rfl⟩ := Gen.mem_map.1 hs
        simp only [Node.audit, hc, Node.auditOpt] at ha
        split at ha
        · cases ha
        · rename_i r' t2 hr'
          obtain ⟨rfl, rfl⟩ := Prod.mk.inj (Except.ok.inj ha)
          split at hr'
          · cases hr'
          · rename_i r'' t3 hr''
            obtain ⟨rfl, rfl⟩ := Prod.mk.inj (Except.ok.inj hr')
            exact .condFalse hc (Node.topOutcomes x o ho es hes n hl.2.2.2 t0 s' hs' _ _ _ hr'')
    · simp [Gen.nil] at hs
end

/-- The result of an area is an outcome of its rule; in a major the results of the common rules are added to it. -/
theorem area_outcome {o : Orders} (ho : o.Lawful) {a : Area} {st : Student} {es : List Exc}
    (hl : a.result.Loaded { exceptions := groupExceptions es })
    (hcl : Node.LoadedList { exceptions := groupExceptions es } a.commonRules)
    {s : AreaSolution} (hs : s ∈ (a.solutions o st es).items) {r : AreaResult} (ha : s.audit o a = .ok r) :
    ∃ tr ∈ (limitedTranscripts (o.limit []) a.limit st.courses (forcedClbids es)).items,
      s.ctx = areaCtx a st es tr ∧ r.ctx = s.ctx ∧ r.kind = a.kind ∧ ∃ r0, Becomes (areaCtx a st es tr) o a.result r0 ∧
      ((a.kind ≠ "major" ∧ r.result = r0) ∨
       (a.kind = "major" ∧ ∃ d items name citems, r0 = .count .result d items ∧
          r.result = .count .result { d with count := d.count + 1 } (items ++
            [.req .result { path := ["$", "%Common Requirements"], name := name, inGpa := false }
              (some (.count .result { path := ["$", "%Common Requirements", ".count"], count := citems.length } citems))]) ∧
          ∀ c ∈ citems, ∃ rule ∈ a.commonRules, ∃ x, CommonCtx es x ∧ Becomes x o rule c)) := by
  obtain ⟨tr, htr, t0, hctx, hsol⟩ := Area.solutions_mem hs
  refine ⟨tr, htr, hctx, ?_⟩
  unfold AreaSolution.audit at ha
  split at ha
  · cases ha
  rename_i r0 t1 hr0
  rw [hctx] at hr0
  have hmain : Becomes (areaCtx a st es tr) o a.result r0 :=
    Node.topOutcomes (areaCtx a st es tr) o ho es rfl a.result
      (Node.loaded_congr (x := { exceptions := groupExceptions es }) (y := areaCtx a st es tr) rfl _ hl) t0 _ hsol _ _ _ hr0
  split at ha
  · rename_i hk
    split at ha
    · cases ha
    rename_i common hcommon
    split at ha
    · rename_i d items
      cases ha
      refine ⟨rfl, rfl, _, hmain, .inr ⟨hk, d, items, ?_⟩⟩
      rw [hctx] at hcommon
      unfold auditCommon at hcommon
      split at hcommon
      · cases hcommon
      split at hcommon
      · cases hcommon
      rename_i ins hins
      dsimp only at hcommon
      split at hcommon
      · cases hcommon
      rename_i citems hcitems
      cases hcommon
      refine ⟨_, citems, rfl, rfl, ?_⟩
      intro c hc
      obtain ⟨rule, hrule, x, hx, t, hb⟩ := commonItems_mem hcitems hc
      have hcc : CommonCtx es x := by
        rcases hx with rfl | rfl
        · refine ⟨rfl, ?_⟩
          intro e he
          simp only [List.mem_map, List.mem_reverse] at he
          obtain ⟨c, _, rfl⟩ := he
          rfl
        · exact ⟨rfl, by intro e he; simp at he⟩
      obtain ⟨s', hs', t2, hs''⟩ := findBest_mem hb
      have hlr := Node.loadedList_iff.1 hcl rule hrule
      exact ⟨rule, hrule, x, hcc, Node.outcomes x o ho rule (Node.loaded_congr hcc.exceptions.symm _ hlr) c ⟨s', hs', _, _, hs''⟩⟩
    · cases ha
  · rename_i hk
    cases ha
    exact ⟨rfl, rfl, r0, hmain, .inl ⟨hk, rfl⟩⟩

end Dp
