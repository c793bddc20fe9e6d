import Verif.Props.JsonPaths
import Verif.Props.PrintTotal
import Verif.Props.MeansFoundLimits

/-
The row that the server stores for a student's file and an area file (C95).
-/
namespace Dp

/-! ### Specification -/

/-- no rule of the area file that asks for a number of items says `at_most: true` -/
def NoAtMost (d : Dict) : Prop :=
  d.get? "at_most" = some (.bool true) → ∀ k ∈ ["count", "all", "any", "both", "either"], d.get? k = none

/-! ### The document can be made -/

/-- not a count with `at_most` -/
def NoMostAt : Node → Prop
  | .count _ d _ => d.atMost = false
  | _ => True

theorem noMost_rank {n : Node} (h : ∀ m ∈ n.within, NoMostAt m) : ∃ q, n.rank = .ok q := by
  refine n.rank_ok (fun k hk hn => ?_)
  have key : ∀ {n k : Node}, Within k n → NoRank k → k ∈ n.within := by
    intro n k hk hn
    induction hk with
    | here => exact Node.self_within _
    | count hi _ ih => simp only [Node.within, List.mem_cons, Node.mem_withinList]; exact .inr ⟨_, hi, ih hn⟩
    | req _ ih => simp only [Node.within, List.mem_cons, Node.withinOpt]; exact .inr (ih hn)
    | thenBranch _ ih => simp only [Node.within, List.mem_cons, List.mem_append]; exact .inr (.inl (ih hn))
    | elseBranch _ ih => simp only [Node.within, List.mem_cons, List.mem_append, Node.withinOpt]; exact .inr (.inr (ih hn))
  have := h k (key hk hn)
  cases k <;> simp only [NoRank] at hn
  rw [show _ = false from this] at hn
  simp at hn

mutual
theorem Node.toJson_ok (W : Writes) : ∀ n : Node, (∀ m ∈ n.within, NoMostAt m) → ∃ j, n.toJson W = .ok j
  | .course _ _, _ => ⟨_, rfl⟩
  | .query _ _, _ => ⟨_, rfl⟩
  | .prof _ _ _, _ => ⟨_, rfl⟩
  | .count s d items, h => by
    obtain ⟨q, hq⟩ := noMost_rank h
    obtain ⟨js, hjs⟩ := Node.toJson_okList W items (fun m hm => h m (by simp [Node.within, hm]))
    exact ⟨_, by rw [Node.toJson, hq]; dsimp only; rw [hjs]⟩
  | .req s d r, h => by
    obtain ⟨q, hq⟩ := noMost_rank h
    obtain ⟨js, hjs⟩ := Node.toJson_okOpt W r (fun m hm => h m (by simp [Node.within, hm]))
    exact ⟨_, by rw [Node.toJson, hq]; dsimp only; rw [hjs]⟩
  | .cond s d t f, h => by
    obtain ⟨q, hq⟩ := noMost_rank h
    obtain ⟨jt, hjt⟩ := Node.toJson_ok W t (fun m hm => h m (by simp [Node.within, hm]))
    obtain ⟨jf, hjf⟩ := Node.toJson_okOpt W f (fun m hm => h m (by simp [Node.within, hm]))
    exact ⟨_, by rw [Node.toJson, hq]; dsimp only; rw [hjt]; dsimp only; rw [hjf]⟩
theorem Node.toJson_okList (W : Writes) : ∀ ns : List Node, (∀ m ∈ Node.withinList ns, NoMostAt m) →
    ∃ js, Node.toJsonList W ns = .ok js
  | [], _ => ⟨_, rfl⟩
  | n :: ns, h => by
    obtain ⟨j, hj⟩ := Node.toJson_ok W n (fun m hm => h m (by simp [Node.withinList, hm]))
    obtain ⟨js, hjs⟩ := Node.toJson_okList W ns (fun m hm => h m (by simp [Node.withinList, hm]))
    exact ⟨_, by rw [Node.toJsonList, hj]; dsimp only; rw [hjs]⟩
theorem Node.toJson_okOpt (W : Writes) : ∀ n : Option Node, (∀ m ∈ Node.withinOpt n, NoMostAt m) →
    ∃ j, Node.toJsonOpt W n = .ok j
  | none, _ => ⟨_, rfl⟩
  | some n, h => Node.toJson_ok W n h
end

mutual
theorem Node.becomes_noMost {x : Ctx} {o : Orders} : ∀ n : Node, (∀ m ∈ n.within, NoMostAt m) → ∀ r,
    Becomes x o n r → ∀ m ∈ r.within, NoMostAt m
  | .course st d, ha, r, h => by
    cases h with
    | rule => exact ha
    | course hs h' =>
      intro m hm
      simp only [Node.within, List.mem_singleton] at hm
      subst hm
      trivial
  | .query st d, ha, r, h => by
    cases h with
    | rule => exact ha
    | query hs h' =>
      intro m hm
      simp only [Node.within, List.mem_singleton] at hm
      subst hm
      trivial
  | .prof st d c, ha, r, h => by
    have key : ∀ (s : Stage) (d : ProfData) (c : Option (Stage × CourseData)), ∀ m ∈ (Node.prof s d c).within, NoMostAt m := by
      intro s d c m hm
      simp only [Node.within, List.mem_cons, List.mem_map] at hm
      rcases hm with rfl | ⟨q, _, rfl⟩ <;> trivial
    cases h <;> exact key _ _ _
  | .count st d items, ha, r, h => by
    have ih := Node.becomes_noMostList (x := x) (o := o) items (fun m hm => ha m (by simp [Node.within, hm]))
    have h0 : d.atMost = false := ha _ (Node.self_within _)
    cases h with
    | rule => exact ha
    | countWaived =>
      intro m hm
      simp only [Node.within, List.mem_cons] at hm
      rcases hm with rfl | hm
      · exact h0
      · exact ha m (by simp [Node.within, hm])
    | @count _ _ _ rs as f h1 h2 hperm has =>
      intro m hm
      simp only [Node.within, List.mem_cons, Node.mem_withinList] at hm
      rcases hm with rfl | ⟨r, hr, hm⟩
      · exact h0
      · exact ih _ (h1 r hr) r (h2 r hr) m hm
  | .req st d c, ha, r, h => by
    have ih := Node.becomes_noMostOpt (x := x) (o := o) c (fun m hm => ha m (by simp [Node.within, hm]))
    cases h with
    | rule => exact ha
    | reqWaived =>
      intro m hm
      simp only [Node.within, List.mem_cons] at hm
      rcases hm with rfl | hm
      · trivial
      · exact ha m (by simp [Node.within, hm])
    | reqNone =>
      intro m hm
      simp only [Node.within, Node.withinOpt, List.mem_cons, List.not_mem_nil, or_false] at hm
      subst hm
      trivial
    | req h =>
      intro m hm
      simp only [Node.within, Node.withinOpt, List.mem_cons] at hm
      rcases hm with rfl | hm
      · trivial
      · exact ih _ rfl _ h m hm
  | .cond st d t f, ha, r, h => by
    have iht := Node.becomes_noMost (x := x) (o := o) t (fun m hm => ha m (by simp [Node.within, hm]))
    have ihf := Node.becomes_noMostOpt (x := x) (o := o) f (fun m hm => ha m (by simp [Node.within, hm]))
    cases h with
    | rule => exact ha
    | condTrue _ hb =>
      intro m hm
      simp only [Node.within, List.mem_cons, List.mem_append] at hm
      rcases hm with rfl | hm | hm
      · trivial
      · exact iht _ hb m hm
      · exact ha m (by simp [Node.within, hm])
    | condFalse _ hb =>
      intro m hm
      simp only [Node.within, List.mem_cons, List.mem_append] at hm
      rcases hm with rfl | hm | hm
      · trivial
      · exact ha m (by simp [Node.within, hm])
      · exact ihf _ rfl _ hb m hm
theorem Node.becomes_noMostList {x : Ctx} {o : Orders} : ∀ ns : List Node, (∀ m ∈ Node.withinList ns, NoMostAt m) →
    ∀ n ∈ ns, ∀ r, Becomes x o n r → ∀ m ∈ r.within, NoMostAt m
  | [], _ => by simp
  | n :: ns, ha => by
    have h1 := Node.becomes_noMost (x := x) (o := o) n (fun m hm => ha m (by simp [Node.withinList, hm]))
    have h2 := Node.becomes_noMostList (x := x) (o := o) ns (fun m hm => ha m (by simp [Node.withinList, hm]))
    intro i hi
    rcases List.mem_cons.1 hi with rfl | hi
    · exact h1
    · exact h2 i hi
theorem Node.becomes_noMostOpt {x : Ctx} {o : Orders} : ∀ c : Option Node, (∀ m ∈ Node.withinOpt c, NoMostAt m) →
    ∀ n, c = some n → ∀ r, Becomes x o n r → ∀ m ∈ r.within, NoMostAt m
  | none, _ => by simp
  | some n, ha => by
    have h1 := Node.becomes_noMost (x := x) (o := o) n ha
    rintro _ h
    cases h
    exact h1
end

theorem noAtMost_flat : FlatOk NoAtMost := by
  intro d hd h
  have hk : d.get? "at_most" = none := by
    cases h : d.get? "at_most" with
    | none => rfl
    | some y => exact absurd (hd _ _ (get_mem h)).1 (by decide)
  rw [hk] at h
  cases h

theorem readFrom_noMost {env : Env} {d : Dict} {m : Node} (hd : NoAtMost d) (h : ReadFrom env d m) : NoMostAt m := by
  cases m with
  | count s c items =>
    obtain ⟨h1, h2, h3⟩ := h
    show c.atMost = false
    cases hat : c.atMost with
    | false => rfl
    | true =>
      exfalso
      rw [hat] at h2
      have h4 : d.get? "at_most" = some (.bool true) := by
        unfold Dict.flag at h2
        split at h2
        · cases h2
        · rename_i heq; cases h2; exact heq
        · cases h2
      have h5 := hd h4
      have h6 : isCount d = false := by
        have hn : ∀ {k : String}, d.get? k = none → d.has k = false := by
          intro k hk
          simp [Dict.has, hk]
        unfold isCount
        rw [hn (h5 "count" (by simp)), hn (h5 "all" (by simp)), hn (h5 "any" (by simp)), hn (h5 "both" (by simp)),
          hn (h5 "either" (by simp))]
        rfl
      unfold ruleKind at h3
      rw [h6] at h3
      repeat' split at h3
      all_goals contradiction
  | _ => trivial

mutual
theorem Node.prep_noMost (ks : List String) (es : List Exc) : ∀ n : Node, (∀ m ∈ n.within, NoMostAt m) →
    ∀ m ∈ (prep ks es n).within, NoMostAt m
  | .course s d, h => by
    obtain ⟨l, he, _⟩ := applyBlocks_course es s d
    unfold prep
    rw [Node.exclude, he]
    intro m hm
    rw [Node.within, List.mem_singleton] at hm
    subst hm
    trivial
  | .query s d, h => by
    obtain ⟨l, he, _⟩ := applyBlocks_query es s { d with excluded := d.excluded ++ ks }
    unfold prep
    rw [Node.exclude, he]
    intro m hm
    rw [Node.within, List.mem_singleton] at hm
    subst hm
    trivial
  | .count s d items, h => by
    rw [prep_count]
    intro m hm
    rw [Node.within, List.mem_cons] at hm
    rcases hm with rfl | hm
    · exact (h _ (Node.self_within _) : NoMostAt (.count s d items))
    · exact Node.prep_noMostList ks es items (fun m hm => h m (by simp [Node.within, hm])) m hm
  | .req s d r, h => by
    rw [prep_req]
    intro m hm
    rw [Node.within, List.mem_cons] at hm
    rcases hm with rfl | hm
    · trivial
    · exact Node.prep_noMostOpt ks es r (fun m hm => h m (by simp [Node.within, hm])) m hm
  | .cond s d t f, h => by
    rw [prep_cond]
    intro m hm
    rw [Node.within, List.mem_cons, List.mem_append] at hm
    rcases hm with rfl | hm | hm
    · trivial
    · exact Node.prep_noMost ks es t (fun m hm => h m (by simp [Node.within, hm])) m hm
    · exact Node.prep_noMostOpt ks es f (fun m hm => h m (by simp [Node.within, hm])) m hm
  | .prof s d c, h => by
    rw [prep_prof]
    exact h
theorem Node.prep_noMostList (ks : List String) (es : List Exc) : ∀ ns : List Node,
    (∀ m ∈ Node.withinList ns, NoMostAt m) → ∀ m ∈ Node.withinList (ns.map (prep ks es)), NoMostAt m
  | [], _ => by simp [Node.withinList]
  | n :: ns, h => by
    intro m hm
    rw [List.map_cons, Node.withinList, List.mem_append] at hm
    rcases hm with hm | hm
    · exact Node.prep_noMost ks es n (fun m hm => h m (by simp [Node.withinList, hm])) m hm
    · exact Node.prep_noMostList ks es ns (fun m hm => h m (by simp [Node.withinList, hm])) m hm
theorem Node.prep_noMostOpt (ks : List String) (es : List Exc) : ∀ r : Option Node,
    (∀ m ∈ Node.withinOpt r, NoMostAt m) → ∀ m ∈ Node.withinOpt (r.map (prep ks es)), NoMostAt m
  | none, _ => by simp [Node.withinOpt]
  | some n, h => Node.prep_noMost ks es n h
end

theorem loadArea_noMost {c : Constants} {templates : List (String × TemplateCourse)} {st : Student} {es : List Exc}
    {all : Bool} {spec : Dict} {a : Area} (hload : loadArea c templates st es all spec = .ok a)
    (hp : ∀ d, Occurs d (.map spec) → NoAtMost d) :
    (∀ m ∈ a.result.within, NoMostAt m) ∧ ∀ n ∈ a.commonRules, ∀ m ∈ n.within, NoMostAt m := by
  obtain ⟨emphases, declared, children, data, rule, code, dept, h1, h2, h3, h4, hb, hres, ⟨degree, _, hcom⟩, _⟩ :=
    loadArea_inv hload
  have hprep : a.result = prep ((rule.requiredCourses (loadCtx st es)).map (·.clbid)) es rule := hres
  have hp' : Throughout NoAtMost (.map spec) := hp
  refine ⟨?_, ?_⟩
  · rw [hprep]
    refine Node.prep_noMost _ es rule ?_
    intro m hm
    obtain ⟨d, hd, hr⟩ := hb.each noAtMost_flat (hp'.get h4) (each_dict hp' h3) (fun e he => by
      unfold declaredEmphases at h2
      obtain ⟨p, hp, hd⟩ := ld_mapE_mem h2 e he
      rw [ld_asDict] at hd
      have := each_dict hp' h1 p.1 p.2 (List.mem_of_mem_filter hp)
      rwa [hd] at this) rule rfl m hm
    exact readFrom_noMost hd.here hr
  · intro n hn m hm
    obtain ⟨name, spec, i, hl, hs⟩ := common_printable hcom n hn
    obtain ⟨d, hd, hr⟩ := (loadCommon_built hl).each printable_flat
      (throughout_flat printable_flat (fun k y hm => by
        cases List.mem_singleton.1 hm
        exact ⟨by decide, fun e ho => by cases ho⟩))
      (fun k y hm => by cases List.mem_singleton.1 hm; exact hs) (by simp) n rfl m hm
    exact readFrom_noMost hd.here.2.2 hr

/-- the document of an audited solution can be made -/
theorem result_toJson {c : Constants} {templates : List (String × TemplateCourse)} {st : Student} {es : List Exc}
    {all : Bool} {spec : Dict} {a : Area} (hload : loadArea c templates st es all spec = .ok a)
    (hp : ∀ d, Occurs d (.map spec) → NoAtMost d) {o : Orders} (ho : o.Lawful) {s : AreaSolution}
    (hs : s ∈ (a.solutions o st es).items) {r : AreaResult} (ha : s.audit o a = .ok r) (W : Writes) (name code : String) :
    ∃ j, r.toJson W a name code = .ok j := by
  obtain ⟨hm1, hm2⟩ := loadArea_noMost hload hp
  obtain ⟨tr, _, _, _, _, r0, hbec, hr⟩ := area_outcome ho (loadArea_loaded hload).1 (loadArea_common hload).1 hs ha
  have h0 := Node.becomes_noMost a.result hm1 r0 hbec
  have hall : ∀ m ∈ r.result.within, NoMostAt m := by
    rcases hr with ⟨_, hr⟩ | ⟨_, d, items, nm, citems, rfl, hr, hci⟩
    · rw [hr]; exact h0
    · rw [hr]
      intro m hm
      simp only [Node.within, Node.withinOpt, List.mem_cons, Node.mem_withinList, List.mem_append, List.mem_singleton,
        List.not_mem_nil, or_false] at hm
      rcases hm with rfl | ⟨n, hn | rfl, hm⟩
      · exact (h0 _ (Node.self_within _) : NoMostAt (.count .result d items))
      · exact h0 m (by rw [Node.within, List.mem_cons, Node.mem_withinList]; exact .inr ⟨n, hn, hm⟩)
      · simp only [Node.within, Node.withinOpt, List.mem_cons, Node.mem_withinList] at hm
        rcases hm with rfl | rfl | ⟨n, hn, hm⟩
        · trivial
        · rfl
        · obtain ⟨rule, hrule, x, _, hb⟩ := hci n hn
          exact Node.becomes_noMost rule (hm2 rule hrule) n hb m hm
  obtain ⟨rank, hrank⟩ := noMost_rank hall
  obtain ⟨j, hj⟩ := Node.toJson_ok W r.result hall
  exact ⟨_, by rw [AreaResult.toJson, show r.rank = .ok rank from hrank]; dsimp only; rw [hj]⟩

/-! ### C95 -/

theorem firstResult_some {l : List (Msg AreaResult)} {r : AreaResult} {iters : Int} (h : firstResult l = some (r, iters)) :
    ∃ i m, .result r i iters m ∈ l := by
  induction l with
  | nil => cases h
  | cons x l ih =>
    cases x with
    | result r' i n m =>
      cases h
      exact ⟨i, m, List.mem_cons_self⟩
    | _ =>
      obtain ⟨i, m, hm⟩ := ih h
      exact ⟨i, m, List.mem_cons_of_mem _ hm⟩

theorem firstResult_last {l : List (Msg AreaResult)} {pre : List (Msg AreaResult)} {r : AreaResult} {i : Option Int} {n m : Int}
    (h : l = pre ++ [.result r i n m]) (hpre : ∀ x ∈ pre, ∀ r i n m, x ≠ .result r i n m) : firstResult l = some (r, n) := by
  subst h
  induction pre with
  | nil => rfl
  | cons x pre ih =>
    have := ih (fun y hy => hpre y (List.mem_cons_of_mem _ hy))
    cases x with
    | result r' i' n' m' => exact absurd rfl (hpre _ List.mem_cons_self r' i' n' m')
    | _ => exact this

/-- an audit reports at most one result, and that at the end -/
theorem runFiles_results {o : Orders} {raw : RawStudent} {spec : Dict} {r : AreaResult} {i : Option Int} {n m : Int}
    (h : .result r i n m ∈ (runFiles o {} raw spec).items) : ∃ pre r0 i0 n0 m0,
      (runFiles o {} raw spec).items = pre ++ [.result r0 i0 n0 m0] ∧ ∀ x ∈ pre, ∀ r i n m, x ≠ .result r i n m := by
  unfold runFiles at h ⊢
  split at h
  · exact absurd h (by simp [Gen.raise])
  rename_i p hp
  split at h
  · exact absurd h (by simp [Gen.raise])
  rename_i a ha
  unfold auditArea at h ⊢
  have hplain : Args.Plain {} := ⟨rfl, rfl, rfl⟩
  by_cases hok : (runAudit {} (a.estimate o p.loaded.student p.exceptions)
      ((a.solutions o p.loaded.student p.exceptions).map (AreaSolution.outcome o a))).err = none
  · obtain ⟨k, progress, final, he, _, hpr, hempty, hfull⟩ := C22_protocol_partial {} hplain rfl _ _ hok
    by_cases hne : ((a.solutions o p.loaded.student p.exceptions).map (AreaSolution.outcome o a)).items = []
    · rw [he, hempty hne] at h
      simp only [List.mem_cons, List.mem_append, List.mem_singleton, List.not_mem_nil, or_false, reduceCtorEq, false_or] at h
      exact absurd (hpr _ h) (by simp [Msg.isProgress])
    · obtain ⟨r0, i0, k0, hf⟩ := hfull hne
      refine ⟨.estimate k :: progress, r0, some i0, k0, k0, by rw [he, hf]; rfl, ?_⟩
      intro x hx r i n m hxr
      subst hxr
      rcases List.mem_cons.1 hx with hx | hx
      · cases hx
      · exact absurd (hpr _ hx) (by simp [Msg.isProgress])
  · rcases C22_no_result_before_exception {} hplain _ _ hok _ h with h | h
    · exact absurd h (by simp [Msg.isEstimate])
    · exact absurd h (by simp [Msg.isProgress])

theorem serverAudit_inv {o : Orders} {W : Writes} {described : Bool} {raw : RawStudent} {spec : Dict} {row : StoredRow}
    (h : serverAudit o W described raw spec = some row) :
    described = true ∧ ∃ p a r, prepareStudent raw spec = .ok p ∧
      loadArea p.loaded.constants p.loaded.templates p.loaded.student p.exceptions false spec = .ok a ∧
      firstResult (runFiles o {} raw spec).items = some (r, row.iterations) ∧
      r.toJson W a (shownText spec "name") (shownText spec "code") = .ok row.result ∧
      row.rank = row.result.at? "rank" ∧ row.maxRank = row.result.at? "max_rank" ∧ row.gpa = row.result.at? "gpa" ∧
      row.ok = row.result.at? "ok" ∧ row.status = row.result.at? "status" ∧ row.claimed = r.keyedClaims := by
  unfold serverAudit at h
  split at h
  · cases h
  rename_i p hp
  split at h
  · cases h
  rename_i a ha
  split at h
  · cases h
  rename_i r iters hf
  split at h
  · cases h
  rename_i j hj
  split at h
  · rename_i hd
    cases h
    refine ⟨hd, p, a, r, hp, ha, ?_, hj, rfl, rfl, rfl, rfl, rfl, rfl⟩
    unfold runFiles
    rw [hp]
    dsimp only
    rw [ha]
    exact hf
  · cases h

/-- **C95.** Whatever the server stores for a student's file and an area file is the result that the audit of the two files
reports, and the audit reports no other: the columns `status`, `ok`, `gpa` and `claimed_courses` are those of that result,
and the columns agree with the document in the row. -/
theorem C95_stored_row (o : Orders) (W : Writes) (described : Bool) (raw : RawStudent) (spec : Dict) (row : StoredRow)
    (h : serverAudit o W described raw spec = some row) :
    ∃ r i n m, .result r i n m ∈ (runFiles o {} raw spec).items ∧
      (∀ r' i' n' m', .result r' i' n' m' ∈ (runFiles o {} raw spec).items → r' = r) ∧
      row.status = some (.text r.status.text) ∧ row.gpa = some (.text (W.decimal r.gpa)) ∧
      (∃ b, row.ok = some (.bool b) ∧ (b = true ↔ Complete r.status)) ∧
      (∃ q, r.rank = .ok q ∧ row.rank = some (.text (W.decimal q.1)) ∧ row.maxRank = some (.text (W.decimal q.2))) ∧
      row.claimed = r.keyedClaims ∧ row.status = row.result.at? "status" ∧ row.ok = row.result.at? "ok" := by
  obtain ⟨_, p, a, r, hp, ha, hf, hj, h1, h2, h3, h4, h5, h6⟩ := serverAudit_inv h
  obtain ⟨i, m, hm⟩ := firstResult_some hf
  refine ⟨r, i, row.iterations, m, hm, ?_, ?_⟩
  · intro r' i' n' m' hm'
    obtain ⟨pre, r0, i0, n0, m0, he, hpre⟩ := runFiles_results hm
    have key : ∀ r i n m, .result r i n m ∈ (runFiles o {} raw spec).items → r = r0 := by
      intro r i n m h
      rw [he] at h
      rcases List.mem_append.1 h with h | h
      · exact absurd rfl (hpre _ h r i n m)
      · cases List.mem_singleton.1 h; rfl
    rw [key _ _ _ _ hm, key _ _ _ _ hm']
  · obtain ⟨g1, g2, ⟨b, g3, g4⟩, _⟩ := C93_document_shows_every_part W a _ _ r _ hj
    obtain ⟨rank, j', hr, _, hjj⟩ := AreaResult.toJson_inv hj
    refine ⟨h5.trans g1, h3.trans g2, ⟨b, h4.trans g3, g4⟩, ⟨rank, hr, ?_, ?_⟩, h6, h5, h4⟩
    · rw [h1, hjj]; rfl
    · rw [h2, hjj]; rfl

/-- **C95**, when something is stored: unless a rule of the area file that asks for a number of items says `at_most: true`, a
row is stored exactly when the audit of the two files reports a result and the student's file has the four descriptions. -/
theorem C95_when_stored (o : Orders) (ho : o.Lawful) (W : Writes) (described : Bool) (raw : RawStudent) (spec : Dict)
    (hmost : ∀ d, Occurs d (.map spec) → NoAtMost d) :
    (∃ row, serverAudit o W described raw spec = some row) ↔
      described = true ∧ ∃ r i n m, .result r i n m ∈ (runFiles o {} raw spec).items := by
  constructor
  · rintro ⟨row, h⟩
    obtain ⟨r, i, n, m, hm, _⟩ := C95_stored_row o W described raw spec row h
    exact ⟨(serverAudit_inv h).1, r, i, n, m, hm⟩
  · rintro ⟨hd, r, i, n, m, hm⟩
    obtain ⟨pre, r0, i0, n0, m0, he, hpre⟩ := runFiles_results hm
    have hf := firstResult_last he hpre
    obtain ⟨p, a, s, h1, h2, h3, h4⟩ := runFiles_inv (r := r0) (i := i0) (n := n0) (m := m0) (by rw [he]; simp)
    obtain ⟨j, hj⟩ := result_toJson h2 hmost ho h3 h4 W (shownText spec "name") (shownText spec "code")
    have hrun : runFiles o {} raw spec = auditArea o a p.loaded.student p.exceptions {} := by
      unfold runFiles
      rw [h1]
      dsimp only
      rw [h2]
    rw [hrun] at hf
    unfold serverAudit
    rw [h1]
    dsimp only
    rw [h2]
    dsimp only
    rw [hf]
    dsimp only
    rw [hj]
    dsimp only
    rw [if_pos hd]
    exact ⟨_, rfl⟩

/-- **C95**, soundness: if the stored row says `ok`, what is written in the area file is met by what is written in the
student's file, and what is still in progress is not needed. -/
theorem C95_stored_ok_is_met (o : Orders) (ho : o.Lawful) (W : Writes) (described : Bool) (raw : RawStudent) (spec : Dict)
    (row : StoredRow) (h : serverAudit o W described raw spec = some row) (hok : row.ok = some (.bool true))
    (hreal : RealText (.map spec)) (htidy : TidyFiles raw spec) :
    ∃ l es, FilesSay raw spec l es ∧ ∃ (x : Ctx) (kids : Dict) (ems : List Dict) (y : Y) (own : Node),
      AreaText l.student false spec kids ems y ∧
      (∀ k ∈ x.transcript, k ∈ l.student.courses) ∧ x.withFailed = l.student.coursesWithFailed ∧
      (TextMeets ⟨⟨l.student, es, l.constants, l.templates⟩, true, x,
          KeptByText ⟨l.student, es, l.constants, l.templates⟩ kids ems y⟩ kids ems ["$"] y own ∨
        ((∃ d, y = .map d ∧ ruleKind d = .conditional) ∧ WaivedAt es ["$", ".cond"])) := by
  obtain ⟨r, i, n, m, hm, _, _, _, ⟨b, hb, hc⟩, _⟩ := C95_stored_row o W described raw spec row h
  rw [hok] at hb
  cases hb
  obtain ⟨l, es, hf, x, kids, ems, y, own, kind, g1, _, g2, g3, g4⟩ :=
    C85_complete_audit_of_two_files o ho {} raw spec r i n m hm (hc.1 rfl) hreal htidy
  exact ⟨l, es, hf, x, kids, ems, y, own, g1, g2, g3, g4⟩

theorem stored_of_complete {o : Orders} (ho : o.Lawful) (W : Writes) {raw : RawStudent} {spec : Dict}
    (hmost : ∀ d, Occurs d (.map spec) → NoAtMost d)
    (h : ∃ r i n, (runFiles o {} raw spec).items.getLast? = some (.result r (some i) n n) ∧ Complete r.status) :
    ∃ row, serverAudit o W true raw spec = some row ∧ row.ok = some (.bool true) := by
  obtain ⟨r, i, n, hl, hc⟩ := h
  have hm := List.mem_of_getLast? hl
  obtain ⟨row, hrow⟩ := (C95_when_stored o ho W true raw spec hmost).2 ⟨rfl, r, _, _, _, hm⟩
  obtain ⟨r', _, _, _, _, huniq, _, _, ⟨b, hb, hc'⟩, _⟩ := C95_stored_row o W true raw spec row hrow
  refine ⟨row, hrow, ?_⟩
  rw [hb, hc'.2 (huniq r _ _ _ hm ▸ hc)]

/-- **C95**, completeness, partial: if what is written in the student's file fulfils what is written in the area file, the
stored row says `ok`, for an area other than a major, with or without limits, that asks for all of its parts, provided that
the audit raises no exception.  Missing: as for C86. -/
theorem C95_fulfilled_is_stored_partial (o : Orders) (ho : o.Lawful) (W : Writes) (raw : RawStudent) (spec : Dict)
    (htidy : TidyFiles raw spec) (hreal : RealText (.map spec)) (htype : ¬ TextAt spec "type" "major")
    (hmost : ∀ d, Occurs d (.map spec) → NoAtMost d)
    (hful : (spec.get? "limit" = none ∧ ∀ l es a, FilesSay raw spec l es → prepareStudent raw spec = .ok ⟨l, es⟩ →
        loadArea l.constants l.templates l.student es false spec = .ok a → ∃ kids ems y cs, FilesFulfil raw spec l es a kids ems y cs) ∨
      ∃ lim, spec.get? "limit" = some (.list lim) ∧ ∀ l es a, FilesSay raw spec l es → prepareStudent raw spec = .ok ⟨l, es⟩ →
        loadArea l.constants l.templates l.student es false spec = .ok a →
        ∃ kids ems y sel cs, FilesFulfilWithin spec lim l es a kids ems y sel cs)
    (hok : (runFiles o {} raw spec).err = none) :
    ∃ row, serverAudit o W true raw spec = some row ∧ row.ok = some (.bool true) := by
  have hplain : Args.Plain {} := ⟨rfl, rfl, rfl⟩
  refine stored_of_complete ho W hmost ?_
  rcases hful with ⟨hl, hful⟩ | ⟨lim, hl, hful⟩
  · exact C86_files_that_fulfil_are_complete_partial o ho {} hplain rfl rfl raw spec htidy hreal htype hl hful hok
  · exact C86_files_that_fulfil_within_limits_partial o ho {} hplain rfl rfl raw spec htidy hreal htype lim hl hful hok

/-! ### Non-trivial cases -/

/-- decimals, values and items written in some way -/
def plainWrites : Writes where
  decimal q := toString q.num ++ "/" ++ toString q.den
  expected _ := "_"
  condition _ := "pred-expr"
  item _ := ("course", "clbid", "_")

/-- the columns `status`, `ok` and `claimed_courses` of a row -/
def StoredRow.view (row : StoredRow) : Option (String × Bool × List (String × List Path)) :=
  match row.status, row.ok with
  | some (.text s), some (.bool b) => some (s, b, row.claimed)
  | _, _ => none

open EntryText in
/-- Cases for C93, C94 and C95: rows that are stored; nothing is stored without the descriptions. -/
example :
    (serverAudit .insertion plainWrites true student (area [] twoCs)).bind StoredRow.view =
      some ("done", true, [("1", [["$", ".query"]]), ("2", [["$", ".query"]])]) ∧
    (serverAudit .insertion plainWrites true { student with rows := rows.drop 1 } (area [] twoCs)).bind StoredRow.view =
      some ("needs-more-items", false, [("2", [["$", ".query"]])]) ∧
    (serverAudit .insertion plainWrites true PlainFiles.raw PlainFiles.spec).bind StoredRow.view =
      some ("done", true, [("1", [["$", "%Core", "*CSCI 121"]])]) ∧
    (serverAudit .insertion plainWrites true LimitedFiles.raw LimitedFiles.spec).bind StoredRow.view =
      some ("done", true, [("1", [["$", ".cond", "/t", "%Core", "*CSCI 121"]])]) ∧
    (serverAudit .insertion plainWrites false PlainFiles.raw PlainFiles.spec).isSome = false := by
  refine ⟨?_, ?_, ?_, ?_, ?_⟩ <;> decide +kernel

/-- the area files of these cases have no `at_most: true`; the other hypotheses of `C95_fulfilled_is_stored_partial` are shown
to hold of them beside C86 -/
example : (∀ d, Occurs d (.map PlainFiles.spec) → NoAtMost d) ∧ ∀ d, Occurs d (.map LimitedFiles.spec) → NoAtMost d := by
  constructor
  · intro d hd h
    rw [unused_get (k0 := "at_most") (by rfl) hd] at h
    cases h
  · have hlim : ∀ d, Occurs d (.map [("at_most", .int 1), ("where", .map [("subject", .map [("$eq", .str "CSCI")])])]) → NoAtMost d := by
      intro d hd h
      cases hd with
      | here => cases h
      | entry hm ho =>
        simp only [List.mem_cons, Prod.mk.injEq, List.not_mem_nil, or_false] at hm
        rcases hm with ⟨rfl, rfl⟩ | ⟨rfl, rfl⟩
        · cases ho
        · rw [unused_get (k0 := "at_most") (by rfl) ho] at h
          cases h
    intro d hd h
    cases hd with
    | here => cases h
    | entry hm ho =>
      simp only [LimitedFiles.spec, EntryText.area, LimitedFiles.limits, List.cons_append, List.nil_append, List.mem_cons, Prod.mk.injEq,
        List.not_mem_nil, or_false] at hm
      rcases hm with ⟨rfl, rfl⟩ | hm
      · cases ho with
        | item hm ho =>
          rw [List.mem_singleton] at hm
          subst hm
          exact hlim d ho h
      · rcases hm with ⟨rfl, rfl⟩ | ⟨rfl, rfl⟩ | ⟨rfl, rfl⟩ | ⟨rfl, rfl⟩ | ⟨rfl, rfl⟩ | ⟨rfl, rfl⟩
        all_goals
          rw [unused_get (k0 := "at_most") (by rfl) ho] at h
          cases h

/-- a requirement that the department audits, with a choice of at most one of nothing -/
def departmentText : Dict :=
  EntryText.area [("requirements", .map [("Portfolio", .map [("department_audited", .bool true),
    ("result", .map [("any", .list []), ("at_most", .bool true)])])])] (.map [("requirement", .str "Portfolio")])

/-- **C95**, when something is stored, refuted in general: the audit of these files reports a result, and nothing is stored,
because the document cannot be made. -/
theorem C95_when_stored_refuted : (∃ r i n m, .result r i n m ∈ (runFiles .insertion {} EntryText.student departmentText).items) ∧
    serverAudit .insertion plainWrites true EntryText.student departmentText = none := by
  constructor
  · have h : (firstResult (runFiles .insertion {} EntryText.student departmentText).items).isSome = true := by decide +kernel
    obtain ⟨⟨r, n⟩, h⟩ := Option.isSome_iff_exists.1 h
    obtain ⟨i, m, h⟩ := firstResult_some h
    exact ⟨r, i, n, m, h⟩
  · have h : (serverAudit .insertion plainWrites true EntryText.student departmentText).isNone = true := by decide +kernel
    exact Option.isNone_iff_eq_none.1 h

end Dp
