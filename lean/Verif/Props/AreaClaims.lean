import Verif.Props.TreeClaims
import Verif.Model.Area

/-
Claims of whole areas: C25, and C26/C27 for every rule of an area.
-/
namespace Dp

/-! ### Stages -/

/-- solutions are solutions -/
theorem Node.solutions_stage {x : Ctx} {o : Orders} {n s : Node} (h : s ∈ (n.solutions x o).items) :
    s.stage = .solution := by
  cases n with
  | course st d =>
    simp only [Node.solutions] at h
    obtain ⟨_, _, rfl⟩ := Gen.mem_map.1 h; rfl
  | query st d =>
    simp only [Node.solutions] at h
    obtain ⟨_, _, rfl⟩ := Gen.mem_map.1 h; rfl
  | count st d items =>
    simp only [Node.solutions, plainCountSolutions] at h
    repeat' split at h
    all_goals first
      | (simp [Gen.raise] at h)
      | (simp only [Gen.one, List.mem_singleton] at h; subst h; rfl)
      | (obtain ⟨l, rfl, _⟩ := countSolutions_items h; rfl)
  | req st d r =>
    simp only [Node.solutions] at h
    repeat' split at h
    all_goals first
      | (simp only [Gen.one, List.mem_singleton] at h; subst h; rfl)
      | (obtain ⟨_, _, rfl⟩ := Gen.mem_map.1 h; rfl)
  | cond st d t f =>
    simp only [Node.solutions] at h
    repeat' split at h
    all_goals first
      | (simp [Gen.nil] at h)
      | (obtain ⟨_, _, rfl⟩ := Gen.mem_map.1 h; rfl)
  | prof st d c =>
    simp only [Node.solutions, profSolutions] at h
    repeat' split at h
    all_goals first
      | (simp [Gen.raise] at h)
      | (simp only [Gen.one, List.mem_singleton] at h; subst h; rfl)

/-- auditing a solution gives a result -/
theorem Node.audit_stage {x : Ctx} {o : Orders} {n r : Node} {t t' : ClaimTable} (hn : n.stage = .solution)
    (h : n.audit x o t = .ok (r, t')) : r.stage = .result := by
  cases n <;> (simp only [Node.stage] at hn; subst hn; simp only [Node.audit, profAudit] at h;
               repeat' split at h) <;>
    first
    | cases h; done
    | (obtain ⟨rfl, rfl⟩ := Prod.mk.inj (Except.ok.inj h); rfl)

/-! ### The best solution and independent children -/

theorem bestLoop_mem {x : Ctx} {o : Orders} {tail : Option Err} (P : Node → Prop) {ss : List Node}
    {best : Option (Node × Rat)} {inner : Option ClaimTable} {res}
    (hbest : ∀ b, best = some b → P b.1)
    (hss : ∀ s ∈ ss, ∀ r t', s.audit x o [] = .ok (r, t') → P r)
    (h : bestLoop x o tail ss best inner = .ok res) : ∀ b, res.1 = some b → P b.1 := by
  induction ss generalizing best inner with
  | nil =>
    unfold bestLoop at h
    split at h
    · cases h
    · cases h; exact hbest
  | cons s ss ih =>
    unfold bestLoop at h
    split at h
    · cases h
    · rename_i r t' hr
      have hP := hss s List.mem_cons_self r t' hr
      split at h
      · cases h
      · rename_i rank _ _
        dsimp only at h
        split at h
        · cases h
          intro b hb
          cases hb
          exact hP
        · refine ih ?_ (fun s' hs' => hss s' (List.mem_cons_of_mem _ hs')) h
          intro b hb
          cases hb
          split
          · exact hP
          · rename_i b'
            split
            · exact hP
            · exact hbest _ rfl

/-- the best result is the result of auditing some solution on an empty table -/
theorem findBest_mem {x : Ctx} {o : Orders} {rule r : Node} {t t' : ClaimTable} {m : Bool}
    (h : findBest x o rule t m = .ok (some r, t')) :
    ∃ s ∈ (rule.solutions x o).items, ∃ t2, s.audit x o [] = .ok (r, t2) := by
  unfold findBest at h
  dsimp only at h
  split at h
  · cases h
  · rename_i best inner hb
    have key := bestLoop_mem (x := x) (o := o) (tail := (rule.solutions x o).err)
      (fun r => ∃ s ∈ (rule.solutions x o).items, ∃ t2, s.audit x o [] = .ok (r, t2))
      (by simp) (fun s hs r t' hr => ⟨s, hs, t', hr⟩) hb
    have : best.map (·.1) = some r := by
      split at h
      · split at h
        · cases h
        · exact (Prod.mk.inj (Except.ok.inj h)).1
      · exact (Prod.mk.inj (Except.ok.inj h)).1
    cases best with
    | none => cases this
    | some b =>
      cases this
      exact key b rfl

theorem solveIndependent_mem {x : Ctx} {o : Orders} {ns : List Node} {t t' : ClaimTable}
    {solved : List (Node × Option Node)} (h : solveIndependent x o ns t = .ok (solved, t')) :
    solved.map (·.1) = ns ∧ ∀ p ∈ solved, ∀ r, p.2 = some r →
      ∃ s ∈ (p.1.solutions x o).items, ∃ t2, s.audit x o [] = .ok (r, t2) := by
  induction ns generalizing t solved with
  | nil =>
    simp only [solveIndependent] at h
    obtain ⟨rfl, rfl⟩ := Prod.mk.inj (Except.ok.inj h)
    simp
  | cons n ns ih =>
    simp only [solveIndependent] at h
    split at h
    · cases h
    · rename_i r t1 h1
      split at h
      · cases h
      · rename_i rs t2 h2
        obtain ⟨rfl, rfl⟩ := Prod.mk.inj (Except.ok.inj h)
        obtain ⟨h3, h4⟩ := ih h2
        refine ⟨by simp [h3], ?_⟩
        intro p hp r' hr'
        rcases List.mem_cons.1 hp with rfl | hp
        · simp only at hr'
          subst hr'
          exact findBest_mem h1
        · exact h4 p hp r' hr'

theorem findIndependent_subset {x : Ctx} {items a b : List Node} (h : findIndependent x items = .ok (a, b)) :
    a.Sublist items ∧ b.Sublist items := by
  unfold findIndependent at h
  split at h
  · cases h
  · split at h
    · obtain ⟨rfl, rfl⟩ := Prod.mk.inj (Except.ok.inj h)
      exact ⟨List.Sublist.refl _, by simp⟩
    · dsimp only at h
      obtain ⟨rfl, rfl⟩ := Prod.mk.inj (Except.ok.inj h)
      exact ⟨List.filter_sublist, List.filter_sublist⟩

/-! ### Claims of topmost rules -/

theorem topCount_claims {x : Ctx} {o : Orders} (ho : o.Lawful) {P : Claim → Prop} {d : CountData} {items : List Node}
    {t0 : ClaimTable}
    (hload : Node.LoadedList x items) (ih : ∀ n ∈ items, ClaimsSatisfy x o P n)
    {s : Node} (hs : s ∈ (topCountSolutions x o d items t0).1.items)
    {t t' : ClaimTable} {r : Node} (ha : s.audit x o t = .ok (r, t')) : ∀ c ∈ r.claims, P c := by
  have hclean : ∀ n ∈ items, ∀ t1 t2 r', n.audit x o t1 = .ok (r', t2) → r'.claims = [] := by
    intro n hn t1 t2 r' ha'
    have hl := Node.loadedList_iff.1 hload n hn
    rw [Node.audit_of_not_solution (by rw [Node.loaded_stage hl]; decide)] at ha'
    obtain ⟨rfl, rfl⟩ := Prod.mk.inj (Except.ok.inj ha')
    exact Node.loaded_claims x _ hl
  unfold topCountSolutions at hs
  split at hs
  · simp only [Gen.one, List.mem_singleton] at hs
    subst hs
    refine count_claims_of P ha (fun _ n hn c hc => ?_) (fun n hn t1 t2 r' ha' c hc => ?_)
    · rw [Node.loaded_claims x _ (Node.loadedList_iff.1 hload n hn)] at hc; simp at hc
    · rw [hclean n hn t1 t2 r' ha'] at hc; simp at hc
  · split at hs
    · simp [Gen.raise] at hs
    · rename_i pot hpot
      split at hs
      · exact plainCount_claims hload ih hs ha
      · split at hs
        · simp [Gen.raise] at hs
        · rename_i indep codep hind
          split at hs
          · simp [Gen.raise] at hs
          · rename_i solved t1 hsolved
            split at hs
            · simp [Gen.raise] at hs
            · rename_i results hresults
              dsimp only at hs
              split at hs
              · simp [Gen.raise] at hs
              · rename_i sorted hsorted
                obtain ⟨l, rfl, hl⟩ := countSolutions_items hs
                have hsub := (mem_filterE hpot).1
                obtain ⟨hi, hc⟩ := findIndependent_subset hind
                refine count_claims_of P ha (fun h => by cases h) (fun n hn t1 t2 r' ha' c hcl => ?_)
                rcases hl n hn with ⟨p, hp, hin⟩ | hn' | hn'
                · obtain ⟨n', hn', rfl⟩ := List.mem_map.1 hp
                  exact ih n' (hsub.subset (hc.subset ((sortByPath_perm hsorted).mem_iff.1 hn')))
                    n hin t1 t2 r' ha' c hcl
                · rw [hclean n (List.mem_of_mem_filter hn') t1 t2 r' ha'] at hcl
                  simp at hcl
                · have hn'' := (sortByPath_perm hresults).mem_iff.1 hn'
                  obtain ⟨p, hp, hpr⟩ := List.mem_filterMap.1 hn''
                  obtain ⟨h1, h2⟩ := solveIndependent_mem hsolved
                  obtain ⟨s', hs', t3, hs''⟩ := h2 p hp n hpr
                  have hstage := Node.audit_stage (Node.solutions_stage hs') hs''
                  rw [Node.audit_of_not_solution (by rw [hstage]; decide)] at ha'
                  obtain ⟨rfl, rfl⟩ := Prod.mk.inj (Except.ok.inj ha')
                  have hp1 : p.1 ∈ o.children indep := by
                    rw [← h1]
                    exact List.mem_map_of_mem hp
                  have hp1' := hsub.subset (hi.subset ((ho.2.2 indep).mem_iff.1 hp1))
                  exact ih p.1 hp1' s' hs' _ _ _ hs'' c hcl

mutual
/-- If all claims of the leaves satisfy `P`, then so do those of the solutions of the
topmost rule. -/
theorem Node.topClaims_of_leaves (x : Ctx) (o : Orders) (ho : o.Lawful) (P : Claim → Prop) : ∀ n : Node,
    n.Loaded x → (∀ leaf ∈ n.leaves, ClaimsSatisfy x o P leaf) → ∀ t0 : ClaimTable,
    ∀ s ∈ (n.topSolutions x o t0).1.items, ∀ t t' r, s.audit x o t = .ok (r, t') → ∀ c ∈ r.claims, P c
  | .course s d, hl, h => by
    intro t0
    simp only [Node.topSolutions]
    exact Node.claims_of_leaves x o P _ hl h
  | .query s d, hl, h => by
    intro t0
    simp only [Node.topSolutions]
    exact Node.claims_of_leaves x o P _ hl h
  | .req s d c, hl, h => by
    intro t0
    simp only [Node.topSolutions]
    exact Node.claims_of_leaves x o P _ hl h
  | .prof s d c, hl, h => by
    intro t0
    simp only [Node.topSolutions]
    exact Node.claims_of_leaves x o P _ hl h
  | .count s d items, hl, h => by
    intro t0 s hs t t' r ha
    simp only [Node.Loaded] at hl
    simp only [Node.leaves] at h
    simp only [Node.topSolutions] at hs
    exact topCount_claims ho hl.2.2 (Node.claims_of_leavesList x o P items hl.2.2 h) hs ha
  | .cond s d th f, hl, h => by
    intro t0 s hs t t' r ha
    simp only [Node.Loaded] at hl
    simp only [Node.leaves, List.mem_append] at h
    simp only [Node.topSolutions] at hs
    split at hs
    · rename_i hc
      obtain ⟨s', hs', rfl⟩ := Gen.mem_map.1 hs
      simp only [Node.audit, hc] at ha
      split at ha
      · cases ha
      · rename_i r' t2 hr'
        obtain ⟨rfl, rfl⟩ := Prod.mk.inj (Except.ok.inj ha)
        intro c hcl
        simp only [Node.claims, hc] at hcl
        exact Node.topClaims_of_leaves x o ho P th hl.2.2.1 (fun l hl => h l (Or.inl hl)) t0 s' hs' _ _ _ hr' c hcl
    · rename_i hc
      split at hs
      · rename_i g t2 hg
        obtain ⟨s', hs', rfl⟩ := Gen.mem_map.1 hs
        simp only [Node.audit, hc, Node.auditOpt] at ha
        split at ha
        · cases ha
        · rename_i r' t2 hr'
          obtain ⟨rfl, rfl⟩ := Prod.mk.inj (Except.ok.inj ha)
          split at hr'
          · cases hr'
          · rename_i r'' t3 hr''
            obtain ⟨rfl, rfl⟩ := Prod.mk.inj (Except.ok.inj hr')
            intro c hcl
            simp only [Node.claims, hc, Node.claimsOpt] at hcl
            exact Node.topClaims_of_leavesOpt x o ho P f hl.2.2.2 (fun l hl => h l (Or.inr hl)) t0 _ hg
              s' hs' _ _ _ hr'' c hcl
      · simp [Gen.nil] at hs
    · simp [Gen.nil] at hs
theorem Node.topClaims_of_leavesOpt (x : Ctx) (o : Orders) (ho : o.Lawful) (P : Claim → Prop) : ∀ n : Option Node,
    Node.LoadedOpt x n → (∀ leaf ∈ Node.leavesOpt n, ClaimsSatisfy x o P leaf) → ∀ (t0 : ClaimTable) g,
    Node.topSolutionsOpt x o n t0 = some g → ∀ s ∈ g.1.items, ∀ t t' r, s.audit x o t = .ok (r, t') →
      ∀ c ∈ r.claims, P c
  | none, _, _ => by
    intro t0 g hg
    cases hg
  | some n, hl, h => by
    simp only [Node.LoadedOpt] at hl
    simp only [Node.leavesOpt] at h
    intro t0 g hg s hs
    simp only [Node.topSolutionsOpt, Option.some.injEq] at hg
    subst hg
    exact Node.topClaims_of_leaves x o ho P n hl h t0 s hs
end

/-! ### Being loaded depends on the exceptions only -/

mutual
theorem Node.loaded_congr {x y : Ctx} (he : x.exceptions = y.exceptions) : ∀ n : Node, n.Loaded x → n.Loaded y
  | .course s d, h => h
  | .query s d, h => by
    simp only [Node.Loaded, QueryData.Loaded] at h ⊢
    rw [he] at h
    exact h
  | .count s d items, h => by
    simp only [Node.Loaded] at h ⊢
    exact ⟨h.1, h.2.1, Node.loaded_congrList he items h.2.2⟩
  | .req s d r, h => by
    simp only [Node.Loaded] at h ⊢
    exact ⟨h.1, h.2.1, Node.loaded_congrOpt he r h.2.2⟩
  | .cond s d t f, h => by
    simp only [Node.Loaded] at h ⊢
    rw [he] at h
    exact ⟨h.1, h.2.1, Node.loaded_congr he t h.2.2.1, Node.loaded_congrOpt he f h.2.2.2⟩
  | .prof s d c, h => h
theorem Node.loaded_congrList {x y : Ctx} (he : x.exceptions = y.exceptions) : ∀ ns : List Node,
    Node.LoadedList x ns → Node.LoadedList y ns
  | [], _ => trivial
  | n :: ns, h => by
    simp only [Node.LoadedList] at h ⊢
    exact ⟨Node.loaded_congr he n h.1, Node.loaded_congrList he ns h.2⟩
theorem Node.loaded_congrOpt {x y : Ctx} (he : x.exceptions = y.exceptions) : ∀ n : Option Node,
    Node.LoadedOpt x n → Node.LoadedOpt y n
  | none, _ => trivial
  | some n, h => by
    simp only [Node.LoadedOpt] at h ⊢
    exact Node.loaded_congr he n h
end

/-! ### Whole areas -/

theorem transcriptSolutions_mem {o : Orders} {a : Area} {st : Student} {es : List Exc} {t : ClaimTable}
    {tr : List Course} {s : AreaSolution} (h : s ∈ (transcriptSolutions o a st es t tr).1.items) :
    s.ctx = areaCtx a st es tr ∧ s.solution ∈ (a.result.topSolutions (areaCtx a st es tr) o t).1.items := by
  unfold transcriptSolutions at h
  dsimp only at h
  split at h
  · simp at h
  · rename_i s0 ss err t' he
    rw [he]
    rcases List.mem_cons.1 h with rfl | h
    · exact ⟨rfl, List.mem_cons_self⟩
    · obtain ⟨s1, hs1, rfl⟩ := List.mem_map.1 h
      exact ⟨rfl, List.mem_cons_of_mem _ hs1⟩

theorem areaLoop_mem {o : Orders} {a : Area} {st : Student} {es : List Exc} {tail : Option Err}
    {trs : List (List Course)} {t : ClaimTable} {s : AreaSolution}
    (h : s ∈ (areaLoop o a st es tail trs t).items) :
    ∃ tr ∈ trs, ∃ t0, s.ctx = areaCtx a st es tr ∧
      s.solution ∈ (a.result.topSolutions (areaCtx a st es tr) o t0).1.items := by
  induction trs generalizing t with
  | nil => simp [areaLoop] at h
  | cons tr trs ih =>
    simp only [areaLoop] at h
    rcases Gen.mem_append h with h | h
    · exact ⟨tr, List.mem_cons_self, t, transcriptSolutions_mem h⟩
    · obtain ⟨tr', htr', r⟩ := ih h
      exact ⟨tr', List.mem_cons_of_mem _ htr', r⟩

/-- each solution of an area belongs to one limited transcript -/
theorem Area.solutions_mem {o : Orders} {a : Area} {st : Student} {es : List Exc} {s : AreaSolution}
    (h : s ∈ (a.solutions o st es).items) :
    ∃ tr ∈ (limitedTranscripts (o.limit []) a.limit st.courses (forcedClbids es)).items, ∃ t0,
      s.ctx = areaCtx a st es tr ∧ s.solution ∈ (a.result.topSolutions (areaCtx a st es tr) o t0).1.items :=
  areaLoop_mem h

/-- The context a common rule of a major is audited in: it knows the exceptions, and
its courses are the whole transcript or what the area has claimed. -/
structure CommonCtx (es : List Exc) (x : Ctx) : Prop where
  exceptions : x.exceptions = groupExceptions es
  forcedOk : x.ForcedOk

theorem commonItems_mem {claimed whole : Ctx} {o : Orders} {rules rs : List Node}
    (h : commonItems claimed whole o rules = .ok rs) {r : Node} (hr : r ∈ rs) :
    ∃ rule ∈ rules, ∃ x, (x = claimed ∨ x = whole) ∧ ∃ t, findBest x o rule [] false = .ok (some r, t) := by
  have key : ∀ {x rule r}, commonResult x o rule = .ok r → ∃ t, findBest x o rule [] false = .ok (some r, t) := by
    intro x rule r h
    unfold commonResult at h
    split at h
    · cases h
    · cases h
    · rename_i r' t hb
      cases h
      exact ⟨t, hb⟩
  unfold commonItems at h
  split at h
  · cases h
  · cases h
  · rename_i r0 r1 rest
    split at h
    · cases h
    · rename_i c0 h0
      split at h
      · cases h
      · rename_i c1 h1
        have m0 : ∃ rule ∈ r0 :: r1 :: rest, ∃ x, (x = claimed ∨ x = whole) ∧
            ∃ t, findBest x o rule [] false = .ok (some c0, t) :=
          ⟨r0, List.mem_cons_self, claimed, Or.inl rfl, key h0⟩
        have m1 : ∃ rule ∈ r0 :: r1 :: rest, ∃ x, (x = claimed ∨ x = whole) ∧
            ∃ t, findBest x o rule [] false = .ok (some c1, t) :=
          ⟨r1, List.mem_cons_of_mem _ List.mem_cons_self, claimed, Or.inl rfl, key h1⟩
        split at h
        · cases h
          simp only [List.mem_cons, List.not_mem_nil, or_false] at hr
          rcases hr with rfl | rfl
          · exact m0
          · exact m1
        · rename_i r2 _
          split at h
          · cases h
          · rename_i c2 h2
            cases h
            simp only [List.mem_cons, List.not_mem_nil, or_false] at hr
            rcases hr with rfl | rfl | rfl
            · exact m0
            · exact m1
            · exact ⟨r2, by simp, whole, Or.inr rfl, key h2⟩

/-- Every claim in the result of an area was made by a course or query rule of the
area's own tree, or by one of the rules common to all majors. -/
theorem area_claims {o : Orders} (ho : o.Lawful) {a : Area} {st : Student} {es : List Exc}
    (hl : a.result.Loaded { exceptions := groupExceptions es })
    (hcl : Node.LoadedList { exceptions := groupExceptions es } a.commonRules)
    {s : AreaSolution} (hs : s ∈ (a.solutions o st es).items) {r : AreaResult} (ha : s.audit o a = .ok r)
    {c : Claim} (hc : c ∈ r.claims) :
    ∃ tr ∈ (limitedTranscripts (o.limit []) a.limit st.courses (forcedClbids es)).items,
      s.ctx = areaCtx a st es tr ∧
    ((∃ leaf ∈ a.result.leaves, LeafClaim (areaCtx a st es tr) o leaf c) ∨
     (a.kind = "major" ∧ ∃ leaf ∈ Node.leavesList a.commonRules, ∃ x, CommonCtx es x ∧ LeafClaim x o leaf c)) := by
  obtain ⟨tr, htr, t0, hctx, hsol⟩ := Area.solutions_mem hs
  refine ⟨tr, htr, hctx, ?_⟩
  unfold AreaSolution.audit at ha
  split at ha
  · cases ha
  rename_i r0 t1 hr0
  rw [hctx] at hr0
  have hmain : ∀ c ∈ r0.claims, ∃ leaf ∈ a.result.leaves, LeafClaim (areaCtx a st es tr) o leaf c := by
    refine Node.topClaims_of_leaves (areaCtx a st es tr) o ho _ a.result
      (Node.loaded_congr (x := { exceptions := groupExceptions es }) (y := areaCtx a st es tr) rfl _ hl) ?_ t0 _ hsol _ _ _ hr0
    intro leaf hleaf s hs t t' r ha c hc
    exact ⟨leaf, hleaf, s, hs, t, t', r, ha, hc⟩
  split at ha
  · rename_i hk
    split at ha
    · cases ha
    rename_i common hcommon
    split at ha
    · rename_i d items
      cases ha
      simp only [AreaResult.claims, Node.claims] at hc
      obtain ⟨n, hn, hcn⟩ := Node.mem_claimsList.1 hc
      clear hc
      rcases List.mem_append.1 hn with hn | hn
      · exact Or.inl (hmain c (Node.mem_claimsList.2 ⟨n, hn, hcn⟩))
      · right
        refine ⟨hk, ?_⟩
        simp only [List.mem_singleton] at hn
        subst hn
        rw [hctx] at hcommon
        unfold auditCommon at hcommon
        split at hcommon
        · cases hcommon
        split at hcommon
        · cases hcommon
        rename_i ins hins
        dsimp only at hcommon
        split at hcommon
        · cases hcommon
        rename_i citems hcitems
        cases hcommon
        simp only [Node.claims, Node.claimsOpt, Bool.false_eq_true, if_false] at hcn
        obtain ⟨n', hn', hc⟩ := Node.mem_claimsList.1 hcn
        obtain ⟨rule, hrule, x, hx, t, hb⟩ := commonItems_mem hcitems hn'
        have hcc : CommonCtx es x := by
          rcases hx with rfl | rfl
          · refine ⟨rfl, ?_⟩
            intro e he
            simp only [List.mem_map, List.mem_reverse] at he
            obtain ⟨c, _, rfl⟩ := he
            rfl
          · exact ⟨rfl, by intro e he; simp at he⟩
        obtain ⟨s', hs', t2, hs''⟩ := findBest_mem hb
        have hlr := Node.loadedList_iff.1 hcl rule hrule
        have := Node.claims_of_leaves x o (fun c => ∃ leaf ∈ rule.leaves, LeafClaim x o leaf c) rule
          (Node.loaded_congr hcc.exceptions.symm _ hlr)
          (fun leaf hleaf s hs t t' r ha c hc => ⟨leaf, hleaf, s, hs, t, t', r, ha, hc⟩) s' hs' _ _ _ hs'' c hc
        obtain ⟨leaf, hleaf, hlc⟩ := this
        exact ⟨leaf, Node.mem_leavesList.2 ⟨rule, hrule, hleaf⟩, x, hcc, hlc⟩
    · cases ha
  · cases ha
    exact Or.inl (hmain c hc)

end Dp
