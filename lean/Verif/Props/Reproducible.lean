import Verif.Props.AlikeApart
import Verif.Props.Common
import Verif.Props.Waits

/-
Property C74: the same audit gives the same answer on every run, whatever order the interpreter visits its sets in.
-/
namespace Dp

/-! ### The topmost rule -/

mutual
theorem Node.topSolutions_alike {x : Ctx} (hf : x.ForcedOk) (hx : x.OneEach) {o o' : Orders} (ho : o.Lawful) (ho' : o'.Lawful) :
    ∀ n : Node, (∀ m ∈ n.within, m.OrderFree) → (∀ i ∈ n.topChildren, CanonicalPath i.path) → (n.topChildren.map Node.path).Nodup →
      Undisputed x o n.topChildren →
      Gen.Alike Node.Steady (n.topSolutions x o []).1 (n.topSolutions x o' []).1 ∧ (n.topSolutions x o []).2.Alike (n.topSolutions x o' []).2
  | .count s d items, h, hc, hn, hu => by
    simp only [Node.topSolutions]
    refine topCountSolutions_alike hf hx ho ho' (fun m hm => ?_) hc hn hu
    rw [Node.within, List.mem_cons] at hm
    rcases hm with rfl | hm
    · exact (h (.count s d items) (Node.self_within _) : (Node.count s d items).OrderFree)
    · exact h m (by simp [Node.within, hm])
  | .cond s d t f, h, hc, hn, hu => by
    have hst := Node.OrderFree.steady (.cond s d t f) h
    have ht := Node.OrderFree.steady t (fun m hm => h m (by simp [Node.within, hm]))
    have hff := Node.OrderFree.steadyOpt f (fun m hm => h m (by simp [Node.within, hm]))
    simp only [Node.topSolutions]
    cases hcd : d.condition with
    | none => exact ⟨.nil, .refl _, by simp⟩
    | some b =>
      cases b with
      | true =>
        dsimp only
        simp only [Node.topChildren, hcd] at hc hn hu
        obtain ⟨h1, h2⟩ := Node.topSolutions_alike hf hx ho ho' t (fun m hm => h m (by simp [Node.within, hm])) hc hn hu
        exact ⟨h1.map (fun a b hab => ⟨rfl, rfl, hab, hff⟩), h2⟩
      | false =>
        dsimp only
        simp only [Node.topChildren, hcd] at hc hn hu
        rcases f with _ | f
        · exact ⟨.nil, .refl _, by simp [Node.topSolutionsOpt]⟩
        · simp only [Node.topSolutionsOpt]
          obtain ⟨h1, h2⟩ := Node.topSolutions_alike hf hx ho ho' f
            (fun m hm => h m (by simp [Node.within, Node.withinOpt, hm])) hc hn hu
          exact ⟨h1.map (fun a b hab => ⟨rfl, rfl, ht, hab⟩), h2⟩
  | .course s d, h, _, _, _ => ⟨.self (fun s' hs => Node.solutions_steady ho _ (Node.OrderFree.steady _ h) s' hs), .refl _, by
      simp [Node.topSolutions]⟩
  | .query s d, h, _, _, _ => by
    simp only [Node.topSolutions]
    rw [← Node.solutions_eq hf hx ho ho' _ h]
    exact ⟨.self (fun s' hs => Node.solutions_steady ho _ (Node.OrderFree.steady _ h) s' hs), .refl _, by simp⟩
  | .req s d r, h, _, _, _ => by
    simp only [Node.topSolutions]
    rw [← Node.solutions_eq hf hx ho ho' _ h]
    exact ⟨.self (fun s' hs => Node.solutions_steady ho _ (Node.OrderFree.steady _ h) s' hs), .refl _, by simp⟩
  | .prof s d c, h, _, _, _ => by
    simp only [Node.topSolutions]
    rw [← Node.solutions_eq hf hx ho ho' _ h]
    exact ⟨.self (fun s' hs => Node.solutions_steady ho _ (Node.OrderFree.steady _ h) s' hs), .refl _, by simp⟩
end

/-! ### The solutions of an area -/

theorem ClaimTable.alike_nil : ClaimTable.Alike [] [] := ⟨.refl _, by simp⟩

/-- the same solution of an area, up to the order in which courses are listed -/
def AreaSolution.Alike (s s' : AreaSolution) : Prop :=
  s.solution.Steady s'.solution ∧ s'.ctx = s.ctx ∧ s.claims.Alike s'.claims

theorem transcriptSolutions_alike {o o' : Orders} {a : Area} {st : Student} {es : List Exc} {tr : List Course}
    (h : Gen.Alike Node.Steady (a.result.topSolutions (areaCtx a st es tr) o []).1 (a.result.topSolutions (areaCtx a st es tr) o' []).1 ∧
      (a.result.topSolutions (areaCtx a st es tr) o []).2.Alike (a.result.topSolutions (areaCtx a st es tr) o' []).2) :
    Gen.Alike AreaSolution.Alike (transcriptSolutions o a st es [] tr).1 (transcriptSolutions o' a st es [] tr).1 ∧
      (((transcriptSolutions o a st es [] tr).1.err = none) → (transcriptSolutions o a st es [] tr).2 = [] ∧
        (transcriptSolutions o' a st es [] tr).2 = []) := by
  unfold transcriptSolutions
  dsimp only
  generalize hg : a.result.topSolutions (areaCtx a st es tr) o [] = g at h
  generalize hg' : a.result.topSolutions (areaCtx a st es tr) o' [] = g' at h
  obtain ⟨⟨is, err⟩, t⟩ := g
  obtain ⟨⟨is', err'⟩, t'⟩ := g'
  obtain ⟨⟨h1, h2⟩, h3⟩ := h
  dsimp only at h1 h2 h3
  cases h1 with
  | nil =>
    refine ⟨⟨.nil, h2⟩, fun he => ?_⟩
    dsimp only at he
    subst he
    have he' : err' = none := by simpa using h2.symm
    subst he'
    constructor
    · have := Node.top_silent (x := areaCtx a st es tr) (o := o) a.result [] (by rw [hg]) (by rw [hg])
      rw [hg] at this
      exact this
    · have := Node.top_silent (x := areaCtx a st es tr) (o := o') a.result [] (by rw [hg']) (by rw [hg'])
      rw [hg'] at this
      exact this
  | cons hs hss =>
    refine ⟨⟨.cons ⟨hs, rfl, h3⟩ ?_, h2⟩, fun _ => ⟨rfl, rfl⟩⟩
    rw [List.forall₂_map_left_iff, List.forall₂_map_right_iff]
    exact hss.imp (fun _ _ h => ⟨h, rfl, ClaimTable.alike_nil⟩)

theorem Gen.Alike.append_err {α β : Type} {R : α → β → Prop} {g : Gen α} {h : Gen β} (hgh : Gen.Alike R g h) (he : g.err ≠ none) {g₂ : Gen α}
    {h₂ : Gen β} : Gen.Alike R (g.append g₂) (h.append h₂) := by
  obtain ⟨is, err⟩ := g
  obtain ⟨is', err'⟩ := h
  obtain ⟨h1, h2⟩ := hgh
  dsimp only at h1 h2 he
  cases err with
  | none => exact absurd rfl he
  | some e =>
    have he' : err'.isSome = true := h2.symm
    obtain ⟨e', rfl⟩ := Option.isSome_iff_exists.1 he'
    exact ⟨h1, rfl⟩

theorem areaLoop_alike {o o' : Orders} {a : Area} {st : Student} {es : List Exc} {tail : Option Err} {trs : List (List Course)}
    (h : ∀ tr ∈ trs, Gen.Alike Node.Steady (a.result.topSolutions (areaCtx a st es tr) o []).1
        (a.result.topSolutions (areaCtx a st es tr) o' []).1 ∧
      (a.result.topSolutions (areaCtx a st es tr) o []).2.Alike (a.result.topSolutions (areaCtx a st es tr) o' []).2) :
    Gen.Alike AreaSolution.Alike (areaLoop o a st es tail trs []) (areaLoop o' a st es tail trs []) := by
  induction trs with
  | nil => exact ⟨.nil, rfl⟩
  | cons tr trs ih =>
    have e : ∀ o : Orders, areaLoop o a st es tail (tr :: trs) [] = (transcriptSolutions o a st es [] tr).1.append
      (areaLoop o a st es tail trs (transcriptSolutions o a st es [] tr).2) := fun o => rfl
    rw [e, e]
    obtain ⟨h1, h2⟩ := transcriptSolutions_alike (h tr List.mem_cons_self)
    have ih := ih (fun tr htr => h tr (List.mem_cons_of_mem _ htr))
    by_cases he : (transcriptSolutions o a st es [] tr).1.err = none
    · rw [(h2 he).1, (h2 he).2]
      exact h1.append ih
    · exact h1.append_err he

/-! ### The common requirements of majors -/

/-- a common requirement: nothing to audit, or a query that lists courses without claiming them -/
def CommonShape (n : Node) : Prop :=
  (∃ s d, n = .req s d none) ∨ ∃ s d s' q, n = .req s d (some (.query s' q)) ∧ q.source = .courses ∧ q.attemptClaims = false ∧
    q.limit = [] ∧ ∀ a ∈ q.assertions, a.All Assertion.OrderFree

theorem queryInsert_perm {x y : Ctx} (hx : x.Alike y) (d : QueryData) : ∀ (es : List Exc) {l m : List Item}, l.Perm m →
    ∀ ins force : List String, ExAlike (fun f g => f.data.Perm g.data ∧ g.inserted = f.inserted ∧ g.forceInserted = f.forceInserted)
      (queryInsert x d es ⟨l, ins, force⟩) (queryInsert y d es ⟨m, ins, force⟩)
  | [], l, m, h, ins, force => ⟨h, rfl, rfl⟩
  | e :: es, l, m, h, ins, force => by
    unfold queryInsert
    cases e.kind with
    | insertion k f =>
      dsimp only
      split
      · exact queryInsert_perm hx d es h _ _
      split
      · rw [← hx.forced k]
        cases x.forcedCourseByClbid k with
        | error e => trivial
        | ok c => exact queryInsert_perm hx d es (h.append_right _) _ _
      · rw [← hx.find k]
        exact queryInsert_perm hx d es (h.append_right _) _ _
    | _ => exact queryInsert_perm hx d es h _ _

theorem queryFiltered_perm {x y : Ctx} (hx : x.Alike y) (ht : x.transcript.Perm y.transcript) (hfail : x.withFailed = y.withFailed)
    {d : QueryData} (hd : d.source = .courses) :
    ExAlike (fun f g => f.data.Perm g.data ∧ g.inserted = f.inserted ∧ g.forceInserted = f.forceInserted)
      (queryFiltered x d) (queryFiltered y d) := by
  have hdata : (queryData x d).Perm (queryData y d) := by
    unfold queryData
    rw [hd, hfail]
    dsimp only
    split
    · exact .refl _
    · exact (ht.filter _).map _
  unfold queryFiltered
  rw [hd, ← hx.exceptions]
  simp only [true_or, if_true]
  cases d.where' with
  | none => exact queryInsert_perm hx d _ hdata _ _
  | some p =>
    dsimp only
    rcases (filterItems_perm p hdata).cases with ⟨e, e', h1, h2⟩ | ⟨l, m, h1, h2, h3⟩
    · rw [h1, h2]; trivial
    · rw [h1, h2]; exact queryInsert_perm hx d _ h3 _ _

theorem commonSolutions_alike {x y : Ctx} (hx : x.Alike y) (ht : x.transcript.Perm y.transcript) (hfail : x.withFailed = y.withFailed)
    {o o' : Orders} {n : Node} (h : CommonShape n) : Gen.Alike Node.Steady (n.solutions x o) (n.solutions y o') := by
  rcases h with ⟨s, d, rfl⟩ | ⟨s, d, s', q, rfl, h1, h2, h3, h4⟩
  · simp only [Node.solutions, hx.exceptions]
    split
    · exact .one ⟨rfl, rfl, trivial⟩
    · exact .one ⟨rfl, rfl, trivial⟩
  · have hq : q.Steady q := QueryData.steady_self (fun hc => by rw [h1] at hc; cases hc)
    simp only [Node.solutions, hx.exceptions]
    split
    · exact .one ⟨rfl, rfl, rfl, hq⟩
    simp only [Node.solutionsOpt, Node.solutions]
    suffices hs : Gen.Alike QueryData.Steady (querySolutions x o q) (querySolutions y o' q) by
      have hs' : Gen.Alike Node.Steady ((querySolutions x o q).map (.query .solution)) ((querySolutions y o' q).map (.query .solution)) :=
        Gen.Alike.map hs (fun a b hab => ⟨rfl, hab⟩)
      exact Gen.Alike.map hs' (fun a b hab => ⟨rfl, rfl, hab⟩)
    unfold querySolutions
    split
    · exact .one ⟨.refl _, fun _ _ => rfl, .inr h4⟩
    rcases (queryFiltered_perm hx ht hfail h1).cases with ⟨e, e', g1, g2⟩ | ⟨f, g, g1, g2, g3, g4, g5⟩
    · rw [g1, g2]; exact .raise _ _
    rw [g1, g2, h1]
    dsimp only
    rcases (itemCourses_perm g3).cases with ⟨e, e', g6, g7⟩ | ⟨cs, ds, g6, g7, g8⟩
    · rw [g6, g7]; exact .raise _ _
    rw [g6, g7]
    dsimp only
    have hst : ∀ l m : List Item, l.Perm m → (querySolution q l f.inserted f.forceInserted).Steady
        (querySolution q m g.inserted g.forceInserted) := fun l m hlm => by
      rw [g4, g5]
      exact ⟨⟨rfl, List.forall₂_same.2 (fun a _ => .refl a), hlm, .refl _⟩, fun _ ha => (by
        rw [show (querySolution q l f.inserted f.forceInserted).attemptClaims = q.attemptClaims from rfl, h2] at ha
        cases ha), .inr h4⟩
    refine Gen.Alike.orElse ?_ (.one (hst _ _ (.refl _)))
    simp only [queryCourseSolutions, limitedTranscripts, h3, if_true, h2, Bool.not_false]
    exact Gen.Alike.bind (S := List.Perm) (.one g8) (fun a b hab => .one (hst _ _ (hab.map _)))

theorem commonResult_alike {x y : Ctx} (hx : x.Alike y) (ht : x.transcript.Perm y.transcript) (hfail : x.withFailed = y.withFailed)
    {o o' : Orders} (ho : o.Lawful) (ho' : o'.Lawful) {n : Node} (h : CommonShape n) :
    ExAlike Node.Steady (commonResult x o n) (commonResult y o' n) := by
  unfold commonResult
  rcases (findBest_alike hx ho ho' (commonSolutions_alike hx ht hfail h)).cases with ⟨e, e', h1, h2⟩ | ⟨⟨b, t⟩, ⟨b', t'⟩, h1, h2, h3⟩
  · rw [h1, h2]; trivial
  rw [h1, h2]
  dsimp only at h3
  cases h3 with
  | none => trivial
  | some h3 => exact h3

theorem commonItems_alike {x y w : Ctx} (hx : x.Alike y) (ht : x.transcript.Perm y.transcript) (hfail : x.withFailed = y.withFailed)
    {o o' : Orders} (ho : o.Lawful) (ho' : o'.Lawful) {ns : List Node} (h : ∀ n ∈ ns, CommonShape n) :
    ExAlike (List.Forall₂ Node.Steady) (commonItems x w o ns) (commonItems y w o' ns) := by
  match ns, h with
  | [], _ => trivial
  | [_], _ => trivial
  | r0 :: r1 :: rest, h =>
    simp only [commonItems]
    rcases (commonResult_alike hx ht hfail ho ho' (h r0 (by simp))).cases with ⟨e, e', h1, h2⟩ | ⟨a0, b0, h1, h2, h3⟩
    · rw [h1, h2]; trivial
    rw [h1, h2]
    dsimp only
    rcases (commonResult_alike hx ht hfail ho ho' (h r1 (by simp))).cases with ⟨e, e', h4, h5⟩ | ⟨a1, b1, h4, h5, h6⟩
    · rw [h4, h5]; trivial
    rw [h4, h5]
    dsimp only
    match rest, h with
    | [], _ => exact .cons h3 (.cons h6 .nil)
    | r2 :: _, h =>
      dsimp only
      rcases (commonResult_alike (.refl w) (.refl _) rfl ho ho' (h r2 (by simp))).cases with ⟨e, e', h7, h8⟩ | ⟨a2, b2, h7, h8, h9⟩
      · rw [h7, h8]; trivial
      rw [h7, h8]
      exact .cons h3 (.cons h6 (.cons h9 .nil))

theorem find_perm {l m : List Course} (h : l.Perm m) (hu : ∀ c ∈ l, ∀ d ∈ l, c.clbid = d.clbid → c = d) (k : String) :
    l.find? (fun c => c.clbid == k) = m.find? (fun c => c.clbid == k) := by
  cases hl : l.find? (fun c => c.clbid == k) with
  | none =>
    rw [List.find?_eq_none] at hl
    symm
    rw [List.find?_eq_none]
    exact fun c hc => hl c (h.mem_iff.2 hc)
  | some c =>
    cases hm : m.find? (fun c => c.clbid == k) with
    | none =>
      rw [List.find?_eq_none] at hm
      exact absurd (List.find?_some hl) (hm c (h.mem_iff.1 (List.mem_of_find?_eq_some hl)))
    | some d =>
      have h1 := List.find?_some hl
      have h2 := List.find?_some hm
      simp only [beq_iff_eq] at h1 h2
      rw [hu c (List.mem_of_find?_eq_some hl) d (h.mem_iff.2 (List.mem_of_find?_eq_some hm)) (h1.trans h2.symm)]

theorem auditCommon_alike {o o' : Orders} (ho : o.Lawful) (ho' : o'.Lawful) {a : Area} (ha : ∀ n ∈ a.commonRules, CommonShape n) {x : Ctx}
    {r r' : Node} (h : r.Steady r') (hu : ∀ c ∈ r.matched, ∀ d ∈ r.matched, c.clbid = d.clbid → c = d) :
    ExAlike Node.Steady (auditCommon o a x r) (auditCommon o' a x r') := by
  have hm : (o.matched ["$"] r.matched).Perm (o'.matched ["$"] r'.matched) :=
    (ho.2.1 _ _).trans ((Node.Alike.matched_perm h.alike).trans (ho'.2.1 _ _).symm)
  have hmem : ∀ c ∈ (o.matched ["$"] r.matched).reverse, c ∈ r.matched := fun c hc =>
    (ho.2.1 _ _).mem_iff.1 (List.mem_reverse.1 hc)
  have hp := (List.reverse_perm (o.matched ["$"] r.matched)).trans (hm.trans (List.reverse_perm _).symm)
  have hfind := find_perm hp (fun c hc d hd => hu c (hmem c hc) d (hmem d hd))
  unfold auditCommon
  cases hc : a.commonRules with
  | nil => trivial
  | cons r0 rs =>
    dsimp only
    cases forcedCourses x ((getInsertExceptionsBeneath x.exceptions r0.path).filterMap Exc.insertClbid) with
    | error e => trivial
    | ok ins =>
      dsimp only
      rw [hc] at ha
      have hal : Ctx.Alike
          { x with withExcluded := [], withFailed := [], transcript := o.matched ["$"] r.matched, forced := ins.reverse.map (fun c => (c.clbid, c)) }
          { x with withExcluded := [], withFailed := [], transcript := o'.matched ["$"] r'.matched, forced := ins.reverse.map (fun c => (c.clbid, c)) } := by
        refine ⟨hfind, fun k => ?_, rfl, rfl, rfl⟩
        unfold Ctx.forcedCourseByClbid Ctx.findCourseByClbid
        dsimp only
        rw [hfind k]
        rfl
      rcases (commonItems_alike (w := { x with withExcluded := [], withFailed := [], forced := [], transcript := x.withExcluded })
        hal hm rfl ho ho' ha).cases with ⟨e, e', h1, h2⟩ | ⟨is, is', h1, h2, h3⟩
      · rw [h1, h2]; trivial
      rw [h1, h2]
      refine ⟨rfl, rfl, rfl, ?_, alikeList_iff.2 h3⟩
      refine ⟨⟨?_, .nil⟩, by simp⟩
      rw [h3.length_eq]

/-! ### Auditing a solution of an area -/

/-- the same result of an area, up to the order in which courses are listed -/
def AreaResult.Alike (r r' : AreaResult) : Prop := r'.kind = r.kind ∧ r.result.Steady r'.result ∧ r'.ctx = r.ctx

theorem areaAudit_alike {o o' : Orders} (ho : o.Lawful) (ho' : o'.Lawful) {a : Area}
    (ha : a.kind = "major" → ∀ n ∈ a.commonRules, CommonShape n) {s s' : AreaSolution} (h : s.Alike s')
    (hu : ∀ r t, s.solution.audit s.ctx o s.claims = .ok (r, t) → ∀ c ∈ r.matched, ∀ d ∈ r.matched, c.clbid = d.clbid → c = d) :
    ExAlike AreaResult.Alike (s.audit o a) (s'.audit o' a) := by
  obtain ⟨h1, h2, h3⟩ := h
  unfold AreaSolution.audit
  rw [h2]
  rcases (Node.audit_steady (.refl s.ctx) ho ho' _ _ _ _ h1 h3).cases with ⟨e, e', h4, h5⟩ | ⟨⟨r, t⟩, ⟨r', t'⟩, h4, h5, h6, h6'⟩
  · rw [h4, h5]; trivial
  rw [h4, h5]
  dsimp only at h6 ⊢
  split
  · rename_i hk
    rcases (auditCommon_alike ho ho' (ha hk) (x := s.ctx) h6 (hu r t h4)).cases with ⟨e, e', h7, h8⟩ | ⟨k, k', h7, h8, h9⟩
    · rw [h7, h8]; trivial
    rw [h7, h8]
    dsimp only
    cases r <;> cases r' <;> simp only [Node.Steady, Node.AlikeWith] at h6
    case count.count st d l st' d' l' =>
      obtain ⟨rfl, hd, hl⟩ := h6
      cases st
      case result =>
        refine ⟨rfl, ⟨rfl, ⟨⟨?_, hd.1.2⟩, hd.2⟩, ?_⟩, rfl⟩
        · rw [hd.1.1]
        · exact alikeList_iff.2 (List.rel_append (alikeList_iff.1 hl) (.cons h9 .nil))
      all_goals trivial
    all_goals trivial
  · exact ⟨rfl, h6, rfl⟩

theorem isWaived_alike {n n' : Node} (h : n.Alike n') : n'.isWaived = n.isWaived := by
  cases n <;> cases n' <;> simp only [Node.Alike, Node.AlikeWith] at h
  case query.query => simp only [Node.isWaived]; rw [h.2.1]
  case count.count => simp only [Node.isWaived]; rw [h.2.1.1]
  all_goals simp only [Node.isWaived, h]

/-- the path and the status of everything that was audited -/
def AreaResult.verdicts (r : AreaResult) : List (Path × Status) := r.result.within.map (fun n => (n.path, n.status))

/-- two results that tell the student the same: the same status, rank and average, the same path and status of everything audited, and the
same claims, in whatever order -/
def SameAnswer (r r' : AreaResult) : Prop :=
  r'.status = r.status ∧ r'.rank = r.rank ∧ r'.gpa = r.gpa ∧ r'.verdicts = r.verdicts ∧ r.claims.Perm r'.claims

/-- the same message, with the same answer -/
inductive SameMsg : Msg AreaResult → Msg AreaResult → Prop
  | estimate (n : Int) : SameMsg (.estimate n) (.estimate n)
  | noAudits : SameMsg .noAudits .noAudits
  | progress (rank : Rat) (best : Option Int) (iters total : Int) : SameMsg (.progress rank best iters total) (.progress rank best iters total)
  | result {r r' : AreaResult} (h : SameAnswer r r') (best : Option Int) (iters total : Int) :
      SameMsg (.result r best iters total) (.result r' best iters total)

theorem path_alike {n n' : Node} (h : n.Alike n') : n'.path = n.path := by
  cases n <;> cases n' <;> simp only [Node.Alike, Node.AlikeWith] at h
  case query.query => simp only [Node.path]; rw [h.2.1]
  case count.count => simp only [Node.path]; rw [h.2.1.1]
  all_goals simp only [Node.path, h]

mutual
theorem Node.within_alike : ∀ n n' : Node, n.Alike n' → List.Forall₂ Node.Alike n.within n'.within
  | .course s d, n', h => by
    cases n' <;> first | exact (show False from h).elim | exact .cons h .nil
  | .query s d, n', h => by
    cases n' <;> first | exact (show False from h).elim | exact .cons h .nil
  | .count s d l, n', h => by
    cases n' <;> first | exact (show False from h).elim | skip
    exact .cons h (Node.within_alikeList _ _ h.2.2)
  | .req s d r, n', h => by
    cases n' <;> first | exact (show False from h).elim | skip
    exact .cons h (Node.within_alikeOpt _ _ h.2.2)
  | .cond s d t f, n', h => by
    cases n' <;> first | exact (show False from h).elim | skip
    exact .cons h (List.rel_append (Node.within_alike _ _ h.2.2.1) (Node.within_alikeOpt _ _ h.2.2.2))
  | .prof s d c, n', h => by
    cases n' <;> first | exact (show False from h).elim | skip
    refine .cons h ?_
    have h' := h
    simp only [Node.Alike, Node.AlikeWith] at h'
    rw [h'.2.2]
    exact List.forall₂_same.2 (fun m hm => by
      obtain ⟨p, _, rfl⟩ := List.mem_map.1 hm
      exact ⟨rfl, rfl⟩)
theorem Node.within_alikeList : ∀ l l' : List Node, Node.AlikeWithList QueryData.Alike CountData.Alike l l' →
    List.Forall₂ Node.Alike (Node.withinList l) (Node.withinList l')
  | [], l', h => by
    cases l' with
    | nil => exact .nil
    | cons => exact absurd h (by simp [Node.AlikeWithList])
  | n :: l, l', h => by
    cases l' with
    | nil => exact absurd h (by simp [Node.AlikeWithList])
    | cons n' l' => exact List.rel_append (Node.within_alike _ _ h.1) (Node.within_alikeList _ _ h.2)
theorem Node.within_alikeOpt : ∀ l l' : Option Node, Node.AlikeWithOpt QueryData.Alike CountData.Alike l l' →
    List.Forall₂ Node.Alike (Node.withinOpt l) (Node.withinOpt l')
  | none, l', h => by
    cases l' with
    | none => exact .nil
    | some => exact absurd h (by simp [Node.AlikeWithOpt])
  | some n, l', h => by
    cases l' with
    | none => exact absurd h (by simp [Node.AlikeWithOpt])
    | some n' => exact Node.within_alike _ _ h
end

theorem AreaResult.Alike.same {r r' : AreaResult} (h : r.Alike r') : SameAnswer r r' := by
  obtain ⟨h1, h2, h3⟩ := h
  have ha := h2.alike
  refine ⟨?_, ?_, ?_, ?_, Node.claims_alike _ _ ha⟩
  · unfold AreaResult.status
    rw [isWaived_alike ha, Node.status_alike _ _ ha]
  · exact Node.rank_alike _ _ ha
  · unfold AreaResult.gpa
    rw [h1, h3]
    split
    · rfl
    · exact gradePointAverage_perm (matchedOf_perm (Node.gpaClaims_alike _ _ ha)).symm
  · unfold AreaResult.verdicts
    have hw := Node.within_alike _ _ ha
    generalize r.result.within = l, r'.result.within = l' at hw
    induction hw with
    | nil => rfl
    | cons h _ ih => simp only [List.map_cons, ih, path_alike h, Node.status_alike _ _ h]

/-- the same outcome of an audited solution -/
def OutcomeAlike (p q : Outcome AreaResult) : Prop := SameAnswer p.result q.result ∧ q.rank = p.rank ∧ q.status = p.status

theorem outcome_alike {o o' : Orders} {a : Area} {s s' : AreaSolution} (h : ExAlike AreaResult.Alike (s.audit o a) (s'.audit o' a)) :
    ExAlike OutcomeAlike (s.outcome o a) (s'.outcome o' a) := by
  unfold AreaSolution.outcome
  rcases h.cases with ⟨e, e', h1, h2⟩ | ⟨r, r', h1, h2, h3⟩
  · rw [h1, h2]; trivial
  rw [h1, h2]
  have hs := h3.same
  dsimp only
  rw [hs.2.1]
  cases r.rank with
  | error e => trivial
  | ok p => exact ⟨hs, rfl, hs.1⟩

/-! ### The run -/

/-- the same state of the run -/
def RunAlike (s s' : RunState AreaResult) : Prop :=
  s'.total = s.total ∧ s'.audited = s.audited ∧ s'.printedSome = s.printedSome ∧
    Option.Rel (fun b b' => SameAnswer b.1 b'.1 ∧ b'.2 = b.2) s.best s'.best

theorem runEnd_alike (args : Args) {s s' : RunState AreaResult} (h : RunAlike s s') : Gen.Alike SameMsg (runEnd args s) (runEnd args s') := by
  obtain ⟨total, audited, best, printed⟩ := s
  obtain ⟨total', audited', best', printed'⟩ := s'
  obtain ⟨h1, h2, h3, h4⟩ := h
  dsimp only at h1 h2 h3 h4
  subst h1 h2 h3
  cases h4 with
  | none => exact .one .noAudits
  | @some b b' hb =>
    obtain ⟨r, rank, i⟩ := b
    obtain ⟨r', rank', i'⟩ := b'
    obtain ⟨hb, hb'⟩ := hb
    cases hb'
    simp only [runEnd]
    split
    · exact .nil
    · exact .one (.result hb _ _ _)

theorem betterOf_alike {b b' : Option (AreaResult × Rat × Int)} (h : Option.Rel (fun b b' => SameAnswer b.1 b'.1 ∧ b'.2 = b.2) b b')
    {out out' : Outcome AreaResult} (ho : OutcomeAlike out out') (n : Int) :
    SameAnswer (betterOf b out n).1 (betterOf b' out' n).1 ∧ (betterOf b' out' n).2 = (betterOf b out n).2 := by
  cases h with
  | none => exact ⟨ho.1, by simp [betterOf, ho.2.1]⟩
  | @some b b' hb =>
    simp only [betterOf, ho.2.1, hb.2]
    split
    · exact ⟨ho.1, rfl⟩
    · exact hb

theorem runLoop_alike (args : Args) {tail tail' : Option Err} (ht : tail.isSome = tail'.isSome) {sols sols' : List (Except Err (Outcome AreaResult))}
    (h : List.Forall₂ (ExAlike OutcomeAlike) sols sols') {s s' : RunState AreaResult} (hs : RunAlike s s') :
    Gen.Alike SameMsg (runLoop args tail sols s) (runLoop args tail' sols' s') := by
  induction h generalizing s s' with
  | nil =>
    unfold runLoop
    cases tail with
    | none =>
      have : tail' = none := by simpa using ht.symm
      subst this
      exact runEnd_alike args hs
    | some e =>
      obtain ⟨e', rfl⟩ := Option.isSome_iff_exists.1 (show tail'.isSome = true from ht.symm)
      exact .raise _ _
  | @cons sol sol' sols sols' hsol _ ih =>
    unfold runLoop
    dsimp only
    obtain ⟨h1, h2, h3, h4⟩ := hs
    rw [h1, h2, h3]
    split
    · exact ih ⟨rfl, rfl, rfl, h4⟩
    split
    · exact .raise _ _
    split
    · exact ih ⟨rfl, rfl, rfl, h4⟩
    rcases hsol.cases with ⟨e, e', h5, h6⟩ | ⟨out, out', h5, h6, h7⟩
    · rw [h5, h6]; exact .raise _ _
    rw [h5, h6]
    dsimp only
    rw [h7.2.2, h7.2.1]
    have hb := betterOf_alike h4 h7 (s.total + 1)
    split
    · exact runEnd_alike args ⟨rfl, rfl, rfl, .some ⟨h7.1, rfl⟩⟩
    split
    · exact .raise _ _
    rw [hb.2]
    have hs' : RunAlike ⟨s.total + 1, s.audited + 1, some (betterOf s.best out (s.total + 1)), s.printedSome || args.printOnly.contains (s.total + 1)⟩
        ⟨s.total + 1, s.audited + 1, some (betterOf s'.best out' (s.total + 1)), s.printedSome || args.printOnly.contains (s.total + 1)⟩ :=
      ⟨rfl, rfl, rfl, .some hb⟩
    refine Gen.Alike.append ?_ (Gen.Alike.append ?_ ?_)
    · split
      · exact .one (.progress _ _ _ _)
      · exact .nil
    · split
      · exact .one (.result h7.1 _ _ _)
      · exact .nil
    · split
      · exact runEnd_alike args hs'
      · exact ih hs'

theorem runAudit_alike (args : Args) {e : Except Err Int} {sols sols' : Gen (Except Err (Outcome AreaResult))}
    (h : Gen.Alike (ExAlike OutcomeAlike) sols sols') : Gen.Alike SameMsg (runAudit args e sols) (runAudit args e sols') := by
  unfold runAudit
  cases e with
  | error e => exact .raise _ _
  | ok n =>
    refine Gen.Alike.append (.one (.estimate n)) ?_
    split
    · exact .nil
    · exact runLoop_alike args h.2 h.1 ⟨rfl, rfl, rfl, .none⟩

/-! ### Whole areas -/

mutual
theorem Node.topChildren_live : ∀ n : Node, ∀ i ∈ n.topChildren, i.liveLeaves ⊆ n.liveLeaves
  | .count _ _ items, i, hi => by
    intro l hl
    simp only [Node.topChildren] at hi
    simp only [Node.liveLeaves]
    exact Node.mem_liveLeavesList.2 ⟨i, hi, hl⟩
  | .cond _ d t f, i, hi => by
    intro l hl
    simp only [Node.topChildren] at hi
    simp only [Node.liveLeaves]
    cases hc : d.condition with
    | none => rw [hc] at hi; simp at hi
    | some b =>
      rw [hc] at hi
      cases b with
      | true => exact Node.topChildren_live t i hi hl
      | false =>
        cases f with
        | none => simp [Node.topChildrenOpt] at hi
        | some f => exact Node.topChildren_live f i hi hl
  | .course _ _, i, hi => by simp [Node.topChildren] at hi
  | .query _ _, i, hi => by simp [Node.topChildren] at hi
  | .req _ _ _, i, hi => by simp [Node.topChildren] at hi
  | .prof _ _ _, i, hi => by simp [Node.topChildren] at hi
end

theorem forall₂_mem {α β : Type} {R : α → β → Prop} {l : List α} {m : List β} (h : List.Forall₂ R l m) :
    List.Forall₂ (fun a b => R a b ∧ a ∈ l ∧ b ∈ m) l m := by
  induction h with
  | nil => exact .nil
  | cons h _ ih => exact .cons ⟨h, by simp, by simp⟩ (ih.imp fun a b h => ⟨h.1, by simp [h.2.1], by simp [h.2.2]⟩)

theorem Node.topChildren_loaded {x : Ctx} : ∀ n : Node, n.Loaded x → ∀ i ∈ n.topChildren, i.Loaded x
  | .count _ _ items, hl, i, hi => by
    simp only [Node.topChildren] at hi
    exact Node.within_loaded _ i hl (by
      simp only [Node.within, List.mem_cons]
      exact .inr (Node.mem_withinList.2 ⟨i, hi, Node.self_within i⟩))
  | .cond _ d t f, hl, i, hi => by
    simp only [Node.topChildren] at hi
    simp only [Node.Loaded] at hl
    cases hc : d.condition with
    | none => rw [hc] at hi; simp at hi
    | some b =>
      rw [hc] at hi
      cases b with
      | true => exact Node.topChildren_loaded t hl.2.2.1 i hi
      | false =>
        cases f with
        | none => simp [Node.topChildrenOpt] at hi
        | some f => exact Node.topChildren_loaded f hl.2.2.2 i hi
  | .course _ _, hl, i, hi => by simp [Node.topChildren] at hi
  | .query _ _, hl, i, hi => by simp [Node.topChildren] at hi
  | .req _ _ _, hl, i, hi => by simp [Node.topChildren] at hi
  | .prof _ _ _, hl, i, hi => by simp [Node.topChildren] at hi

/-- the conditions on an area under which nothing in it depends on the order of a set -/
structure Area.OrderFree (a : Area) : Prop where
  rules : ∀ m ∈ a.result.within, m.OrderFree
  limits : a.limit.Nodup ∧ ∀ l ∈ a.limit, l.what = .courses
  disjoint : HonestFlags a.result.topChildren
  failed : ∀ l ∈ a.result.liveLeaves, l.ClaimsForItself → l.SkipsFailed

theorem area_topAlike {o o' : Orders} (ho : o.Lawful) (ho' : o'.Lawful) {a : Area} {st : Student} {es : List Exc}
    (hl : a.result.Loaded { exceptions := groupExceptions es }) (hfl : ∀ l ∈ a.result.leaves, l.LoadedFlags)
    (hp : a.result.allPaths.Nodup) (hcan : ∀ p ∈ a.result.allPaths, CanonicalPath p) (hfree : a.OrderFree)
    (hone : ∀ c ∈ st.courses ++ st.coursesWithFailed, ∀ d ∈ st.courses ++ st.coursesWithFailed, c.clbid = d.clbid → c = d)
    (hnd : (st.courses.map (·.clbid)).Nodup) {tr : List Course}
    (htr : tr ∈ (limitedTranscripts (o.limit []) a.limit st.courses (forcedClbids es)).items) :
    (Gen.Alike Node.Steady (a.result.topSolutions (areaCtx a st es tr) o []).1 (a.result.topSolutions (areaCtx a st es tr) o' []).1 ∧
      (a.result.topSolutions (areaCtx a st es tr) o []).2.Alike (a.result.topSolutions (areaCtx a st es tr) o' []).2) ∧
    a.result.topEstimate (areaCtx a st es tr) o = a.result.topEstimate (areaCtx a st es tr) o' := by
  obtain ⟨h1, h2⟩ := C10_only_input_courses _ (ho.1 []) _ _ _ _ htr
  have h2 := h2 (Or.inr (List.Nodup.of_map _ hnd))
  have hx : (areaCtx a st es tr).OneEach := by
    have key : ∀ c, (areaCtx a st es tr).Knows c → c ∈ st.courses ++ st.coursesWithFailed := by
      intro c hc
      rcases hc with hc | hc | ⟨k, hc⟩
      · exact List.mem_append_left _ (h1 c hc)
      · exact List.mem_append_right _ hc
      · simp only [areaCtx, List.mem_map, List.mem_reverse, List.mem_filter] at hc
        obtain ⟨c', ⟨hc', _⟩, he⟩ := hc
        cases he
        exact List.mem_append_left _ hc'
    exact fun c d hc hd => hone c (key c hc) d (key d hd)
  have hf := areaCtx_forcedOk a st es tr
  have hin : ∀ e ∈ (areaCtx a st es tr).forced, e.2 ∈ (areaCtx a st es tr).transcript := by
    intro e he
    simp only [areaCtx, List.mem_map, List.mem_reverse, List.mem_filter, List.contains_eq_mem, decide_eq_true_eq] at he
    obtain ⟨c, ⟨hc, hcf⟩, rfl⟩ := he
    exact C10_unlimited_courses_kept _ (ho.1 []) _ _ _ _ htr c hc (.inl hcf)
  refine ⟨Node.topSolutions_alike hf hx ho ho' a.result hfree.rules ?_ (hp.sublist (Node.topChildren_paths _)) ?_,
    Node.topEstimate_eq hf hx ho ho' a.result hfree.rules⟩
  · intro i hi
    exact hcan _ ((Node.topChildren_paths a.result).subset (List.mem_map_of_mem hi))
  · refine undisputed hf (clbids_nodup_of_subset hnd h2 h1) hin (es := es) rfl ho ?_ ?_ ?_ hfree.disjoint
    · exact Node.topChildren_loaded _
        (Node.loaded_congr (x := { exceptions := groupExceptions es }) (y := areaCtx a st es tr) rfl _ hl)
    · exact fun i hi l hl => hfl l (Node.liveLeaves_subset _ (Node.topChildren_live _ i hi hl))
    · exact fun i hi l hl => hfree.failed l (Node.topChildren_live _ i hi hl)

theorem area_sameRun {o o' : Orders} (ho : o.Lawful) (ho' : o'.Lawful) {a : Area} {st : Student} {es : List Exc}
    (hl : a.result.Loaded { exceptions := groupExceptions es }) (hfl : ∀ l ∈ a.result.leaves, l.LoadedFlags)
    (hfr : a.result.Fresh es) (hcommon : a.kind = "major" → ∀ n ∈ a.commonRules, CommonShape n)
    (hp : a.result.allPaths.Nodup) (hcan : ∀ p ∈ a.result.allPaths, CanonicalPath p) (hfree : a.OrderFree)
    (hone : ∀ c ∈ st.courses ++ st.coursesWithFailed, ∀ d ∈ st.courses ++ st.coursesWithFailed, c.clbid = d.clbid → c = d)
    (hnd : (st.courses.map (·.clbid)).Nodup) (args : Args) :
    Gen.Alike SameMsg (auditArea o a st es args) (auditArea o' a st es args) := by
  have hlim := C45_order_independent_partial (o.limit []) (o'.limit []) (ho.1 []) (ho'.1 []) a.limit hfree.limits.1 hfree.limits.2
    st.courses (forcedClbids es) (fun c hc d hd => hone c (by simp [hc]) d (by simp [hd]))
  have htop := fun tr htr => area_topAlike (tr := tr) ho ho' hl hfl hp hcan hfree hone hnd htr
  have hest : a.estimate o' st es = a.estimate o st es := by
    unfold Area.estimate
    dsimp only
    rw [← hlim]
    have : (limitedTranscripts (o.limit []) a.limit st.courses (forcedClbids es)).items.map
          (fun tr => a.result.topEstimate (areaCtx a st es tr) o') =
        (limitedTranscripts (o.limit []) a.limit st.courses (forcedClbids es)).items.map
          (fun tr => a.result.topEstimate (areaCtx a st es tr) o) :=
      List.map_congr_left (fun tr htr => (htop tr htr).2.symm)
    rw [this]
  have hsol : Gen.Alike AreaSolution.Alike (a.solutions o st es) (a.solutions o' st es) := by
    unfold Area.solutions
    dsimp only
    rw [← hlim]
    exact areaLoop_alike (fun tr htr => (htop tr htr).1)
  unfold auditArea
  rw [hest]
  refine runAudit_alike args ?_
  have hsol' : Gen.Alike (fun s s' => s.Alike s' ∧ s ∈ (a.solutions o st es).items ∧ s' ∈ (a.solutions o' st es).items)
      (a.solutions o st es) (a.solutions o' st es) := ⟨forall₂_mem hsol.1, hsol.2⟩
  refine hsol'.map (fun s s' hs => outcome_alike (areaAudit_alike ho ho' hcommon hs.1 ?_))
  intro r t hr
  obtain ⟨tr, htr, t0, hctx, hmem⟩ := Area.solutions_mem hs.2.1
  rw [hctx] at hr
  have hb : Becomes (areaCtx a st es tr) o a.result r :=
    Node.topOutcomes (areaCtx a st es tr) o ho es rfl a.result
      (Node.loaded_congr (x := { exceptions := groupExceptions es }) (y := areaCtx a st es tr) rfl _ hl) t0 _ hmem _ _ _ hr
  have honly := Node.only (areaCtx_forcedOk a st es tr)
    (areaCtx_only (a := a) (es := es) (C10_only_input_courses _ (ho.1 []) _ _ _ _ htr).1) ho rfl a.result hfr r hb
  have key : ∀ c ∈ r.matched, c ∈ st.courses ++ st.coursesWithFailed := by
    intro c hc
    simp only [Node.matched, matchedOf, List.mem_dedup, List.mem_map, List.mem_filter] at hc
    obtain ⟨k, ⟨hk, _⟩, rfl⟩ := hc
    exact List.mem_append.2 (honly k hk)
  exact fun c hc d hd => hone c (key c hc) d (key d hd)

/-! ### Loaded areas -/

theorem loadCommon_shape {env : Env} {name m : String} {w : Dict} {action op : String} {k : Int} {i : Nat} {n : Node}
    (h : loadCommon env name (commonSpec m (commonQuery (.map w) action op k)) i = .ok n) (hkey : action ∉ orderedKeys) : CommonShape n := by
  obtain ⟨body, rd, r, hb, rfl, hpath, _, _, hau, _, _, hsome⟩ := loadCommon_inv h
  cases hb
  obtain ⟨own, r', rfl, hbuilt⟩ := hsome _ rfl
  obtain ⟨d, rfl, hl⟩ := hbuilt.query_inv rfl
  obtain ⟨src, pr, lim, as, allow, failed, h1, h2, h3, h4, _, h5, _, _, _, h6, h7, hq⟩ := loadQuery_inv hl
  cases h1
  have hsrc : d.source = .courses := (Option.some.inj (h2.symm.trans (by decide : parseSource "courses" = some .courses)))
  rw [hsrc] at h3 h5
  cases h4
  unfold loadQueryAssertions at h5
  have hget : Dict.get? [("from", Y.str "courses"), ("allow_claimed", .bool true), ("claim", .bool false), ("where", .map w),
      ("assert", clause action op (.int k))] "assert" = some (clause action op (.int k)) := rfl
  rw [hget] at h5
  simp only [ld_bind_ok] at h5
  obtain ⟨a', ha, h5⟩ := h5
  cases h5
  have ha' : ∃ a, loadSingle env.ctx env.c .course
      (["$", "%Common Requirements", ".count", indexSeg i, "%" ++ name] ++ [".query"] ++ [".assertions", "[0]"])
      (.map [("assert", clause action op (.int k))]) = .ok a ∧ a' = .single a := by
    unfold loadAnyAssertion at ha
    simp only [ld_bind_ok, ld_asDict] at ha
    obtain ⟨data, hd, ha⟩ := ha
    cases hd
    rw [if_neg (by simp [Dict.has, Dict.get?])] at ha
    unfold loadAssertion at ha
    simp only [ld_bind_ok, ld_asDict] at ha
    obtain ⟨data, hd, ha⟩ := ha
    cases hd
    rw [if_neg (by simp [Dict.has, Dict.get?])] at ha
    simp only [ld_bind_ok] at ha
    obtain ⟨a, ha, h⟩ := ha
    cases h
    exact ⟨a, ha, rfl⟩
  clear ha
  obtain ⟨a, ha, rfl⟩ := ha'
  obtain ⟨data, key, dd, op', raw, changes, written, changed, wh, atMost, treat, g1, g2, _, g3, _, _, g4, g5, g6, g7, g8, g9, g10, _,
    g11⟩ := loadSingle_inv ha
  cases g1
  cases g2
  refine .inr ⟨_, rd, _, d, rfl, hsrc, ?_, ?_, ?_⟩
  · rw [hq]; rfl
  · rw [hq]
  · rw [hq]
    intro b hb
    simp only [List.mem_singleton] at hb
    subst hb
    intro _
    rw [g11]
    exact hkey

theorem prepareCommonRules_shape {env : Env} {degree dept : Option String} {others : List AreaPointer} {code : String}
    {rules : List Node} (h : prepareCommonRules env degree dept others code = .ok rules) : ∀ n ∈ rules, CommonShape n := by
  have k1 : "sum(credits)" ∉ orderedKeys := by decide
  have k2 : "count(courses)" ∉ orderedKeys := by decide
  unfold prepareCommonRules at h
  simp only [ld_bind_ok] at h
  obtain ⟨r0, h0, r1, h1, h⟩ := h
  have c0 : CommonShape r0 := loadCommon_shape h0 k1
  have c1 : CommonShape r1 := by
    unfold suSpec at h1
    split at h1
    · exact loadCommon_shape h1 k2
    · exact loadCommon_shape h1 k2
  split at h
  · cases h
    simp [c0, c1]
  · simp only [ld_bind_ok] at h
    obtain ⟨r2, h2, h⟩ := h
    cases h
    have c2 : CommonShape r2 := by
      cases dept with
      | none =>
        obtain ⟨body, rd, r, hb, rfl, _, _, _, _, _, hnone, _⟩ := loadCommon_inv h2
        cases hb
        rw [hnone rfl]
        exact .inl ⟨_, _, rfl⟩
      | some dept =>
        simp only [outsideSpec] at h2
        repeat' split at h2
        all_goals exact loadCommon_shape h2 k1
    simp [c0, c1, c2]

/-- **C74** (partial): an area read from any text and audited for any student gives the same messages with the same answers in every
run, in whatever order the interpreter visits its sets: the same estimate, the same number of solutions considered and the same best
one; and in every reported result the same status, rank, average, the same path and status of everything audited, and the same claims.
The orders of the two runs, `o` and `o'`, are any two.  Missing: measures that look at one course per name, subject, term or year; limits
in credits; parts declared disjoint that do claim; claiming queries that list failed courses, for all of which the claim is false or open
(`C74_tie_refuted`, `C74_credit_limit_refuted`). -/
theorem C74_same_answer_partial (c : Constants) (templates : List (String × TemplateCourse)) (st : Student) (es : List Exc) (all : Bool)
    (spec : Dict) (a : Area) (hload : loadArea c templates st es all spec = .ok a) (htidy : TidyText st all spec) (hfree : a.OrderFree)
    (hone : ∀ c ∈ st.courses ++ st.coursesWithFailed, ∀ d ∈ st.courses ++ st.coursesWithFailed, c.clbid = d.clbid → c = d)
    (hnd : (st.courses.map (·.clbid)).Nodup) (args : Args) (o o' : Orders) (ho : o.Lawful) (ho' : o'.Lawful) :
    List.Forall₂ SameMsg (auditArea o a st es args).items (auditArea o' a st es args).items ∧
      ((auditArea o a st es args).err = none ↔ (auditArea o' a st es args).err = none) := by
  have hc : ∀ n ∈ a.commonRules, CommonShape n := by
    obtain ⟨_, _, _, _, rule, _, _, _, _, _, _, hb, hres, ⟨degree, _, hcm⟩, _⟩ := loadArea_inv hload
    exact prepareCommonRules_shape hcm
  obtain ⟨h1, h2⟩ := area_sameRun ho ho' (loadArea_loaded hload).1 (loadArea_loaded hload).2 (loadArea_fresh hload).1 (fun _ => hc)
    (loadArea_nodup hload htidy) (fun p hp => (loadArea_canonical hload p hp).2) hfree hone hnd args
  refine ⟨h1, ?_⟩
  rw [← Option.isNone_iff_eq_none, ← Option.isNone_iff_eq_none]
  simp only [← Option.not_isSome, h2]

/-! ### Where it fails -/

/-- the interpreter visits sets of courses the other way round -/
def Orders.backwards : Orders := ⟨fun _ => ⟨fun _ l => l.reverse, fun _ l => l⟩, fun _ l => l.reverse, fun l => l⟩

theorem Orders.insertion_lawful : Orders.insertion.Lawful := ⟨fun _ _ _ => ⟨.refl _, .refl _⟩, fun _ _ => .refl _, fun _ => .refl _⟩
theorem Orders.backwards_lawful : Orders.backwards.Lawful :=
  ⟨fun _ _ l => ⟨List.reverse_perm l, .refl _⟩, fun _ l => List.reverse_perm l, fun _ => .refl _⟩

/-- the status of the reported results of an area, from its text -/
def reportedStatuses (o : Orders) (st : Student) (spec : Dict) : Option (List Status) :=
  match loadArea {} [] st [] false spec with
  | .ok a => some ((auditArea o a st [] {}).items.filterMap (fun m => match m with
      | .result r _ _ _ => some r.status
      | _ => none))
  | .error _ => none

/-- a concentration that asks for four dance courses, and for two terms of the course taken most often -/
def danceText : Dict :=
  [("name", .str "Dance"), ("type", .str "concentration"), ("code", .str "901"),
   ("result", .map [("all", .list [.map [("from", .str "courses"), ("where", .map [("subject", .map [("$eq", .str "DANCE")])]),
        ("assert", .map [("count(courses)", .map [("$gte", .int 4)])])]]),
      ("audit", .map [("from", .str "claimed"), ("assert", .map [("count(terms_from_most_common_course)", .map [("$gte", .int 2)])])])])]

/-- two terms of one course, and two sections of another in one term -/
def danceTaken : Student :=
  { sampleStudent with courses := [
      { clbid := "1", crsid := "A", identity := "DANCE 104", subject := "DANCE", year := 2015, term := "1" },
      { clbid := "2", crsid := "A", identity := "DANCE 104", subject := "DANCE", year := 2016, term := "1" },
      { clbid := "3", crsid := "B", identity := "DANCE 107", subject := "DANCE", year := 2015, term := "1" },
      { clbid := "4", crsid := "B", identity := "DANCE 107", subject := "DANCE", year := 2015, term := "1" }] }

/-- Without its conditions, C74 is false: when two courses have been taken equally often, whether a concentration is complete depends on the
order in which the interpreter visits a set of courses, which is another one in every process. -/
theorem C74_tie_refuted : reportedStatuses .insertion danceTaken danceText = some [.done] ∧
    reportedStatuses .backwards danceTaken danceText = some [.needsMoreItems] := by
  decide +kernel

/-- a concentration in which at most one credit of computer science counts -/
def limitedText : Dict :=
  [("name", .str "Media"), ("type", .str "concentration"), ("code", .str "902"),
   ("limit", .list [.map [("where", .map [("subject", .map [("$eq", .str "CSCI")])]), ("at_most", .str "1 credit")]]),
   ("result", .map [("from", .str "courses"), ("where", .map [("subject", .map [("$eq", .str "CSCI")])]),
        ("assert", .map [("count(courses)", .map [("$gte", .int 2)])])])]

/-- a course and its laboratory, which carries no credits -/
def limitedTaken : Student :=
  { sampleStudent with courses := [
      { clbid := "1", crsid := "A", identity := "CSCI 121", subject := "CSCI", credits := 0 },
      { clbid := "2", crsid := "B", identity := "CSCI 121", subject := "CSCI", credits := 1 }] }

/-- Nor does it hold with limits in credits: the same student is reported as complete in one run, and not audited at all in another. -/
theorem C74_credit_limit_refuted : reportedStatuses .insertion limitedTaken limitedText = some [.done] ∧
    reportedStatuses .backwards limitedTaken limitedText = some [] := by
  decide +kernel

/-! ### A non-trivial case -/

/-- a concentration with a limit, a course, a query and a condition on all claimed courses -/
def freeText : Dict :=
  [("name", .str "Statistics"), ("type", .str "concentration"), ("code", .str "903"),
   ("limit", .list [.map [("where", .map [("subject", .map [("$eq", .str "CSCI")])]), ("at_most", .int 3)]]),
   ("result", .map [("all", .list [.map [("course", .str "CSCI 121")],
        .map [("from", .str "courses"), ("where", .map [("subject", .map [("$eq", .str "CSCI")])]),
          ("assert", .map [("count(courses)", .map [("$gte", .int 2)])])]]),
      ("audit", .map [("from", .str "claimed"), ("assert", .map [("sum(credits)", .map [("$gte", .int 3)])])])])]

/-- what its condition on all claimed courses asks for, as loaded -/
def freeThree : Assertion :=
  { path := ["$", ".count", ".audit", "[0]", ".assert"], dataType := .course, key := "sum(credits)", op := .gte, expected := 3 }

/-- what its query asks for, as loaded -/
def freeTwo : Assertion :=
  { path := ["$", ".count", "[1]", ".query", ".assertions", "[0]", ".assert"], dataType := .course, key := "count(courses)", op := .gte,
    expected := 2 }

/-- its query, as loaded -/
def freeQuery : QueryData :=
  { path := ["$", ".count", "[1]", ".query"], source := .courses, dataType := .course, assertions := [.single freeTwo],
    where' := some (.leaf { key := "subject", op := .eq, expected := .sc (.str "CSCI") }), excluded := ["1"] }

/-- its rule, as loaded -/
def freeRule : Node := .count .rule
  { path := ["$", ".count"], count := 2,
    audits := [.single freeThree] } [
  apartItem ["$", ".count", "[0]"] "CSCI 121",
  .query .rule freeQuery]

set_option maxRecDepth 100000 in
theorem free_loaded : (loadArea {} [] sampleTaken [] false freeText).map (fun a => (a.result, a.limit)) =
    .ok (freeRule, [{ atMost := 3, what := .courses, where' := .leaf { key := "subject", op := .eq, expected := .sc (.str "CSCI") } }]) := by
  rfl

set_option maxRecDepth 100000 in
/-- The hypotheses of `C74_same_answer_partial` for `freeText`. -/
example : ∃ a : Area, loadArea {} [] sampleTaken [] false freeText = .ok a ∧ TidyText sampleTaken false freeText ∧ a.OrderFree ∧
    (∀ c ∈ sampleTaken.courses ++ sampleTaken.coursesWithFailed, ∀ d ∈ sampleTaken.courses ++ sampleTaken.coursesWithFailed,
      c.clbid = d.clbid → c = d) ∧ (sampleTaken.courses.map (·.clbid)).Nodup ∧
    reportedStatuses .insertion sampleTaken freeText = some [.done] ∧ reportedStatuses .backwards sampleTaken freeText = some [.done] := by
  have h := free_loaded
  cases hl : loadArea {} [] sampleTaken [] false freeText with
  | error e => rw [hl] at h; cases h
  | ok a =>
    rw [hl] at h
    have ha : (a.result, a.limit) = _ := Except.ok.inj h
    injection ha with h1 h2
    refine ⟨a, rfl, ?_, ⟨?_, ?_, ?_, ?_⟩, by decide +kernel, by decide, by decide +kernel, by decide +kernel⟩
    · refine ⟨by simp [freeText, Y.CleanDict, Y.Clean, Y.CleanList], ?_⟩
      intro emphases declared h1 h2
      have h1' : Dict.dict freeText "emphases" = .ok [] := rfl
      rw [h1'] at h1
      cases h1
      have h2' : declaredEmphases sampleTaken [] false = .ok [] := rfl
      rw [h2'] at h2
      cases h2
      simp
    · rw [h1]
      intro m hm
      simp only [freeRule, apartItem, Node.within, Node.withinList, List.mem_cons, List.mem_append, List.not_mem_nil, or_false] at hm
      rcases hm with rfl | rfl | rfl
      · intro b hb
        simp only [List.mem_singleton] at hb
        subst hb
        intro _
        decide
      · trivial
      · exact ⟨⟨by simp [freeQuery], by simp [freeQuery]⟩, by simp [freeQuery]⟩
    · rw [h2]; exact ⟨by simp, by simp⟩
    · rw [h1]
      intro i hi hd
      simp only [freeRule, Node.topChildren, List.mem_cons, List.not_mem_nil, or_false] at hi
      rcases hi with rfl | rfl <;> cases hd
    · rw [h1]
      intro l hl
      simp only [freeRule, apartItem, Node.liveLeaves, Node.liveLeavesList, List.mem_append, List.mem_cons, List.not_mem_nil, or_false] at hl
      rcases hl with rfl | rfl <;> exact fun _ => (by first | trivial | rfl)

end Dp
