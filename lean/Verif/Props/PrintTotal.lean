import Verif.Props.Print
import Verif.Props.Waits
import Verif.Props.TextEach

/-
When the report of a result can be printed (C70).
-/
namespace Dp

/-! ### Specification -/

/-- A dictionary of an area file that a report has no trouble with: no `$not` in its filter, a proficiency names a course
that can stand for it, and a count does not say `at_most: true`. -/
def PrintableDict (d : Dict) : Prop :=
  (∀ (w : Y) (e : Dict), d.get? "where" = some w → Occurs e w → e.get? "$not" = none) ∧
  (∀ y, d.get? "proficiency" = some y → d.get? "course" ≠ none) ∧
  (d.get? "at_most" = some (.bool true) → ∀ k ∈ ["count", "all", "any", "both", "either"], d.get? k = none)

/-- all dictionaries of the text are such -/
def PrintableText (y : Y) : Prop := ∀ d, Occurs d y → PrintableDict d

/-! ### Printing what has been audited -/

mutual
/-- a filter without `$not` -/
def Pred.NoNot : Pred → Prop
  | .leaf _ => True
  | .or ps => Pred.NoNotList ps
  | .and ps => Pred.NoNotList ps
  | .not _ => False
  | .cond _ t f => t.NoNot ∧ Pred.NoNotOpt f
/-- filters without `$not` -/
def Pred.NoNotList : List Pred → Prop
  | [] => True
  | p :: ps => p.NoNot ∧ Pred.NoNotList ps
/-- an optional filter without `$not` -/
def Pred.NoNotOpt : Option Pred → Prop
  | none => True
  | some p => p.NoNot
end

theorem Pred.noNotList_iff {ps : List Pred} : Pred.NoNotList ps ↔ ∀ p ∈ ps, p.NoNot := by
  induction ps with
  | nil => simp [Pred.NoNotList]
  | cons p ps ih => simp [Pred.NoNotList, ih]

mutual
theorem strPredicate_ok (S : Shows) : ∀ (p : Pred) (b : Bool), p.NoNot → ∃ t, strPredicate S b p = .ok t
  | .leaf _, b, _ => ⟨_, by rw [strPredicate]⟩
  | .or ps, b, h => by
    simp only [Pred.NoNot] at h
    obtain ⟨ts, hts⟩ := strPredicates_ok S ps h
    exact ⟨_, by rw [strPredicate, hts]⟩
  | .and ps, b, h => by
    simp only [Pred.NoNot] at h
    obtain ⟨ts, hts⟩ := strPredicates_ok S ps h
    exact ⟨_, by rw [strPredicate, hts]⟩
  | .not _, b, h => by simp [Pred.NoNot] at h
  | .cond r t f, b, h => by
    simp only [Pred.NoNot] at h
    obtain ⟨t1, h1⟩ := strPredicate_ok S t false h.1
    obtain ⟨t2, h2⟩ := strElse_ok S f h.2
    exact ⟨_, by rw [strPredicate, h1]; dsimp only; rw [h2]⟩
theorem strPredicates_ok (S : Shows) : ∀ (ps : List Pred), Pred.NoNotList ps → ∃ ts, strPredicates S ps = .ok ts
  | [], _ => ⟨_, by rw [strPredicates]⟩
  | p :: ps, h => by
    simp only [Pred.NoNotList] at h
    obtain ⟨t, h1⟩ := strPredicate_ok S p true h.1
    obtain ⟨ts, h2⟩ := strPredicates_ok S ps h.2
    exact ⟨t :: ts, by rw [strPredicates, h1]; dsimp only; rw [h2]⟩
theorem strElse_ok (S : Shows) : ∀ (f : Option Pred), Pred.NoNotOpt f → ∃ t, strElse S f = .ok t
  | none, _ => ⟨_, by rw [strElse]⟩
  | some p, h => by
    simp only [Pred.NoNotOpt] at h
    rw [strElse]
    exact strPredicate_ok S p false h
end

/-- an assertion that can be printed: no `$not`, and only classes that are known -/
def Assertion.Prints (K : String → Prop) (a : Assertion) : Prop :=
  (∀ w, a.where' = some w → w.NoNot) ∧ ∀ k ∈ a.resolvedClbids, K k

/-- a part of a result that can be printed -/
def PrintsAt (K : String → Prop) : Node → Prop
  | .query _ d => (∀ w, d.where' = some w → w.NoNot) ∧ (∀ l ∈ d.limit, l.where'.NoNot) ∧
      ∀ b ∈ d.assertions, ∀ a ∈ b.branches, a.Prints K
  | .count _ d _ => (∀ b ∈ d.audits, ∀ a ∈ b.branches, a.Prints K) ∧ d.atMost = false
  | .prof _ _ c => c.isSome = true
  | _ => True

theorem printLimits_ok (S : Shows) (pre : String) : ∀ ls : List Limit, (∀ l ∈ ls, l.where'.NoNot) → ∃ t, printLimits S pre ls = .ok t
  | [], _ => ⟨_, rfl⟩
  | l :: ls, h => by
    obtain ⟨t1, h1⟩ := strPredicate_ok S l.where' false (h l List.mem_cons_self)
    obtain ⟨t2, h2⟩ := printLimits_ok S pre ls (fun l hl => h l (List.mem_cons_of_mem _ hl))
    exact ⟨_, by rw [printLimits, h1]; dsimp only; rw [h2]⟩

section Totality
variable (S : Shows) (p : PrintOpts) (tr : List Course) {K : String → Prop} (hK : ∀ k, K k → ∃ c, courseFor tr k = some c)
include hK

theorem printResolved_ok (pre : String) (inserted : List String) (a : Assertion) :
    ∀ ks : List String, (∀ k ∈ ks, K k) → ∃ t, printResolved S tr pre inserted a ks = .ok t
  | [], _ => ⟨_, rfl⟩
  | k :: ks, h => by
    obtain ⟨c, hc⟩ := hK k (h k List.mem_cons_self)
    obtain ⟨t2, h2⟩ := printResolved_ok pre inserted a ks (fun l hl => h l (List.mem_cons_of_mem _ hl))
    exact ⟨_, by rw [printResolved, hc]; dsimp only; rw [h2]⟩

theorem printAssertion_ok (indent : Nat) (inserted : List String) (a : Assertion) (h : a.Prints K) :
    ∃ t, printAssertion S p tr indent inserted a = .ok t := by
  obtain ⟨h1, h2⟩ := h
  unfold printAssertion
  dsimp only
  obtain ⟨rs, hrs⟩ := printResolved_ok S tr hK (blanks indent ++ blanks 6) inserted a (a.resolvedClbids.insertionSort (· ≤ ·))
    (fun k hk => h2 k ((List.perm_insertionSort _ _).mem_iff.1 hk))
  cases hw : a.where' with
  | none =>
    dsimp only
    split
    · exact ⟨_, rfl⟩
    · rw [hrs]; exact ⟨_, rfl⟩
  | some w =>
    obtain ⟨t, ht⟩ := strPredicate_ok S w false (h1 w hw)
    dsimp only
    rw [ht]
    dsimp only
    split
    · exact ⟨_, rfl⟩
    · rw [hrs]; exact ⟨_, rfl⟩

theorem printBranches_ok (indent : Nat) (inserted : List String) (whole : AnyAssertion) (path : Path) (result : Option Bool)
    (t : Assertion) (f : Option Assertion) (ht : t.Prints K) (hf : ∀ a ∈ f, a.Prints K) :
    ∃ l, printBranches S p tr indent inserted whole path result t f = .ok l := by
  obtain ⟨t1, h1⟩ := printAssertion_ok S p tr hK (indent + 4) inserted t ht
  unfold printBranches
  rw [h1]
  dsimp only
  cases f with
  | none => exact ⟨_, rfl⟩
  | some f =>
    obtain ⟨t2, h2⟩ := printAssertion_ok S p tr hK (indent + 4) inserted f (hf f rfl)
    dsimp only
    rw [h2]
    exact ⟨_, rfl⟩

theorem printAssertions_ok (indent : Nat) (inserted : List String) : ∀ bs : List AnyAssertion,
    (∀ b ∈ bs, ∀ a ∈ b.branches, a.Prints K) → ∃ t, printAssertions S p tr indent inserted bs = .ok t
  | [], _ => ⟨_, rfl⟩
  | b :: bs, h => by
    obtain ⟨t2, h2⟩ := printAssertions_ok indent inserted bs (fun b hb => h b (List.mem_cons_of_mem _ hb))
    have h1 : ∃ t, printAnyAssertion S p tr indent inserted b = .ok t := by
      have hb := h b List.mem_cons_self
      unfold printAnyAssertion
      cases b with
      | single a => exact printAssertion_ok S p tr hK indent inserted a (hb a (by simp [AnyAssertion.branches]))
      | cond c t f =>
        exact printBranches_ok S p tr hK indent inserted _ _ _ t f (hb t (by simp [AnyAssertion.branches]))
          (fun a ha => hb a (by simp [AnyAssertion.branches]; exact .inr ha))
      | dyn c r t =>
        exact printBranches_ok S p tr hK indent inserted _ _ _ t none (hb t (by simp [AnyAssertion.branches])) (by simp)
    obtain ⟨t1, h1⟩ := h1
    exact ⟨_, by rw [printAssertions, h1]; dsimp only; rw [h2]⟩

omit hK in
theorem prints_rank {n : Node} (h : ∀ m ∈ n.within, PrintsAt K m) : ∃ q, n.rank = .ok q := by
  refine n.rank_ok (fun k hk hn => ?_)
  have key : ∀ {n k : Node}, Within k n → NoRank k → k ∈ n.within := by
    intro n k hk hn
    induction hk with
    | here => exact Node.self_within _
    | count hi _ ih => simp only [Node.within, List.mem_cons, Node.mem_withinList]; exact .inr ⟨_, hi, ih hn⟩
    | req _ ih => simp only [Node.within, List.mem_cons, Node.withinOpt]; exact .inr (ih hn)
    | thenBranch _ ih => simp only [Node.within, List.mem_cons, List.mem_append]; exact .inr (.inl (ih hn))
    | elseBranch _ ih => simp only [Node.within, List.mem_cons, List.mem_append, Node.withinOpt]; exact .inr (.inr (ih hn))
  have := h k (key hk hn)
  cases k <;> simp only [NoRank] at hn
  rw [this.2] at hn
  simp at hn

mutual
theorem Node.print_ok : ∀ (n : Node) (p : PrintOpts) (i : Nat), (∀ m ∈ n.within, PrintsAt K m) → ∃ l, n.print S p tr i = .ok l
  | .course s d, p, i, _ => ⟨_, by rw [Node.print]⟩
  | .query s d, p, i, h => by
    obtain ⟨h1, h2, h3⟩ := h _ (Node.self_within _)
    obtain ⟨ls, hls⟩ := printLimits_ok S (blanks i ++ " ") d.limit h2
    obtain ⟨as, has⟩ := printAssertions_ok S p tr hK (i + 4) d.inserted d.assertions h3
    rw [Node.print]
    unfold printQuery
    dsimp only
    rw [hls, has]
    cases hw : d.where' with
    | none => exact ⟨_, rfl⟩
    | some w =>
      obtain ⟨t, ht⟩ := strPredicate_ok S w false (h1 w hw)
      dsimp only
      rw [ht]
      exact ⟨_, rfl⟩
  | .prof s d c, p, i, h => by
    have := h _ (Node.self_within _)
    rw [Node.print]
    unfold printProf
    cases c with
    | none => simp [PrintsAt] at this
    | some c => exact ⟨_, rfl⟩
  | .count s d items, p, i, h => by
    obtain ⟨q, hq⟩ := prints_rank h
    obtain ⟨ls, hls⟩ := Node.printList_ok items p (i + 4) (decide (items.length ≠ 2)) (fun m hm => h m (by simp [Node.within, hm]))
    obtain ⟨as, has⟩ := printAssertions_ok S p tr hK (i + 4) [] d.audits (h _ (Node.self_within _)).1
    rw [Node.print, hq]
    dsimp only
    unfold printCountHead
    dsimp only
    rw [has, hls]
    split
    · rename_i hh; split at hh <;> cases hh
    · exact ⟨_, rfl⟩
  | .req s d r, p, i, h => by
    obtain ⟨q, hq⟩ := prints_rank h
    obtain ⟨ls, hls⟩ := Node.printOpt_ok r p (i + 4) (fun m hm => h m (by simp [Node.within, hm]))
    rw [Node.print]
    split
    · exact ⟨_, rfl⟩
    rw [hq]
    dsimp only
    split
    · exact ⟨_, rfl⟩
    rw [hls]
    exact ⟨_, rfl⟩
  | .cond s d t f, p, i, h => by
    obtain ⟨q, hq⟩ := prints_rank h
    obtain ⟨l1, h1⟩ := Node.print_ok t { p with onlyPath := [] } (i + 4) (fun m hm => h m (by simp [Node.within, hm]))
    obtain ⟨l2, h2⟩ := Node.printOpt_ok f { p with onlyPath := [] } (i + 4) (fun m hm => h m (by simp [Node.within, hm]))
    exact ⟨_, by rw [Node.print, hq]; dsimp only; rw [h1]; dsimp only; rw [h2]⟩
theorem Node.printList_ok : ∀ (ns : List Node) (p : PrintOpts) (i : Nat) (g : Bool), (∀ m ∈ Node.withinList ns, PrintsAt K m) →
    ∃ l, Node.printList S p tr i g ns = .ok l
  | [], p, i, g, _ => ⟨_, by rw [Node.printList]⟩
  | n :: ns, p, i, g, h => by
    obtain ⟨l1, h1⟩ := Node.print_ok n p i (fun m hm => h m (by simp [Node.withinList, hm]))
    obtain ⟨l2, h2⟩ := Node.printList_ok ns p i g (fun m hm => h m (by simp [Node.withinList, hm]))
    exact ⟨_, by rw [Node.printList, h1]; dsimp only; rw [h2]⟩
theorem Node.printOpt_ok : ∀ (r : Option Node) (p : PrintOpts) (i : Nat), (∀ m ∈ Node.withinOpt r, PrintsAt K m) →
    ∃ l, Node.printOpt S p tr i r = .ok l
  | none, p, i, _ => ⟨_, by rw [Node.printOpt]⟩
  | some n, p, i, h => by
    rw [Node.printOpt]
    exact Node.print_ok n p i h
end

theorem printClaimed_ok (name : String) : ∀ t : List (String × List Path), (∀ e ∈ t, K e.1) → ∃ l, printClaimed S name tr t = .ok l
  | [], _ => ⟨_, rfl⟩
  | (k, ps) :: rest, h => by
    obtain ⟨c, hc⟩ := hK k (h (k, ps) List.mem_cons_self)
    obtain ⟨l, hl⟩ := printClaimed_ok name rest (fun e he => h e (List.mem_cons_of_mem _ he))
    exact ⟨_, by rw [printClaimed, hc]; dsimp only; rw [hl]⟩

omit hK S tr p in
mutual
theorem Node.dict_ok : ∀ n : Node, (∀ m ∈ n.within, PrintsAt K m) → n.dict = .ok ()
  | .course _ _, _ => by rw [Node.dict]
  | .query _ _, _ => by rw [Node.dict]
  | .prof _ _ _, _ => by rw [Node.dict]
  | .count s d items, h => by
    obtain ⟨q, hq⟩ := prints_rank h
    rw [Node.dict, hq]
    exact Node.dictList_ok items (fun m hm => h m (by simp [Node.within, hm]))
  | .req s d r, h => by
    obtain ⟨q, hq⟩ := prints_rank h
    rw [Node.dict, hq]
    exact Node.dictOpt_ok r (fun m hm => h m (by simp [Node.within, hm]))
  | .cond s d t f, h => by
    obtain ⟨q, hq⟩ := prints_rank h
    rw [Node.dict, hq]
    dsimp only
    rw [Node.dict_ok t (fun m hm => h m (by simp [Node.within, hm]))]
    exact Node.dictOpt_ok f (fun m hm => h m (by simp [Node.within, hm]))
theorem Node.dictList_ok : ∀ ns : List Node, (∀ m ∈ Node.withinList ns, PrintsAt K m) → Node.dictList ns = .ok ()
  | [], _ => by rw [Node.dictList]
  | n :: ns, h => by
    rw [Node.dictList, Node.dict_ok n (fun m hm => h m (by simp [Node.withinList, hm]))]
    exact Node.dictList_ok ns (fun m hm => h m (by simp [Node.withinList, hm]))
theorem Node.dictOpt_ok : ∀ r : Option Node, (∀ m ∈ Node.withinOpt r, PrintsAt K m) → Node.dictOpt r = .ok ()
  | none, _ => by rw [Node.dictOpt]
  | some n, h => by rw [Node.dictOpt]; exact Node.dict_ok n h
end

end Totality

/-! ### Auditing -/

theorem applyAreas_courses {key : String} {is : List Item} {r : Applied} (h : applyAreas key is = .ok r) : r.courses = [] := by
  unfold applyAreas at h
  repeat' split at h
  all_goals first | (cases h; done) | (cases h; rfl)

theorem applyItems_courses {key : String} {is : List Item} {r : Applied} (h : applyItems key is = .ok r) : r.courses = [] := by
  unfold applyItems at h
  repeat' split at h
  all_goals first | (cases h; done) | (cases h; rfl)

theorem Assertion.audit_prints {x : Ctx} {es : List Exc} (hes : x.exceptions = groupExceptions es) {P : Course → Prop}
    (hx : x.ForcedOk) (hP : x.Only P) {t : DataType} {a a' : Assertion} (ha : a.Fresh es t) {K : String → Prop}
    (hK : ∀ c, P c → K c.clbid) (hp : a.Prints K) {is : List Item} (his : ∀ c, .course c ∈ is → P c)
    (h : a.audit x is = .ok a') : a'.Prints K := by
  unfold Assertion.audit at h
  split at h
  · cases h; exact hp
  dsimp only at h
  split at h
  · cases h
  rename_i f hf
  split at h
  · cases h
  rename_i out ins hins
  split at h
  · cases h
  rename_i out' hblk
  split at h
  · cases h
  rename_i s r hr
  cases h
  refine ⟨hp.1, ?_⟩
  have hsub := (selectsItems_of hf).subset
  have honly := (measuredOn_of hes hins hblk).1.only
  intro k hk
  obtain ⟨c, hc, rfl⟩ := List.mem_map.1 hk
  refine hK c ?_
  unfold Assertion.evaluate at hr
  split at hr
  · split at hr
    · cases hr
    rename_i cs hcs
    obtain ⟨_, h2, _⟩ := evaluateCourses_says ha.comparison hr
    have : Item.course c ∈ out' := by rw [itemCourses_eq hcs]; exact List.mem_map_of_mem (h2 c hc)
    rcases honly _ this with h | ⟨e, _, _, k, f, c', _, hk, _, hcc⟩
    · exact his c (hsub _ h)
    · cases hcc; exact hP.lookup hx hk
  all_goals
    split at hr
    · cases hr
    rename_i r0 hr0
    have h0 : r0.courses = [] := by first | exact applyAreas_courses hr0 | exact applyItems_courses hr0
    unfold evaluatePlain at hr
    split at hr
    · cases hr
    all_goals
      cases hr
      rw [h0] at hc
      cases hc

theorem AnyAssertion.audit_prints {x : Ctx} {es : List Exc} (hes : x.exceptions = groupExceptions es) {P : Course → Prop}
    (hx : x.ForcedOk) (hP : x.Only P) {t : DataType} {b b' : AnyAssertion} (hb : b.Fresh es t) {K : String → Prop}
    (hK : ∀ c, P c → K c.clbid) (hp : ∀ a ∈ b.branches, a.Prints K) {is : List Item} (his : ∀ c, .course c ∈ is → P c)
    (h : b.audit x is = .ok b') : ∀ a ∈ b'.branches, a.Prints K := by
  have key : ∀ a a', a ∈ b.branches → a.audit x is = .ok a' → a'.Prints K := fun a a' h1 h2 =>
    Assertion.audit_prints hes hx hP (hb.branches a h1) hK (hp a h1) his h2
  unfold AnyAssertion.audit at h
  split at h
  · split at h
    · cases h
    rename_i a' ha'
    cases h
    intro a ha
    rw [List.mem_singleton.1 ha]
    exact key _ _ (by simp [AnyAssertion.branches]) ha'
  · split at h
    · cases h
    rename_i a' ha'
    cases h
    intro a ha
    rcases List.mem_cons.1 ha with rfl | ha
    · exact key _ _ (by simp [AnyAssertion.branches]) ha'
    · exact hp a (by simp only [AnyAssertion.branches, List.mem_cons]; exact .inr ha)
  · split at h
    · cases h
    rename_i a' ha'
    cases h
    intro a ha
    rcases List.mem_cons.1 ha with rfl | ha
    · exact hp _ (by simp [AnyAssertion.branches])
    · rw [List.mem_singleton.1 ha]
      exact key _ _ (by simp [AnyAssertion.branches]) ha'
  · cases h; exact hp
  · cases h
  · split at h
    · cases h
    split at h
    · split at h
      · cases h
      rename_i a' ha'
      cases h
      intro a ha
      rw [List.mem_singleton.1 ha]
      exact key _ _ (by simp [AnyAssertion.branches]) ha'
    · cases h; exact hp

theorem assertions_print {x : Ctx} {es : List Exc} (hes : x.exceptions = groupExceptions es) {P : Course → Prop}
    (hx : x.ForcedOk) (hP : x.Only P) {t : DataType} {bs bs' : List AnyAssertion} (hbs : ∀ b ∈ bs, b.Fresh es t) {K : String → Prop}
    (hK : ∀ c, P c → K c.clbid) (hp : ∀ b ∈ bs, ∀ a ∈ b.branches, a.Prints K) {is : List Item} (his : ∀ c, .course c ∈ is → P c)
    (h : auditAssertions x is bs = .ok bs') : ∀ b ∈ bs', ∀ a ∈ b.branches, a.Prints K := by
  intro b' hb'
  obtain ⟨b, hb, hbb⟩ := forall₂_mem_left (auditAssertions_forall₂ h).flip hb'
  exact AnyAssertion.audit_prints hes hx hP (hbs b hb) hK (hp b hb) his hbb

theorem query_prints {x : Ctx} (hx : x.ForcedOk) {P : Course → Prop} (hP : x.Only P) {o : Orders} (ho : o.Lawful) {es : List Exc}
    (hes : x.exceptions = groupExceptions es) {K : String → Prop} (hK : ∀ c, P c → K c.clbid) {st : Stage} {d s r : QueryData}
    {t t' : ClaimTable} (hf : FreshAt es (.query st d)) (hp : PrintsAt K (.query st d)) (hs : s ∈ (querySolutions x o d).items)
    (ha : queryAudit x s t = .ok (r, t')) : PrintsAt K (.query .result r) := by
  obtain ⟨hw, hi, hfi, hsu, hfr⟩ := hf
  obtain ⟨p1, p2, p3⟩ := hp
  rcases querySolutions_cases ho hs with ⟨hov, rfl⟩ | ⟨hov, f, _, out, hse, _⟩
  · unfold queryAudit at ha
    rw [if_pos (by exact hov)] at ha
    obtain ⟨rfl, rfl⟩ := Prod.mk.inj (Except.ok.inj ha)
    exact ⟨p1, p2, p3⟩
  have hso : s.overridden = false := by rw [hse]; exact hov
  have hsa : s.assertions = d.assertions := by rw [hse]; rfl
  have hsw : s.where' = d.where' := by rw [hse]; rfl
  have hsl : s.limit = d.limit := by rw [hse]; rfl
  unfold queryAudit at ha
  rw [if_neg (by simp [hso])] at ha
  split at ha
  · cases ha
  rename_i col t2 hcol
  dsimp only at ha
  split at ha
  · cases ha
  rename_i as has
  obtain ⟨rfl, rfl⟩ := Prod.mk.inj (Except.ok.inj ha)
  have hc := (query_considers (rd := { s with assertions := as, successful := col.successful, failed := col.failed })
    hx ho hes hov hi hs hcol rfl rfl).only hx hP
  refine ⟨by rw [← hsw] at p1; exact p1, by rw [← hsl] at p2; exact p2, ?_⟩
  rw [hsa] at has
  split at has
  · cases has; exact p3
  · exact assertions_print hes hx hP hfr hK p3 hc has

theorem printsAt_course {K : String → Prop} {s : Stage} {d : CourseData} : ∀ m ∈ (Node.course s d).within, PrintsAt K m := by
  intro m hm
  rw [Node.within, List.mem_singleton] at hm
  subst hm
  exact trivial

theorem printsAt_prof {K : String → Prop} {s : Stage} {d : ProfData} {c : Option (Stage × CourseData)} (h : c.isSome = true) :
    ∀ m ∈ (Node.prof s d c).within, PrintsAt K m := by
  intro m hm
  rw [Node.within, List.mem_cons, List.mem_map] at hm
  rcases hm with rfl | ⟨q, _, rfl⟩
  · exact h
  · exact trivial

mutual
theorem Node.becomes_prints {x : Ctx} (hx : x.ForcedOk) {P : Course → Prop} (hP : x.Only P) {o : Orders} (ho : o.Lawful)
    {es : List Exc} (hes : x.exceptions = groupExceptions es) {K : String → Prop} (hK : ∀ c, P c → K c.clbid) :
    ∀ n : Node, n.Fresh es → (∀ m ∈ n.within, PrintsAt K m) → ∀ r, Becomes x o n r → ∀ m ∈ r.within, PrintsAt K m
  | .course st d, hf, hp, r, hb => by
    cases hb with
    | rule => exact hp
    | course hs ha => exact printsAt_course
  | .query st d, hf, hp, r, hb => by
    cases hb with
    | rule => exact hp
    | query hs ha =>
      intro m hm
      rw [Node.within, List.mem_singleton] at hm
      subst hm
      exact query_prints hx hP ho hes hK (hf _ (Node.self_within _)) (hp _ (Node.self_within _)) hs ha
  | .count st d items, hf, hp, r, hb => by
    have hself := hf _ (Node.self_within _)
    have pself := hp _ (Node.self_within _)
    have ih := Node.becomes_printsList hx hP ho hes hK items (fun m hm => hf m (by simp [Node.within, hm]))
      (fun m hm => hp m (by simp [Node.within, hm]))
    cases hb with
    | rule => exact hp
    | countWaived _ =>
      intro m hm
      rw [Node.within, List.mem_cons] at hm
      rcases hm with rfl | hm
      · exact pself
      · exact hp m (by simp [Node.within, hm])
    | @count _ _ _ rs as f h1 h2 hperm has =>
      intro m hm
      rw [Node.within, List.mem_cons, Node.mem_withinList] at hm
      rcases hm with rfl | ⟨r, hr, hm⟩
      · refine ⟨assertions_print hes hx hP hself.2 hK pself.1 ?_ has, pself.2⟩
        intro c hc
        simp only [matchedItems, List.mem_flatMap, List.mem_map, Item.course.injEq, exists_eq_right] at hc
        obtain ⟨r, hr, hc⟩ := hc
        have hc := (ho.2.1 r.path r.matched).mem_iff.1 hc
        simp only [Node.matched, matchedOf, List.mem_dedup, List.mem_map, List.mem_filter] at hc
        obtain ⟨k, ⟨hk, _⟩, rfl⟩ := hc
        exact Node.onlyList hx hP ho hes items (fun m hm => hf m (by simp [Node.within, hm])) _ (h1 r hr) r (h2 r hr) k hk
      · exact ih _ (h1 r hr) r (h2 r hr) m hm
  | .req st d c, hf, hp, r, hb => by
    have ih := Node.becomes_printsOpt hx hP ho hes hK c (fun m hm => hf m (by simp [Node.within, hm]))
      (fun m hm => hp m (by simp [Node.within, hm]))
    cases hb with
    | rule => exact hp
    | reqWaived _ =>
      intro m hm
      rw [Node.within, List.mem_cons] at hm
      rcases hm with rfl | hm
      · exact trivial
      · exact hp m (by simp [Node.within, hm])
    | reqNone =>
      intro m hm
      rw [Node.within, List.mem_cons] at hm
      rcases hm with rfl | hm
      · exact trivial
      · simp [Node.withinOpt] at hm
    | req h =>
      intro m hm
      rw [Node.within, List.mem_cons, Node.withinOpt] at hm
      rcases hm with rfl | hm
      · exact trivial
      · exact ih _ rfl _ h m hm
  | .cond st d t f, hf, hp, r, hb => by
    have iht := Node.becomes_prints hx hP ho hes hK t (fun m hm => hf m (by simp [Node.within, hm]))
      (fun m hm => hp m (by simp [Node.within, hm]))
    have ihf := Node.becomes_printsOpt hx hP ho hes hK f (fun m hm => hf m (by simp [Node.within, hm]))
      (fun m hm => hp m (by simp [Node.within, hm]))
    cases hb with
    | rule => exact hp
    | condTrue h hb =>
      intro m hm
      rw [Node.within, List.mem_cons, List.mem_append] at hm
      rcases hm with rfl | hm | hm
      · exact trivial
      · exact iht _ hb m hm
      · exact hp m (by simp [Node.within, hm])
    | condFalse h hb =>
      intro m hm
      rw [Node.within, List.mem_cons, List.mem_append] at hm
      rcases hm with rfl | hm | hm
      · exact trivial
      · exact hp m (by simp [Node.within, hm])
      · exact ihf _ rfl _ hb m hm
  | .prof st d c, hf, hp, r, hb => by
    have pself : c.isSome = true := hp _ (Node.self_within _)
    cases hb with
    | rule => exact hp
    | profWaived h => exact printsAt_prof pself
    | profNone h => simp at pself
    | prof h hs ha => exact printsAt_prof rfl
theorem Node.becomes_printsList {x : Ctx} (hx : x.ForcedOk) {P : Course → Prop} (hP : x.Only P) {o : Orders} (ho : o.Lawful)
    {es : List Exc} (hes : x.exceptions = groupExceptions es) {K : String → Prop} (hK : ∀ c, P c → K c.clbid) :
    ∀ ns : List Node, (∀ m ∈ Node.withinList ns, FreshAt es m) → (∀ m ∈ Node.withinList ns, PrintsAt K m) →
      ∀ n ∈ ns, ∀ r, Becomes x o n r → ∀ m ∈ r.within, PrintsAt K m
  | [], _, _ => by simp
  | n :: ns, hr, hp => by
    have h1 := Node.becomes_prints hx hP ho hes hK n (fun m hm => hr m (by simp [Node.withinList, hm]))
      (fun m hm => hp m (by simp [Node.withinList, hm]))
    have h2 := Node.becomes_printsList hx hP ho hes hK ns (fun m hm => hr m (by simp [Node.withinList, hm]))
      (fun m hm => hp m (by simp [Node.withinList, hm]))
    intro i hi
    rcases List.mem_cons.1 hi with rfl | hi
    · exact h1
    · exact h2 i hi
theorem Node.becomes_printsOpt {x : Ctx} (hx : x.ForcedOk) {P : Course → Prop} (hP : x.Only P) {o : Orders} (ho : o.Lawful)
    {es : List Exc} (hes : x.exceptions = groupExceptions es) {K : String → Prop} (hK : ∀ c, P c → K c.clbid) :
    ∀ c : Option Node, (∀ m ∈ Node.withinOpt c, FreshAt es m) → (∀ m ∈ Node.withinOpt c, PrintsAt K m) →
      ∀ n, c = some n → ∀ r, Becomes x o n r → ∀ m ∈ r.within, PrintsAt K m
  | none, _, _ => by simp
  | some n, hr, hp => by
    have h1 := Node.becomes_prints hx hP ho hes hK n hr hp
    rintro _ h
    cases h
    exact h1
end

/-! ### Loading -/

theorem mapE_each {α β : Type} {f : α → Except Err β} {R : β → Prop} {l : List α} {r : List β} (h : mapE f l = .ok r)
    (hf : ∀ a ∈ l, ∀ b, f a = .ok b → R b) : ∀ b ∈ r, R b := by
  intro b hb
  obtain ⟨a, ha, hab⟩ := ld_mapE_mem h b hb
  exact hf a ha b hab

/-- a filter whose text has no `$not` -/
theorem loadPred_noNot {x : Ctx} {c : Constants} {mode : DataType} : ∀ (n : Nat) (y : Y) (q : Pred),
    loadPred x c mode n y = .ok q → (∀ e, Occurs e y → e.get? "$not" = none) → q.NoNot
  | 0, _, _, h, _ => by cases h
  | n + 1, y, q, h, hno => by
    have list : ∀ {k : String} {d : Dict} {v : Y} {l : List Y} {ps : List Pred}, (∀ e, Occurs e (.map d) → e.get? "$not" = none) →
        d.get? k = some v → v = .list l → mapE (loadPred x c mode n) l = .ok ps → Pred.NoNotList ps := by
      intro k d v l ps hd hk hv hps
      subst hv
      rw [Pred.noNotList_iff]
      exact mapE_each hps (fun y hy q hq => loadPred_noNot n y q hq (fun e he => hd e (.entry (get_mem hk) (.item hy he))))
    simp only [loadPred, ld_bind_ok, ld_asDict] at h
    obtain ⟨d, rfl, h⟩ := h
    split at h
    · simp only [ld_bind_ok, ld_need, ld_asList] at h
      obtain ⟨_, _, v, hv, l, hl, ps, hps, _, _, h⟩ := h
      cases h
      rw [Pred.NoNot]
      exact list hno hv hl hps
    split at h
    · simp only [ld_bind_ok, ld_need, ld_asList] at h
      obtain ⟨_, _, v, hv, l, hl, ps, hps, _, _, h⟩ := h
      cases h
      rw [Pred.NoNot]
      exact list hno hv hl hps
    split at h
    · simp only [ld_bind_ok, ld_need] at h
      obtain ⟨_, _, v, hv, _⟩ := h
      have := hno d .here
      rw [this] at hv
      cases hv
    split at h
    · simp only [ld_bind_ok, ld_need] at h
      obtain ⟨_, _, b, _, yt, hyt, t, ht, e, he, h⟩ := h
      cases h
      rw [Pred.NoNot]
      refine ⟨loadPred_noNot n yt t ht (fun e he => hno e (.entry (get_mem hyt) he)), ?_⟩
      split at he
      · cases he; rw [Pred.NoNotOpt]; trivial
      · rename_i ye hye
        rw [ld_map_ok] at he
        obtain ⟨f, hf, rfl⟩ := he
        rw [Pred.NoNotOpt]
        exact loadPred_noNot n ye f hf (fun e he => hno e (.entry (get_mem (Dict.opt_get hye)) he))
    · simp only [ld_bind_ok] at h
      obtain ⟨ls, _, h⟩ := h
      split at h
      · cases h; rw [Pred.NoNot]; trivial
      · cases h
        rw [Pred.NoNot, Pred.noNotList_iff]
        intro q hq
        obtain ⟨l, _, rfl⟩ := List.mem_map.1 hq
        rw [Pred.NoNot]; trivial

theorem loadOptFilter_noNot {x : Ctx} {c : Constants} {mode : DataType} {d : Dict} {o : Option Pred} (hd : PrintableDict d)
    (h : loadOptFilter x c mode (d.opt "where") = .ok o) : ∀ w, o = some w → w.NoNot := by
  rintro w rfl
  unfold loadOptFilter at h
  split at h
  · cases h
  · rename_i y hy
    rw [ld_map_ok] at h
    obtain ⟨q, hq, h⟩ := h
    cases h
    exact loadPred_noNot _ _ _ hq (fun e he => hd.1 y e (Dict.opt_get hy) he)

theorem loadLimits_noNot {x : Ctx} {c : Constants} {d : Dict} {k : String} {ls : List Limit} (hd : Throughout PrintableDict (.map d))
    (h : loadLimits x c (d.opt k) = .ok ls) : ∀ l ∈ ls, l.where'.NoNot := by
  unfold loadLimits at h
  split at h
  · cases h; simp
  · rename_i v hv
    simp only [ld_bind_ok, ld_asList] at h
    obtain ⟨l, rfl, h⟩ := h
    have hl := hd.get (Dict.opt_get hv)
    refine mapE_each h (fun y hy q hq => ?_)
    unfold loadLimit at hq
    simp only [ld_bind_ok, ld_asDict, ld_need] at hq
    obtain ⟨e, rfl, _, _, _, _, yw, hyw, w, hw, _, _, _, _, hq⟩ := hq
    cases hq
    exact loadPred_noNot _ _ _ hw (fun f hf => (hl.mem hy).here.1 yw f hyw hf)

theorem loadSingle_prints {x : Ctx} {c : Constants} {t : DataType} {p : Path} {y : Y} {a : Assertion} {K : String → Prop}
    (hy : Throughout PrintableDict y) (h : loadSingle x c t p y = .ok a) : a.Prints K := by
  obtain ⟨data, key, d, op, raw, changes, written, changed, w, atMost, treat, rfl, _, _, _, _, _, _, _, _, _, hw, _, _, _, rfl⟩ :=
    loadSingle_inv h
  exact ⟨loadOptFilter_noNot hy.here hw, by simp⟩

theorem assertion_prints {x : Ctx} {c : Constants} {t : DataType} {p : Path} {y : Y} {b : AnyAssertion} {K : String → Prop}
    (hy : Throughout PrintableDict y) (h : AssertionParts x c t p y b) : ∀ a ∈ b.branches, a.Prints K := by
  cases h with
  | single h =>
    intro a ha
    rw [AnyAssertion.branches, List.mem_singleton] at ha
    subst ha
    exact loadSingle_prints hy h
  | cond h1 h2 h3 h4 h5 h6 =>
    intro a ha
    rw [AnyAssertion.branches, List.mem_cons] at ha
    rcases ha with rfl | ha
    · exact loadSingle_prints (hy.get h3) h4
    · obtain ⟨yf, h7, h8⟩ := h5 a (by simpa using ha)
      exact loadSingle_prints (hy.get (Dict.opt_get h7)) h8
  | dyn h0 h1 h2 h3 h4 =>
    intro a ha
    rw [AnyAssertion.branches, List.mem_singleton] at ha
    subst ha
    exact loadSingle_prints (hy.get h3) h4

theorem loadQueryAssertions_prints {env : Env} {t : DataType} {p : Path} {d : Dict} {as : List AnyAssertion} {K : String → Prop}
    (hd : Throughout PrintableDict (.map d)) (h : loadQueryAssertions env t p d = .ok as) :
    ∀ b ∈ as, ∀ a ∈ b.branches, a.Prints K := by
  unfold loadQueryAssertions at h
  split at h
  · rename_i a0 ha0
    simp only [ld_bind_ok] at h
    obtain ⟨r, hr, h⟩ := h
    cases h
    intro b hb
    rw [List.mem_singleton] at hb
    subst hb
    refine assertion_prints ?_ (loadAnyAssertion_inv hr)
    intro e he
    cases he with
    | here => exact ⟨by simp [Dict.get?], by simp [Dict.get?], by simp [Dict.get?]⟩
    | entry hm ho => cases List.mem_singleton.1 hm; exact hd.get ha0 e ho
  · simp only [ld_bind_ok] at h
    obtain ⟨l, hl, h⟩ := h
    intro b hb
    obtain ⟨i, hi⟩ := List.mem_iff_getElem?.1 hb
    obtain ⟨y, hy1, hy2⟩ := (ld_mapIdxE h).2 i _ hi
    split at hl
    · rename_i v hv
      rw [ld_asList] at hl
      subst hl
      exact assertion_prints ((hd.get hv).mem (List.mem_of_getElem? hy1)) (loadAnyAssertion_inv hy2)
    · cases hl

theorem loadAudits_prints {env : Env} {p : Path} {d : Dict} {as : List AnyAssertion} {K : String → Prop}
    (hd : Throughout PrintableDict (.map d)) (h : loadAudits env p d = .ok as) : ∀ b ∈ as, ∀ a ∈ b.branches, a.Prints K := by
  unfold loadAudits at h
  split at h
  · cases h; simp
  · rename_i y hy
    simp only [ld_bind_ok, ld_asDict] at h
    obtain ⟨a0, rfl, h⟩ := h
    have ha0 := hd.get (Dict.opt_get hy)
    split at h
    · rename_i v hv
      simp only [ld_bind_ok, ld_asList] at h
      obtain ⟨l, rfl, h⟩ := h
      intro b hb
      obtain ⟨i, hi⟩ := List.mem_iff_getElem?.1 hb
      obtain ⟨y, hy1, hy2⟩ := (ld_mapIdxE h).2 i _ hi
      exact assertion_prints ((ha0.get hv).mem (List.mem_of_getElem? hy1)) (loadAssertion_inv hy2)
    · simp only [ld_bind_ok] at h
      obtain ⟨r, hr, h⟩ := h
      cases h
      intro b hb
      rw [List.mem_singleton] at hb
      subst hb
      exact assertion_prints ha0 (loadAssertion_inv hr)

theorem readFrom_prints {env : Env} {d : Dict} {m : Node} {K : String → Prop} (hd : Throughout PrintableDict (.map d))
    (h : ReadFrom env d m) : PrintsAt K m := by
  cases m with
  | course s c => exact trivial
  | query s q =>
    obtain ⟨p, h⟩ := h
    obtain ⟨src, w, lim, as, allow, failed, _, _, hw, hlim, _, has, _, _, _, _, _, hq⟩ := loadQuery_inv h
    rw [hq]
    exact ⟨loadOptFilter_noNot hd.here hw, loadLimits_noNot hd hlim, loadQueryAssertions_prints hd has⟩
  | count s c items =>
    obtain ⟨h1, h2, h3⟩ := h
    refine ⟨loadAudits_prints hd h1, ?_⟩
    cases hat : c.atMost with
    | false => rfl
    | true =>
      exfalso
      rw [hat] at h2
      have h4 : d.get? "at_most" = some (.bool true) := by
        unfold Dict.flag at h2
        split at h2
        · cases h2
        · rename_i heq; cases h2; exact heq
        · cases h2
      have h5 := hd.here.2.2 h4
      have h6 : isCount d = false := by
        have hn : ∀ {k : String}, d.get? k = none → d.has k = false := by
          intro k hk
          simp [Dict.has, hk]
        unfold isCount
        rw [hn (h5 "count" (by simp)), hn (h5 "all" (by simp)), hn (h5 "any" (by simp)), hn (h5 "both" (by simp)),
          hn (h5 "either" (by simp))]
        rfl
      unfold ruleKind at h3
      rw [h6] at h3
      repeat' split at h3
      all_goals contradiction
  | req s r c => exact trivial
  | cond s c t f => exact trivial
  | prof s q c =>
    obtain ⟨p, h⟩ := h
    unfold loadProficiency at h
    simp only [ld_bind_ok, ld_need, ld_asText, ld_check_ok] at h
    obtain ⟨_, h1, name, rfl, _, h2, c, h3, h⟩ := h
    cases h
    have := hd.here.2.1 _ h1
    split at h3
    · rename_i hn; exact absurd hn this
    · simp only [ld_bind_ok] at h3
      obtain ⟨_, _, _, _, h3⟩ := h3
      cases h3
      rfl

theorem printable_flat : FlatOk PrintableDict := by
  intro d hd
  have hk : ∀ {k : String}, k ∉ programKeys → d.get? k = none := by
    intro k hk
    cases h : d.get? k with
    | none => rfl
    | some y => exact absurd (hd _ _ (get_mem h)).1 hk
  refine ⟨?_, ?_, ?_⟩
  · intro w e h; rw [hk (by decide)] at h; cases h
  · intro y h; rw [hk (by decide)] at h; cases h
  · intro h; rw [hk (by decide)] at h; cases h

mutual
/-- what is set aside for others changes nothing -/
theorem Node.prep_prints {K : String → Prop} (ks : List String) (es : List Exc) : ∀ n : Node, (∀ m ∈ n.within, PrintsAt K m) →
    ∀ m ∈ (prep ks es n).within, PrintsAt K m
  | .course s d, h => by
    obtain ⟨l, he, _⟩ := applyBlocks_course es s d
    unfold prep
    rw [Node.exclude, he]
    exact printsAt_course
  | .query s d, h => by
    obtain ⟨l, he, _⟩ := applyBlocks_query es s { d with excluded := d.excluded ++ ks }
    unfold prep
    rw [Node.exclude, he]
    intro m hm
    rw [Node.within, List.mem_singleton] at hm
    subst hm
    exact (h _ (Node.self_within _) : PrintsAt K (.query s d))
  | .count s d items, h => by
    rw [prep_count]
    intro m hm
    rw [Node.within, List.mem_cons] at hm
    rcases hm with rfl | hm
    · exact (h _ (Node.self_within _) : PrintsAt K (.count s d items))
    · exact Node.prep_printsList ks es items (fun m hm => h m (by simp [Node.within, hm])) m hm
  | .req s d r, h => by
    rw [prep_req]
    intro m hm
    rw [Node.within, List.mem_cons] at hm
    rcases hm with rfl | hm
    · exact trivial
    · exact Node.prep_printsOpt ks es r (fun m hm => h m (by simp [Node.within, hm])) m hm
  | .cond s d t f, h => by
    rw [prep_cond]
    intro m hm
    rw [Node.within, List.mem_cons, List.mem_append] at hm
    rcases hm with rfl | hm | hm
    · exact trivial
    · exact Node.prep_prints ks es t (fun m hm => h m (by simp [Node.within, hm])) m hm
    · exact Node.prep_printsOpt ks es f (fun m hm => h m (by simp [Node.within, hm])) m hm
  | .prof s d c, h => by
    rw [prep_prof]
    exact h
theorem Node.prep_printsList {K : String → Prop} (ks : List String) (es : List Exc) : ∀ ns : List Node,
    (∀ m ∈ Node.withinList ns, PrintsAt K m) → ∀ m ∈ Node.withinList (ns.map (prep ks es)), PrintsAt K m
  | [], _ => by simp [Node.withinList]
  | n :: ns, h => by
    intro m hm
    rw [List.map_cons, Node.withinList, List.mem_append] at hm
    rcases hm with hm | hm
    · exact Node.prep_prints ks es n (fun m hm => h m (by simp [Node.withinList, hm])) m hm
    · exact Node.prep_printsList ks es ns (fun m hm => h m (by simp [Node.withinList, hm])) m hm
theorem Node.prep_printsOpt {K : String → Prop} (ks : List String) (es : List Exc) : ∀ r : Option Node,
    (∀ m ∈ Node.withinOpt r, PrintsAt K m) → ∀ m ∈ Node.withinOpt (r.map (prep ks es)), PrintsAt K m
  | none, _ => by simp [Node.withinOpt]
  | some n, h => Node.prep_prints ks es n h
end

/-- a key that a text does not use is in none of its dictionaries -/
theorem unused_get {k0 : String} {y : Y} (h : y.usesKey k0 = false) {d : Dict} (ho : Occurs d y) : d.get? k0 = none := by
  induction ho with
  | here =>
    rw [Y.usesKey] at h
    cases hg : d.get? k0 with
    | none => rfl
    | some v =>
      exfalso
      have hm := get_mem hg
      clear hg
      induction d with
      | nil => cases hm
      | cons e rest ih =>
        obtain ⟨k, v⟩ := e
        simp only [Y.dictUsesKey, Bool.or_eq_false_iff, beq_eq_false_iff_ne] at h
        rcases List.mem_cons.1 hm with hm | hm
        · cases hm; exact h.1 rfl
        · exact ih h.2.2 hm
  | @entry e k y hm _ ih =>
    refine ih ?_
    rw [Y.usesKey] at h
    clear ih
    induction e with
    | nil => cases hm
    | cons a rest ih =>
      obtain ⟨k, v⟩ := a
      simp only [Y.dictUsesKey, Bool.or_eq_false_iff, beq_eq_false_iff_ne] at h
      rcases List.mem_cons.1 hm with hm | hm
      · cases hm; exact h.2.1
      · exact ih hm h.2.2
  | @item l y hm _ ih =>
    refine ih ?_
    rw [Y.usesKey] at h
    clear ih
    induction l with
    | nil => cases hm
    | cons a rest ih =>
      simp only [Y.listUsesKey, Bool.or_eq_false_iff] at h
      rcases List.mem_cons.1 hm with hm | hm
      · cases hm; exact h.1
      · exact ih hm h.2

/-- A text without `$not`, proficiencies and `at_most` can be printed. -/
theorem printable_of_unused {y : Y} (h1 : y.usesKey "$not" = false) (h2 : y.usesKey "proficiency" = false)
    (h3 : y.usesKey "at_most" = false) : PrintableText y := by
  intro d hd
  refine ⟨?_, ?_, ?_⟩
  · intro w e hw he
    have : Occurs e y := by
      have hsub : ∀ {y : Y}, Occurs d y → Occurs e y := by
        intro y hd
        induction hd with
        | here => exact .entry (get_mem hw) he
        | entry hm _ ih => exact .entry hm ih
        | item hm _ ih => exact .item hm ih
      exact hsub hd
    exact unused_get h1 this
  · intro y hy
    rw [unused_get h2 hd] at hy
    cases hy
  · intro h
    rw [unused_get h3 hd] at h
    cases h

theorem common_printable {env : Env} {degree dept : Option String} {others : List AreaPointer} {code : String}
    {rules : List Node} (h : prepareCommonRules env degree dept others code = .ok rules) :
    ∀ n ∈ rules, ∃ name spec i, loadCommon env name spec i = .ok n ∧ PrintableText spec := by
  have p0 : PrintableText cOrBetterSpec := printable_of_unused rfl rfl rfl
  have p1 : ∀ b, PrintableText (suSpec b) := by
    intro b
    cases b <;> exact printable_of_unused rfl rfl rfl
  have p2 : ∀ dept code others, PrintableText (outsideSpec dept code others) := by
    intro dept code others
    unfold outsideSpec
    repeat' split
    all_goals exact printable_of_unused rfl rfl rfl
  unfold prepareCommonRules at h
  simp only [ld_bind_ok] at h
  obtain ⟨r0, h0, r1, h1, h⟩ := h
  split at h
  · cases h
    intro n hn
    simp only [List.mem_cons, List.not_mem_nil, or_false] at hn
    rcases hn with rfl | rfl
    · exact ⟨_, _, _, h0, p0⟩
    · exact ⟨_, _, _, h1, p1 _⟩
  · simp only [ld_bind_ok] at h
    obtain ⟨r2, h2, h⟩ := h
    cases h
    intro n hn
    simp only [List.mem_cons, List.not_mem_nil, or_false] at hn
    rcases hn with rfl | rfl | rfl
    · exact ⟨_, _, _, h0, p0⟩
    · exact ⟨_, _, _, h1, p1 _⟩
    · exact ⟨_, _, _, h2, p2 _ _ _⟩

theorem loadArea_prints {c : Constants} {templates : List (String × TemplateCourse)} {st : Student} {es : List Exc}
    {all : Bool} {spec : Dict} {a : Area} (hload : loadArea c templates st es all spec = .ok a) (hp : PrintableText (.map spec))
    (K : String → Prop) : (∀ m ∈ a.result.within, PrintsAt K m) ∧ (∀ n ∈ a.commonRules, ∀ m ∈ n.within, PrintsAt K m) ∧
      ∀ l ∈ a.limit, l.where'.NoNot := by
  obtain ⟨emphases, declared, children, data, rule, code, dept, h1, h2, h3, h4, hb, hres, ⟨degree, _, hcom⟩, _, _, hlim, _⟩ :=
    loadArea_inv hload
  have hprep : a.result = prep ((rule.requiredCourses (loadCtx st es)).map (·.clbid)) es rule := hres
  have hp' : Throughout PrintableDict (.map spec) := hp
  refine ⟨?_, ?_, loadLimits_noNot hp' hlim⟩
  · rw [hprep]
    refine Node.prep_prints _ es rule ?_
    intro m hm
    obtain ⟨d, hd, hr⟩ := hb.each printable_flat (hp'.get h4) (each_dict hp' h3) (fun e he => by
      unfold declaredEmphases at h2
      obtain ⟨p, hp, hd⟩ := ld_mapE_mem h2 e he
      rw [ld_asDict] at hd
      have := each_dict hp' h1 p.1 p.2 (List.mem_of_mem_filter hp)
      rwa [hd] at this) rule rfl m hm
    exact readFrom_prints hd hr
  · intro n hn m hm
    obtain ⟨name, spec, i, hl, hs⟩ := common_printable hcom n hn
    obtain ⟨d, hd, hr⟩ := (loadCommon_built hl).each printable_flat
      (throughout_flat printable_flat (fun k y hm => by
        cases List.mem_singleton.1 hm
        exact ⟨by decide, fun e ho => by cases ho⟩))
      (fun k y hm => by cases List.mem_singleton.1 hm; exact hs) (by simp) n rfl m hm
    exact readFrom_prints hd hr

/-! ### The property -/

/-- **C70, partial.** The report of every audited solution of an area can be printed, if the text of the area file has no `$not`
in its filters, names a course beside each proficiency, and no count says `at_most: true`, and the classes of the student are on
the transcript that is handed to the report.  Without the first two conditions it can fail: see below. -/
theorem C70_report_is_printed_partial (c : Constants) (templates : List (String × TemplateCourse)) (st : Student)
    (es : List Exc) (all : Bool) (spec : Dict) (a : Area) (hload : loadArea c templates st es all spec = .ok a)
    (hprint : PrintableText (.map spec)) (o : Orders) (ho : o.Lawful) (s : AreaSolution) (hs : s ∈ (a.solutions o st es).items)
    (r : AreaResult) (ha : s.audit o a = .ok r) (S : Shows) (p : PrintOpts) (name : String) (tr : List Course)
    (htr : ∀ k, k ∈ st.courses ∨ k ∈ st.coursesWithFailed → ∃ k' ∈ tr, k'.clbid = k.clbid) :
    ∃ lines, r.report S p name a tr = .ok lines := by
  let P : Course → Prop := fun k => k ∈ st.courses ∨ k ∈ st.coursesWithFailed
  let K : String → Prop := fun k => ∃ k' ∈ tr, k'.clbid = k
  have hPK : ∀ c, P c → K c.clbid := htr
  have hK : ∀ k, K k → ∃ c, courseFor tr k = some c := by
    rintro k ⟨k', hk, rfl⟩
    unfold courseFor
    rw [← Option.isSome_iff_exists, List.find?_isSome]
    exact ⟨k', List.mem_reverse.2 hk, by simp⟩
  obtain ⟨hp1, hp2, hp3⟩ := loadArea_prints hload hprint K
  obtain ⟨hf, hfc⟩ := loadArea_fresh hload
  obtain ⟨tr0, htr0, r0, hb, hr⟩ := area_outcome_only ho (loadArea_loaded hload).1 (loadArea_common hload).1 hf hs ha
  have hx := areaCtx_forcedOk a st es tr0
  have honly : (areaCtx a st es tr0).Only P := areaCtx_only (a := a) (es := es) htr0
  have hpr0 := Node.becomes_prints hx honly ho rfl hPK a.result hf hp1 r0 hb
  have hcl0 := Node.only hx honly ho rfl a.result hf r0 hb
  have hall : (∀ m ∈ r.result.within, PrintsAt K m) ∧ ∀ k ∈ r.result.claims, P k.course := by
    rcases hr with ⟨_, hr⟩ | ⟨_, d, items, nm, citems, rfl, hr, hci⟩
    · rw [hr]; exact ⟨hpr0, hcl0⟩
    · rw [hr]
      constructor
      · intro m hm
        rw [Node.within, List.mem_cons, Node.mem_withinList] at hm
        rcases hm with rfl | ⟨n, hn, hm⟩
        · exact (hpr0 _ (Node.self_within _) : PrintsAt K (.count .result d items))
        rcases List.mem_append.1 hn with hn | hn
        · exact hpr0 m (by rw [Node.within, List.mem_cons, Node.mem_withinList]; exact .inr ⟨n, hn, hm⟩)
        · rw [List.mem_singleton] at hn
          subst hn
          rw [Node.within, List.mem_cons, Node.withinOpt, Node.within, List.mem_cons, Node.mem_withinList] at hm
          rcases hm with rfl | rfl | ⟨q, hq, hm⟩
          · exact trivial
          · exact ⟨by simp, rfl⟩
          · obtain ⟨rule, hrule, x, hcc, hxo, hqb⟩ := hci q hq
            exact Node.becomes_prints hcc.forcedOk hxo ho hcc.exceptions hPK rule (hfc rule hrule) (hp2 rule hrule) q hqb m hm
      · intro k hk
        rw [Node.claims, Node.mem_claimsList] at hk
        obtain ⟨n, hn, hk⟩ := hk
        rcases List.mem_append.1 hn with hn | hn
        · exact hcl0 k (by rw [Node.claims, Node.mem_claimsList]; exact ⟨n, hn, hk⟩)
        · rw [List.mem_singleton] at hn
          subst hn
          simp only [Node.claims, Node.claimsOpt] at hk
          split at hk
          · simp at hk
          · obtain ⟨q, hq, hk⟩ := Node.mem_claimsList.1 hk
            obtain ⟨rule, hrule, x, hcc, hxo, hqb⟩ := hci q hq
            exact Node.only hcc.forcedOk hxo ho hcc.exceptions rule (hfc rule hrule) q hqb k hk
  obtain ⟨hwithin, hclaims⟩ := hall
  obtain ⟨q, hq⟩ := prints_rank hwithin
  have hd := Node.dict_ok r.result hwithin
  obtain ⟨ls, hls⟩ := printLimits_ok S "" a.limit hp3
  obtain ⟨lines, hlines⟩ := Node.print_ok S tr hK r.result p 0 hwithin
  obtain ⟨table, htable⟩ := printClaimed_ok S tr hK name r.keyedClaims (fun e he => by
    obtain ⟨k, ps⟩ := e
    obtain ⟨h1, h2⟩ := (C71_claimed_courses r).2.2 k ps he
    obtain ⟨path, hpath⟩ := List.exists_mem_of_ne_nil _ h1
    have h3 := h2 path
    have h4 : 0 < ps.count path := List.count_pos_iff.2 hpath
    rw [h3] at h4
    obtain ⟨cl, hcl⟩ := List.exists_mem_of_length_pos h4
    rw [List.mem_filter] at hcl
    simp only [Bool.and_eq_true, beq_iff_eq] at hcl
    have := hPK _ (hclaims cl hcl.1)
    rwa [hcl.2.1.2] at this)
  unfold AreaResult.report AreaResult.dict AreaResult.print AreaResult.rank
  rw [hq, hls, hlines, htable, hd]
  dsimp only
  split <;> exact ⟨_, rfl⟩

/-! ### Cases -/

/-- Case: the area of `satisfiedText`, which has a report for every solution (printed in full in `Props/Print`). -/
example : PrintableText (.map satisfiedText) ∧ (reportsOf sampleTaken [] satisfiedText bareOpts).all (·.isSome) = true ∧
    (reportsOf sampleTaken [] satisfiedText bareOpts).length = 4 := by
  refine ⟨printable_of_unused (by decide) (by decide) (by decide), ?_, ?_⟩ <;> decide +kernel

/-- the errors of the reports of the audited solutions of an area -/
def reportErrors (st : Student) (spec : Dict) : List (Option Err) :=
  match loadArea {} [] st [] false spec with
  | .error _ => []
  | .ok a => (a.solutions .insertion st []).items.map (fun s => match s.audit .insertion a with
    | .error _ => none
    | .ok r => match r.report plainShows bareOpts "Area" a st.courses with
      | .error e => some e
      | .ok _ => none)

theorem reportErrors_head {st : Student} {spec : Dict} {e : Err} {l : List (Option Err)} (h : reportErrors st spec = some e :: l) :
    ∃ (a : Area) (s : AreaSolution) (r : AreaResult), loadArea {} [] st [] false spec = .ok a ∧
      s ∈ (a.solutions .insertion st []).items ∧ s.audit .insertion a = .ok r ∧
      r.report plainShows bareOpts "Area" a st.courses = .error e := by
  unfold reportErrors at h
  split at h
  · cases h
  rename_i a ha
  have hm : some e ∈ (a.solutions .insertion st []).items.map (fun s => match s.audit .insertion a with
    | .error _ => none
    | .ok r => match r.report plainShows bareOpts "Area" a st.courses with
      | .error e => some e
      | .ok _ => none) := by rw [h]; simp
  obtain ⟨s, hs, hr⟩ := List.mem_map.1 hm
  split at hr
  · cases hr
  rename_i r har
  split at hr
  · rename_i e' he
    cases hr
    exact ⟨a, s, r, ha, hs, har, he⟩
  · cases hr

/-- an area that asks for courses of other departments -/
def otherSubjectsText : Dict :=
  [("name", .str "Breadth"), ("type", .str "concentration"), ("code", .str "900"),
   ("result", .map [("from", .str "courses"), ("where", .map [("$not", .map [("subject", .map [("$eq", .str "CSCI")])])]),
     ("assert", .map [("count(courses)", .map [("$gte", .int 1)])])])]

/-- an area that asks for a proficiency -/
def keyboardText : Dict :=
  [("name", .str "Keyboard"), ("type", .str "concentration"), ("code", .str "900"),
   ("result", .map [("proficiency", .str "Keyboard Level I")])]

/-- an area with a count of nothing -/
def emptyChoiceText : Dict :=
  [("name", .str "Choice"), ("type", .str "concentration"), ("code", .str "900"),
   ("result", .map [("any", .list []), ("at_most", .bool true)])]

/-- **C70**, refuted in general: areas that load and are audited, but whose results cannot be printed, because of `$not` in a
filter, a proficiency without a course, and a count of at most one of nothing. -/
theorem C70_report_is_printed_refuted :
    (∃ (a : Area) (s : AreaSolution) (r : AreaResult), loadArea {} [] sampleTaken [] false otherSubjectsText = .ok a ∧
      s ∈ (a.solutions .insertion sampleTaken []).items ∧ s.audit .insertion a = .ok r ∧
      r.report plainShows bareOpts "Area" a sampleTaken.courses = .error .other) ∧
    (∃ (a : Area) (s : AreaSolution) (r : AreaResult), loadArea {} [] sampleTaken [] false keyboardText = .ok a ∧
      s ∈ (a.solutions .insertion sampleTaken []).items ∧ s.audit .insertion a = .ok r ∧
      r.report plainShows bareOpts "Area" a sampleTaken.courses = .error .typeError) ∧
    (∃ (a : Area) (s : AreaSolution) (r : AreaResult), loadArea {} [] sampleTaken [] false emptyChoiceText = .ok a ∧
      s ∈ (a.solutions .insertion sampleTaken []).items ∧ s.audit .insertion a = .ok r ∧
      r.report plainShows bareOpts "Area" a sampleTaken.courses = .error .valueError) := by
  refine ⟨reportErrors_head (l := []) ?_, reportErrors_head (l := []) ?_, reportErrors_head (l := []) ?_⟩ <;> decide +kernel

end Dp
