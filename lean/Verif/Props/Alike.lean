import Verif.Props.FoundArea
import Verif.Props.Gpa
import Verif.Props.Common

/-
Results that are the same up to the order in which a set of courses is listed, and that evaluating the assertions of a
rule cannot tell two such listings apart.
-/
namespace Dp

/-- both fail, or both succeed with related values -/
def ExAlike {α β : Type} (R : α → β → Prop) : Except Err α → Except Err β → Prop
  | .ok a, .ok b => R a b
  | .error _, .error _ => True
  | _, _ => False

theorem ExAlike.cases {α β : Type} {R : α → β → Prop} {A : Except Err α} {B : Except Err β} (h : ExAlike R A B) :
    (∃ e e', A = .error e ∧ B = .error e') ∨ ∃ a b, A = .ok a ∧ B = .ok b ∧ R a b := by
  cases A <;> cases B <;> simp only [ExAlike] at h
  · exact .inl ⟨_, _, rfl, rfl⟩
  · exact .inr ⟨_, _, rfl, rfl, h⟩

theorem ExAlike.refl {α : Type} {R : α → α → Prop} (hR : ∀ a, R a a) (A : Except Err α) : ExAlike R A A := by
  cases A
  · trivial
  · exact hR _

/-- the two generators end the same way after related items -/
def Gen.Alike {α β : Type} (R : α → β → Prop) (g : Gen α) (h : Gen β) : Prop :=
  List.Forall₂ R g.items h.items ∧ g.err.isSome = h.err.isSome

/-- the measures whose outcome can depend on the order in which courses are listed -/
def orderedKeys : List String :=
  ["count(distinct_courses)", "count(terms_from_most_common_course)", "count(terms_from_most_common_course_by_name)",
   "count(subjects)", "count(terms)", "count(years)"]

/-- what an assertion finds does not depend on the order in which courses are listed -/
def Assertion.OrderFree (a : Assertion) : Prop := a.dataType = .course → a.key ∉ orderedKeys

/-- the same assertion, evaluated or not, up to the order in which the courses it found are listed -/
def Assertion.Alike (a b : Assertion) : Prop :=
  b = { a with resolvedClbids := b.resolvedClbids } ∧ a.resolvedClbids.Perm b.resolvedClbids

/-- every branch satisfies `p` -/
def AnyAssertion.All (p : Assertion → Prop) : AnyAssertion → Prop
  | .single a => p a
  | .cond _ t f => p t ∧ ∀ e ∈ f, p e
  | .dyn _ _ t => p t

def AnyAssertion.Alike : AnyAssertion → AnyAssertion → Prop
  | .single a, .single b => a.Alike b
  | .cond c t f, .cond c' t' f' => c = c' ∧ t.Alike t' ∧ Option.Rel Assertion.Alike f f'
  | .dyn c r t, .dyn c' r' t' => c = c' ∧ r = r' ∧ t.Alike t'
  | _, _ => False

theorem Assertion.Alike.refl (a : Assertion) : a.Alike a := ⟨rfl, .refl _⟩

theorem Assertion.Alike.fields {a b : Assertion} (h : a.Alike b) : b.state = a.state ∧ b.rank = a.rank ∧
    b.isLt = a.isLt ∧ b.dataType = a.dataType ∧ b.key = a.key ∧ b.overridden = a.overridden ∧ b.resolved = a.resolved := by
  obtain ⟨h, -⟩ := h
  rw [h]
  exact ⟨rfl, rfl, rfl, rfl, rfl, rfl, rfl⟩

theorem AnyAssertion.Alike.refl (a : AnyAssertion) : a.Alike a := by
  cases a with
  | single a => exact Assertion.Alike.refl a
  | cond c t f =>
    refine ⟨rfl, .refl t, ?_⟩
    cases f with
    | none => exact .none
    | some f => exact .some (.refl f)
  | dyn c r t => exact ⟨rfl, rfl, .refl t⟩

theorem AnyAssertion.Alike.fields {a b : AnyAssertion} (h : a.Alike b) : b.status = a.status ∧ b.rank = a.rank := by
  cases a <;> cases b <;> simp only [AnyAssertion.Alike] at h
  · exact ⟨h.fields.1, h.fields.2.1⟩
  · obtain ⟨rfl, ht, hf⟩ := h
    cases hf with
    | none => rename_i c _ _; rcases c with _ | _ | _ <;> simp [AnyAssertion.status, AnyAssertion.rank, ht.fields]
    | some hf => rename_i c _ _ _ _; rcases c with _ | _ | _ <;> simp [AnyAssertion.status, AnyAssertion.rank, ht.fields, hf.fields]
  · obtain ⟨rfl, rfl, ht⟩ := h
    rename_i r _ _
    rcases r with _ | _ | _ <;> simp [AnyAssertion.status, AnyAssertion.rank, ht.fields]

theorem AnyAssertion.Alike.anyBranch {a b : AnyAssertion} (h : a.Alike b) :
    b.anyBranch (·.isLt) = a.anyBranch (·.isLt) := by
  cases a <;> cases b <;> simp only [AnyAssertion.Alike] at h
  · exact h.fields.2.2.1
  · obtain ⟨rfl, ht, hf⟩ := h
    cases hf with
    | none => simp [AnyAssertion.anyBranch, ht.fields]
    | some hf => simp [AnyAssertion.anyBranch, ht.fields, hf.fields]
  · obtain ⟨rfl, rfl, ht⟩ := h
    simp [AnyAssertion.anyBranch, ht.fields]

/-! ### Lists in another order -/

theorem filterItems_perm (p : Pred) {l m : List Item} (h : l.Perm m) :
    ExAlike List.Perm (filterItems p l) (filterItems p m) := by
  have hal : ∀ {a b c : Except Err (List Item)}, ExAlike List.Perm a b → ExAlike List.Perm b c → ExAlike List.Perm a c := by
    intro a b c h1 h2
    cases a <;> cases b <;> cases c <;> simp_all only [ExAlike]
    exact h1.trans h2
  induction h with
  | nil => exact List.Perm.refl _
  | cons a _ ih =>
    simp only [filterItems]
    cases p.apply a.applyLeaf with
    | error e => trivial
    | ok b =>
      revert ih
      cases filterItems p _ <;> cases filterItems p _ <;> simp only [ExAlike, imp_self] <;> intro ih
      cases b
      · exact ih
      · exact ih.cons _
  | swap a b l =>
    simp only [filterItems]
    cases p.apply a.applyLeaf with
    | error e => cases p.apply b.applyLeaf <;> trivial
    | ok c =>
      cases p.apply b.applyLeaf with
      | error e => cases filterItems p l <;> trivial
      | ok c' =>
        cases filterItems p l with
        | error e => trivial
        | ok r =>
          cases c <;> cases c' <;> simp only [ExAlike, if_true, Bool.false_eq_true, if_false] <;> try exact .refl _
          exact List.Perm.swap a b r
  | trans _ _ ih1 ih2 => exact hal ih1 ih2

theorem itemCourses_perm {l m : List Item} (h : l.Perm m) : ExAlike List.Perm (itemCourses l) (itemCourses m) := by
  have hal : ∀ {a b c : Except Err (List Course)}, ExAlike List.Perm a b → ExAlike List.Perm b c → ExAlike List.Perm a c := by
    intro a b c h1 h2
    cases a <;> cases b <;> cases c <;> simp_all only [ExAlike]
    exact h1.trans h2
  induction h with
  | nil => exact List.Perm.refl _
  | cons a _ ih =>
    cases a <;> simp only [itemCourses, ExAlike]
    revert ih
    cases itemCourses _ <;> cases itemCourses _ <;> simp only [ExAlike, imp_self] <;> intro ih
    exact ih.cons _
  | swap a b l =>
    cases a <;> cases b <;> simp only [itemCourses, ExAlike] <;> cases itemCourses l <;> simp only [ExAlike]
    exact List.Perm.swap _ _ _
  | trans _ _ ih1 ih2 => exact hal ih1 ih2

theorem itemCodes_perm {l m : List Item} (h : l.Perm m) : ExAlike List.Perm (itemCodes l) (itemCodes m) := by
  have hal : ∀ {a b c : Except Err (List String)}, ExAlike List.Perm a b → ExAlike List.Perm b c → ExAlike List.Perm a c := by
    intro a b c h1 h2
    cases a <;> cases b <;> cases c <;> simp_all only [ExAlike]
    exact h1.trans h2
  induction h with
  | nil => exact List.Perm.refl _
  | cons a _ ih =>
    cases a <;> simp only [itemCodes, ExAlike]
    revert ih
    cases itemCodes _ <;> cases itemCodes _ <;> simp only [ExAlike, imp_self] <;> intro ih
    exact ih.cons _
  | swap a b l =>
    cases a <;> cases b <;> simp only [itemCodes, ExAlike] <;> cases itemCodes l <;> simp only [ExAlike]
    exact List.Perm.swap _ _ _
  | trans _ _ ih1 ih2 => exact hal ih1 ih2

theorem itemIds_perm {l m : List Item} (h : l.Perm m) : ExAlike List.Perm (itemIds l) (itemIds m) := by
  have hal : ∀ {a b c : Except Err (List String)}, ExAlike List.Perm a b → ExAlike List.Perm b c → ExAlike List.Perm a c := by
    intro a b c h1 h2
    cases a <;> cases b <;> cases c <;> simp_all only [ExAlike]
    exact h1.trans h2
  induction h with
  | nil => exact List.Perm.refl _
  | cons a _ ih =>
    cases a <;> simp only [itemIds, ExAlike] <;> revert ih <;>
    cases itemIds _ <;> cases itemIds _ <;> simp only [ExAlike, imp_self] <;> intro ih <;> exact ih.cons _
  | swap a b l =>
    cases a <;> cases b <;> simp only [itemIds, ExAlike] <;> cases itemIds l <;> simp only [ExAlike] <;>
    exact List.Perm.swap _ _ _
  | trans _ _ ih1 ih2 => exact hal ih1 ih2

/-! ### Measures -/

/-- the same measure up to the order in which its courses are listed -/
def Applied.Alike (r s : Applied) : Prop := r.value = s.value ∧ r.courses.Perm s.courses

/-- comparing pairs of credits and subject -/
def pairLt (a b : Rat × String) : Prop := a.1 < b.1 ∨ (a.1 = b.1 ∧ a.2 < b.2)

instance (a b : Rat × String) : Decidable (pairLt a b) := by unfold pairLt; infer_instance

theorem pairLt_trans {a b c : Rat × String} (h : pairLt a b) (h' : pairLt b c) : pairLt a c := by
  rcases h with h | ⟨h1, h2⟩ <;> rcases h' with h' | ⟨h3, h4⟩
  · exact .inl (lt_trans h h')
  · exact .inl (h3 ▸ h)
  · exact .inl (h1 ▸ h')
  · exact .inr ⟨h1.trans h3, String.lt_trans h2 h4⟩

theorem pairLt_irrefl (a : Rat × String) : ¬ pairLt a a := by
  rintro (h | ⟨-, h⟩)
  · exact lt_irrefl _ h
  · exact String.lt_irrefl _ h

theorem pairLt_tri {a b : Rat × String} (h : ¬ pairLt a b) (h' : ¬ pairLt b a) : a = b := by
  simp only [pairLt, not_or, not_and] at h h'
  have e : a.1 = b.1 := le_antisymm (not_lt.1 h'.1) (not_lt.1 h.1)
  exact Prod.ext e (String.le_antisymm (String.not_lt.1 (h'.2 e.symm)) (String.not_lt.1 (h.2 e)))

/-- keep the greater pair -/
def bestStep (best : Option (Rat × String)) (p : Rat × String) : Option (Rat × String) :=
  match best with
  | none => some p
  | some b => if pairLt b p then some p else some b

theorem bestStep_comm (z : Option (Rat × String)) (p q : Rat × String) :
    bestStep (bestStep z p) q = bestStep (bestStep z q) p := by
  cases z with
  | none =>
    simp only [bestStep]
    split <;> split
    · rename_i h h'; exact absurd (pairLt_trans h h') (pairLt_irrefl _)
    · rfl
    · rfl
    · rename_i h h'; rw [pairLt_tri h h']
  | some b =>
    simp only [bestStep]
    by_cases h1 : pairLt b p <;> by_cases h2 : pairLt b q <;> simp only [h1, h2, if_true, if_false]
    · split <;> split
      · rename_i h h'; exact absurd (pairLt_trans h h') (pairLt_irrefl _)
      · rfl
      · rfl
      · rename_i h h'; rw [pairLt_tri h h']
    · rw [if_neg (fun h => h2 (pairLt_trans h1 h))]
    · rw [if_neg (fun h => h1 (pairLt_trans h2 h))]

theorem bestSubject_eq (cs : List Course) : bestSubject cs =
    (((cs.map (·.subject)).dedup.map (fun s => (sumCredits (cs.filter (fun c => c.subject == s)), s))).foldl bestStep none).map (·.2) := by
  unfold bestSubject
  rw [List.foldl_map]
  congr 2
  funext best s
  rcases best with _ | ⟨t, b⟩ <;> simp [bestStep, pairLt]

theorem bestSubject_perm {cs ds : List Course} (h : cs.Perm ds) : bestSubject cs = bestSubject ds := by
  rw [bestSubject_eq, bestSubject_eq]
  congr 1
  have e : ∀ s, sumCredits (cs.filter (fun c => c.subject == s)) = sumCredits (ds.filter (fun c => c.subject == s)) :=
    fun s => sumCredits_perm (h.filter _)
  simp only [e]
  exact (((h.map _).dedup).map _).foldl_eq' (fun p _ q _ z => bestStep_comm z p q) none

theorem avgOr0_perm {l m : List Rat} (h : l.Perm m) : avgOr0 l = avgOr0 m := by
  unfold avgOr0
  rw [h.sum_rat, h.length_eq]
  by_cases e : l = []
  · subst e; rw [List.nil_perm.1 h]
  · rw [if_neg e, if_neg (fun e' => e (by subst e'; exact List.perm_nil.1 h))]

theorem countBuckets_perm (pre : String) {cs ds : List Course} (h : cs.Perm ds) :
    (countBuckets pre cs).Alike (countBuckets pre ds) := by
  refine ⟨?_, h.filter _⟩
  simp only [countBuckets]
  rw [(((h.flatMap_right _).filter _).dedup).length_eq]

theorem gradePointAverage_perm {cs ds : List Course} (h : cs.Perm ds) : gradePointAverage cs = gradePointAverage ds :=
  C31_order_does_not_matter _ _ (h.filter _)

theorem applyCourses_perm {key : String} (hk : key ∉ orderedKeys) {cs ds cs' ds' : List Course} (h : cs.Perm ds) (h' : cs'.Perm ds') :
    ExAlike Applied.Alike (applyCourses key cs cs') (applyCourses key ds ds') := by
  simp only [orderedKeys, List.mem_cons, List.not_mem_nil, or_false, not_or] at hk
  obtain ⟨k1, k2, k3, k4, k5, k6⟩ := hk
  unfold applyCourses
  simp only [beq_iff_eq, k1, k2, k3, k4, k5, k6, if_false]
  split
  · exact ⟨by rw [h.dedup.length_eq], h.dedup⟩
  split
  · exact countBuckets_perm _ h
  split
  · exact countBuckets_perm _ h
  split
  · exact countBuckets_perm _ h
  split
  · exact ⟨sumCredits_perm (h.filter _), h.filter _⟩
  split
  · simp only [bestSubject_perm (h.filter (fun c => decide (c.credits ≠ 0)))]
    split
    · exact ⟨rfl, .refl _⟩
    · exact ⟨sumCredits_perm ((h.filter _).filter _), (h.filter _).filter _⟩
  split
  · exact ⟨gradePointAverage_perm h, h'.filter _⟩
  split
  · exact ⟨avgOr0_perm ((h.map _).filter _), h'.filter _⟩
  · trivial

/-! ### Evaluating assertions -/

theorem any_perm {α : Type} {l m : List α} (h : l.Perm m) (p : α → Bool) : l.any p = m.any p := by
  rw [Bool.eq_iff_iff, List.any_eq_true, List.any_eq_true]
  exact ⟨fun ⟨a, h1, h2⟩ => ⟨a, h.mem_iff.1 h1, h2⟩, fun ⟨a, h1, h2⟩ => ⟨a, h.mem_iff.2 h1, h2⟩⟩

theorem metStatus_perm {a : Assertion} (hk : a.key ∉ orderedKeys) {cs ds : List Course} (h : cs.Perm ds) {r s : Applied}
    (hr : r.Alike s) : ExAlike Eq (metStatus a cs r) (metStatus a ds s) := by
  unfold metStatus
  simp only [any_perm hr.2]
  have h1 := applyCourses_perm hk (h.filter (fun c => !c.isInProgress)) (List.Perm.refl [])
  cases hs : s.courses.any (·.isInProgress)
  · exact .refl (fun _ => rfl) _
  · simp only [if_true]
    rcases h1.cases with ⟨e, e', h1, h2⟩ | ⟨r', s', h1, h2, h3⟩
    · simp only [h1, h2]; trivial
    · simp only [h1, h2, h3.1]
      exact .refl (fun _ => rfl) _

theorem evaluate_perm {a : Assertion} (ha : a.OrderFree) {l m : List Item} (h : l.Perm m) :
    ExAlike (fun p q => p.1 = q.1 ∧ p.2.Alike q.2) (a.evaluate l) (a.evaluate m) := by
  have plain : ∀ {r s : Applied}, r.Alike s →
      ExAlike (fun p q => p.1 = q.1 ∧ p.2.Alike q.2) (evaluatePlain a r) (evaluatePlain a s) := by
    intro r s hr
    unfold evaluatePlain
    rw [hr.1]
    cases compareNum a.op s.value a.expected with
    | error e => trivial
    | ok b => cases b <;> exact ⟨rfl, hr⟩
  unfold Assertion.evaluate
  cases hd : a.dataType with
  | course =>
    have hk := ha hd
    dsimp only
    rcases (itemCourses_perm h).cases with ⟨e, e', h1, h2⟩ | ⟨cs, ds, h1, h2, h3⟩
    · rw [h1, h2]; trivial
    rw [h1, h2]
    dsimp only
    unfold evaluateCourses
    have h4 := applyCourses_perm hk h3 h3
    rcases h4.cases with ⟨e, e', h1, h2⟩ | ⟨r, s, h1, h2, h4⟩
    · rw [h1, h2]; trivial
    rw [h1, h2]
    dsimp only
    rw [h4.1]
    cases compareNum a.op s.value a.expected with
    | error e => trivial
    | ok b =>
      cases b
      · exact ⟨rfl, h4⟩
      · rcases (metStatus_perm hk h3 h4).cases with ⟨e, e', h1, h2⟩ | ⟨u, v, h1, h2, h5⟩
        · simp only [h1, h2]; trivial
        · simp only [h1, h2]
          exact ⟨h5, h4⟩
  | area =>
    dsimp only
    unfold applyAreas
    cases hk : a.key == "count(areas)"
    · trivial
    · simp only [if_true]
      rcases (itemCodes_perm h).cases with ⟨e, e', h1, h2⟩ | ⟨u, v, h1, h2, h3⟩
      · rw [h1, h2]; trivial
      · rw [h1, h2]
        exact plain ⟨by rw [h3.dedup.length_eq], .refl _⟩
  | musicPerformance | recital =>
    dsimp only
    unfold applyItems
    cases hk : a.key == "count(items)"
    · simp only [Bool.false_eq_true, if_false]
      cases hk' : a.key == "count(performances)" || a.key == "count(recitals)"
      · simp only [Bool.false_eq_true, if_false]
        cases a.key == "count(seminars)" <;> trivial
      · simp only [if_true]
        rcases (itemIds_perm h).cases with ⟨e, e', h1, h2⟩ | ⟨u, v, h1, h2, h3⟩
        · rw [h1, h2]; trivial
        · rw [h1, h2]
          exact plain ⟨by rw [h3.dedup.length_eq], .refl _⟩
    · exact plain ⟨by rw [h.dedup.length_eq], .refl _⟩

/-- what auditing a solution reads of a context, apart from the order of its transcript -/
structure Ctx.Alike (x y : Ctx) : Prop where
  find : ∀ k, x.findCourseByClbid k = y.findCourseByClbid k
  forced : ∀ k, x.forcedCourseByClbid k = y.forcedCourseByClbid k
  multicountable : x.multicountable = y.multicountable
  exceptions : x.exceptions = y.exceptions
  proficiencies : x.proficiencies = y.proficiencies

theorem Ctx.Alike.refl (x : Ctx) : x.Alike x := ⟨fun _ => rfl, fun _ => rfl, rfl, rfl, rfl⟩

theorem insertInto_perm {x y : Ctx} (hx : x.Alike y) (es : List Exc) {l m : List Item} (h : l.Perm m) (ins : List String) :
    ExAlike (fun p q => p.1.Perm q.1 ∧ p.2 = q.2) (insertInto x es l ins) (insertInto y es m ins) := by
  induction es generalizing l m ins with
  | nil => exact ⟨h, rfl⟩
  | cons e es ih =>
    unfold insertInto
    cases e.kind with
    | insertion clbid forced =>
      dsimp only
      rw [← hx.forced, ← hx.find]
      cases x.forcedCourseByClbid clbid with
      | error e => trivial
      | ok c =>
        cases forced
        · dsimp only
          cases x.findCourseByClbid clbid with
          | none => exact ih h _
          | some c' => exact ih (h.append_right _) _
        · exact ih (h.append_right _) _
    | _ => exact ih h _

theorem blockFrom_perm {x y : Ctx} (hx : x.Alike y) (es : List Exc) {l m : List Item} (h : l.Perm m) :
    ExAlike List.Perm (blockFrom x es l) (blockFrom y es m) := by
  induction es generalizing l m with
  | nil => exact h
  | cons e es ih =>
    unfold blockFrom
    cases e.kind with
    | block clbid =>
      dsimp only
      rw [← hx.forced]
      cases x.forcedCourseByClbid clbid with
      | error e => trivial
      | ok c => exact ih (h.erase _)
    | _ => exact ih h

theorem Assertion.audit_perm {x y : Ctx} (hx : x.Alike y) {a b : Assertion} (hab : a.Alike b) (ha : a.OrderFree) {l m : List Item}
    (h : l.Perm m) : ExAlike Assertion.Alike (a.audit x l) (b.audit y m) := by
  obtain ⟨rc, rfl⟩ : ∃ rc, b = { a with resolvedClbids := rc } := ⟨_, hab.1⟩
  unfold Assertion.audit
  dsimp only
  split
  · exact hab
  · rw [← hx.exceptions]
    have e3 : ∀ l, Assertion.evaluate { a with resolvedClbids := rc } l = a.evaluate l := fun _ => rfl
    simp only [e3]
    have hrest : ∀ f f' : List Item, f.Perm f' → ExAlike Assertion.Alike
        (match insertInto x (getInsertExceptions x.exceptions a.path) f [] with
          | .error e => .error e
          | .ok (out, ins) => match blockFrom x (getBlockExceptions x.exceptions a.path) out with
            | .error e => .error e
            | .ok out' => match a.evaluate out' with
              | .error e => .error e
              | .ok (s, r) => .ok { a with
                  evaluated := true, state := s, resolved := some r.value,
                  resolvedClbids := r.courses.map (·.clbid), insertedClbids := ins })
        (match insertInto y (getInsertExceptions x.exceptions a.path) f' [] with
          | .error e => .error e
          | .ok (out, ins) => match blockFrom y (getBlockExceptions x.exceptions a.path) out with
            | .error e => .error e
            | .ok out' => match a.evaluate out' with
              | .error e => .error e
              | .ok (s, r) => .ok { a with
                  evaluated := true, state := s, resolved := some r.value,
                  resolvedClbids := r.courses.map (·.clbid), insertedClbids := ins }) := by
      intro f f' h1
      rcases (insertInto_perm hx (getInsertExceptions x.exceptions a.path) h1 []).cases with
        ⟨e, e', h2, h3⟩ | ⟨⟨p1, p2⟩, ⟨q1, q2⟩, h2, h3, h4, h5⟩
      · rw [h2, h3]; trivial
      rw [h2, h3]
      dsimp only at h4 h5 ⊢
      rcases (blockFrom_perm hx (getBlockExceptions x.exceptions a.path) h4).cases with ⟨e, e', h2, h3⟩ | ⟨o1, o2, h2, h3, h6⟩
      · rw [h2, h3]; trivial
      rw [h2, h3]
      dsimp only
      rcases (evaluate_perm ha h6).cases with ⟨e, e', h2, h3⟩ | ⟨⟨u1, u2⟩, ⟨v1, v2⟩, h2, h3, h7, h8⟩
      · rw [h2, h3]; trivial
      rw [h2, h3]
      dsimp only at h7 h8 ⊢
      refine ⟨?_, h8.2.map _⟩
      rw [h5, h7, h8.1]
    cases hw : a.where' with
    | none =>
      simp only [hw] at hrest
      exact hrest _ _ h
    | some p =>
      simp only [hw] at hrest
      dsimp only
      rcases (filterItems_perm p h).cases with ⟨e, e', h2, h3⟩ | ⟨f, f', h2, h3, h4⟩
      · rw [h2, h3]; trivial
      · rw [h2, h3]
        exact hrest _ _ h4

mutual
theorem DynCond.eval_perm {cs ds : List Course} (h : cs.Perm ds) : ∀ c : DynCond, c.eval cs = c.eval ds
  | .and es => by simpa only [DynCond.eval] using DynCond.evalAll_perm h es
  | .or es => by simpa only [DynCond.eval] using DynCond.evalAny_perm h es
  | .hasAttribute a => by simpa only [DynCond.eval] using any_perm h _
  | .hasSingleAttribute a => by simp only [DynCond.eval, (h.filter _).length_eq]
theorem DynCond.evalAll_perm {cs ds : List Course} (h : cs.Perm ds) : ∀ es : List DynCond, DynCond.evalAll cs es = DynCond.evalAll ds es
  | [] => rfl
  | e :: es => by simp only [DynCond.evalAll, DynCond.eval_perm h e, DynCond.evalAll_perm h es]
theorem DynCond.evalAny_perm {cs ds : List Course} (h : cs.Perm ds) : ∀ es : List DynCond, DynCond.evalAny cs es = DynCond.evalAny ds es
  | [] => rfl
  | e :: es => by simp only [DynCond.evalAny, DynCond.eval_perm h e, DynCond.evalAny_perm h es]
end

theorem AnyAssertion.audit_perm {x y : Ctx} (hx : x.Alike y) {a b : AnyAssertion} (hab : a.Alike b) (ha : a.All Assertion.OrderFree)
    {l m : List Item} (h : l.Perm m) : ExAlike AnyAssertion.Alike (a.audit x l) (b.audit y m) := by
  cases a <;> cases b <;> simp only [AnyAssertion.Alike] at hab
  · rcases (Assertion.audit_perm hx hab ha h).cases with ⟨e, e', h1, h2⟩ | ⟨u, v, h1, h2, h3⟩
    · simp only [AnyAssertion.audit, h1, h2]; trivial
    · simp only [AnyAssertion.audit, h1, h2]; exact h3
  · obtain ⟨rfl, ht, hf⟩ := hab
    rename_i c t f t' f'
    rcases c with _ | _ | _
    · trivial
    · cases hf with
      | none => exact ⟨rfl, ht, .none⟩
      | some hf =>
        rcases (Assertion.audit_perm hx hf (ha.2 _ rfl) h).cases with ⟨e, e', h1, h2⟩ | ⟨u, v, h1, h2, h3⟩
        · simp only [AnyAssertion.audit, h1, h2]; trivial
        · simp only [AnyAssertion.audit, h1, h2]; exact ⟨rfl, ht, .some h3⟩
    · rcases (Assertion.audit_perm hx ht ha.1 h).cases with ⟨e, e', h1, h2⟩ | ⟨u, v, h1, h2, h3⟩
      · simp only [AnyAssertion.audit, h1, h2]; trivial
      · simp only [AnyAssertion.audit, h1, h2]; exact ⟨rfl, h3, hf⟩
  · obtain ⟨rfl, rfl, ht⟩ := hab
    rename_i c r t t'
    simp only [AnyAssertion.audit]
    rcases (itemCourses_perm h).cases with ⟨e, e', h1, h2⟩ | ⟨cs, ds, h1, h2, h3⟩
    · rw [h1, h2]; trivial
    rw [h1, h2]
    dsimp only
    rw [DynCond.eval_perm h3 c]
    split
    · rcases (Assertion.audit_perm hx ht ha h).cases with ⟨e, e', h1, h2⟩ | ⟨u, v, h1, h2, h3⟩
      · simp only [h1, h2]; trivial
      · simp only [h1, h2]; exact ⟨rfl, rfl, h3⟩
    · exact ⟨rfl, rfl, ht⟩

/-- **Assertions do not see the order of their courses**, except for the measures in `orderedKeys`. -/
theorem auditAssertions_perm {x y : Ctx} (hx : x.Alike y) {as bs : List AnyAssertion} (hab : List.Forall₂ AnyAssertion.Alike as bs)
    (ha : ∀ a ∈ as, a.All Assertion.OrderFree) {l m : List Item} (h : l.Perm m) :
    ExAlike (List.Forall₂ AnyAssertion.Alike) (auditAssertions x l as) (auditAssertions y m bs) := by
  induction hab with
  | nil => exact .nil
  | cons hd _ ih =>
    rename_i a b as bs _
    simp only [auditAssertions]
    rcases (AnyAssertion.audit_perm hx hd (ha a (by simp)) h).cases with ⟨e, e', h1, h2⟩ | ⟨u, v, h1, h2, h3⟩
    · rw [h1, h2]; trivial
    rw [h1, h2]
    dsimp only
    rcases (ih (fun a' h' => ha a' (List.mem_cons_of_mem _ h'))).cases with ⟨e, e', h1, h2⟩ | ⟨us, vs, h1, h2, h4⟩
    · rw [h1, h2]; trivial
    · rw [h1, h2]; exact .cons h3 h4

end Dp
