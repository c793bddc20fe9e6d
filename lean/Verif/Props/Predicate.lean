import Verif.Model.Predicate
import Mathlib.Tactic.Common

/-
Property C17: filters and conditions are boolean combinations of their parts.
-/
namespace Dp

/-! ### Specification -/

mutual
/-- The boolean reading of a filter, given which elementary comparisons hold. -/
def Pred.Holds (atom : PredLeaf → Prop) : Pred → Prop
  | .and ps => Pred.AllHold atom ps
  | .or ps => Pred.SomeHolds atom ps
  | .not p => ¬ p.Holds atom
  | .cond (some true) t _ => t.Holds atom
  | .cond _ _ e => Pred.ElseHolds atom e
  | .leaf l => atom l
def Pred.AllHold (atom : PredLeaf → Prop) : List Pred → Prop
  | [] => True
  | p :: ps => p.Holds atom ∧ Pred.AllHold atom ps
def Pred.SomeHolds (atom : PredLeaf → Prop) : List Pred → Prop
  | [] => False
  | p :: ps => p.Holds atom ∨ Pred.SomeHolds atom ps
def Pred.ElseHolds (atom : PredLeaf → Prop) : Option Pred → Prop
  | none => False
  | some p => p.Holds atom
end

theorem Pred.allHold_iff (atom) (ps : List Pred) : Pred.AllHold atom ps ↔ ∀ p ∈ ps, p.Holds atom := by
  induction ps with
  | nil => simp [Pred.AllHold]
  | cons p ps ih => simp [Pred.AllHold, ih]

theorem Pred.someHolds_iff (atom) (ps : List Pred) :
    Pred.SomeHolds atom ps ↔ ∃ p ∈ ps, p.Holds atom := by
  induction ps with
  | nil => simp [Pred.SomeHolds]
  | cons p ps ih => simp [Pred.SomeHolds, ih]

mutual
theorem Pred.apply_sound (leaf : PredLeaf → Except Err Bool) : ∀ (p : Pred) (b : Bool),
    p.apply leaf = .ok b → (b = true ↔ p.Holds (fun l => leaf l = .ok true))
  | .and ps, b, h => by
    simp only [Pred.apply] at h
    simpa [Pred.Holds] using Pred.applyAll_sound leaf ps b h
  | .or ps, b, h => by
    simp only [Pred.apply] at h
    simpa [Pred.Holds] using Pred.applyAny_sound leaf ps b h
  | .not p, b, h => by
    simp only [Pred.apply] at h
    cases hp : p.apply leaf with
    | error e => rw [hp] at h; cases h
    | ok c =>
      rw [hp] at h
      have ih := Pred.apply_sound leaf p c hp
      cases h
      simp only [Pred.Holds, ← ih]
      cases c <;> simp
  | .cond r t e, b, h => by
    simp only [Pred.apply] at h
    cases r with
    | none =>
      simp at h
      simpa [Pred.Holds] using Pred.applyElse_sound leaf e b h
    | some r =>
      cases r with
      | true => simp at h; simpa [Pred.Holds] using Pred.apply_sound leaf t b h
      | false => simp at h; simpa [Pred.Holds] using Pred.applyElse_sound leaf e b h
  | .leaf l, b, h => by
    simp only [Pred.apply] at h
    simp [Pred.Holds, h]

theorem Pred.applyAll_sound (leaf : PredLeaf → Except Err Bool) : ∀ (ps : List Pred) (b : Bool),
    Pred.applyAll leaf ps = .ok b → (b = true ↔ Pred.AllHold (fun l => leaf l = .ok true) ps)
  | [], b, h => by simp only [Pred.applyAll] at h; cases h; simp [Pred.AllHold]
  | p :: ps, b, h => by
    simp only [Pred.applyAll] at h
    cases hp : p.apply leaf with
    | error e => rw [hp] at h; cases h
    | ok c =>
      rw [hp] at h
      have ih := Pred.apply_sound leaf p c hp
      cases c with
      | false => cases h; simp [Pred.AllHold, ← ih]
      | true => simp [Pred.AllHold, ← ih, Pred.applyAll_sound leaf ps b h]

theorem Pred.applyAny_sound (leaf : PredLeaf → Except Err Bool) : ∀ (ps : List Pred) (b : Bool),
    Pred.applyAny leaf ps = .ok b → (b = true ↔ Pred.SomeHolds (fun l => leaf l = .ok true) ps)
  | [], b, h => by simp only [Pred.applyAny] at h; cases h; simp [Pred.SomeHolds]
  | p :: ps, b, h => by
    simp only [Pred.applyAny] at h
    cases hp : p.apply leaf with
    | error e => rw [hp] at h; cases h
    | ok c =>
      rw [hp] at h
      have ih := Pred.apply_sound leaf p c hp
      cases c with
      | true => cases h; simp [Pred.SomeHolds, ← ih]
      | false => simp [Pred.SomeHolds, ← ih, Pred.applyAny_sound leaf ps b h]

theorem Pred.applyElse_sound (leaf : PredLeaf → Except Err Bool) : ∀ (e : Option Pred) (b : Bool),
    Pred.applyElse leaf e = .ok b → (b = true ↔ Pred.ElseHolds (fun l => leaf l = .ok true) e)
  | none, b, h => by simp only [Pred.applyElse] at h; cases h; simp [Pred.ElseHolds]
  | some p, b, h => by
    simp only [Pred.applyElse] at h
    simpa [Pred.ElseHolds] using Pred.apply_sound leaf p b h
end

mutual
/-- Elementary comparisons occurring in a filter. -/
def Pred.leaves : Pred → List PredLeaf
  | .and ps => Pred.leavesAll ps
  | .or ps => Pred.leavesAll ps
  | .not p => p.leaves
  | .cond _ t e => t.leaves ++ Pred.leavesElse e
  | .leaf l => [l]
def Pred.leavesAll : List Pred → List PredLeaf
  | [] => []
  | p :: ps => p.leaves ++ Pred.leavesAll ps
def Pred.leavesElse : Option Pred → List PredLeaf
  | none => []
  | some p => p.leaves
end

mutual
theorem Pred.apply_total (leaf : PredLeaf → Except Err Bool) : ∀ (p : Pred),
    (∀ l ∈ p.leaves, ∃ b, leaf l = .ok b) → ∃ b, p.apply leaf = .ok b
  | .and ps, h => by simpa [Pred.apply] using Pred.applyAll_total leaf ps (by simpa [Pred.leaves] using h)
  | .or ps, h => by simpa [Pred.apply] using Pred.applyAny_total leaf ps (by simpa [Pred.leaves] using h)
  | .not p, h => by
    obtain ⟨b, hb⟩ := Pred.apply_total leaf p (by simpa [Pred.leaves] using h)
    exact ⟨!b, by simp [Pred.apply, hb]⟩
  | .cond r t e, h => by
    simp only [Pred.leaves, List.mem_append] at h
    obtain ⟨b, hb⟩ := Pred.apply_total leaf t (fun l hl => h l (.inl hl))
    obtain ⟨c, hc⟩ := Pred.applyElse_total leaf e (fun l hl => h l (.inr hl))
    simp only [Pred.apply]
    split
    · exact ⟨b, hb⟩
    · exact ⟨c, hc⟩
  | .leaf l, h => by simpa [Pred.apply] using h l (by simp [Pred.leaves])
theorem Pred.applyAll_total (leaf : PredLeaf → Except Err Bool) : ∀ (ps : List Pred),
    (∀ l ∈ Pred.leavesAll ps, ∃ b, leaf l = .ok b) → ∃ b, Pred.applyAll leaf ps = .ok b
  | [], _ => ⟨true, by simp [Pred.applyAll]⟩
  | p :: ps, h => by
    simp only [Pred.leavesAll, List.mem_append] at h
    obtain ⟨b, hb⟩ := Pred.apply_total leaf p (fun l hl => h l (.inl hl))
    obtain ⟨c, hc⟩ := Pred.applyAll_total leaf ps (fun l hl => h l (.inr hl))
    simp only [Pred.applyAll, hb]
    cases b
    · exact ⟨_, rfl⟩
    · exact ⟨c, hc⟩
theorem Pred.applyAny_total (leaf : PredLeaf → Except Err Bool) : ∀ (ps : List Pred),
    (∀ l ∈ Pred.leavesAll ps, ∃ b, leaf l = .ok b) → ∃ b, Pred.applyAny leaf ps = .ok b
  | [], _ => ⟨false, by simp [Pred.applyAny]⟩
  | p :: ps, h => by
    simp only [Pred.leavesAll, List.mem_append] at h
    obtain ⟨b, hb⟩ := Pred.apply_total leaf p (fun l hl => h l (.inl hl))
    obtain ⟨c, hc⟩ := Pred.applyAny_total leaf ps (fun l hl => h l (.inr hl))
    simp only [Pred.applyAny, hb]
    cases b
    · exact ⟨c, hc⟩
    · exact ⟨_, rfl⟩
theorem Pred.applyElse_total (leaf : PredLeaf → Except Err Bool) : ∀ (e : Option Pred),
    (∀ l ∈ Pred.leavesElse e, ∃ b, leaf l = .ok b) → ∃ b, Pred.applyElse leaf e = .ok b
  | none, _ => ⟨false, by simp [Pred.applyElse]⟩
  | some p, h => by simpa [Pred.applyElse] using Pred.apply_total leaf p (by simpa [Pred.leavesElse] using h)
end

/-! ### C17 -/

/-- C17. Whenever a filter gives an answer for a course, the answer is the
boolean combination of the answers of its elementary comparisons; and it always
gives an answer if those do. -/
theorem C17_filters_are_boolean (p : Pred) (c : Course) :
    (∀ b, p.applyCourse c = .ok b → (b = true ↔ p.Holds (fun l => applyCourseLeaf c l = .ok true))) ∧
    ((∀ l ∈ p.leaves, ∃ b, applyCourseLeaf c l = .ok b) → ∃ b, p.applyCourse c = .ok b) :=
  ⟨fun b h => Pred.apply_sound _ p b h, fun h => Pred.apply_total _ p h⟩

/-- Non-trivial case for C17: not (CSCI and level ≥ 300), or a false condition
without an else. -/
example : ∃ (p : Pred) (c : Course), p.leaves.length = 3 ∧ p.applyCourse c = .ok true := by
  refine ⟨.or [.cond (some false) (.leaf ⟨"course", .eq, strVal "X", none⟩) none,
    .not (.and [.leaf ⟨"subject", .eq, strVal "CSCI", none⟩, .leaf ⟨"level", .gte, intVal 300, none⟩])],
    { clbid := "1", subject := "CSCI", level := 200 }, by decide, by decide +kernel⟩

mutual
/-- The boolean reading of a condition. -/
def CondSpec.Holds (facts : String → String → Bool) : CondSpec → Prop
  | .and es => CondSpec.AllHold facts es
  | .or es => CondSpec.SomeHolds facts es
  | .not e => ¬ e.Holds facts
  | .test f a => facts f a = true
def CondSpec.AllHold (facts : String → String → Bool) : List CondSpec → Prop
  | [] => True
  | e :: es => e.Holds facts ∧ CondSpec.AllHold facts es
def CondSpec.SomeHolds (facts : String → String → Bool) : List CondSpec → Prop
  | [] => False
  | e :: es => e.Holds facts ∨ CondSpec.SomeHolds facts es
end

mutual
theorem CondExpr.load_spec (facts : String → String → Bool) : ∀ s : CondSpec,
    ∃ b, (CondExpr.load facts s).result = some b ∧ (b = true ↔ s.Holds facts)
  | .and es => by
    refine ⟨_, rfl, ?_⟩
    rw [CondSpec.Holds]; exact (CondExpr.loadAll_spec facts es).1
  | .or es => by
    refine ⟨_, rfl, ?_⟩
    rw [CondSpec.Holds]; exact (CondExpr.loadAll_spec facts es).2
  | .not e => by
    obtain ⟨b, h1, h2⟩ := CondExpr.load_spec facts e
    refine ⟨_, rfl, ?_⟩
    simp only [CondSpec.Holds, ← h2, h1]
    cases b <;> simp [truthy]
  | .test f a => ⟨_, rfl, by simp [CondSpec.Holds]⟩
theorem CondExpr.loadAll_spec (facts : String → String → Bool) : ∀ es : List CondSpec,
    ((CondExpr.loadAll facts es).all (fun e => truthy e.result) = true ↔ CondSpec.AllHold facts es) ∧
    ((CondExpr.loadAll facts es).any (fun e => truthy e.result) = true ↔ CondSpec.SomeHolds facts es)
  | [] => by simp [CondExpr.loadAll, CondSpec.AllHold, CondSpec.SomeHolds]
  | e :: es => by
    obtain ⟨b, h1, h2⟩ := CondExpr.load_spec facts e
    obtain ⟨i1, i2⟩ := CondExpr.loadAll_spec facts es
    simp only [CondExpr.loadAll, CondSpec.AllHold, CondSpec.SomeHolds, List.all_cons, List.any_cons,
      Bool.and_eq_true, Bool.or_eq_true, i1, i2, h1, ← h2]
    cases b <;> simp [truthy]
end

/-- C17. A loaded `$if` condition has a definite result, the boolean combination
of its tests, and evaluating it again never changes it. -/
theorem C17_conditions_are_boolean (facts facts' : String → String → Bool) (s : CondSpec) :
    ∃ b, (CondExpr.load facts s).result = some b ∧ (b = true ↔ s.Holds facts) ∧
      CondExpr.evaluate facts' (CondExpr.load facts s) = CondExpr.load facts s := by
  obtain ⟨b, h1, h2⟩ := CondExpr.load_spec facts s
  refine ⟨b, h1, h2, ?_⟩
  generalize CondExpr.load facts s = e at h1
  cases e <;> simp only [CondExpr.result] at h1 <;> subst h1 <;> simp [CondExpr.evaluate]

/-- Non-trivial case for the condition part of C17. -/
example : (CondExpr.load (fun _ a => a == "CSCI 121")
    (.and [.test "has-course" "CSCI 121", .not (.or [.test "has-course" "MATH 120"])])).result
      = some true := by decide

/-! ### The filter as written -/

mutual
/-- The boolean reading of a filter as written in an area file. -/
def RawPred.Holds (facts : String → String → Bool) (atom : PredLeaf → Prop) : RawPred → Prop
  | .and ps => RawPred.AllHold facts atom ps
  | .or ps => RawPred.SomeHolds facts atom ps
  | .not p => ¬ p.Holds facts atom
  | .ite c t e =>
    (c.Holds facts ∧ t.Holds facts atom) ∨ (¬ c.Holds facts ∧ RawPred.ElseHolds facts atom e)
  | .dict ls => ∀ l ∈ ls, atom l
def RawPred.AllHold (facts : String → String → Bool) (atom : PredLeaf → Prop) : List RawPred → Prop
  | [] => True
  | p :: ps => p.Holds facts atom ∧ RawPred.AllHold facts atom ps
def RawPred.SomeHolds (facts : String → String → Bool) (atom : PredLeaf → Prop) : List RawPred → Prop
  | [] => False
  | p :: ps => p.Holds facts atom ∨ RawPred.SomeHolds facts atom ps
def RawPred.ElseHolds (facts : String → String → Bool) (atom : PredLeaf → Prop) : Option RawPred → Prop
  | none => False
  | some p => p.Holds facts atom
end

mutual
/-- Every `$and` and `$or` in it lists at least one part. -/
def RawPred.WellFormed : RawPred → Prop
  | .and ps => ps ≠ [] ∧ RawPred.AllWellFormed ps
  | .or ps => ps ≠ [] ∧ RawPred.AllWellFormed ps
  | .not p => p.WellFormed
  | .ite _ t e => t.WellFormed ∧ RawPred.ElseWellFormed e
  | .dict _ => True
def RawPred.AllWellFormed : List RawPred → Prop
  | [] => True
  | p :: ps => p.WellFormed ∧ RawPred.AllWellFormed ps
def RawPred.ElseWellFormed : Option RawPred → Prop
  | none => True
  | some p => p.WellFormed
end

theorem Pred.allHold_leaves (atom) (ls : List PredLeaf) :
    Pred.AllHold atom (ls.map .leaf) ↔ ∀ l ∈ ls, atom l := by
  simp [Pred.allHold_iff, Pred.Holds]

mutual
theorem loadPredicate_spec (facts : String → String → Bool) (atom : PredLeaf → Prop) :
    ∀ (r : RawPred) (p : Pred), loadPredicate facts r = .ok p →
      (p.Holds atom ↔ r.Holds facts atom)
  | .and ps, p, h => by
    rw [loadPredicate] at h
    cases hq : loadPredicates facts ps with
    | error e => simp [hq] at h
    | ok qs =>
      have ih := (loadPredicates_spec facts atom ps qs hq).1
      cases qs with
      | nil => simp [hq] at h
      | cons q qs => simp [hq] at h; subst h; simpa [Pred.Holds, RawPred.Holds] using ih
  | .or ps, p, h => by
    rw [loadPredicate] at h
    cases hq : loadPredicates facts ps with
    | error e => simp [hq] at h
    | ok qs =>
      have ih := (loadPredicates_spec facts atom ps qs hq).2
      cases qs with
      | nil => simp [hq] at h
      | cons q qs => simp [hq] at h; subst h; simpa [Pred.Holds, RawPred.Holds] using ih
  | .not p, q, h => by
    rw [loadPredicate] at h
    cases hq : loadPredicate facts p with
    | error e => simp [hq] at h
    | ok q' =>
      have ih := loadPredicate_spec facts atom p q' hq
      simp [hq] at h; subst h; simp [Pred.Holds, RawPred.Holds, ih]
  | .ite c t e, q, h => by
    rw [loadPredicate] at h
    cases ht : loadPredicate facts t with
    | error x => simp [ht] at h
    | ok t' =>
      cases he : loadElse facts e with
      | error x => simp [ht, he] at h
      | ok e' =>
        have ih1 := loadPredicate_spec facts atom t t' ht
        have ih2 := loadElse_spec facts atom e e' he
        obtain ⟨b, hb1, hb2⟩ := CondExpr.load_spec facts c
        simp only [ht, he, hb1, Except.ok.injEq] at h
        subst h
        cases b with
        | true => have := hb2.1 rfl; simp [Pred.Holds, RawPred.Holds, ih1, this]
        | false =>
          have : ¬ c.Holds facts := fun hc => by simpa using hb2.2 hc
          simp [Pred.Holds, RawPred.Holds, ih2, this]
  | .dict ls, q, h => by
    rcases ls with _ | ⟨l, _ | ⟨l', ls⟩⟩ <;> simp only [loadPredicate, Except.ok.injEq] at h <;> subst h
    · simp [Pred.Holds, RawPred.Holds, Pred.AllHold]
    · simp [Pred.Holds, RawPred.Holds]
    · rw [Pred.Holds, Pred.allHold_leaves, RawPred.Holds]
theorem loadPredicates_spec (facts : String → String → Bool) (atom : PredLeaf → Prop) :
    ∀ (rs : List RawPred) (ps : List Pred), loadPredicates facts rs = .ok ps →
      (Pred.AllHold atom ps ↔ RawPred.AllHold facts atom rs) ∧
      (Pred.SomeHolds atom ps ↔ RawPred.SomeHolds facts atom rs)
  | [], ps, h => by
    rw [loadPredicates] at h; cases h
    simp [Pred.AllHold, RawPred.AllHold, Pred.SomeHolds, RawPred.SomeHolds]
  | r :: rs, ps, h => by
    rw [loadPredicates] at h
    cases hq : loadPredicate facts r with
    | error e => simp [hq] at h
    | ok q =>
      cases hqs : loadPredicates facts rs with
      | error e => simp [hq, hqs] at h
      | ok qs =>
        have i1 := loadPredicate_spec facts atom r q hq
        have i2 := loadPredicates_spec facts atom rs qs hqs
        simp only [hq, hqs, Except.ok.injEq] at h; subst h
        simp [Pred.AllHold, RawPred.AllHold, Pred.SomeHolds, RawPred.SomeHolds, i1, i2.1, i2.2]
theorem loadElse_spec (facts : String → String → Bool) (atom : PredLeaf → Prop) :
    ∀ (r : Option RawPred) (p : Option Pred), loadElse facts r = .ok p →
      (Pred.ElseHolds atom p ↔ RawPred.ElseHolds facts atom r)
  | none, p, h => by rw [loadElse] at h; cases h; simp [Pred.ElseHolds, RawPred.ElseHolds]
  | some r, p, h => by
    rw [loadElse] at h
    cases hq : loadPredicate facts r with
    | error e => simp [hq] at h
    | ok q =>
      have i1 := loadPredicate_spec facts atom r q hq
      simp only [hq, Except.ok.injEq] at h; subst h
      simp [Pred.ElseHolds, RawPred.ElseHolds, i1]
end

mutual
theorem loadPredicate_ok_iff (facts : String → String → Bool) :
    ∀ (r : RawPred), (∃ p, loadPredicate facts r = .ok p) ↔ r.WellFormed
  | .and ps => by
    have ih := loadPredicates_ok_iff facts ps
    rw [loadPredicate, RawPred.WellFormed, ← ih]
    constructor
    · rintro ⟨p, hp⟩
      cases hq : loadPredicates facts ps with
      | error e => simp [hq] at hp
      | ok qs =>
        refine ⟨?_, ⟨qs, rfl⟩⟩
        rintro rfl
        rw [loadPredicates] at hq; cases hq; simp [loadPredicates] at hp
    · rintro ⟨hne, qs, hqs⟩
      cases qs with
      | nil =>
        cases ps with
        | nil => exact absurd rfl hne
        | cons p ps =>
          rw [loadPredicates] at hqs
          split at hqs
          · cases hqs
          · split at hqs <;> cases hqs
      | cons q qs => exact ⟨_, by simp [hqs]; rfl⟩
  | .or ps => by
    have ih := loadPredicates_ok_iff facts ps
    rw [loadPredicate, RawPred.WellFormed, ← ih]
    constructor
    · rintro ⟨p, hp⟩
      cases hq : loadPredicates facts ps with
      | error e => simp [hq] at hp
      | ok qs =>
        refine ⟨?_, ⟨qs, rfl⟩⟩
        rintro rfl
        rw [loadPredicates] at hq; cases hq; simp [loadPredicates] at hp
    · rintro ⟨hne, qs, hqs⟩
      cases qs with
      | nil =>
        cases ps with
        | nil => exact absurd rfl hne
        | cons p ps =>
          rw [loadPredicates] at hqs
          split at hqs
          · cases hqs
          · split at hqs <;> cases hqs
      | cons q qs => exact ⟨_, by simp [hqs]; rfl⟩
  | .not p => by
    have ih := loadPredicate_ok_iff facts p
    rw [loadPredicate, RawPred.WellFormed, ← ih]
    cases loadPredicate facts p <;> simp
  | .ite c t e => by
    have i1 := loadPredicate_ok_iff facts t
    have i2 := loadElse_ok_iff facts e
    rw [loadPredicate, RawPred.WellFormed, ← i1, ← i2]
    cases loadPredicate facts t <;> cases loadElse facts e <;> simp
  | .dict ls => by
    rcases ls with _ | ⟨l, _ | ⟨l', ls⟩⟩ <;> simp [loadPredicate, RawPred.WellFormed]
theorem loadPredicates_ok_iff (facts : String → String → Bool) :
    ∀ (rs : List RawPred), (∃ ps, loadPredicates facts rs = .ok ps) ↔ RawPred.AllWellFormed rs
  | [] => by simp [loadPredicates, RawPred.AllWellFormed]
  | r :: rs => by
    have i1 := loadPredicate_ok_iff facts r
    have i2 := loadPredicates_ok_iff facts rs
    rw [loadPredicates, RawPred.AllWellFormed, ← i1, ← i2]
    cases loadPredicate facts r <;> cases loadPredicates facts rs <;> simp
theorem loadElse_ok_iff (facts : String → String → Bool) :
    ∀ (r : Option RawPred), (∃ p, loadElse facts r = .ok p) ↔ RawPred.ElseWellFormed r
  | none => by simp [loadElse, RawPred.ElseWellFormed]
  | some r => by
    have i1 := loadPredicate_ok_iff facts r
    rw [loadElse, RawPred.ElseWellFormed, ← i1]
    cases loadPredicate facts r <;> simp
end

/-- C17. A filter written in an area file loads exactly when each `$and`/`$or`
has a part, and then accepts a course exactly when its boolean reading
(if-then-else by the condition's truth at load time, several comparisons in one
dictionary meaning all of them) holds. -/
theorem C17_written_filter (facts : String → String → Bool) (r : RawPred) (c : Course) :
    ((∃ p, loadPredicate facts r = .ok p) ↔ r.WellFormed) ∧
    ∀ p b, loadPredicate facts r = .ok p → p.applyCourse c = .ok b →
      (b = true ↔ r.Holds facts (fun l => applyCourseLeaf c l = .ok true)) :=
  ⟨loadPredicate_ok_iff facts r, fun p b hl hb => by
    rw [← loadPredicate_spec facts _ r p hl]; exact (C17_filters_are_boolean p c).1 b hb⟩

/-- Non-trivial case: an if-then-else inside a negation, evaluated on a course. -/
example : ∃ p, loadPredicate (fun _ _ => true)
      (.not (.ite (.test "has-course" "X") (.dict [⟨"subject", .eq, strVal "CSCI", none⟩,
        ⟨"level", .gte, intVal 300, none⟩]) none)) = .ok p ∧
    p.applyCourse { clbid := "1", subject := "CSCI", level := 200 } = .ok true :=
  ⟨_, rfl, by decide +kernel⟩

/-! ### What a comparison looks at -/

/-- The attribute of a course a comparison key names (every key except `ap` and
`grade`, which have rules of their own). -/
inductive Names (c : Course) : String → Val → Prop where
  | attributes : Names c "attributes" (.tup (c.attributes.map .str))
  | attribute : Names c "attribute" (.tup (c.attributes.map .str))
  | gereqs : Names c "gereqs" (.tup (c.gereqs.map .str))
  | clbid : Names c "clbid" (strVal c.clbid)
  | crsid : Names c "crsid" (strVal c.crsid)
  | course : Names c "course" (strVal c.identity)
  | courseType : Names c "course_type" (strVal c.courseType.pyName)
  | credits : Names c "credits" (numVal c.credits)
  | gradeOption : Names c "grade_option" (.sc (.option c.gradeOption))
  | institution : Names c "institution" (strVal c.institution)
  | isInGpa : Names c "is_in_gpa" (boolVal c.isInGpa)
  | isInProgress : Names c "is_in_progress" (boolVal c.isInProgress)
  | isStolaf : Names c "is_stolaf" (boolVal c.isStolaf)
  | lab : Names c "lab" (boolVal c.isLab)
  | level : Names c "level" (intVal c.level)
  | name : Names c "name" (strVal c.name)
  | number : Names c "number" (strVal c.number)
  | semester : Names c "semester" (strVal c.term)
  | subject (h : c.isChbi = none) : Names c "subject" (strVal c.subject)
  | chem (n : Nat) (h : c.isChbi = some n) (hn : n = 125 ∨ n = 126) : Names c "subject" (strVal "CHEM")
  | bio (n : Nat) (h : c.isChbi = some n) (hn : ¬ (n = 125 ∨ n = 126)) : Names c "subject" (strVal "BIO")
  | type : Names c "type" (strVal c.subType.pyName)
  | year : Names c "year" (intVal c.year)

theorem Names.apply {c : Course} {k : String} {v : Val} (h : Names c k v) (op : Operator) (e : Val)
    (cov : Option Val) : applyCourseLeaf c ⟨k, op, e, cov⟩ = applyOperator op v e := by
  cases h <;> simp [applyCourseLeaf, PredLeaf.compare]
  all_goals simp_all

/-- C17. A single comparison in a filter compares the attribute its key names:
this covers every known key; `ap` needs an AP course of that name; `grade` uses
the internal grade of S/U courses and the special expectation for courses taken
during COVID; any other key is rejected. -/
theorem C17_comparison_keys (c : Course) (op : Operator) (e : Val) (cov : Option Val) :
    (∀ k v, Names c k v → applyCourseLeaf c ⟨k, op, e, cov⟩ = applyOperator op v e) ∧
    (c.courseType = .ap → applyCourseLeaf c ⟨"ap", op, e, cov⟩ = applyOperator op (strVal c.name) e) ∧
    (c.courseType ≠ .ap → applyCourseLeaf c ⟨"ap", op, e, cov⟩ = .ok false) ∧
    (c.isDuringCovid = false →
      applyCourseLeaf c ⟨"grade", op, e, cov⟩ = applyOperator op (.sc (.grade c.gradeCode)) e) ∧
    (∀ g, c.isDuringCovid = true → c.gradeCode = .S → c.suGradeCode = some g →
      applyCourseLeaf c ⟨"grade", op, e, cov⟩ = applyOperator op (.sc (.grade g)) (cov.getD e)) ∧
    (c.isDuringCovid = true → (c.gradeCode ≠ .S ∨ c.suGradeCode = none) →
      applyCourseLeaf c ⟨"grade", op, e, cov⟩ =
        applyOperator op (.sc (.grade c.gradeCode)) (cov.getD e)) ∧
    (∀ k, k ≠ "ap" → k ≠ "grade" → (∀ v, ¬ Names c k v) →
      applyCourseLeaf c ⟨k, op, e, cov⟩ = .error .assertion) := by
  refine ⟨fun k v h => h.apply op e cov, fun h => ?_, fun h => ?_, fun h => ?_, fun g h1 h2 h3 => ?_,
    fun h1 h2 => ?_, fun k h1 h2 h3 => ?_⟩
  · simp [applyCourseLeaf, PredLeaf.compare, h]
  · simp [applyCourseLeaf, h]
  · simp [applyCourseLeaf, PredLeaf.compare, h]
  · simp only [applyCourseLeaf, PredLeaf.compareInCovid, PredLeaf.compare, h1, h2, h3]
    cases cov <;> simp
  · simp only [applyCourseLeaf, PredLeaf.compareInCovid, PredLeaf.compare, h1]
    cases cov <;> (simp only [Option.getD]; simp; split) <;> first
      | rfl
      | (rename_i h4 h5
         rcases h2 with h2 | h2
         · exact absurd h4 h2
         · rw [h2] at h5; cases h5)
  · have key : ∀ k', (∃ v, Names c k' v) → (k == k') = false := by
      intro k' hk'
      rw [beq_eq_false_iff_ne]
      rintro rfl
      obtain ⟨v, hv⟩ := hk'
      exact h3 v hv
    have hs : (k == "subject") = false := by
      apply key
      cases hc : c.isChbi with
      | none => exact ⟨_, .subject hc⟩
      | some n =>
        by_cases hn : n = 125 ∨ n = 126
        · exact ⟨_, .chem n hc hn⟩
        · exact ⟨_, .bio n hc hn⟩
    have e1 : (k == "ap") = false := by simpa using h1
    have e2 : (k == "grade") = false := by simpa using h2
    simp only [applyCourseLeaf, e1, e2, hs, key _ ⟨_, .attributes⟩, key _ ⟨_, .attribute⟩,
      key _ ⟨_, .gereqs⟩, key _ ⟨_, .clbid⟩, key _ ⟨_, .crsid⟩, key _ ⟨_, .course⟩,
      key _ ⟨_, .courseType⟩, key _ ⟨_, .credits⟩, key _ ⟨_, .gradeOption⟩, key _ ⟨_, .institution⟩,
      key _ ⟨_, .isInGpa⟩, key _ ⟨_, .isInProgress⟩, key _ ⟨_, .isStolaf⟩, key _ ⟨_, .lab⟩,
      key _ ⟨_, .level⟩, key _ ⟨_, .name⟩, key _ ⟨_, .number⟩, key _ ⟨_, .semester⟩,
      key _ ⟨_, .type⟩, key _ ⟨_, .year⟩]
    simp

/-- Non-trivial case: a CH/BI 126 course counts as CHEM, not as its own subject;
a COVID S grade is compared through the internal grade. -/
example : applyCourseLeaf { clbid := "1", subject := "CH/BI", isChbi := some 126 }
      ⟨"subject", .eq, strVal "CHEM", none⟩ = .ok true ∧
    applyCourseLeaf { clbid := "1", gradeCode := .S, suGradeCode := some .C, isDuringCovid := true }
      ⟨"grade", .gte, .sc (.grade .B), some (.sc (.grade .Cminus))⟩ = .ok true := by decide

/-! ### Conditions over a query's courses -/

mutual
/-- The boolean reading of a `$when` condition. -/
def DynCond.Holds (data : List Course) : DynCond → Prop
  | .and es => DynCond.AllHold data es
  | .or es => DynCond.SomeHolds data es
  | .hasAttribute a => ∃ c ∈ data, a ∈ c.attributes
  | .hasSingleAttribute a => ∃ i, ∃ h : i < data.length, a ∈ data[i].attributes ∧
      ∀ j, ∀ h : j < data.length, a ∈ data[j].attributes → j = i
def DynCond.AllHold (data : List Course) : List DynCond → Prop
  | [] => True
  | e :: es => e.Holds data ∧ DynCond.AllHold data es
def DynCond.SomeHolds (data : List Course) : List DynCond → Prop
  | [] => False
  | e :: es => e.Holds data ∨ DynCond.SomeHolds data es
end

theorem filter_length_one {α : Type} (p : α → Bool) (l : List α) :
    (l.filter p).length = 1 ↔ ∃ i, ∃ h : i < l.length, p l[i] = true ∧
      ∀ j, ∀ h : j < l.length, p l[j] = true → j = i := by
  induction l with
  | nil => simp
  | cons a l ih =>
    by_cases ha : p a = true
    · rw [List.filter_cons_of_pos ha]
      simp only [List.length_cons, Nat.add_eq_right, List.length_eq_zero_iff,
        List.filter_eq_nil_iff]
      constructor
      · intro h
        refine ⟨0, by simp, by simpa using ha, ?_⟩
        intro j hj hp
        cases j with
        | zero => rfl
        | succ j =>
          simp only [List.getElem_cons_succ] at hp
          exact absurd hp (h _ (List.getElem_mem _))
      · rintro ⟨i, hi, hp, huniq⟩ x hx hpx
        have h0 := huniq 0 (by simp) (by simpa using ha)
        subst h0
        obtain ⟨j, hj, rfl⟩ := List.getElem_of_mem hx
        have := huniq (j + 1) (by simpa using hj) (by simpa using hpx)
        omega
    · rw [List.filter_cons_of_neg ha, ih]
      constructor
      · rintro ⟨i, hi, hp, huniq⟩
        refine ⟨i + 1, by simpa using hi, by simpa using hp, ?_⟩
        intro j hj hpj
        cases j with
        | zero => exact absurd (by simpa using hpj) ha
        | succ j => rw [huniq j (by simpa using hj) (by simpa using hpj)]
      · rintro ⟨i, hi, hp, huniq⟩
        cases i with
        | zero => exact absurd (by simpa using hp) ha
        | succ i =>
          refine ⟨i, by simpa using hi, by simpa using hp, ?_⟩
          intro j hj hpj
          have := huniq (j + 1) (by simpa using hj) (by simpa using hpj)
          omega

mutual
/-- C17. A `$when` condition over the courses of a query is the boolean
combination of its tests. -/
theorem C17_when_conditions_are_boolean (data : List Course) :
    ∀ e : DynCond, e.eval data = true ↔ e.Holds data
  | .and es => by rw [DynCond.eval, DynCond.Holds]; exact evalAll_spec data es
  | .or es => by rw [DynCond.eval, DynCond.Holds]; exact evalAny_spec data es
  | .hasAttribute a => by simp [DynCond.eval, DynCond.Holds]
  | .hasSingleAttribute a => by
    simp only [DynCond.eval, DynCond.Holds, beq_iff_eq]
    rw [filter_length_one]
    simp only [List.contains_iff_mem]
theorem evalAll_spec (data : List Course) :
    ∀ es : List DynCond, DynCond.evalAll data es = true ↔ DynCond.AllHold data es
  | [] => by simp [DynCond.evalAll, DynCond.AllHold]
  | e :: es => by
    simp [DynCond.evalAll, DynCond.AllHold, C17_when_conditions_are_boolean data e, evalAll_spec data es]
theorem evalAny_spec (data : List Course) :
    ∀ es : List DynCond, DynCond.evalAny data es = true ↔ DynCond.SomeHolds data es
  | [] => by simp [DynCond.evalAny, DynCond.SomeHolds]
  | e :: es => by
    simp [DynCond.evalAny, DynCond.SomeHolds, C17_when_conditions_are_boolean data e, evalAny_spec data es]
end

/-- Non-trivial case: exactly one of two courses carries the attribute. -/
example : (DynCond.and [.hasSingleAttribute "x", .or [.hasAttribute "z", .hasAttribute "y"]]).eval
    [{ clbid := "1", attributes := ["x"] }, { clbid := "2", attributes := ["y"] }] = true := by decide

end Dp
