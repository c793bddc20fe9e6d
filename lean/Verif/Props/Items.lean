import Verif.Props.Predicate
import Verif.Model.Assertion

/-
C17 for the records of a student other than courses: declared areas, music
performances and recital attendances.
-/
namespace Dp

/-- The attribute a comparison key names on a record.  An entry without a value
is a missing attribute. -/
inductive ItemNames : Item → String → Option Val → Prop where
  | areaCode (a) : ItemNames (.area a) "code" (some (strVal a.code))
  | areaStatus (a) : ItemNames (.area a) "status" (some (strVal a.status))
  | areaKind (a) : ItemNames (.area a) "kind" (some (strVal a.kind))
  | areaType (a) : ItemNames (.area a) "type" (some (strVal a.kind))
  | areaName (a) : ItemNames (.area a) "name" (some (strVal a.name))
  | areaDegree (a) : ItemNames (.area a) "degree" (some (strVal a.degree))
  | areaGpa (a) : ItemNames (.area a) "gpa" (a.gpa.map numVal)
  | perfName (m) : ItemNames (.performance m) "name" (some (strVal m.name))
  | perfYear (m) : ItemNames (.performance m) "year" (some (intVal m.year))
  | perfTerm (m) : ItemNames (.performance m) "term" (some (intVal m.term))
  | perfStatus (m) : ItemNames (.performance m) "status" (m.status.map strVal)
  | perfRole (m r) (h : m.role = some r) (hr : r ≠ "") :
      ItemNames (.performance m) "role" (some (strVal r))
  | perfNoRole (m) (h : m.role = none ∨ m.role = some "") : ItemNames (.performance m) "role" none
  | attName (m) : ItemNames (.attendance m) "name" (some (strVal m.name))
  | attYear (m) : ItemNames (.attendance m) "year" (some (intVal m.year))
  | attTerm (m) : ItemNames (.attendance m) "term" (some (intVal m.term))

/-- The keys a record other than a course can be compared by. -/
def Item.keys : Item → List String
  | .course _ => []
  | .area _ => ["code", "status", "kind", "type", "name", "degree", "gpa"]
  | .performance _ => ["status", "role", "name", "year", "term"]
  | .attendance _ => ["name", "year", "term"]

/-- Whether a record is a course. -/
def Item.isCourse : Item → Bool
  | .course _ => true
  | _ => false

/-- Each listed key names an attribute. -/
theorem ItemNames.of_key (i : Item) (k : String) (hk : k ∈ i.keys) : ∃ v, ItemNames i k v := by
  cases i with
  | course c => simp [Item.keys] at hk
  | area a =>
    simp only [Item.keys, List.mem_cons, List.not_mem_nil, or_false] at hk
    rcases hk with rfl | rfl | rfl | rfl | rfl | rfl | rfl
    exacts [⟨_, .areaCode a⟩, ⟨_, .areaStatus a⟩, ⟨_, .areaKind a⟩, ⟨_, .areaType a⟩,
      ⟨_, .areaName a⟩, ⟨_, .areaDegree a⟩, ⟨_, .areaGpa a⟩]
  | performance m =>
    simp only [Item.keys, List.mem_cons, List.not_mem_nil, or_false] at hk
    rcases hk with rfl | rfl | rfl | rfl | rfl
    · exact ⟨_, .perfStatus m⟩
    · by_cases h : m.role = none ∨ m.role = some ""
      · exact ⟨_, .perfNoRole m h⟩
      · cases hr : m.role with
        | none => exact absurd (.inl hr) h
        | some r => exact ⟨_, .perfRole m r hr (fun h' => h (.inr (by rw [hr, h'])))⟩
    exacts [⟨_, .perfName m⟩, ⟨_, .perfYear m⟩, ⟨_, .perfTerm m⟩]
  | attendance m =>
    simp only [Item.keys, List.mem_cons, List.not_mem_nil, or_false] at hk
    rcases hk with rfl | rfl | rfl
    exacts [⟨_, .attName m⟩, ⟨_, .attYear m⟩, ⟨_, .attTerm m⟩]

/-- C17. A comparison on a declared area, a performance or an attendance compares
the attribute its key names; a missing grade point average, status or role
matches nothing; and a key the record does not have is rejected. -/
theorem C17_record_keys (i : Item) (op : Operator) (e : Val) (cov : Option Val) :
    (∀ k v, ItemNames i k (some v) → i.applyLeaf ⟨k, op, e, cov⟩ = applyOperator op v e) ∧
    (∀ k, ItemNames i k none → i.applyLeaf ⟨k, op, e, cov⟩ = .ok false) ∧
    (∀ k, i.isCourse = false → (∀ v, ¬ ItemNames i k v) →
      i.applyLeaf ⟨k, op, e, cov⟩ = .error .typeError) := by
  refine ⟨fun k v h => ?_, fun k h => ?_, fun k hc h => ?_⟩
  · generalize hv : some v = ov at h
    cases h <;> try (cases hv; simp [Item.applyLeaf, applyAreaLeaf, applyPerformanceLeaf, PredLeaf.compare])
    · rename_i a
      cases hg : a.gpa with
      | none => rw [hg] at hv; cases hv
      | some g =>
        rw [hg] at hv; cases hv
        simp [Item.applyLeaf, applyAreaLeaf, PredLeaf.compare, hg]
    · rename_i m
      cases hg : m.status with
      | none => rw [hg] at hv; cases hv
      | some g =>
        rw [hg] at hv; cases hv
        simp [Item.applyLeaf, applyPerformanceLeaf, PredLeaf.compare, hg]
    · simp_all
    · cases hv
  · generalize hv : (none : Option Val) = ov at h
    cases h <;> try (cases hv; done)
    · rename_i a
      cases hg : a.gpa with
      | none => simp [Item.applyLeaf, applyAreaLeaf, hg]
      | some g => rw [hg] at hv; cases hv
    · rename_i m
      cases hg : m.status with
      | none => simp [Item.applyLeaf, applyPerformanceLeaf, hg]
      | some g => rw [hg] at hv; cases hv
    · rename_i m hr
      rcases hr with hr | hr <;> simp [Item.applyLeaf, applyPerformanceLeaf, hr]
  · have hk : k ∉ i.keys := fun hk => by
      obtain ⟨v, hv⟩ := ItemNames.of_key i k hk
      exact h v hv
    cases i with
    | course c => cases hc
    | area a =>
      simp only [Item.keys, List.mem_cons, List.not_mem_nil, or_false, not_or] at hk
      simp [Item.applyLeaf, applyAreaLeaf, hk]
    | performance m =>
      simp only [Item.keys, List.mem_cons, List.not_mem_nil, or_false, not_or] at hk
      simp [Item.applyLeaf, applyPerformanceLeaf, hk]
    | attendance m =>
      simp only [Item.keys, List.mem_cons, List.not_mem_nil, or_false, not_or] at hk
      by_cases h2 : k = "status" ∨ k = "role"
      · simp [Item.applyLeaf, h2]
      · rw [not_or] at h2
        simp [Item.applyLeaf, applyPerformanceLeaf, hk, h2]

/-- C17. A filter's answer for any record (course, area, performance, attendance)
is the boolean combination of its comparisons' answers; it gives one whenever they
do; and filtering a list of records keeps those the filter accepts, in order. -/
theorem C17_record_filters_are_boolean (p : Pred) (is : List Item) :
    (∀ (i : Item) b, p.apply i.applyLeaf = .ok b →
      (b = true ↔ p.Holds (fun l => i.applyLeaf l = .ok true))) ∧
    (∀ i : Item, (∀ l ∈ p.leaves, ∃ b, i.applyLeaf l = .ok b) → ∃ b, p.apply i.applyLeaf = .ok b) ∧
    (∀ kept, filterItems p is = .ok kept → kept.Sublist is ∧
      ∀ i ∈ is, (i ∈ kept ↔ p.Holds (fun l => i.applyLeaf l = .ok true))) := by
  refine ⟨fun i b h => Pred.apply_sound _ p b h, fun i h => Pred.apply_total _ p h, ?_⟩
  have hall : ∀ kept, filterItems p is = .ok kept → kept.Sublist is ∧
      (∀ i ∈ kept, p.Holds (fun l => i.applyLeaf l = .ok true)) ∧
      (∀ i ∈ is, p.Holds (fun l => i.applyLeaf l = .ok true) → i ∈ kept) := by
    induction is with
    | nil => intro kept h; cases h; simp
    | cons i is ih =>
      intro kept h
      simp only [filterItems] at h
      split at h
      · cases h
      · rename_i b hb
        split at h
        · cases h
        · rename_i rest hrest
          obtain ⟨h1, h2, h3⟩ := ih rest hrest
          have hs := Pred.apply_sound _ p b hb
          cases h
          cases b with
          | true =>
            refine ⟨h1.cons_cons i, ?_, ?_⟩
            · intro j hj
              rcases List.mem_cons.1 hj with rfl | hj
              · exact hs.1 rfl
              · exact h2 j hj
            · intro j hj hp
              rcases List.mem_cons.1 hj with rfl | hj
              · exact List.mem_cons_self
              · exact List.mem_cons_of_mem _ (h3 j hj hp)
          | false =>
            refine ⟨h1.cons i, h2, ?_⟩
            intro j hj hp
            rcases List.mem_cons.1 hj with rfl | hj
            · exact absurd (hs.2 hp) (by simp)
            · exact h3 j hj hp
  intro kept h
  obtain ⟨h1, h2, h3⟩ := hall kept h
  exact ⟨h1, fun i hi => ⟨h2 i, h3 i hi⟩⟩

/-- Non-trivial case: of three declared areas a filter keeps the major with a high
enough average, not the one without an average. -/
example : ∃ (p : Pred) (is kept : List Item), is.length = 3 ∧ kept.length = 1 ∧
    filterItems p is = .ok kept := by
  refine ⟨.and [.leaf ⟨"kind", .eq, strVal "Major", none⟩, .leaf ⟨"gpa", .gte, numVal 3, none⟩],
    [.area { code := "1", gpa := some (7 / 2) }, .area { code := "2" },
      .area { code := "3", kind := "Emphasis", gpa := some 4 }],
    [.area { code := "1", gpa := some (7 / 2) }], rfl, rfl, by decide +kernel⟩

end Dp
