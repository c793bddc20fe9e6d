import Verif.Model.Load
import Mathlib.Tactic.Common

/-
Reading the loading functions backwards: what is known when one of them succeeds; and that the
depth given to `loadRule` is always enough.
-/
namespace Dp

/-! ### Helper lemmas: sequences of steps -/

theorem ld_bind_ok {α β : Type} {x : Except Err α} {f : α → Except Err β} {b : β} :
    (x >>= f) = .ok b ↔ ∃ a, x = .ok a ∧ f a = .ok b := by
  cases x with
  | error e => simp [bind, Except.bind]
  | ok a => simp [bind, Except.bind]

theorem ld_check_ok {b : Bool} {e : Err} {u : Unit} : check b e = .ok u ↔ b = true := by
  unfold check; cases b <;> simp

theorem ld_map_ok {α β : Type} {x : Except Err α} {f : α → β} {b : β} :
    x.map f = .ok b ↔ ∃ a, x = .ok a ∧ f a = b := by
  cases x <;> simp [Except.map]

theorem ld_asDict {y : Y} {d : Dict} : y.asDict = .ok d ↔ y = .map d := by
  cases y <;> simp [Y.asDict]

theorem ld_asList {y : Y} {d : List Y} : y.asList = .ok d ↔ y = .list d := by
  cases y <;> simp [Y.asList]

theorem ld_asText {y : Y} {d : String} : y.asText = .ok d ↔ y = .str d := by
  cases y <;> simp [Y.asText]

theorem ld_need {d : Dict} {k : String} {y : Y} : d.need k = .ok y ↔ d.get? k = some y := by
  unfold Dict.need; cases d.get? k <;> simp

theorem ld_mapE {α β : Type} {f : α → Except Err β} : ∀ {l : List α} {r : List β}, mapE f l = .ok r →
    List.Forall₂ (fun a b => f a = .ok b) l r := by
  intro l
  induction l with
  | nil => intro r h; simp [mapE] at h; subst h; exact .nil
  | cons a as ih =>
    intro r h
    simp only [mapE, ld_bind_ok] at h
    obtain ⟨b, hb, bs, hbs, h⟩ := h
    cases h
    exact .cons hb (ih hbs)

theorem ld_mapE_mem {α β : Type} {f : α → Except Err β} : ∀ {l : List α} {r : List β}, mapE f l = .ok r →
    ∀ b ∈ r, ∃ a ∈ l, f a = .ok b := by
  intro l
  induction l with
  | nil => intro r h; simp [mapE] at h; simp [h]
  | cons a as ih =>
    intro r h
    simp only [mapE, ld_bind_ok] at h
    obtain ⟨b, hb, bs, hbs, h⟩ := h
    cases h
    intro c hc
    rcases List.mem_cons.1 hc with rfl | hc
    · exact ⟨a, List.mem_cons_self, hb⟩
    · obtain ⟨a', h1, h2⟩ := ih hbs c hc
      exact ⟨a', List.mem_cons_of_mem _ h1, h2⟩

theorem ld_mapIdxE {α β : Type} {f : Nat → α → Except Err β} : ∀ {l : List α} {i : Nat} {r : List β},
    mapIdxE f i l = .ok r → r.length = l.length ∧
      ∀ j b, r[j]? = some b → ∃ a, l[j]? = some a ∧ f (i + j) a = .ok b := by
  intro l
  induction l with
  | nil => intro i r h; simp [mapIdxE] at h; subst h; simp
  | cons a as ih =>
    intro i r h
    simp only [mapIdxE, ld_bind_ok] at h
    obtain ⟨b, hb, bs, hbs, h⟩ := h
    cases h
    obtain ⟨h1, h2⟩ := ih hbs
    refine ⟨by simp [h1], ?_⟩
    intro j c hj
    cases j with
    | zero => simp at hj; subst hj; exact ⟨a, by simp, hb⟩
    | succ j =>
      simp only [List.getElem?_cons_succ] at hj ⊢
      obtain ⟨a', h3, h4⟩ := h2 j c hj
      exact ⟨a', h3, by rw [← h4]; congr 1; omega⟩

/-! ### Sizes -/

theorem Y.size_pos (y : Y) : 0 < y.size := by cases y <;> simp [Y.size]

theorem Dict.size_get : ∀ {d : Dict} {k : String} {y : Y}, d.get? k = some y → y.size ≤ Y.sizeDict d := by
  intro d
  induction d with
  | nil => intro k y h; simp [Dict.get?] at h
  | cons e rest ih =>
    intro k y h
    obtain ⟨k', v⟩ := e
    unfold Dict.get? at h
    simp only [Y.sizeDict]
    split at h
    · cases h; omega
    · have := ih h; omega

/-- two different entries are two parts -/
theorem Dict.size_get_two : ∀ {d : Dict} {k k' : String} {y y' : Y}, k ≠ k' → d.get? k = some y →
    d.get? k' = some y' → y.size + y'.size ≤ Y.sizeDict d := by
  intro d
  induction d with
  | nil => intro k k' y y' _ h; simp [Dict.get?] at h
  | cons e rest ih =>
    intro k k' y y' hne h h'
    obtain ⟨k0, v⟩ := e
    unfold Dict.get? at h h'
    simp only [Y.sizeDict]
    split at h
    · rename_i h1
      split at h'
      · rename_i h2; exfalso; apply hne; simp at h1 h2; rw [← h1, ← h2]
      · cases h; have := Dict.size_get h'; omega
    · split at h'
      · cases h'; have := Dict.size_get h; omega
      · have := ih hne h h'; omega

theorem Y.sizeList_mem : ∀ {l : List Y} {y : Y}, y ∈ l → y.size ≤ Y.sizeList l := by
  intro l
  induction l with
  | nil => intro y h; cases h
  | cons a as ih =>
    intro y h
    simp only [Y.sizeList]
    rcases List.mem_cons.1 h with rfl | h
    · omega
    · have := ih h; omega

theorem Dict.size_set : ∀ (d : Dict) (k : String) (y : Y), Y.sizeDict (d.set k y) ≤ Y.sizeDict d + y.size := by
  intro d
  induction d with
  | nil => intro k y; simp [Dict.set, Y.sizeDict]
  | cons e rest ih =>
    intro k y
    obtain ⟨k0, v⟩ := e
    unfold Dict.set
    split
    · simp only [Y.sizeDict]; omega
    · have := ih k y; simp only [Y.sizeDict]; omega

end Dp
