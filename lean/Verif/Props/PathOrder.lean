import Verif.Model.PathOrder
import Mathlib.Tactic.Common

/-
Property C15: rule paths have one sorted order.
-/
namespace Dp

/-! ### Specification -/

/-- A segment as the loader writes it: text not starting with `[`, or `[n]`
with `n` in plain decimal (`dp/rule/count.py:91-180` writes `f"[{i}]"`). -/
def CanonicalSeg (s : String) : Prop :=
  s.toList.head? ≠ some '[' ∨ ∃ i : Int, segKey s = some (.idx i) ∧ s = "[" ++ toString i ++ "]"

def CanonicalPath (p : Path) : Prop := ∀ s ∈ p, CanonicalSeg s

/-- Numbered segments come before named ones, numbers by value, names
alphabetically. -/
def SegKey.Lt : SegKey → SegKey → Prop
  | .idx i, .idx j => i < j
  | .str s, .str t => s < t
  | .idx _, .str _ => True
  | .str _, .idx _ => False

/-- Segment order, through the key. -/
def SegLt (a b : String) : Prop := ∃ k l, segKey a = some k ∧ segKey b = some l ∧ k.Lt l

/-- Shorter paths first; equal lengths by the first differing segment. -/
def PathLt (a b : Path) : Prop :=
  a.length < b.length ∨
  (a.length = b.length ∧ ∃ pre x y as bs, a = pre ++ x :: as ∧ b = pre ++ y :: bs ∧ SegLt x y)

/-! ### Helper lemmas -/

theorem segKey_canonical {s : String} (h : CanonicalSeg s) : ∃ k, segKey s = some k := by
  rcases h with h | ⟨i, h, _⟩
  · refine ⟨.str s, ?_⟩
    unfold segKey
    split
    · rename_i rest heq; rw [heq] at h; simp at h
    · rfl
  · exact ⟨_, h⟩

theorem segKey_str_eq {s t : String} (h : segKey s = some (.str t)) : s = t := by
  unfold segKey at h
  split at h
  · rename_i rest _; cases hp : parseInt rest.dropLast <;> simp [hp] at h
  · simpa using h

theorem segKey_inj {s t : String} {k : SegKey} (hs : CanonicalSeg s) (ht : CanonicalSeg t)
    (h1 : segKey s = some k) (h2 : segKey t = some k) : s = t := by
  cases k with
  | str u => rw [segKey_str_eq h1, segKey_str_eq h2]
  | idx i =>
    have aux : ∀ u, CanonicalSeg u → segKey u = some (.idx i) → u = "[" ++ toString i ++ "]" := by
      intro u hu hk
      rcases hu with hu | ⟨j, hj, rfl⟩
      · exfalso
        unfold segKey at hk
        split at hk
        · rename_i rest heq; rw [heq] at hu; simp at hu
        · simp at hk
      · rw [hj] at hk; cases hk; rfl
    rw [aux s hs h1, aux t ht h2]

theorem stringLt_trichotomy (s t : String) : s < t ∨ s = t ∨ t < s := by
  by_cases h1 : s < t
  · exact Or.inl h1
  · by_cases h2 : t < s
    · exact Or.inr (Or.inr h2)
    · exact Or.inr (Or.inl (String.le_antisymm (String.not_lt.1 h2) (String.not_lt.1 h1)))

theorem SegKey.lt_irrefl (k : SegKey) : ¬ k.Lt k := by
  cases k <;> simp [SegKey.Lt]

theorem SegKey.lt_trans {a b c : SegKey} (h1 : a.Lt b) (h2 : b.Lt c) : a.Lt c := by
  cases a <;> cases b <;> cases c <;> simp_all [SegKey.Lt]
  · omega
  · exact String.lt_trans h1 h2

theorem SegKey.lt_trichotomy (a b : SegKey) : a.Lt b ∨ a = b ∨ b.Lt a := by
  cases a <;> cases b <;> simp [SegKey.Lt]
  · omega
  · rename_i s t; exact stringLt_trichotomy s t

theorem SegLt.irrefl (a : String) : ¬ SegLt a a := by
  rintro ⟨k, l, h1, h2, h3⟩
  rw [h1] at h2; cases h2; exact SegKey.lt_irrefl _ h3

theorem SegLt.trans {a b c : String} (h1 : SegLt a b) (h2 : SegLt b c) : SegLt a c := by
  obtain ⟨k, l, hk, hl, hkl⟩ := h1
  obtain ⟨l', m, hl', hm, hlm⟩ := h2
  rw [hl] at hl'; cases hl'
  exact ⟨k, m, hk, hm, SegKey.lt_trans hkl hlm⟩

theorem SegLt.trichotomy {a b : String} (ha : CanonicalSeg a) (hb : CanonicalSeg b) :
    SegLt a b ∨ a = b ∨ SegLt b a := by
  obtain ⟨k, hk⟩ := segKey_canonical ha
  obtain ⟨l, hl⟩ := segKey_canonical hb
  rcases SegKey.lt_trichotomy k l with h | h | h
  · exact Or.inl ⟨k, l, hk, hl, h⟩
  · subst h; exact Or.inr (Or.inl (segKey_inj ha hb hk hl))
  · exact Or.inr (Or.inr ⟨l, k, hl, hk, h⟩)

/-- Lexicographic order on equally long lists. -/
inductive LexEq : Path → Path → Prop
  | rel {a b as bs} (h : SegLt a b) (hlen : as.length = bs.length) : LexEq (a :: as) (b :: bs)
  | cons {a as bs} (h : LexEq as bs) : LexEq (a :: as) (a :: bs)

theorem LexEq.length_eq {a b} (h : LexEq a b) : a.length = b.length := by
  induction h with
  | rel h hlen => simp [hlen]
  | cons h ih => simp [ih]

theorem lexEq_iff {a b : Path} : LexEq a b ↔
    a.length = b.length ∧ ∃ pre x y as bs, a = pre ++ x :: as ∧ b = pre ++ y :: bs ∧ SegLt x y := by
  constructor
  · intro h
    refine ⟨h.length_eq, ?_⟩
    induction h with
    | rel h hlen => exact ⟨[], _, _, _, _, rfl, rfl, h⟩
    | @cons c _ _ h ih =>
      obtain ⟨pre, x, y, as, bs, h1, h2, h3⟩ := ih
      exact ⟨c :: pre, x, y, as, bs, by simp [h1], by simp [h2], h3⟩
  · rintro ⟨hlen, pre, x, y, as, bs, rfl, rfl, h⟩
    induction pre with
    | nil => exact .rel h (by simpa using hlen)
    | cons c pre ih => exact .cons (ih (by simpa using hlen))

theorem pathLt_iff (a b : Path) : PathLt a b ↔ a.length < b.length ∨ LexEq a b := by
  unfold PathLt; rw [lexEq_iff]

theorem LexEq.irrefl (a : Path) : ¬ LexEq a a := by
  induction a with
  | nil => intro h; cases h
  | cons x a ih =>
    intro h
    cases h with
    | rel h _ => exact SegLt.irrefl _ h
    | cons h => exact ih h

theorem LexEq.trans : ∀ {a b c : Path}, LexEq a b → LexEq b c → LexEq a c := by
  intro a b c h1
  induction h1 generalizing c with
  | rel h hl =>
    intro h2
    cases h2 with
    | rel h' hl' => exact .rel (h.trans h') (hl.trans hl')
    | cons h' => exact .rel h (hl.trans h'.length_eq)
  | cons h ih =>
    intro h2
    cases h2 with
    | rel h' hl' => exact .rel h' (h.length_eq.trans hl')
    | cons h' => exact .cons (ih h')

theorem LexEq.trichotomy : ∀ {a b : Path}, a.length = b.length → CanonicalPath a → CanonicalPath b →
    LexEq a b ∨ a = b ∨ LexEq b a := by
  intro a
  induction a with
  | nil => intro b hl _ _; right; left; symm; exact List.length_eq_zero_iff.1 hl.symm
  | cons x a ih =>
    intro b hl ha hb
    cases b with
    | nil => simp at hl
    | cons y b =>
      have hl' : a.length = b.length := by simpa using hl
      rcases SegLt.trichotomy (ha x List.mem_cons_self) (hb y List.mem_cons_self) with h | h | h
      · exact Or.inl (.rel h hl')
      · subst h
        rcases ih hl' (fun s hs => ha s (List.mem_cons_of_mem _ hs))
          (fun s hs => hb s (List.mem_cons_of_mem _ hs)) with h | h | h
        · exact Or.inl (.cons h)
        · exact Or.inr (Or.inl (by rw [h]))
        · exact Or.inr (Or.inr (.cons h))
      · exact Or.inr (Or.inr (.rel h hl'.symm))

theorem comparePathsLoop_spec : ∀ {a b : Path}, a.length = b.length → a ≠ b →
    CanonicalPath a → CanonicalPath b →
    ∃ r, comparePathsLoop a b = .ok r ∧ (r = true ↔ LexEq a b) := by
  intro a
  induction a with
  | nil => intro b hl hne; exact absurd (List.length_eq_zero_iff.1 hl.symm).symm hne
  | cons x a ih =>
    intro b hl hne ha hb
    cases b with
    | nil => simp at hl
    | cons y b =>
      have hl' : a.length = b.length := by simpa using hl
      have cx := ha x List.mem_cons_self
      have cy := hb y List.mem_cons_self
      obtain ⟨k, hk⟩ := segKey_canonical cx
      obtain ⟨l, hl2⟩ := segKey_canonical cy
      -- equal keys: go on
      by_cases hkl : k = l
      · subst hkl
        have hxy := segKey_inj cx cy hk hl2
        subst hxy
        have hne' : a ≠ b := fun h => hne (by rw [h])
        obtain ⟨r, hr, hr2⟩ := ih hl' hne' (fun s hs => ha s (List.mem_cons_of_mem _ hs))
          (fun s hs => hb s (List.mem_cons_of_mem _ hs))
        refine ⟨r, ?_, ?_⟩
        · simp only [comparePathsLoop, hk]
          cases k <;> simpa using hr
        · rw [hr2]
          constructor
          · exact .cons
          · intro h
            cases h with
            | rel h _ => exact absurd h (SegLt.irrefl _)
            | cons h => exact h
      · have hlex : LexEq (x :: a) (y :: b) ↔ k.Lt l := by
          constructor
          · intro h
            cases h with
            | rel h _ =>
              obtain ⟨k', l', e1, e2, h⟩ := h
              rw [hk] at e1; rw [hl2] at e2; cases e1; cases e2; exact h
            | cons h => rw [hk] at hl2; cases hl2; exact absurd rfl hkl
          · intro h; exact .rel ⟨k, l, hk, hl2, h⟩ hl'
        simp only [comparePathsLoop, hk, hl2, hlex]
        cases k <;> cases l <;> simp_all [SegKey.Lt]

/-! ### C15 -/

/-- C15. On the paths rules have, the comparison never raises, says 0 only for
equal paths, and otherwise -1 or 1 according to the path order. -/
theorem C15_comparison_is_the_path_order (a b : Path) (ha : CanonicalPath a) (hb : CanonicalPath b) :
    ∃ c, comparePaths a b = .ok c ∧ (c = 0 ↔ a = b) ∧ (c = -1 ↔ PathLt a b) ∧ (c = 1 ↔ PathLt b a) := by
  unfold comparePaths
  by_cases h : a = b
  · subst h
    have : ¬ PathLt a a := by rw [pathLt_iff]; exact fun h => h.elim (by omega) (LexEq.irrefl _)
    exact ⟨0, by simp, by simp, by simp [this], by simp [this]⟩
  · simp only [h, if_false]
    unfold comparePathsLt
    simp only [pathLt_iff]
    rcases Nat.lt_trichotomy a.length b.length with hl | hl | hl
    · have h2 : ¬ LexEq b a := fun h => by have := h.length_eq; omega
      exact ⟨-1, by simp [hl], by simp, by simp [hl], by simp [h2]; omega⟩
    · obtain ⟨r, hr, hr2⟩ := comparePathsLoop_spec hl h ha hb
      have e1 : ¬ a.length < b.length := by omega
      have e2 : ¬ b.length < a.length := by omega
      simp only [e1, e2, if_false, hr, false_or]
      rcases LexEq.trichotomy hl ha hb with h' | h' | h'
      · have hrt : r = true := hr2.2 h'
        have : ¬ LexEq b a := fun h'' => LexEq.irrefl _ (h'.trans h'')
        exact ⟨-1, by simp [hrt], by simp, by simp [h'], by simp [this]⟩
      · exact absurd h' h
      · have hn : ¬ LexEq a b := fun h'' => LexEq.irrefl _ (h'.trans h'')
        have hrf : r = false := by
          cases r with
          | true => exact absurd (hr2.1 rfl) hn
          | false => rfl
        exact ⟨1, by simp [hrf], by simp, by simp [hn], by simp [h']⟩
    · have h2 : ¬ LexEq a b := fun h => by have := h.length_eq; omega
      have e1 : ¬ a.length < b.length := by omega
      exact ⟨1, by simp [e1, hl], by simp, by simp [h2]; omega, by simp [hl]⟩

/-- C15. The path order is a strict total order on the paths rules have. -/
theorem C15_strict_total_order :
    (∀ a : Path, ¬ PathLt a a) ∧
    (∀ a b c : Path, PathLt a b → PathLt b c → PathLt a c) ∧
    (∀ a b : Path, CanonicalPath a → CanonicalPath b → PathLt a b ∨ a = b ∨ PathLt b a) := by
  refine ⟨?_, ?_, ?_⟩
  · intro a; rw [pathLt_iff]; rintro (h | h)
    · omega
    · exact LexEq.irrefl _ h
  · intro a b c
    simp only [pathLt_iff]
    rintro (h1 | h1) (h2 | h2)
    · left; omega
    · left; have := h2.length_eq; omega
    · left; have := h1.length_eq; omega
    · right; exact h1.trans h2
  · intro a b ha hb
    simp only [pathLt_iff]
    rcases Nat.lt_trichotomy a.length b.length with h | h | h
    · exact Or.inl (Or.inl h)
    · rcases LexEq.trichotomy h ha hb with h' | h' | h'
      · exact Or.inl (Or.inr h')
      · exact Or.inr (Or.inl h')
      · exact Or.inr (Or.inr (Or.inr h'))
    · exact Or.inr (Or.inr (Or.inl h))

/-- Sorted by path, strictly. -/
def SortedByPath {α} (key : α → Path) (l : List α) : Prop := l.Pairwise (fun x y => PathLt (key x) (key y))

theorem insertByPath_spec {α} (key : α → Path) (x : α) (l : List α)
    (hx : CanonicalPath (key x)) (hl : ∀ y ∈ l, CanonicalPath (key y))
    (hne : ∀ y ∈ l, key y ≠ key x) (hs : SortedByPath key l) :
    ∃ l', insertByPath key x l = .ok l' ∧ l'.Perm (x :: l) ∧ SortedByPath key l' := by
  induction l with
  | nil => exact ⟨[x], rfl, List.Perm.refl _, by simp [SortedByPath]⟩
  | cons y ys ih =>
    have hyx := hne y List.mem_cons_self
    have hcy := hl y List.mem_cons_self
    obtain ⟨c, hc, h0, h1, h2⟩ := C15_comparison_is_the_path_order (key x) (key y) hx hcy
    unfold insertByPath
    simp only [hc]
    have hs' := List.pairwise_cons.1 hs
    rcases C15_strict_total_order.2.2 (key x) (key y) hx hcy with h | h | h
    · have : c = -1 := h1.2 h
      subst this
      refine ⟨x :: y :: ys, by simp, List.Perm.refl _, ?_⟩
      refine List.pairwise_cons.2 ⟨?_, hs⟩
      intro z hz
      rcases List.mem_cons.1 hz with rfl | hz
      · exact h
      · exact C15_strict_total_order.2.1 _ _ _ h (hs'.1 z hz)
    · exact absurd h.symm hyx
    · have : c = 1 := h2.2 h
      subst this
      obtain ⟨l', e, hp, hsl⟩ := ih (fun z hz => hl z (List.mem_cons_of_mem _ hz))
        (fun z hz => hne z (List.mem_cons_of_mem _ hz)) hs'.2
      refine ⟨y :: l', by simp [e], ?_, ?_⟩
      · exact (List.Perm.cons y hp).trans (List.Perm.swap x y ys)
      · refine List.pairwise_cons.2 ⟨?_, hsl⟩
        intro z hz
        rcases List.mem_cons.1 (hp.mem_iff.1 hz) with rfl | hz
        · exact h
        · exact hs'.1 z hz

/-- C15. Sorting rules with distinct canonical paths never raises and gives a
strictly sorted permutation. -/
theorem C15_sort_correct {α} (key : α → Path) (l : List α) (hc : ∀ x ∈ l, CanonicalPath (key x))
    (hd : (l.map key).Nodup) :
    ∃ l', sortByPath key l = .ok l' ∧ l'.Perm l ∧ SortedByPath key l' := by
  induction l with
  | nil => exact ⟨[], rfl, List.Perm.refl _, by simp [SortedByPath]⟩
  | cons x xs ih =>
    simp only [List.map_cons, List.nodup_cons] at hd
    obtain ⟨l1, e1, p1, s1⟩ := ih (fun y hy => hc y (List.mem_cons_of_mem _ hy)) hd.2
    obtain ⟨l2, e2, p2, s2⟩ := insertByPath_spec key x l1 (hc x List.mem_cons_self)
      (fun y hy => hc y (List.mem_cons_of_mem _ (p1.mem_iff.1 hy)))
      (fun y hy h => hd.1 (List.mem_map.2 ⟨y, p1.mem_iff.1 hy, h⟩)) s1
    exact ⟨l2, by simp [sortByPath, e1, e2], p2.trans (p1.cons x), s2⟩

/-- C15. There is only one sorted arrangement of a collection of rules, and
sorting finds it from any initial order. -/
theorem C15_sort_independent_of_order {α} (key : α → Path) (l l' : List α)
    (hc : ∀ x ∈ l, CanonicalPath (key x)) (hd : (l.map key).Nodup) (hp : l.Perm l') :
    sortByPath key l = sortByPath key l' ∧
    ∀ s s', s.Perm l → s'.Perm l' → SortedByPath key s → SortedByPath key s' → s = s' := by
  have huniq : ∀ s s' : List α, s.Perm s' → SortedByPath key s → SortedByPath key s' → s = s' := by
    intro s s' hp hs hs'
    refine List.Perm.eq_of_pairwise (le := fun x y => PathLt (key x) (key y)) ?_ hs hs' hp
    intro a b _ _ h1 h2
    exact absurd (C15_strict_total_order.2.1 _ _ _ h1 h2) (C15_strict_total_order.1 _)
  have hc' : ∀ x ∈ l', CanonicalPath (key x) := fun x hx => hc x (hp.mem_iff.2 hx)
  have hd' : (l'.map key).Nodup := (hp.map key).nodup_iff.1 hd
  obtain ⟨r, e, p, s⟩ := C15_sort_correct key l hc hd
  obtain ⟨r', e', p', s'⟩ := C15_sort_correct key l' hc' hd'
  refine ⟨?_, ?_⟩
  · rw [e, e', huniq r r' (p.trans (hp.trans p'.symm)) s s']
  · intro t t' hpt hpt' hst hst'
    exact huniq t t' (hpt.trans (hp.trans hpt'.symm)) hst hst'

/-- Outside canonical paths the order breaks: `[1]` and `[01]` are different
segments that each come before the other. -/
theorem C15_noncanonical_refuted :
    comparePaths ["[1]"] ["[01]"] = .ok (-1) ∧ comparePaths ["[01]"] ["[1]"] = .ok (-1) := by decide

/-- Non-trivial case for C15: number order is not text order, and numbers come
before names. -/
example : sortByPath id [["$", "%B"], ["$", "[10]"], ["$"], ["$", "[2]"]] =
    .ok [["$"], ["$", "[2]"], ["$", "[10]"], ["$", "%B"]] := by decide
example : CanonicalPath ["$", "[10]", "%B"] := by
  intro s hs
  simp only [List.mem_cons, List.not_mem_nil, or_false] at hs
  rcases hs with rfl | rfl | rfl
  · left; decide
  · right; exact ⟨10, by decide, by decide⟩
  · left; decide

end Dp
