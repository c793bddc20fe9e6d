import Verif.Props.LoadFuel
import Verif.Props.LoadLeaf
import Verif.Props.PathOrder
import Mathlib.Data.List.Nodup
import Mathlib.Data.List.Basic

/-
Property C48: every rule and every assertion of a loaded area has a path of its own.
-/
namespace Dp

/-! ### Specification -/

/-- the paths of the assertions inside an assertion -/
def AnyAssertion.paths : AnyAssertion → List Path
  | .single a => [a.path]
  | .cond _ t f => t.path :: (f.map (·.path)).toList
  | .dyn _ _ t => [t.path]

mutual
/-- the paths of all rules and assertions of a tree -/
def Node.allPaths : Node → List Path
  | .course _ d => [d.path]
  | .query _ d => d.path :: d.assertions.flatMap AnyAssertion.paths
  | .count _ d items => d.path :: (d.audits.flatMap AnyAssertion.paths ++ Node.allPathsList items)
  | .req _ d r => d.path :: Node.allPathsOpt r
  | .cond _ d t f => d.path :: (t.allPaths ++ Node.allPathsOpt f)
  | .prof _ d c => d.path :: (c.map (fun q => q.2.path)).toList
/-- of all items -/
def Node.allPathsList : List Node → List Path
  | [] => []
  | n :: ns => n.allPaths ++ Node.allPathsList ns
/-- of an optional rule -/
def Node.allPathsOpt : Option Node → List Path
  | none => []
  | some n => n.allPaths
end

mutual
/-- the text does not use the key that the program itself puts on the items of an emphasis -/
def Y.Clean : Y → Prop
  | .list l => Y.CleanList l
  | .map d => Y.CleanDict d
  | _ => True
/-- all parts of a list -/
def Y.CleanList : List Y → Prop
  | [] => True
  | y :: ys => y.Clean ∧ Y.CleanList ys
/-- all entries of a dictionary -/
def Y.CleanDict : List (String × Y) → Prop
  | [] => True
  | (k, y) :: ys => k ≠ "__emphasis" ∧ y.Clean ∧ Y.CleanDict ys
end

/-- the names under which an emphasis adds requirements -/
def emphasisNames (e : Dict) : List String :=
  match emphasisParts e with
  | .ok (parts, _) => parts.map (·.1)
  | .error _ => []

/-! ### Helper lemmas: index segments -/

theorem parseDigits_eq : ∀ (cs : List Char) (acc : Nat), (∀ c ∈ cs, c.isDigit) →
    parseDigits acc cs = some (Nat.ofDigitChars 10 cs acc : Nat) := by
  intro cs
  induction cs with
  | nil => intro acc _; simp [parseDigits]
  | cons c cs ih =>
    intro acc h
    have hc : c.isDigit := h c List.mem_cons_self
    have h48 : 48 ≤ c.toNat := by
      simp only [Char.isDigit, Bool.and_eq_true, decide_eq_true_eq, ge_iff_le, UInt32.le_iff_toNat_le] at hc
      exact hc.1
    rw [parseDigits, Nat.ofDigitChars_cons]
    unfold digitVal
    simp only [hc, if_true]
    rw [← ih _ (fun c hc => h c (List.mem_cons_of_mem _ hc))]
    congr 1
    have : ('0'.toNat : Nat) = 48 := rfl
    rw [this]
    omega

theorem parseInt_repr (n : Nat) : parseInt (Nat.toDigits 10 n) = some (n : Int) := by
  have hd : ∀ c ∈ Nat.toDigits 10 n, c.isDigit := fun c hc => Nat.isDigit_of_mem_toDigits (by decide) (by decide) hc
  have hne : Nat.toDigits 10 n ≠ [] := by
    intro h
    have : n.repr.toList = [] := by rw [Nat.toList_repr, h]
    simp at this
  have hp := parseDigits_eq (Nat.toDigits 10 n) 0 hd
  rw [Nat.ofDigitChars_ten_toDigits] at hp
  unfold parseInt
  split
  · rename_i h; exact absurd h hne
  · rename_i h; have := hd '-' (by rw [h]; simp); simp [Char.isDigit] at this
  · rename_i ds _ h; have := hd '-' (by rw [h]; simp); simp [Char.isDigit] at this
  · exact hp

theorem indexSeg_toList (i : Nat) : (indexSeg i).toList = '[' :: (Nat.toDigits 10 i ++ [']']) := by
  unfold indexSeg
  simp only [String.toList_append]
  have : (toString (i : Int)).toList = Nat.toDigits 10 i := by
    rw [← Nat.toList_repr]; rfl
  rw [this]
  rfl

theorem segKey_indexSeg (i : Nat) : segKey (indexSeg i) = some (.idx i) := by
  unfold segKey
  rw [indexSeg_toList]
  simp [parseInt_repr]

theorem indexSeg_inj {i j : Nat} (h : indexSeg i = indexSeg j) : i = j := by
  have h1 := segKey_indexSeg i
  rw [h, segKey_indexSeg j] at h1
  simp at h1
  omega

theorem indexSeg_canonical (i : Nat) : CanonicalSeg (indexSeg i) := Or.inr ⟨i, segKey_indexSeg i, rfl⟩

theorem indexSeg_ne {i : Nat} {s : String} (h : s.toList.head? ≠ some '[') : indexSeg i ≠ s := by
  rintro rfl
  rw [indexSeg_toList] at h
  simp at h

theorem canonical_of_head {s t : String} {ch : Char} (h : s.toList = [ch]) (hne : ch ≠ '[') : CanonicalSeg (s ++ t) := by
  left
  rw [String.toList_append, h]
  simpa using hne

/-! ### Helper lemmas: places -/

/-- a path strictly beneath a place, written as the loader writes paths -/
def Beneath (p q : Path) : Prop := ∃ s r, q = p ++ s :: r ∧ CanonicalPath (s :: r)

theorem Beneath.of_append {p q : Path} {a : List String} (h : Beneath (p ++ a) q) (ha : CanonicalPath a) :
    Beneath p q := by
  obtain ⟨s, r, rfl, hc⟩ := h
  cases a with
  | nil => exact ⟨s, r, by simp, hc⟩
  | cons b bs =>
    refine ⟨b, bs ++ s :: r, by simp, ?_⟩
    intro t ht
    simp only [List.mem_cons, List.mem_append] at ht
    rcases ht with rfl | ht | ht | ht
    · exact ha _ (by simp)
    · exact ha _ (by simp [ht])
    · exact hc _ (by simp [ht])
    · exact hc _ (by simp [ht])

theorem canonical_one {s : String} (h : CanonicalSeg s) : CanonicalPath [s] := by
  intro t ht; rw [List.mem_singleton] at ht; subst ht; exact h

theorem canonical_cons {s : String} {p : Path} (h : CanonicalSeg s) (hp : CanonicalPath p) : CanonicalPath (s :: p) := by
  intro t ht
  rcases List.mem_cons.1 ht with rfl | ht
  · exact h
  · exact hp t ht

theorem canonical_nil : CanonicalPath [] := by intro t ht; cases ht

/-- paths beneath different places differ -/
theorem beneath_ne {p : Path} {a b : String} {q q' : Path} (hab : a ≠ b) (hq : ∃ r, q = p ++ a :: r)
    (hq' : ∃ r, q' = p ++ b :: r) : q ≠ q' := by
  obtain ⟨r, rfl⟩ := hq
  obtain ⟨r', rfl⟩ := hq'
  intro h
  have := List.append_cancel_left h
  simp at this
  exact hab this.1

theorem Beneath.exists {p q : Path} {a : String} (h : Beneath (p ++ [a]) q) : ∃ r, q = p ++ a :: r := by
  obtain ⟨s, r, rfl, _⟩ := h
  exact ⟨s :: r, by simp⟩

theorem Beneath.ne {p q : Path} (h : Beneath p q) : q ≠ p := by
  obtain ⟨s, r, rfl, _⟩ := h
  intro h
  have := congrArg List.length h
  simp at this

theorem seg_dot (s : String) (h : s.toList.head? ≠ some '[') : CanonicalSeg s := Or.inl h

/-! ### Assertions -/

theorem loadSingle_path {x : Ctx} {c : Constants} {t : DataType} {p : Path} {y : Y} {a : Assertion}
    (h : loadSingle x c t p y = .ok a) : a.path = p ++ [".assert"] := by
  obtain ⟨_, _, _, _, _, _, _, _, _, _, _, _, _, _, _, _, _, _, _, _, _, _, _, _, _, rfl⟩ := loadSingle_inv h
  rfl

theorem AssertionParts.beneath {x : Ctx} {c : Constants} {t : DataType} {p : Path} {y : Y} {a : AnyAssertion}
    (h : AssertionParts x c t p y a) : ∀ q ∈ a.paths, Beneath p q := by
  have hd : CanonicalSeg ".assert" := seg_dot _ (by decide)
  have ht : CanonicalSeg "/t" := seg_dot _ (by decide)
  have hf : CanonicalSeg "/f" := seg_dot _ (by decide)
  intro q hq
  cases h with
  | single h =>
    simp only [AnyAssertion.paths, List.mem_singleton, loadSingle_path h] at hq
    exact ⟨_, [], hq, canonical_one hd⟩
  | @cond _ _ _ _ _ f _ _ _ h1 h2 _ =>
    simp only [AnyAssertion.paths, List.mem_cons, loadSingle_path h1] at hq
    rcases hq with rfl | hq
    · exact ⟨"/t", [".assert"], by simp, canonical_cons ht (canonical_one hd)⟩
    · cases f with
      | none => simp at hq
      | some f' =>
        obtain ⟨yf, _, h3⟩ := h2 f' rfl
        simp only [Option.map_some, Option.toList_some, List.mem_singleton, loadSingle_path h3] at hq
        subst hq
        exact ⟨"/f", [".assert"], by simp, canonical_cons hf (canonical_one hd)⟩
  | dyn _ _ _ _ h1 =>
    simp only [AnyAssertion.paths, List.mem_singleton, loadSingle_path h1] at hq
    subst hq
    exact ⟨"/t", [".assert"], by simp, canonical_cons ht (canonical_one hd)⟩

theorem AssertionParts.nodup {x : Ctx} {c : Constants} {t : DataType} {p : Path} {y : Y} {a : AnyAssertion}
    (h : AssertionParts x c t p y a) : a.paths.Nodup := by
  cases h with
  | single h => simp [AnyAssertion.paths]
  | @cond _ _ _ _ _ f _ _ _ h1 h2 _ =>
    cases f with
    | none => simp [AnyAssertion.paths]
    | some f' =>
      obtain ⟨yf, _, h3⟩ := h2 f' rfl
      simp [AnyAssertion.paths, loadSingle_path h1, loadSingle_path h3]
  | dyn _ _ _ _ h1 => simp [AnyAssertion.paths]

/-- assertions loaded one after the other -/
theorem assertions_paths {x : Ctx} {c : Constants} {t : DataType} {p : Path} {as : List AnyAssertion}
    (h : ∀ i a, as[i]? = some a → ∃ y, AssertionParts x c t (p ++ [indexSeg i]) y a) :
    (∀ q ∈ as.flatMap AnyAssertion.paths, Beneath p q) ∧ (as.flatMap AnyAssertion.paths).Nodup := by
  constructor
  · intro q hq
    obtain ⟨a, ha, hq⟩ := List.mem_flatMap.1 hq
    obtain ⟨i, hi⟩ := List.mem_iff_getElem?.1 ha
    obtain ⟨y, hy⟩ := h i a hi
    exact (hy.beneath q hq).of_append (canonical_one (indexSeg_canonical i))
  · rw [List.nodup_flatMap]
    constructor
    · intro a ha
      obtain ⟨i, hi⟩ := List.mem_iff_getElem?.1 ha
      obtain ⟨y, hy⟩ := h i a hi
      exact hy.nodup
    · rw [List.pairwise_iff_getElem]
      intro i j hi hj hij q h1 h2
      obtain ⟨y, hy⟩ := h i _ (List.getElem?_eq_getElem hi)
      obtain ⟨y', hy'⟩ := h j _ (List.getElem?_eq_getElem hj)
      exact beneath_ne (fun he => by have := indexSeg_inj he; omega) (hy.beneath q h1).exists (hy'.beneath q h2).exists rfl

/-! ### Rules -/

theorem courseLabel_star {a b c d e : Option String} {l : String} (h : courseLabel a b c d e = .ok l) :
    ∃ r, l = "*" ++ r := by
  unfold courseLabel at h
  repeat' split at h
  all_goals first
    | (cases h; exact ⟨_, rfl⟩)
    | cases h
  rename_i s
  exact ⟨"crsid:" ++ s, by rw [← String.append_assoc]; rfl⟩

theorem loadCourse_path {d : Dict} {p : Path} {r : CourseData} (h : loadCourseRule d p = .ok r) :
    ∃ s, r.path = p ++ ["*" ++ s] := by
  obtain ⟨label, rest, _, _, _, _, _, _, hl, hp, _⟩ := loadCourse_inv h
  obtain ⟨s, rfl⟩ := courseLabel_star hl
  exact ⟨s ++ rest, by rw [hp, String.append_assoc]⟩

theorem Node.allPathsList_eq (l : List Node) : Node.allPathsList l = l.flatMap Node.allPaths := by
  induction l with
  | nil => rfl
  | cons a as ih => simp [Node.allPathsList, ih]

theorem Node.allPathsOpt_eq (o : Option Node) : Node.allPathsOpt o = o.toList.flatMap Node.allPaths := by
  cases o <;> simp [Node.allPathsOpt]

theorem loadProficiency_inv {d : Dict} {p : Path} {n : Node} (h : loadProficiency d p = .ok n) :
    ∃ name c, d.get? "proficiency" = some (.str name) ∧ onlyKeys ["proficiency", "course"] d = true ∧
      n = .prof .rule { path := p ++ [".proficiency=" ++ name], proficiency := name } c ∧
      ∀ q, c = some q → q.1 = .rule ∧ ∃ cd, d.get? "course" = some (.map cd) ∧ loadCourseRule cd (p ++ [".proficiency=" ++ name]) = .ok q.2 := by
  unfold loadProficiency at h
  simp only [ld_bind_ok, ld_need, ld_asText, ld_check_ok] at h
  obtain ⟨_, h1, name, rfl, _, h2, c, h3, h⟩ := h
  cases h
  refine ⟨name, c, h1, h2, rfl, ?_⟩
  intro q hq
  subst hq
  split at h3
  · cases h3
  · rename_i y hy
    simp only [ld_bind_ok, ld_asDict] at h3
    obtain ⟨cd, rfl, r, hr, h3⟩ := h3
    cases h3
    exact ⟨rfl, cd, hy, hr⟩

theorem itemSeg_canonical (i : Nat) (y : Y) : CanonicalSeg (itemSeg i y) := by
  unfold itemSeg
  repeat' split
  all_goals first | exact indexSeg_canonical i | exact seg_dot _ (by decide)

theorem percent_canonical (s : String) : CanonicalSeg ("%" ++ s) := canonical_of_head (ch := '%') rfl (by decide)
theorem star_canonical (s : String) : CanonicalSeg ("*" ++ s) := canonical_of_head (ch := '*') rfl (by decide)
theorem prof_canonical (s : String) : CanonicalSeg (".proficiency=" ++ s) := by
  have : ".proficiency=" ++ s = "." ++ ("proficiency=" ++ s) := by rw [← String.append_assoc]; rfl
  rw [this]
  exact canonical_of_head (ch := '.') rfl (by decide)

/-- All paths of a loaded rule lie beneath the place where it is loaded. -/
theorem Built.beneath {env : Env} {kids : Dict} {ems : List Dict} {p : Path} {y : Y} {o : Option Node}
    (h : Built env kids ems p y o) : ∀ n, o = some n → ∀ q ∈ n.allPaths, Beneath p q := by
  have hdot : ∀ s : String, s.toList.head? ≠ some '[' → CanonicalPath [s] := fun s h => canonical_one (seg_dot s h)
  induction h with
  | prof hk h =>
    intro n hn q hq
    cases hn
    obtain ⟨name, c, _, _, rfl, hc⟩ := loadProficiency_inv h
    simp only [Node.allPaths, List.mem_cons] at hq
    rcases hq with rfl | hq
    · exact ⟨_, [], rfl, canonical_one (prof_canonical _)⟩
    · cases c with
      | none => simp at hq
      | some c =>
        obtain ⟨_, cd, _, hl⟩ := hc c rfl
        obtain ⟨s, hs⟩ := loadCourse_path hl
        simp only [Option.map_some, Option.toList_some, List.mem_singleton] at hq
        rw [hq, hs]
        exact ⟨".proficiency=" ++ name, ["*" ++ s], by simp, canonical_cons (prof_canonical _) (canonical_one (star_canonical _))⟩
  | course hk h =>
    intro n hn q hq
    cases hn
    obtain ⟨s, hs⟩ := loadCourse_path h
    simp only [Node.allPaths, List.mem_singleton] at hq
    rw [hq, hs]
    exact ⟨_, [], rfl, canonical_one (star_canonical _)⟩
  | query hk h =>
    intro n hn q hq
    cases hn
    obtain ⟨src, w, lim, as, allow, failed, _, _, _, _, _, has, _, _, _, _, _, hr⟩ := loadQuery_inv h
    simp only [Node.allPaths, List.mem_cons] at hq
    rcases hq with rfl | hq
    · rw [hr]; exact ⟨_, [], rfl, hdot _ (by decide)⟩
    · rw [hr] at hq
      have := (assertions_paths (p := _ ++ [".query"] ++ [".assertions"]) (fun i a hi => by
        simpa using loadQueryAssertions_inv has i a hi)).1 q hq
      exact (this.of_append (hdot _ (by decide))).of_append (hdot _ (by decide))
  | @cond _ _ _ d _ _ _ _ f _ hk _ _ _ _ _ _ hno _ iht ihf =>
    intro n hn q hq
    split at hn
    · cases hn
    · cases hn
      simp only [Node.allPaths, List.mem_cons, List.mem_append] at hq
      rcases hq with rfl | hq | hq
      · exact ⟨_, [], rfl, hdot _ (by decide)⟩
      · exact (iht _ rfl q hq).of_append (canonical_cons (seg_dot _ (by decide)) (hdot _ (by decide)))
      · cases hf : f with
        | none => rw [hf] at hq; simp [Node.allPathsOpt] at hq
        | some f' =>
          rw [hf] at hq
          cases ho : Dict.opt d "$else" with
          | none => rw [hno ho] at hf; cases hf
          | some yf =>
            exact (ihf yf ho f' hf q hq).of_append (canonical_cons (seg_dot _ (by decide)) (hdot _ (by decide)))
  | count hk _ _ _ _ _ haud _ _ _ _ _ _ ih =>
    intro n hn q hq
    cases hn
    simp only [Node.allPaths, List.mem_cons, List.mem_append] at hq
    rcases hq with rfl | hq | hq
    · exact ⟨_, [], rfl, hdot _ (by decide)⟩
    · have := (assertions_paths (p := _ ++ [".count"] ++ [".audit"]) (fun i a hi => by
        simpa using loadAudits_inv haud i a hi)).1 q hq
      exact (this.of_append (hdot _ (by decide))).of_append (hdot _ (by decide))
    · rw [Node.allPathsList_eq] at hq
      obtain ⟨m, hm, hq⟩ := List.mem_flatMap.1 hq
      obtain ⟨⟨y, m'⟩, hp, rfl⟩ := List.mem_filterMap.1 hm
      obtain ⟨i, hi⟩ := List.mem_iff_getElem?.1 hp
      exact (ih i _ _ hi m rfl q hq).of_append (canonical_cons (seg_dot _ (by decide)) (canonical_one (itemSeg_canonical _ _)))
  | @req _ _ _ _ _ body _ r hn _ hnone _ _ hex hpath _ _ _ _ _ _ _ _ ih =>
    intro n hn' q hq
    cases hn'
    simp only [Node.allPaths, List.mem_cons] at hq
    rcases hq with rfl | hq
    · rw [hpath]; exact ⟨_, [], rfl, canonical_one (percent_canonical _)⟩
    · cases hr : r with
      | none => rw [hr] at hq; simp [Node.allPathsOpt] at hq
      | some r' =>
        rw [hr] at hq
        cases ho : Dict.opt body "result" with
        | none => rw [hnone ho] at hr; cases hr
        | some yr =>
          obtain ⟨own, hown, _⟩ := hex yr ho
          exact (ih yr own ho hown r' hr q hq).of_append (canonical_one (percent_canonical _))

end Dp
