import Verif.Model.Csv
import Verif.Props.PrintTotal
import Verif.Props.Entry

/-
C91, C92: the spreadsheet of results.
-/
namespace Dp

/-! ### Specification -/

/-- `m` is a part of the result that the spreadsheet looks at: of a count that asks for one item only the first, of other counts all;
of a requirement its result, unless that is a course -/
inductive InSheet : Node → Node → Prop
  | self (n : Node) : InSheet n n
  | first {s : Stage} {d : CountData} {i : Node} {is : List Node} {m : Node} : d.count = 1 → InSheet i m →
      InSheet (.count s d (i :: is)) m
  | item {s : Stage} {d : CountData} {is : List Node} {i m : Node} : d.count ≠ 1 → i ∈ is → InSheet i m → InSheet (.count s d is) m
  | inside {s : Stage} {d : ReqData} {n m : Node} : (∀ s' c, n ≠ .course s' c) → InSheet n m → InSheet (.req s d (some n)) m

/-- parts that cannot be written: conditional rules, queries with assertions or with `$not` in the filter, requirements without a
result -/
def Unwritable : Node → Prop
  | .cond _ _ _ _ => True
  | .query _ d => d.assertions ≠ [] ∨ ∃ w, d.where' = some w ∧ ¬ w.NoNot
  | .req _ _ none => True
  | _ => False

/-- `Column header n ks k v`: the result `n` has a column headed by `k` below the headings `ks`, with the cell `v` -/
inductive Column (header : String → String) : Node → List String → String → SheetCell → Prop
  | course {s : Stage} {d : CourseData} : Passes (courseStatus s d) → Column header (.course s d) [] (noneText d.course) d.course
  | profCourse {s s' : Stage} {d : ProfData} {c : CourseData} :
      Column header (.prof s d (some (s', c))) [] d.proficiency c.course
  | profDone {s : Stage} {d : ProfData} : Passes (profStatus d none) → Column header (.prof s d none) [] d.proficiency (some "done")
  | profOpen {s : Stage} {d : ProfData} : ¬ Passes (profStatus d none) → Column header (.prof s d none) [] d.proficiency (some "")
  | named {s s' : Stage} {d : ReqData} {c : CourseData} : Column header (.req s d (some (.course s' c))) [] (header d.name) c.course
  | inside {s : Stage} {d : ReqData} {n : Node} {ks : List String} {k : String} {v : SheetCell} : (∀ s' c, n ≠ .course s' c) →
      Column header n ks k v → Column header (.req s d (some n)) (header d.name :: ks) k v
  | first {s : Stage} {d : CountData} {i : Node} {is : List Node} {ks : List String} {k : String} {v : SheetCell} : d.count = 1 →
      Column header i ks k v → Column header (.count s d (i :: is)) ks k v
  | item {s : Stage} {d : CountData} {is : List Node} {i : Node} {ks : List String} {k : String} {v : SheetCell} : d.count ≠ 1 →
      i ∈ is → Column header i ks k v → Column header (.count s d is) ks k v

/-- a heading below others -/
def headingText (ks : List String) (k : String) : String := ks.foldr (fun a b => a ++ "\n↳ " ++ b) k

/-! ### Which results can be written -/

mutual
theorem strPredicate_noNot (S : Shows) : ∀ (p : Pred) (b : Bool) (t : String), strPredicate S b p = .ok t → p.NoNot
  | .leaf _, _, _, _ => by simp [Pred.NoNot]
  | .or ps, b, t, h => by
    rw [strPredicate] at h
    split at h
    · cases h
    · rename_i ts hts
      simp only [Pred.NoNot]
      exact strPredicates_noNot S ps _ hts
  | .and ps, b, t, h => by
    rw [strPredicate] at h
    split at h
    · cases h
    · rename_i ts hts
      simp only [Pred.NoNot]
      exact strPredicates_noNot S ps _ hts
  | .not _, b, t, h => by rw [strPredicate] at h; cases h
  | .cond r p f, b, t, h => by
    rw [strPredicate] at h
    split at h
    · cases h
    · rename_i t1 h1
      split at h
      · cases h
      · rename_i t2 h2
        simp only [Pred.NoNot]
        exact ⟨strPredicate_noNot S p _ _ h1, strElse_noNot S f _ h2⟩
theorem strPredicates_noNot (S : Shows) : ∀ (ps : List Pred) (ts : List String), strPredicates S ps = .ok ts → Pred.NoNotList ps
  | [], _, _ => by simp [Pred.NoNotList]
  | p :: ps, ts, h => by
    rw [strPredicates] at h
    split at h
    · cases h
    · rename_i t1 h1
      split at h
      · cases h
      · rename_i t2 h2
        simp only [Pred.NoNotList]
        exact ⟨strPredicate_noNot S p _ _ h1, strPredicates_noNot S ps _ h2⟩
theorem strElse_noNot (S : Shows) : ∀ (f : Option Pred) (t : String), strElse S f = .ok t → Pred.NoNotOpt f
  | none, _, _ => by simp [Pred.NoNotOpt]
  | some p, t, h => by
    rw [strElse] at h
    simp only [Pred.NoNotOpt]
    exact strPredicate_noNot S p _ _ h
end

theorem csvQuery_iff (S : Shows) (s : Stage) (d : QueryData) : (∃ cols, csvQuery S d = .ok cols) ↔ ¬ Unwritable (.query s d) := by
  unfold csvQuery
  simp only [Unwritable, not_or, not_exists, not_and, Classical.not_not]
  cases hw : d.where' with
  | none =>
    dsimp only
    by_cases ha : d.assertions = [] <;> simp [ha]
  | some w =>
    dsimp only
    constructor
    · rintro ⟨cols, h⟩
      split at h
      · cases h
      · rename_i t ht
        refine ⟨?_, ?_⟩
        · by_contra ha
          simp [ha] at h
        · rintro w' hw'
          cases hw'
          exact strPredicate_noNot S w _ _ ht
    · rintro ⟨ha, hn⟩
      obtain ⟨t, ht⟩ := strPredicate_ok S w false (hn w rfl)
      rw [ht]
      exact ⟨[], by simp [ha]⟩

mutual
theorem Node.csv_iff (S : Shows) (header : String → String) : ∀ n : Node,
    (∃ cols, n.csv S header = .ok cols) ↔ ∀ m, InSheet n m → ¬ Unwritable m
  | .course s d => by
    refine ⟨fun _ m hm => ?_, fun _ => ⟨_, by rw [Node.csv]⟩⟩
    cases hm
    simp [Unwritable]
  | .query s d => by
    rw [Node.csv, csvQuery_iff S s d]
    refine ⟨fun h m hm => ?_, fun h => h _ (.self _)⟩
    cases hm
    exact h
  | .prof s d c => by
    refine ⟨fun _ m hm => ?_, fun _ => ⟨_, by rw [Node.csv]⟩⟩
    cases hm
    simp [Unwritable]
  | .cond s d t f => by
    refine ⟨fun ⟨cols, h⟩ => ?_, fun h => absurd trivial (h _ (.self _))⟩
    rw [Node.csv] at h
    cases h
  | .count s d [] => by
    rw [Node.csv]
    refine ⟨fun _ m hm => ?_, fun _ => ⟨[], by simp [Node.csvList]⟩⟩
    cases hm with
    | self => simp [Unwritable]
    | item _ hi => cases hi
  | .count s d (i :: is) => by
    rw [Node.csv]
    have ih1 := Node.csv_iff S header i
    have ih2 := Node.csv_iffList S header (i :: is)
    by_cases hc : d.count = 1
    · rw [if_pos ⟨hc, by simp⟩, Node.csvFirst, ih1]
      refine ⟨fun h m hm => ?_, fun h m hm => h m (.first hc hm)⟩
      cases hm with
      | self => simp [Unwritable]
      | first _ hm => exact h m hm
      | item hn => exact absurd hc hn
    · rw [if_neg (fun h => hc h.1), ih2]
      refine ⟨fun h m hm => ?_, fun h j hj m hm => h m (.item hc hj hm)⟩
      cases hm with
      | self => simp [Unwritable]
      | first hn => exact absurd hn hc
      | item _ hi hm => exact h _ hi m hm
  | .req s d none => by
    refine ⟨fun ⟨cols, h⟩ => ?_, fun h => absurd trivial (h _ (.self _))⟩
    rw [Node.csv] at h
    cases h
  | .req s d (some n) => by
    have ih := Node.csv_iff S header n
    by_cases hn : ∃ s' c, n = .course s' c
    · obtain ⟨s', c, rfl⟩ := hn
      refine ⟨fun _ m hm => ?_, fun _ => ⟨_, by rw [Node.csv]⟩⟩
      cases hm with
      | self => simp [Unwritable]
      | inside hn => exact absurd rfl (hn _ _)
    · have hn' : ∀ s' c, n ≠ .course s' c := fun s' c e => hn ⟨s', c, e⟩
      have e : (∃ cols, (Node.req s d (some n)).csv S header = .ok cols) ↔ ∃ cols, n.csv S header = .ok cols := by
        rw [Node.csv.eq_8 S header s d n (fun s' c e => hn' s' c e)]
        constructor
        · rintro ⟨cols, h⟩
          split at h
          · cases h
          · exact ⟨_, by assumption⟩
        · rintro ⟨cols, h⟩
          rw [h]
          exact ⟨_, rfl⟩
      rw [e, ih]
      refine ⟨fun h m hm => ?_, fun h m hm => h m (.inside hn' hm)⟩
      cases hm with
      | self => simp [Unwritable]
      | inside _ hm => exact h m hm
theorem Node.csv_iffList (S : Shows) (header : String → String) : ∀ ns : List Node,
    (∃ cols, Node.csvList S header ns = .ok cols) ↔ ∀ n ∈ ns, ∀ m, InSheet n m → ¬ Unwritable m
  | [] => by simp [Node.csvList]
  | n :: ns => by
    have h1 := Node.csv_iff S header n
    have h2 := Node.csv_iffList S header ns
    rw [Node.csvList]
    simp only [List.forall_mem_cons]
    rw [← h1, ← h2]
    constructor
    · rintro ⟨cols, h⟩
      split at h
      · cases h
      · split at h
        · cases h
        · exact ⟨⟨_, by assumption⟩, ⟨_, by assumption⟩⟩
    · rintro ⟨⟨a, ha⟩, ⟨b, hb⟩⟩
      rw [ha]
      dsimp only
      rw [hb]
      exact ⟨_, rfl⟩
end

/-! ### The columns -/

theorem passing_passes (st : Status) : st.passing = true ↔ Passes st := by
  cases st <;> simp [Status.passing, Passes]

mutual
theorem Node.csv_columns (S : Shows) (header : String → String) : ∀ (n : Node) (cols : List (String × SheetCell)),
    n.csv S header = .ok cols → ∀ k v, (k, v) ∈ cols ↔ ∃ ks k', Column header n ks k' v ∧ k = headingText ks k'
  | .course s d, cols, h => by
    intro k v
    rw [Node.csv] at h
    cases h
    unfold csvCourse
    split
    · rename_i hp
      simp only [List.mem_singleton, Prod.mk.injEq]
      constructor
      · rintro ⟨rfl, rfl⟩
        exact ⟨[], _, .course ((passing_passes _).1 hp), rfl⟩
      · rintro ⟨ks, k', hc, rfl⟩
        cases hc
        exact ⟨rfl, rfl⟩
    · rename_i hp
      constructor
      · intro h; cases h
      · rintro ⟨ks, k', hc, rfl⟩
        cases hc with | course hp' => exact absurd ((passing_passes _).2 hp') hp
  | .query s d, cols, h => by
    intro k v
    rw [Node.csv] at h
    unfold csvQuery at h
    dsimp only at h
    have hcols : cols = [] := by
      split at h
      · cases h
      · split at h
        · exact (Except.ok.inj h).symm
        · cases h
    subst hcols
    constructor
    · intro h; cases h
    · rintro ⟨ks, k', hc, rfl⟩
      cases hc
  | .prof s d none, cols, h => by
    intro k v
    rw [Node.csv] at h
    cases h
    simp only [csvProf, List.mem_singleton, Prod.mk.injEq]
    constructor
    · rintro ⟨rfl, rfl⟩
      split
      · rename_i hp; exact ⟨[], _, .profDone ((passing_passes _).1 hp), rfl⟩
      · rename_i hp; exact ⟨[], _, .profOpen (fun h => hp ((passing_passes _).2 h)), rfl⟩
    · rintro ⟨ks, k', hc, rfl⟩
      cases hc with
      | profDone hp => exact ⟨rfl, (if_pos ((passing_passes _).2 hp)).symm⟩
      | profOpen hp => exact ⟨rfl, (if_neg (fun h => hp ((passing_passes _).1 h))).symm⟩
  | .prof s d (some (s', c)), cols, h => by
    intro k v
    rw [Node.csv] at h
    cases h
    simp only [csvProf, List.mem_singleton, Prod.mk.injEq]
    constructor
    · rintro ⟨rfl, rfl⟩
      exact ⟨[], _, .profCourse, rfl⟩
    · rintro ⟨ks, k', hc, rfl⟩
      cases hc
      exact ⟨rfl, rfl⟩
  | .cond s d t f, cols, h => by rw [Node.csv] at h; cases h
  | .count s d [], cols, h => by
    intro k v
    rw [Node.csv] at h
    simp only [ne_eq, not_true_eq_false, and_false, if_false, Node.csvList] at h
    cases h
    constructor
    · intro h; cases h
    · rintro ⟨ks, k', hc, rfl⟩
      cases hc with | item _ hi => cases hi
  | .count s d (i :: is), cols, h => by
    intro k v
    rw [Node.csv] at h
    have ih1 := Node.csv_columns S header i
    have ih2 := Node.csv_columnsList S header (i :: is)
    by_cases hc : d.count = 1
    · rw [if_pos ⟨hc, by simp⟩, Node.csvFirst] at h
      rw [ih1 cols h k v]
      constructor
      · rintro ⟨ks, k', hcol, rfl⟩
        exact ⟨ks, k', .first hc hcol, rfl⟩
      · rintro ⟨ks, k', hcol, rfl⟩
        cases hcol with
        | first _ hcol => exact ⟨ks, k', hcol, rfl⟩
        | item hn => exact absurd hc hn
    · rw [if_neg (fun h => hc h.1)] at h
      rw [ih2 cols h k v]
      constructor
      · rintro ⟨j, hj, ks, k', hcol, rfl⟩
        exact ⟨ks, k', .item hc hj hcol, rfl⟩
      · rintro ⟨ks, k', hcol, rfl⟩
        cases hcol with
        | first hn => exact absurd hn hc
        | item _ hi hcol => exact ⟨_, hi, ks, k', hcol, rfl⟩
  | .req s d none, cols, h => by rw [Node.csv] at h; cases h
  | .req s d (some n), cols, h => by
    intro k v
    have ih := Node.csv_columns S header n
    by_cases hn : ∃ s' c, n = .course s' c
    · obtain ⟨s', c, rfl⟩ := hn
      rw [Node.csv] at h
      cases h
      simp only [List.mem_singleton, Prod.mk.injEq]
      constructor
      · rintro ⟨rfl, rfl⟩
        exact ⟨[], _, .named, rfl⟩
      · rintro ⟨ks, k', hc, rfl⟩
        cases hc with
        | named => exact ⟨rfl, rfl⟩
        | inside hn => exact absurd rfl (hn _ _)
    · have hn' : ∀ s' c, n ≠ .course s' c := fun s' c e => hn ⟨s', c, e⟩
      rw [Node.csv.eq_8 S header s d n (fun s' c e => hn' s' c e)] at h
      split at h
      · cases h
      · rename_i cs hcs
        cases h
        simp only [List.mem_map, Prod.exists, Prod.mk.injEq]
        constructor
        · rintro ⟨k1, v1, hm, rfl, rfl⟩
          obtain ⟨ks, k', hcol, rfl⟩ := (ih cs hcs k1 v1).1 hm
          exact ⟨_, k', .inside hn' hcol, rfl⟩
        · rintro ⟨ks, k', hcol, rfl⟩
          cases hcol with
          | named => exact absurd rfl (hn' _ _)
          | inside _ hcol => exact ⟨_, v, (ih cs hcs _ v).2 ⟨_, k', hcol, rfl⟩, rfl, rfl⟩
theorem Node.csv_columnsList (S : Shows) (header : String → String) : ∀ (ns : List Node) (cols : List (String × SheetCell)),
    Node.csvList S header ns = .ok cols → ∀ k v, (k, v) ∈ cols ↔
      ∃ n ∈ ns, ∃ ks k', Column header n ks k' v ∧ k = headingText ks k'
  | [], cols, h => by rw [Node.csvList] at h; cases h; simp
  | n :: ns, cols, h => by
    intro k v
    have h1 := Node.csv_columns S header n
    have h2 := Node.csv_columnsList S header ns
    rw [Node.csvList] at h
    split at h
    · cases h
    · rename_i a ha
      split at h
      · cases h
      · rename_i b hb
        cases h
        rw [List.mem_append, h1 a ha k v, h2 b hb k v]
        simp
end

/-! ### One row -/

theorem sheet_left {α β : Type} {R : α → β → Prop} {as : List α} {bs : List β} (h : List.Forall₂ R as bs) {a : α} (ha : a ∈ as) :
    ∃ b ∈ bs, R a b := by
  induction h with
  | nil => cases ha
  | cons hab _ ih =>
    rcases List.mem_cons.1 ha with rfl | ha
    · exact ⟨_, List.mem_cons_self, hab⟩
    · obtain ⟨b, h1, h2⟩ := ih ha
      exact ⟨b, List.mem_cons_of_mem _ h1, h2⟩

theorem sheet_right {α β : Type} {R : α → β → Prop} {as : List α} {bs : List β} (h : List.Forall₂ R as bs) {b : β} (hb : b ∈ bs) :
    ∃ a ∈ as, R a b := by
  induction h with
  | nil => cases hb
  | cons hab _ ih =>
    rcases List.mem_cons.1 hb with rfl | hb
    · exact ⟨_, List.mem_cons_self, hab⟩
    · obtain ⟨b, h1, h2⟩ := ih hb
      exact ⟨b, List.mem_cons_of_mem _ h1, h2⟩

/-- the row of a result has the cell `v` under the heading `k` (perhaps among others): the five first columns, and those of the result -/
def HasCell (S : Shows) (header : String → String) (r : AreaResult) (k : String) (v : SheetCell) : Prop :=
  (k = "Student" ∧ v = some "000000") ∨ (k = "GPA" ∧ v = some (S.number r.gpa)) ∨ (k = "Status" ∧ v = some r.status.text) ∨
  (k = "Classification" ∧ v = some "???") ∨ (k = "Ant. Grad. Date" ∧ v = some "May 2000") ∨
  ∃ ks k', Column header r.result ks k' v ∧ k = headingText ks k'

theorem AreaResult.csv_iff (S : Shows) (header : String → String) (r : AreaResult) :
    (∃ cols, r.csv S header = .ok cols) ↔ ∀ m, InSheet r.result m → ¬ Unwritable m := by
  rw [← Node.csv_iff S header r.result]
  unfold AreaResult.csv
  constructor
  · rintro ⟨cols, h⟩
    split at h
    · cases h
    · exact ⟨_, by assumption⟩
  · rintro ⟨cols, h⟩
    rw [h]
    exact ⟨_, rfl⟩

theorem AreaResult.csv_cells {S : Shows} {header : String → String} {r : AreaResult} {cols : List (String × SheetCell)}
    (h : r.csv S header = .ok cols) (k : String) (v : SheetCell) : (k, v) ∈ cols ↔ HasCell S header r k v := by
  unfold AreaResult.csv at h
  split at h
  · cases h
  · rename_i cs hcs
    cases h
    rw [List.mem_append, Node.csv_columns S header r.result cs hcs k v]
    simp [HasCell, or_assoc]

theorem setCell_keys (k : String) (v : SheetCell) : ∀ row : List (String × SheetCell),
    (row.map (·.1)).Nodup → ((setCell row k v).map (·.1)).Nodup ∧
    (∀ k', k' ∈ (setCell row k v).map (·.1) ↔ k' = k ∨ k' ∈ row.map (·.1)) ∧
    (∀ c, c ∈ setCell row k v ↔ c = (k, v) ∨ (c ∈ row ∧ c.1 ≠ k))
  | [], _ => by simp [setCell]
  | (k', v') :: rest, hn => by
    simp only [List.map_cons, List.nodup_cons] at hn
    obtain ⟨h1, h2, h3⟩ := setCell_keys k v rest hn.2
    unfold setCell
    split
    · rename_i hk
      subst hk
      refine ⟨by simpa using hn, by simp, ?_⟩
      rintro ⟨a, b⟩
      simp only [List.mem_cons]
      constructor
      · rintro (h | h)
        · exact .inl h
        · refine .inr ⟨.inr h, ?_⟩
          rintro rfl
          exact hn.1 (List.mem_map.2 ⟨_, h, rfl⟩)
      · rintro (h | ⟨h | h, hne⟩)
        · exact .inl h
        · cases h; exact absurd rfl hne
        · exact .inr h
    · rename_i hk
      refine ⟨?_, ?_, ?_⟩
      · simp only [List.map_cons, List.nodup_cons]
        refine ⟨?_, h1⟩
        rw [h2]
        rintro (h | h)
        · exact hk h
        · exact hn.1 h
      · intro a
        simp only [List.map_cons, List.mem_cons, h2]
        constructor <;> rintro (h | h | h) <;> simp [h]
      · rintro ⟨a, b⟩
        simp only [List.mem_cons, h3]
        constructor
        · rintro (h | h | h)
          · cases h; exact .inr ⟨.inl rfl, hk⟩
          · exact .inl h
          · exact .inr ⟨.inr h.1, h.2⟩
        · rintro (h | ⟨h | h, hne⟩)
          · exact .inr (.inl h)
          · exact .inl h
          · exact .inr (.inr ⟨h, hne⟩)

/-- the cell that is written last under a heading -/
def LastCell (cols : List (String × SheetCell)) (k : String) (v : SheetCell) : Prop :=
  ∃ pre post, cols = pre ++ (k, v) :: post ∧ ∀ c ∈ post, c.1 ≠ k

theorem csvDict_says (cols : List (String × SheetCell)) : ((csvDict cols).map (·.1)).Nodup ∧
    (∀ k, k ∈ (csvDict cols).map (·.1) ↔ ∃ v, (k, v) ∈ cols) ∧ (∀ k v, (k, v) ∈ csvDict cols ↔ LastCell cols k v) := by
  induction cols using List.reverseRecOn with
  | nil => simp [csvDict, LastCell]
  | append_singleton cols c ih =>
    obtain ⟨k, v⟩ := c
    obtain ⟨h1, h2, h3⟩ := ih
    have e : csvDict (cols ++ [(k, v)]) = setCell (csvDict cols) k v := by simp [csvDict, List.foldl_append]
    rw [e]
    obtain ⟨g1, g2, g3⟩ := setCell_keys k v _ h1
    refine ⟨g1, ?_, ?_⟩
    · intro k'
      rw [g2, h2]
      constructor
      · rintro (rfl | ⟨v', h⟩)
        · exact ⟨v, by simp⟩
        · exact ⟨v', by simp [h]⟩
      · rintro ⟨v', h⟩
        simp only [List.mem_append, List.mem_singleton, Prod.mk.injEq] at h
        rcases h with h | ⟨h, _⟩
        · exact .inr ⟨v', h⟩
        · exact .inl h
    · intro k' v'
      rw [g3]
      constructor
      · rintro (h | ⟨h, hne⟩)
        · cases h; exact ⟨cols, [], rfl, by simp⟩
        · obtain ⟨pre, post, rfl, hp⟩ := (h3 k' v').1 h
          refine ⟨pre, post ++ [(k, v)], by simp, ?_⟩
          intro c hc
          simp only [List.mem_append, List.mem_singleton] at hc
          rcases hc with hc | rfl
          · exact hp c hc
          · exact fun h => hne h.symm
      · rintro ⟨pre, post, he, hp⟩
        rcases List.eq_nil_or_concat post with rfl | ⟨post', x, rfl⟩
        · have := List.append_inj' he rfl
          exact .inl (by simpa using this.2.symm)
        · have he' : cols ++ [(k, v)] = (pre ++ (k', v') :: post') ++ [x] := by rw [he]; simp
          obtain ⟨h4, h5⟩ := List.append_inj' he' rfl
          cases h5
          refine .inr ⟨(h3 k' v').2 ⟨pre, post', h4, fun c hc => hp c (by simp [hc])⟩, ?_⟩
          exact fun h => hp (k, v) (by simp) h.symm

theorem csvDicts_inv {S : Shows} {header : String → String} : ∀ {rs : List AreaResult} {rows : List (List (String × SheetCell))},
    csvDicts S header rs = .ok rows → List.Forall₂ (fun r row => ∃ cols, r.csv S header = .ok cols ∧ row = csvDict cols) rs rows
  | [], _, h => by simp only [csvDicts] at h; cases h; exact .nil
  | r :: rs, _, h => by
    rw [csvDicts] at h
    split at h
    · cases h
    · rename_i cols hc
      split at h
      · cases h
      · rename_i rows hr
        cases h
        exact .cons ⟨cols, hc, rfl⟩ (csvDicts_inv hr)

theorem csvDicts_ok {S : Shows} {header : String → String} : ∀ {rs : List AreaResult},
    (∀ r ∈ rs, ∃ cols, r.csv S header = .ok cols) → ∃ rows, csvDicts S header rs = .ok rows
  | [], _ => ⟨[], rfl⟩
  | r :: rs, h => by
    obtain ⟨cols, hc⟩ := h r List.mem_cons_self
    obtain ⟨rows, hr⟩ := csvDicts_ok (fun r' h' => h r' (List.mem_cons_of_mem _ h'))
    exact ⟨_, by rw [csvDicts, hc]; dsimp only; rw [hr]⟩

theorem csv_heading {S : Shows} {header : String → String} {r : AreaResult} {cols : List (String × SheetCell)}
    (h : r.csv S header = .ok cols) (k : String) :
    k ∈ (csvDict cols).map (·.1) ↔ ∃ v, HasCell S header r k v := by
  rw [(csvDict_says cols).2.1]
  exact exists_congr fun v => AreaResult.csv_cells h k v

/-! ### Theorems -/

/-- **C91, partial.** A spreadsheet can be made of the results of some students exactly if there is one, the sheet looks at no conditional
rule, no query with assertions and no requirement without a result, and no result has a heading that the first does not have.
Missing: other results, for which it raises (`C91_refuted`). -/
theorem C91_sheet_iff_partial (S : Shows) (header : String → String) (rs : List AreaResult) :
    (∃ t, csvify S header rs = .ok t) ↔
      ∃ r0 rest, rs = r0 :: rest ∧ (∀ r ∈ rs, ∀ m, InSheet r.result m → ¬ Unwritable m) ∧
        ∀ r ∈ rs, ∀ k v, HasCell S header r k v → ∃ v', HasCell S header r0 k v' := by
  constructor
  · rintro ⟨t, h⟩
    unfold csvify at h
    split at h
    · cases h
    · cases h
    · rename_i first rest hd
      have hf := csvDicts_inv hd
      dsimp only at h
      split at h
      · rename_i hall
        cases hf with
        | @cons r0 _ rs' _ h0 hrest =>
          obtain ⟨c0, hc0, rfl⟩ := h0
          have hall' := List.all_eq_true.1 hall
          refine ⟨r0, rs', rfl, ?_, ?_⟩
          · intro r hr
            rw [← AreaResult.csv_iff S header r]
            rcases List.mem_cons.1 hr with rfl | hr
            · exact ⟨c0, hc0⟩
            · obtain ⟨row, _, cols, hcols, _⟩ := sheet_left hrest hr
              exact ⟨cols, hcols⟩
          · intro r hr k v hkv
            have key : ∃ row ∈ csvDict c0 :: rest, ∃ cols, r.csv S header = .ok cols ∧ row = csvDict cols := by
              rcases List.mem_cons.1 hr with rfl | hr
              · exact ⟨_, List.mem_cons_self, c0, hc0, rfl⟩
              · obtain ⟨row, hm, cols, hcols, e⟩ := sheet_left hrest hr
                exact ⟨row, List.mem_cons_of_mem _ hm, cols, hcols, e⟩
            obtain ⟨row, hm, cols, hcols, rfl⟩ := key
            have hk := (csv_heading hcols k).2 ⟨v, hkv⟩
            obtain ⟨c, hc, rfl⟩ := List.mem_map.1 hk
            have := List.all_eq_true.1 (hall' _ hm) c hc
            rw [List.contains_iff_mem] at this
            exact (csv_heading hc0 _).1 this
      · cases h
  · rintro ⟨r0, rest, rfl, hw, hk⟩
    obtain ⟨rows, hrows⟩ := csvDicts_ok (S := S) (header := header) (fun r hr => (AreaResult.csv_iff S header r).2 (hw r hr))
    have hf := csvDicts_inv hrows
    cases hf with
    | @cons _ first _ rest' h0 hrest =>
      obtain ⟨c0, hc0, rfl⟩ := h0
      unfold csvify
      rw [hrows]
      dsimp only
      rw [if_pos]
      · exact ⟨_, rfl⟩
      · rw [List.all_eq_true]
        intro row hrow
        rw [List.all_eq_true]
        intro c hc
        rw [List.contains_iff_mem, csv_heading hc0]
        have key : ∃ r ∈ r0 :: rest, ∃ cols, r.csv S header = .ok cols ∧ row = csvDict cols := by
          rcases List.mem_cons.1 hrow with rfl | hm
          · exact ⟨r0, List.mem_cons_self, c0, hc0, rfl⟩
          · obtain ⟨r, hr, cols, hcols, e⟩ := sheet_right hrest hm
            exact ⟨r, List.mem_cons_of_mem _ hr, cols, hcols, e⟩
        obtain ⟨r, hr, cols, hcols, rfl⟩ := key
        obtain ⟨v, hv⟩ := (csv_heading hcols c.1).1 (List.mem_map.2 ⟨c, hc, rfl⟩)
        exact hk r hr _ v hv

/-- **C92, partial.** In a spreadsheet that is written, the headings are those of the first result, each once; each further row is that of
one result, in order; and the cell under a heading is one that the result has there, or empty if it has none.
Missing: that the row of a student shows each course that was counted, and only such courses (`C92_refuted`). -/
theorem C92_cells_partial (S : Shows) (header : String → String) (r0 : AreaResult) (rest : List AreaResult) (keys : List String)
    (table : List (List SheetCell)) (h : csvify S header (r0 :: rest) = .ok (keys, table)) :
    keys.Nodup ∧ (∀ k, k ∈ keys ↔ ∃ v, HasCell S header r0 k v) ∧
    List.Forall₂ (fun r row => List.Forall₂ (fun k v => HasCell S header r k v ∨ (v = some "" ∧ ∀ v', ¬ HasCell S header r k v')) keys row)
      (r0 :: rest) table := by
  unfold csvify at h
  split at h
  · cases h
  · cases h
  · rename_i first rows hd
    have hf := csvDicts_inv hd
    dsimp only at h
    split at h
    · cases h
      have hcell : ∀ r row, (∃ cols, r.csv S header = .ok cols ∧ row = csvDict cols) → ∀ ks : List String,
          List.Forall₂ (fun k v => HasCell S header r k v ∨ (v = some "" ∧ ∀ v', ¬ HasCell S header r k v')) ks (ks.map (cellOf row)) := by
        rintro r row ⟨cols, hc, rfl⟩ ks
        rw [List.forall₂_map_right_iff, List.forall₂_same]
        intro k _
        unfold cellOf
        split
        · rename_i c hfind
          have hk : c.1 = k := by simpa using List.find?_some hfind
          have hm := List.mem_of_find?_eq_some hfind
          obtain ⟨pre, post, e, _⟩ := ((csvDict_says cols).2.2 c.1 c.2).1 hm
          left
          rw [← hk, ← AreaResult.csv_cells hc, e]
          simp
        · rename_i hfind
          right
          refine ⟨rfl, fun v' hv => ?_⟩
          obtain ⟨c, hm, rfl⟩ := List.mem_map.1 ((csv_heading hc k).2 ⟨v', hv⟩)
          have := List.find?_eq_none.1 hfind c hm
          simp at this
      refine ⟨?_, ?_, ?_⟩
      · cases hf with | cons h0 _ => obtain ⟨c0, _, rfl⟩ := h0; exact (csvDict_says c0).1
      · cases hf with | cons h0 _ => obtain ⟨c0, hc0, rfl⟩ := h0; exact csv_heading hc0
      · rw [List.forall₂_map_right_iff]
        exact hf.imp (fun r row h => hcell r row h _)
    · cases h

/-! ### Cases -/

namespace SheetFiles
open EntryText
/-- the last result that an audit of two files reports -/
def last (raw : RawStudent) (spec : Dict) : Option AreaResult :=
  ((runFiles .insertion {} raw spec).items.filterMap (fun m => match m with
    | .result r _ _ _ => some r
    | _ => none)).getLast?
/-- two courses, both wanted -/
def both : Dict := area [] (.map [("both", .list [.map [("course", .str "CSCI 121")], .map [("course", .str "MATH 220")]])])
/-- two courses, one wanted -/
def either : Dict := area [] (.map [("either", .list [.map [("course", .str "CSCI 121")], .map [("course", .str "MATH 220")]])])
/-- a requirement with one course -/
def core : Dict := area [("requirements", .map [("Core", .map [("result", .map [("course", .str "MATH 220")])])])]
  (.map [("requirement", .str "Core")])
/-- two courses in a subject -/
def query : Dict := area [] twoCs
/-- a student with both courses -/
def full : RawStudent := { rows := [rows[0], rows[2]] }
/-- a student with the first -/
def half : RawStudent := { rows := [rows[0]] }
/-- a student with the second -/
def other : RawStudent := { rows := [rows[2]] }
/-- whether the result is a query with assertions -/
def asksQuery (r : AreaResult) : Bool := match r.result with
  | .query _ d => !d.assertions.isEmpty
  | _ => false
/-- the columns after the first five -/
def columns (r : Option AreaResult) : Option (List (String × SheetCell)) := match r with
  | none => none
  | some r => match r.csv plainShows id with
    | .error _ => none
    | .ok cols => some (cols.drop 5)
/-- the sheet of two results -/
def sheetOfTwo (a b : Option AreaResult) : Option (Except Err (List String × List (List SheetCell))) := match a, b with
  | some a, some b => some (csvify plainShows id [a, b])
  | _, _ => none
end SheetFiles

open SheetFiles EntryText

theorem csvDicts_mem {S : Shows} {header : String → String} {rs : List AreaResult} {t : List String × List (List SheetCell)}
    (h : csvify S header rs = .ok t) {r : AreaResult} (hr : r ∈ rs) : ∀ m, InSheet r.result m → ¬ Unwritable m := by
  obtain ⟨r0, rest, rfl, hw, _⟩ := (C91_sheet_iff_partial S header rs).1 ⟨t, h⟩
  exact hw r hr

/-- **C91 is refuted**: a student whose area is a query completes it, and no sheet with their result can be written. -/
theorem C91_refuted : ∃ r, last student query = some r ∧ Complete r.status ∧
    ∀ S header rs t, r ∈ rs → csvify S header rs ≠ .ok t := by
  have h : (match last student query with
    | some r => r.status = .done && asksQuery r
    | none => false) = true := by decide +kernel
  cases hl : last student query with
  | none => rw [hl] at h; simp at h
  | some r =>
    rw [hl] at h
    simp only [Bool.and_eq_true, decide_eq_true_eq] at h
    refine ⟨r, rfl, by rw [h.1]; simp [Complete], ?_⟩
    intro S header rs t hr ht
    refine csvDicts_mem ht hr _ (.self _) ?_
    have h2 := h.2
    unfold asksQuery at h2
    split at h2
    · rename_i s d he
      rw [he]
      left
      intro e
      rw [e] at h2
      simp at h2
    · cases h2

/-- **C91 depends on the order of the students**: two students of the same area, one with both courses and one with one of them.  With the
first student first the sheet is written; with the second first it raises. -/
theorem C91_order_refuted : ∃ a b, last full both = some a ∧ last half both = some b ∧
    csvify plainShows id [a, b] = .ok (["Student", "GPA", "Status", "Classification", "Ant. Grad. Date", "CSCI 121", "MATH 220"],
      [[some "000000", some "_", some "done", some "???", some "May 2000", some "CSCI 121", some "MATH 220"],
       [some "000000", some "_", some "needs-more-items", some "???", some "May 2000", some "CSCI 121", some ""]]) ∧
    csvify plainShows id [b, a] = .error .valueError := by
  have h1 : sheetOfTwo (last full both) (last half both) =
      some (.ok (["Student", "GPA", "Status", "Classification", "Ant. Grad. Date", "CSCI 121", "MATH 220"],
      [[some "000000", some "_", some "done", some "???", some "May 2000", some "CSCI 121", some "MATH 220"],
       [some "000000", some "_", some "needs-more-items", some "???", some "May 2000", some "CSCI 121", some ""]])) := by decide +kernel
  have h2 : sheetOfTwo (last half both) (last full both) = some (.error .valueError) := by decide +kernel
  cases ha : last full both with
  | none => rw [ha] at h1; cases h1
  | some a => cases hb : last half both with
    | none => rw [ha, hb] at h1; cases h1
    | some b =>
      rw [ha, hb] at h1 h2
      exact ⟨a, b, rfl, rfl, Option.some.inj h1, Option.some.inj h2⟩

/-- **C92 is refuted.** Of two courses, one wanted, a student has taken the second and completes the area: their row shows no course.  A
requirement of one course: the row of a student who has not taken it shows it as the row of one who has. -/
theorem C92_refuted :
    (∃ r, last other either = some r ∧ Complete r.status) ∧ columns (last other either) = some [] ∧
    (∃ r, last half core = some r ∧ ¬ Passes r.status) ∧ (∃ r, last other core = some r ∧ Complete r.status) ∧
    columns (last half core) = some [("Core", some "MATH 220")] ∧ columns (last other core) = some [("Core", some "MATH 220")] := by
  have key : ∀ raw spec st, (last raw spec).map (·.status) = some st → ∃ r, last raw spec = some r ∧ r.status = st := by
    intro raw spec st h
    cases hl : last raw spec with
    | none => rw [hl] at h; cases h
    | some r => rw [hl] at h; exact ⟨r, rfl, Option.some.inj h⟩
  obtain ⟨r1, h1, e1⟩ := key other either .done (by decide +kernel)
  obtain ⟨r2, h2, e2⟩ := key half core .empty (by decide +kernel)
  obtain ⟨r3, h3, e3⟩ := key other core .done (by decide +kernel)
  exact ⟨⟨r1, h1, by rw [e1]; simp [Complete]⟩, by decide +kernel, ⟨r2, h2, by rw [e2]; simp [Passes]⟩,
    ⟨r3, h3, by rw [e3]; simp [Complete]⟩, by decide +kernel, by decide +kernel⟩

/-- a case that `C91_sheet_iff_partial` and `C92_cells_partial` describe: two students of one area, the one with both courses first -/
example : ∃ a b t, last full both = some a ∧ last half both = some b ∧ csvify plainShows id [a, b] = .ok t := by
  obtain ⟨a, b, h1, h2, h3, _⟩ := C91_order_refuted
  exact ⟨a, b, _, h1, h2, h3⟩

end Dp
