import Verif.Props.Front

/-
A batch of audits, and the index of students that feeds it.
-/
namespace Dp

/-! ### The order of the lines -/

theorem wordsLe_total : ∀ a b, wordsLe a b = true ∨ wordsLe b a = true
  | [], _ => .inl (by simp [wordsLe])
  | _ :: _, [] => .inr (by simp [wordsLe])
  | a :: as, b :: bs => by
    simp only [wordsLe]
    by_cases h : a = b
    · subst h; simpa using wordsLe_total as bs
    · rw [if_neg h, if_neg (Ne.symm h), decide_eq_true_eq, decide_eq_true_eq]
      by_contra hn
      rw [not_or] at hn
      exact h (String.le_antisymm (String.not_lt.1 hn.2) (String.not_lt.1 hn.1))

theorem wordsLe_trans : ∀ a b c, wordsLe a b = true → wordsLe b c = true → wordsLe a c = true
  | [], _, _, _, _ => by simp [wordsLe]
  | _ :: _, [], _, h, _ => by simp [wordsLe] at h
  | _ :: _, _ :: _, [], _, h => by simp [wordsLe] at h
  | a :: as, b :: bs, c :: cs, h1, h2 => by
    simp only [wordsLe] at h1 h2 ⊢
    by_cases hab : a = b
    · subst hab
      rw [if_pos rfl] at h1
      by_cases hac : a = c
      · rw [if_pos hac] at h2 ⊢
        exact wordsLe_trans as bs cs h1 h2
      · rw [if_neg hac] at h2 ⊢
        exact h2
    · rw [if_neg hab, decide_eq_true_eq] at h1
      by_cases hbc : b = c
      · subst hbc
        rw [if_neg hab]
        simpa using h1
      · rw [if_neg hbc, decide_eq_true_eq] at h2
        have := String.lt_trans h1 h2
        have hac : a ≠ c := by
          rintro rfl
          exact String.lt_irrefl _ this
        rw [if_neg hac]
        simpa using this

theorem wordsLe_antisymm : ∀ a b, wordsLe a b = true → wordsLe b a = true → a = b
  | [], [], _, _ => rfl
  | [], _ :: _, _, h => by simp [wordsLe] at h
  | _ :: _, [], h, _ => by simp [wordsLe] at h
  | a :: as, b :: bs, h1, h2 => by
    simp only [wordsLe] at h1 h2
    by_cases hab : a = b
    · subst hab
      rw [if_pos rfl] at h1 h2
      rw [wordsLe_antisymm as bs h1 h2]
    · rw [if_neg hab, decide_eq_true_eq] at h1
      rw [if_neg (Ne.symm hab), decide_eq_true_eq] at h2
      exact absurd (String.lt_trans h1 h2) (String.lt_irrefl _)

theorem insertLine_perm (l : List String) (ls : List (List String)) : (insertLine l ls).Perm (l :: ls) := by
  induction ls with
  | nil => exact .refl _
  | cons m ms ih =>
    unfold insertLine
    split
    · exact .refl _
    · exact ((ih.cons m).trans (.swap _ _ _))

theorem sortLines_perm (ls : List (List String)) : (sortLines ls).Perm ls := by
  induction ls with
  | nil => exact .refl _
  | cons l ls ih => exact (insertLine_perm l _).trans (ih.cons l)

theorem insertLine_sorted (l : List String) (ls : List (List String)) (h : ls.Pairwise (fun a b => wordsLe a b = true)) :
    (insertLine l ls).Pairwise (fun a b => wordsLe a b = true) := by
  induction ls with
  | nil => simp [insertLine]
  | cons m ms ih =>
    obtain ⟨h1, h2⟩ := List.pairwise_cons.1 h
    unfold insertLine
    split
    · rename_i hle
      refine List.pairwise_cons.2 ⟨fun x hx => ?_, h⟩
      rcases List.mem_cons.1 hx with rfl | hx
      · exact hle
      · exact wordsLe_trans _ _ _ hle (h1 x hx)
    · rename_i hle
      refine List.pairwise_cons.2 ⟨fun x hx => ?_, ih h2⟩
      rcases List.mem_cons.1 ((insertLine_perm l ms).mem_iff.1 hx) with rfl | hx
      · exact (wordsLe_total _ _).resolve_left hle
      · exact h1 x hx

theorem sortLines_sorted (ls : List (List String)) : (sortLines ls).Pairwise (fun a b => wordsLe a b = true) := by
  induction ls with
  | nil => exact .nil
  | cons l ls ih => exact insertLine_sorted l _ ih

/-- **C101**: a batch does the same for the same lines, in whatever order they come and however often. -/
theorem C101_order_of_lines_does_not_matter {τ : Type} (o : Orders) (fs : BatchFiles)
    (render : List String → AreaResult → Except Err τ) (n : Nat) (lines lines' : List (List String))
    (h : ∀ l, l ∈ lines ↔ l ∈ lines') : batchProgram o fs render n lines = batchProgram o fs render n lines' := by
  have hs : sortLines lines.dedup = sortLines lines'.dedup := by
    refine List.Perm.eq_of_pairwise (le := fun a b => wordsLe a b = true) (fun a b _ _ => wordsLe_antisymm a b)
      (sortLines_sorted _) (sortLines_sorted _) ?_
    refine (sortLines_perm _).trans (List.Perm.trans ?_ (sortLines_perm _).symm)
    rw [List.perm_ext_iff_of_nodup (List.nodup_dedup _) (List.nodup_dedup _)]
    intro l
    rw [List.mem_dedup, List.mem_dedup, h]
  unfold batchProgram batchItems
  rw [hs]

/-! ### What is reported -/

/-- The line asks for the audit `msgs`: it has three words, the first the number of a student with a file, and the others the
year of a catalog, up to a hyphen, and a code, for which there is an area. -/
def LineAsks (o : Orders) (fs : BatchFiles) (line : List String) (msgs : Gen (Msg AreaResult)) : Prop :=
  ∃ stnum catalog code year folder raw, line = [stnum, catalog, code] ∧ catalogNumber catalog = some year ∧
    findArea fs.areas year code = some folder ∧ fs.students stnum = some raw ∧ msgs = runFiles o {} raw (fs.text folder code)

theorem batchMessages_report {τ : Type} {render : AreaResult → Except Err τ} {tail : Option Err} {ms : List (Msg AreaResult)} {t : τ}
    (h : t ∈ (batchMessages render tail ms).1) : ∃ r i n k, .result r i n k ∈ ms ∧ render r = .ok t := by
  induction ms with
  | nil => simp [batchMessages] at h
  | cons m ms ih =>
    have lift : (∃ r i n k, .result r i n k ∈ ms ∧ render r = .ok t) → ∃ r i n k, .result r i n k ∈ m :: ms ∧ render r = .ok t :=
      fun ⟨r, i, n, k, h1, h2⟩ => ⟨r, i, n, k, List.mem_cons_of_mem _ h1, h2⟩
    cases m with
    | noAudits => simp [batchMessages] at h
    | estimate _ => exact lift (ih (by simpa [batchMessages] using h))
    | progress _ _ _ _ => exact lift (ih (by simpa [batchMessages] using h))
    | result r i n k =>
      rw [batchMessages] at h
      cases hr : render r with
      | error e => rw [hr] at h; simp at h
      | ok t' =>
        rw [hr] at h
        rcases List.mem_cons.1 h with rfl | h
        · exact ⟨r, i, n, k, List.mem_cons_self, hr⟩
        · exact lift (ih h)

theorem batchStep_report {τ : Type} {o : Orders} {fs : BatchFiles} {render : List String → AreaResult → Except Err τ}
    {line l : List String} {t : τ} (h : (l, t) ∈ (batchStep o fs render line).1) :
    l = line ∧ ∃ msgs, LineAsks o fs line msgs ∧ ∃ r i n k, .result r i n k ∈ msgs.items ∧ render line r = .ok t := by
  unfold batchStep at h
  split at h
  · rename_i stnum catalog code
    split at h
    · simp at h
    rename_i year hy
    split at h
    · simp at h
    rename_i folder hf
    split at h
    · simp at h
    rename_i raw hs
    obtain ⟨t', ht, he⟩ := List.mem_map.1 h
    cases he
    exact ⟨rfl, _, ⟨_, _, _, _, _, _, rfl, hy, hf, hs, rfl⟩, batchMessages_report ht⟩
  · simp at h

theorem batchLoop_report {τ : Type} {o : Orders} {fs : BatchFiles} {render : List String → AreaResult → Except Err τ}
    {items : List (List String)} {l : List String} {t : τ} (h : (l, t) ∈ (batchLoop o fs render items).1) :
    l ∈ items ∧ ∃ msgs, LineAsks o fs l msgs ∧ ∃ r i n k, .result r i n k ∈ msgs.items ∧ render l r = .ok t := by
  induction items with
  | nil => simp [batchLoop] at h
  | cons line items ih =>
    rw [batchLoop] at h
    have key : ∀ {out : List (List String × τ)} {e}, batchStep o fs render line = (out, e) → (l, t) ∈ out →
        l ∈ line :: items ∧ ∃ msgs, LineAsks o fs l msgs ∧ ∃ r i n k, .result r i n k ∈ msgs.items ∧ render l r = .ok t := by
      intro out e hs hm
      obtain ⟨rfl, h2⟩ := batchStep_report (o := o) (fs := fs) (render := render) (line := line) (by rw [hs]; exact hm)
      exact ⟨List.mem_cons_self, h2⟩
    split at h
    · rename_i out e hs
      exact key hs h
    · rename_i out hs
      rcases List.mem_append.1 h with h | h
      · exact key hs h
      · exact ⟨List.mem_cons_of_mem _ (ih h).1, (ih h).2⟩

/-- **C101**: however a batch ends, each of its reports is for one of the lines, and of a result of the audit that the line asks
for. -/
theorem C101_reports_are_of_the_lines {τ : Type} (o : Orders) (fs : BatchFiles)
    (render : List String → AreaResult → Except Err τ) (n : Nat) (lines : List (List String)) (l : List String) (t : τ)
    (h : (l, t) ∈ (batchProgram o fs render n lines).1) :
    l ∈ lines ∧ ∃ msgs, LineAsks o fs l msgs ∧ ∃ r i n k, .result r i n k ∈ msgs.items ∧ render l r = .ok t := by
  unfold batchProgram at h
  dsimp only at h
  split at h
  · simp at h
  · obtain ⟨h1, h2⟩ := batchLoop_report h
    refine ⟨?_, h2⟩
    unfold batchItems at h1
    obtain ⟨l', hl', hm⟩ := List.mem_flatten.1 h1
    rw [List.eq_of_mem_replicate hl'] at hm
    exact List.mem_dedup.1 ((sortLines_perm _).mem_iff.1 hm)

/-! ### A batch that ends well -/

theorem batchMessages_plain {τ : Type} {render : AreaResult → Except Err τ} {tail : Option Err} {before : List (Msg AreaResult)}
    (h : ∀ m ∈ before, m.isEstimate = true ∨ m.isProgress = true) (rest : List (Msg AreaResult)) :
    batchMessages render tail (before ++ rest) = batchMessages render tail rest := by
  induction before with
  | nil => rfl
  | cons m before ih =>
    have ih := ih (fun m hm => h m (List.mem_cons_of_mem _ hm))
    have hm := h m List.mem_cons_self
    cases m with
    | estimate n => rw [List.cons_append, batchMessages]; exact ih
    | progress _ _ _ _ => rw [List.cons_append, batchMessages]; exact ih
    | noAudits => rcases hm with hm | hm <;> cases hm
    | result _ _ _ _ => rcases hm with hm | hm <;> cases hm

/-- the line has one report, of the result of its audit -/
def Reported {τ : Type} (o : Orders) (fs : BatchFiles) (render : List String → AreaResult → Except Err τ) (line : List String)
    (t : τ) : Prop :=
  ∃ msgs r i n, LineAsks o fs line msgs ∧ msgs.err = none ∧ msgs.items.getLast? = some (.result r i n n) ∧ render line r = .ok t

theorem batchStep_ok {τ : Type} {o : Orders} {fs : BatchFiles} {render : List String → AreaResult → Except Err τ}
    {line : List String} (h : (batchStep o fs render line).2 = none) :
    ∃ t, Reported o fs render line t ∧ (batchStep o fs render line).1 = [(line, t)] := by
  unfold batchStep at h ⊢
  split at h
  · rename_i stnum catalog code
    split at h
    · simp at h
    rename_i year hy
    split at h
    · simp at h
    rename_i folder hf
    split at h
    · simp at h
    rename_i raw hs
    dsimp only at h ⊢
    rcases messages_cases o {} ⟨rfl, rfl, rfl⟩ rfl raw (fs.text folder code) with ⟨e, he, hall⟩ | ⟨he, before, final, hitems, hall, hfin⟩
    · have := batchMessages_plain (render := render [stnum, catalog, code]) (tail := some e) hall []
      rw [List.append_nil] at this
      rw [he, this, batchMessages] at h
      cases h
    · rw [he, hitems, batchMessages_plain hall] at h ⊢
      rcases hfin with rfl | ⟨r, i, n, rfl⟩
      · rw [batchMessages] at h; cases h
      · rw [batchMessages] at h ⊢
        cases hr : render [stnum, catalog, code] r with
        | error e => rw [hr] at h; cases h
        | ok t =>
          refine ⟨t, ⟨_, r, some i, n, ⟨_, _, _, _, _, _, rfl, hy, hf, hs, rfl⟩, he, ?_, hr⟩, rfl⟩
          rw [hitems, List.getLast?_concat]
  · cases h

theorem batchMessages_exit {τ : Type} {render : AreaResult → Except Err τ} {tail : Option Err} {ms : List (Msg AreaResult)} :
    (batchMessages render tail ms).2 ≠ some (.code 0) := by
  induction ms with
  | nil => cases tail <;> simp [batchMessages]
  | cons m ms ih =>
    cases m with
    | noAudits => simp [batchMessages]
    | estimate _ => simpa [batchMessages] using ih
    | progress _ _ _ _ => simpa [batchMessages] using ih
    | result r _ _ _ =>
      rw [batchMessages]
      cases render r with
      | error e => simp
      | ok t => exact ih

theorem batchStep_exit {τ : Type} {o : Orders} {fs : BatchFiles} {render : List String → AreaResult → Except Err τ}
    {line : List String} : (batchStep o fs render line).2 ≠ some (.code 0) := by
  unfold batchStep
  repeat' split
  all_goals first
    | exact batchMessages_exit
    | simp

theorem batchLoop_ok {τ : Type} {o : Orders} {fs : BatchFiles} {render : List String → AreaResult → Except Err τ}
    {items : List (List String)} (h : (batchLoop o fs render items).2 = .code 0) :
    List.Forall₂ (fun line out => out.1 = line ∧ Reported o fs render line out.2) items (batchLoop o fs render items).1 := by
  induction items with
  | nil => exact .nil
  | cons line items ih =>
    rw [batchLoop] at h ⊢
    cases hs : batchStep o fs render line with
    | mk out e =>
      rw [hs] at h
      cases e with
      | some e =>
        have h' : e = .code 0 := h
        have := batchStep_exit (o := o) (fs := fs) (render := render) (line := line)
        rw [hs, h'] at this
        exact absurd rfl this
      | none =>
        obtain ⟨t, h1, h2⟩ := batchStep_ok (o := o) (fs := fs) (render := render) (line := line) (by rw [hs])
        rw [hs] at h2
        have h2 : out = [(line, t)] := h2
        subst h2
        exact .cons ⟨rfl, h1⟩ (ih h)

theorem Reported.same {τ : Type} {o : Orders} {fs : BatchFiles} {render : List String → AreaResult → Except Err τ}
    {line : List String} {t t' : τ} (h : Reported o fs render line t) (h' : Reported o fs render line t') : t = t' := by
  obtain ⟨msgs, r, i, n, ⟨s, c, d, y, f, raw, rfl, h1, h2, h3, rfl⟩, -, h4, h5⟩ := h
  obtain ⟨msgs', r', i', n', ⟨s', c', d', y', f', raw', he, h1', h2', h3', rfl⟩, -, h4', h5'⟩ := h'
  cases he
  rw [h1] at h1'; cases h1'
  rw [h2] at h2'; cases h2'
  rw [h3] at h3'; cases h3'
  rw [h4] at h4'; cases h4'
  rw [h5] at h5'; cases h5'
  rfl

theorem Reported.step {τ : Type} {o : Orders} {fs : BatchFiles} {render : List String → AreaResult → Except Err τ}
    {line : List String} {t : τ} (h : Reported o fs render line t) : batchStep o fs render line = ([(line, t)], none) := by
  obtain ⟨msgs, r, i, n, ⟨s, c, d, y, f, raw, rfl, h1, h2, h3, rfl⟩, herr, h4, h5⟩ := h
  unfold batchStep
  dsimp only
  rw [h1]
  dsimp only
  rw [h2]
  dsimp only
  rw [h3]
  dsimp only
  rcases messages_cases o {} ⟨rfl, rfl, rfl⟩ rfl raw (fs.text f d) with ⟨e, he, hall⟩ | ⟨he, before, final, hitems, hall, hfin⟩
  · rw [he] at herr; cases herr
  · rw [hitems, List.getLast?_concat] at h4
    cases h4
    rw [he, hitems, batchMessages_plain hall, batchMessages, h5]
    rfl

theorem mem_batchItems {n : Nat} {lines : List (List String)} {l : List String} :
    l ∈ batchItems n lines ↔ n ≠ 0 ∧ l ∈ lines := by
  unfold batchItems
  rw [List.mem_flatten]
  constructor
  · rintro ⟨l', hl', hm⟩
    obtain ⟨h1, rfl⟩ := List.mem_replicate.1 hl'
    exact ⟨h1, List.mem_dedup.1 ((sortLines_perm _).mem_iff.1 hm)⟩
  · rintro ⟨h1, h2⟩
    exact ⟨_, List.mem_replicate.2 ⟨h1, rfl⟩, (sortLines_perm _).mem_iff.2 (List.mem_dedup.2 h2)⟩

theorem count_batchItems {n : Nat} {lines : List (List String)} {l : List String} (h : l ∈ lines) :
    (batchItems n lines).count l = n := by
  unfold batchItems
  have h1 : (sortLines lines.dedup).count l = 1 := by
    rw [(sortLines_perm _).count_eq, List.count_eq_one_of_mem (List.nodup_dedup _) (List.mem_dedup.2 h)]
  induction n with
  | zero => rfl
  | succ n ih => rw [List.replicate_succ, List.flatten_cons, List.count_append, ih, h1, Nat.add_comm]

/-- **C101**: a batch exits with code 0 exactly if there is something to do and the audit that each line asks for ends with a
result that can be written. -/
theorem C101_exit_code_zero {τ : Type} (o : Orders) (fs : BatchFiles) (render : List String → AreaResult → Except Err τ) (n : Nat)
    (lines : List (List String)) : (batchProgram o fs render n lines).2 = .code 0 ↔
      n ≠ 0 ∧ lines ≠ [] ∧ ∀ l ∈ lines, ∃ t, Reported o fs render l t := by
  unfold batchProgram
  dsimp only
  split
  · rename_i he
    refine ⟨(fun h => by cases h), ?_⟩
    rintro ⟨h1, h2, -⟩
    obtain ⟨l, hl⟩ := List.exists_mem_of_ne_nil _ h2
    have := mem_batchItems.2 ⟨h1, hl⟩
    rw [List.isEmpty_iff.1 he] at this
    cases this
  · rename_i he
    constructor
    · intro h
      obtain ⟨l, hl⟩ := List.exists_mem_of_ne_nil (batchItems n lines) (fun h => he (List.isEmpty_iff.2 h))
      obtain ⟨hn, hl⟩ := mem_batchItems.1 hl
      refine ⟨hn, List.ne_nil_of_mem hl, fun l hl => ?_⟩
      obtain ⟨out, -, -, h2⟩ := forall₂_right (batchLoop_ok h) (mem_batchItems.2 ⟨hn, hl⟩)
      exact ⟨_, h2⟩
    · rintro ⟨-, -, hall⟩
      have : ∀ l ∈ batchItems n lines, ∃ t, Reported o fs render l t := fun l hl => hall l (mem_batchItems.1 hl).2
      generalize batchItems n lines = items at this
      clear he hall
      induction items with
      | nil => rfl
      | cons l items ih =>
        obtain ⟨t, ht⟩ := this l List.mem_cons_self
        rw [batchLoop, ht.step]
        exact ih (fun l hl => this l (List.mem_cons_of_mem _ hl))

/-- **C101, partial.** Then each line has a report of the result of the audit it asks for, as often as asked for, and no other.
Missing: a batch in which some line cannot be audited (`C101_blank_line_refuted`, `C101_other_lines_refuted`). -/
theorem C101_each_line_is_reported_partial {τ : Type} (o : Orders) (fs : BatchFiles) (render : List String → AreaResult → Except Err τ)
    (n : Nat) (lines : List (List String)) (h : (batchProgram o fs render n lines).2 = .code 0) (l : List String) (hl : l ∈ lines) :
    ∃ t, Reported o fs render l t ∧
      ((batchProgram o fs render n lines).1.filter (fun out => out.1 = l)).map (·.2) = List.replicate n t := by
  obtain ⟨hn, -, hall⟩ := (C101_exit_code_zero o fs render n lines).1 h
  obtain ⟨t, ht⟩ := hall l hl
  refine ⟨t, ht, ?_⟩
  unfold batchProgram at h ⊢
  dsimp only at h ⊢
  split at h
  · cases h
  rename_i he
  rw [if_neg he]
  have hf := batchLoop_ok h
  have hcount := count_batchItems (n := n) hl
  generalize (batchLoop o fs render (batchItems n lines)).1 = out at hf
  generalize batchItems n lines = items at hf hcount
  clear h he hn
  rw [← hcount]
  clear hcount
  induction hf with
  | nil => rfl
  | @cons line out items outs h1 _ ih =>
    obtain ⟨rfl, h2⟩ := h1
    by_cases hx : out.1 = l
    · rw [List.filter_cons_of_pos (by simpa using hx), List.map_cons, ih, ← hx, List.count_cons_self, List.replicate_succ]
      rw [hx] at h2
      rw [h2.same ht]
    · rw [List.filter_cons_of_neg (by simpa using hx), ih, List.count_cons_of_ne (by simpa using hx)]

/-! ### What ends a batch -/

/-- **C101** does not hold for blank lines, and they are not passed over: with one of them a batch raises before any audit. -/
theorem C101_blank_line_refuted {τ : Type} (o : Orders) (fs : BatchFiles) (render : List String → AreaResult → Except Err τ) (n : Nat)
    (hn : n ≠ 0) (lines : List (List String)) (h : [] ∈ lines) :
    batchProgram o fs render n lines = ([], .raised .valueError) := by
  have hmem : [] ∈ sortLines lines.dedup := (sortLines_perm _).mem_iff.2 (List.mem_dedup.2 h)
  have hs := sortLines_sorted lines.dedup
  unfold batchProgram batchItems
  cases hl : sortLines lines.dedup with
  | nil => rw [hl] at hmem; cases hmem
  | cons a rest =>
    rw [hl] at hmem hs
    have ha : a = [] := by
      rcases List.mem_cons.1 hmem with h | h
      · exact h.symm
      · exact wordsLe_antisymm _ _ ((List.pairwise_cons.1 hs).1 _ h) (by simp [wordsLe])
    subst ha
    cases n with
    | zero => exact absurd rfl hn
    | succ n => simp [List.replicate_succ, batchLoop, batchStep]

/-! ### Non-trivial cases -/

namespace BatchCase
open PlainFiles
/-- two students of a catalog with one area, of which one has a course -/
def files : BatchFiles :=
  { students := fun s => if s = "100" then some raw else if s = "200" then some {} else none
    areas := [("2018-19", "741")]
    text := fun _ _ => spec }
/-- the report of a result: is it complete? -/
def render (_ : List String) (r : AreaResult) : Except Err Bool := .ok (decide (Complete r.status))
end BatchCase

open BatchCase in
/-- the hypotheses of `C101_each_line_is_reported_partial` -/
example : (batchProgram .insertion files render 1
      [["200", "2019-20", "741"], ["100", "2018-19", "741"], ["200", "2019-20", "741"]]) =
    ([(["100", "2018-19", "741"], true), (["200", "2019-20", "741"], false)], .code 0) := by decide +kernel

open BatchCase in
/-- One line that cannot be audited ends the batch: a student without a file, an area that does not exist, or a catalog that is not
a number.  The lines after it are not audited, though they could be. -/
theorem C101_other_lines_refuted :
    (batchProgram .insertion files render 1 [["200", "2019-20", "741"]]) = ([(["200", "2019-20", "741"], false)], .code 0) ∧
    (batchProgram .insertion files render 1 [["200", "2019-20", "741"], ["150", "2018-19", "741"]]) = ([], .raised .other) ∧
    (batchProgram .insertion files render 1 [["200", "2019-20", "741"], ["100", "2018-19", "140"]]) = ([], .code 1) ∧
    (batchProgram .insertion files render 1 [["200", "2019-20", "741"], ["100", "fall", "741"]]) = ([], .raised .valueError) := by
  refine ⟨?_, ?_, ?_, ?_⟩ <;> decide +kernel

end Dp
