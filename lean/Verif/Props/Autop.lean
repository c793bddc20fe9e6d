import Verif.Model.Autop
import Mathlib.Data.List.Basic

/-!
# C117: The message of a requirement
-/

namespace Dp

/-- What is white space: at least the blank, the tab and the newline, and not the brackets. -/
structure AutopSpaces (sp : Char → Bool) : Prop where
  blank : sp ' ' = true
  tab : sp '\t' = true
  newline : sp '\n' = true
  open' : sp '<' = false
  close : sp '>' = false

/-- The words of a text; `cur` is the word so far, backwards. -/
def autopWordsFrom (sp : Char → Bool) (cur : List Char) : List Char → List (List Char)
  | [] => if cur = [] then [] else [cur.reverse]
  | c :: cs =>
    if sp c then (if cur = [] then [] else [cur.reverse]) ++ autopWordsFrom sp [] cs
    else autopWordsFrom sp (c :: cur) cs

/-- The words of a text: what is between white space. -/
def autopWords (sp : Char → Bool) (cs : List Char) : List (List Char) := autopWordsFrom sp [] cs

theorem autopWordsFrom_sep (sp : Char → Bool) (c : Char) (hc : sp c = true) (b : List Char) :
    ∀ (a cur : List Char), autopWordsFrom sp cur (a ++ c :: b) =
      autopWordsFrom sp cur a ++ autopWords sp b
  | [], cur => by
    simp only [List.nil_append, autopWordsFrom, hc, if_true, autopWords]
  | x :: a, cur => by
    rw [List.cons_append, autopWordsFrom, autopWordsFrom, autopWordsFrom_sep sp c hc b a [],
      autopWordsFrom_sep sp c hc b a (x :: cur)]
    split
    · rw [List.append_assoc]
    · rfl

theorem autopWordsFrom_tail (sp : Char → Bool) (t : List Char) (ht : ∀ c ∈ t, sp c = true) :
    ∀ (a cur : List Char), autopWordsFrom sp cur (a ++ t) = autopWordsFrom sp cur a := by
  intro a
  have hnil : ∀ t : List Char, (∀ c ∈ t, sp c = true) → autopWordsFrom sp [] t = [] := by
    intro t
    induction t with
    | nil => intro _; rfl
    | cons c t ih =>
      intro h
      rw [autopWordsFrom, h c (by simp), if_pos rfl, if_pos rfl, List.nil_append]
      exact ih (fun d hd => h d (by simp [hd]))
  induction a with
  | nil =>
    intro cur
    cases t with
    | nil => rfl
    | cons c t =>
      have hc := ht c (by simp)
      have h0 := hnil t (fun d hd => ht d (by simp [hd]))
      simp only [List.nil_append, autopWordsFrom, hc, if_true, h0, List.append_nil]
  | cons x a ih =>
    intro cur
    rw [List.cons_append, autopWordsFrom, autopWordsFrom, ih, ih]

theorem autopWords_head (sp : Char → Bool) (h t : List Char) (hh : ∀ c ∈ h, sp c = true) :
    autopWords sp (h ++ t) = autopWords sp t := by
  induction h with
  | nil => rfl
  | cons c h ih =>
    unfold autopWords at ih ⊢
    rw [List.cons_append, autopWordsFrom, hh c (by simp), if_pos rfl, if_pos rfl, List.nil_append]
    exact ih (fun d hd => hh d (by simp [hd]))

theorem autop_dropWhile (sp : Char → Bool) : ∀ l : List Char,
    ∃ h, (∀ c ∈ h, sp c = true) ∧ l = h ++ l.dropWhile sp
  | [] => ⟨[], by simp, rfl⟩
  | c :: l => by
    rw [List.dropWhile_cons]
    split
    · rename_i hc
      obtain ⟨h, h1, h2⟩ := autop_dropWhile sp l
      refine ⟨c :: h, ?_, by rw [List.cons_append, ← h2]⟩
      intro d hd
      rcases List.mem_cons.mp hd with rfl | hd
      · exact hc
      · exact h1 d hd
    · exact ⟨[], by simp, rfl⟩

/-- What is left of a text has white space taken from both ends. -/
theorem autopStrip_eq (sp : Char → Bool) (l : List Char) :
    ∃ h t, (∀ c ∈ h, sp c = true) ∧ (∀ c ∈ t, sp c = true) ∧ l = h ++ autopStrip sp l ++ t := by
  obtain ⟨h, h1, h2⟩ := autop_dropWhile sp l
  obtain ⟨t, t1, t2⟩ := autop_dropWhile sp (l.dropWhile sp).reverse
  refine ⟨h, t.reverse, h1, fun c hc => t1 c (by simpa using hc), ?_⟩
  have : l.dropWhile sp = autopStrip sp l ++ t.reverse := by
    have e := congrArg List.reverse t2
    rw [List.reverse_reverse, List.reverse_append] at e
    exact e
  rw [List.append_assoc, ← this]
  exact h2

theorem autopWords_strip (sp : Char → Bool) (l : List Char) :
    autopWords sp (autopStrip sp l) = autopWords sp l := by
  obtain ⟨h, t, h1, h2, e⟩ := autopStrip_eq sp l
  conv_rhs => rw [e, List.append_assoc, autopWords_head sp h _ h1]
  exact (autopWordsFrom_tail sp t h2 _ []).symm

theorem autopLinesFrom_words (sp : Char → Bool) (hn : sp '\n' = true) : ∀ (cs cur : List Char),
    (autopLinesFrom cur cs).flatMap (autopWords sp) = autopWords sp (cur.reverse ++ cs)
  | [], cur => by simp [autopLinesFrom]
  | c :: cs, cur => by
    rw [autopLinesFrom]
    split
    · rename_i e
      subst e
      rw [List.flatMap_cons, autopLinesFrom_words sp hn cs []]
      exact (autopWordsFrom_sep sp '\n' hn cs cur.reverse []).symm
    · rw [autopLinesFrom_words sp hn cs (c :: cur)]
      simp

theorem autopJoin_words (sp : Char → Bool) (sep : Char) (hs : sp sep = true) :
    ∀ ls : List (List Char), autopWords sp (autopJoin sep ls) = ls.flatMap (autopWords sp)
  | [] => rfl
  | [l] => by simp [autopJoin]
  | l :: m :: ls => by
    rw [autopJoin, List.flatMap_cons, ← autopJoin_words sp sep hs (m :: ls)]
    · exact autopWordsFrom_sep sp sep hs _ l []
    · simp

theorem autopCommon_blank : ∀ a b : List Char, (∀ c ∈ a, autopBlank c = true) →
    ∀ c ∈ autopCommon a b, autopBlank c = true
  | [], b, _, c, hc => by simp [autopCommon] at hc
  | x :: a, [], _, c, hc => by simp [autopCommon] at hc
  | x :: a, y :: b, h, c, hc => by
    rw [autopCommon] at hc
    split at hc
    · rcases List.mem_cons.mp hc with rfl | hc
      · exact h c (by simp)
      · exact autopCommon_blank a b (fun d hd => h d (by simp [hd])) c hc
    · cases hc

theorem autopMargin_blank : ∀ is : List (List Char),
    (∀ i ∈ is, ∀ c ∈ i, autopBlank c = true) → ∀ c ∈ autopMargin is, autopBlank c = true
  | [], _, c, hc => by simp [autopMargin] at hc
  | [i], h, c, hc => by
    rw [autopMargin] at hc
    exact h i (by simp) c hc
  | i :: j :: is, h, c, hc => by
    rw [autopMargin] at hc
    refine autopMargin_blank (autopCommon i j :: is) ?_ c hc
    intro k hk
    rcases List.mem_cons.mp hk with rfl | hk
    · exact autopCommon_blank i j (h i (by simp))
    · exact h k (by simp [hk])
termination_by is => is.length

theorem autop_takeWhile (p : Char → Bool) : ∀ l : List Char, ∀ c ∈ l.takeWhile p, p c = true
  | [], c, hc => by simp at hc
  | x :: l, c, hc => by
    rw [List.takeWhile_cons] at hc
    split at hc
    · rename_i hx
      rcases List.mem_cons.mp hc with rfl | hc
      · exact hx
      · exact autop_takeWhile p l c hc
    · cases hc

theorem autopBlank_space (sp : Char → Bool) (hsp : AutopSpaces sp) (c : Char)
    (h : autopBlank c = true) : sp c = true := by
  unfold autopBlank at h
  simp only [Bool.or_eq_true, beq_iff_eq] at h
  rcases h with rfl | rfl
  · exact hsp.blank
  · exact hsp.tab

theorem autopDedent_words (sp : Char → Bool) (hsp : AutopSpaces sp) (cs : List Char) :
    autopWords sp (autopDedent cs) = autopWords sp cs := by
  unfold autopDedent
  dsimp only
  rw [autopJoin_words sp '\n' hsp.newline]
  have hcs : (autopLines cs).flatMap (autopWords sp) = autopWords sp cs :=
    autopLinesFrom_words sp hsp.newline cs []
  rw [← hcs]
  generalize autopLines cs = ls
  have hm : ∀ c ∈ autopMargin (((ls.map (fun l => if l.all autopBlank then [] else l)).filter
      (fun l => !l.isEmpty)).map (fun l => l.takeWhile autopBlank)), sp c = true := by
    intro c hc
    refine autopBlank_space sp hsp c (autopMargin_blank _ ?_ c hc)
    intro i hi
    obtain ⟨l, -, rfl⟩ := List.mem_map.mp hi
    exact autop_takeWhile autopBlank l
  revert hm
  generalize autopMargin _ = margin
  intro hm
  rw [List.map_map, List.flatMap_map]
  rw [List.flatMap_def, List.flatMap_def]
  congr 1
  refine List.map_congr_left (fun l _ => ?_)
  have hd : ∀ l : List Char, autopWords sp
      (if margin.isPrefixOf l then l.drop margin.length else l) = autopWords sp l := by
    intro l
    split
    · rename_i hp
      rw [List.isPrefixOf_iff_prefix] at hp
      obtain ⟨t, rfl⟩ := hp
      rw [List.drop_left, autopWords_head sp margin t hm]
    · rfl
  simp only [Function.comp]
  rw [hd]
  split
  · rename_i hb
    have := autopWords_head sp l [] (fun c hc =>
      autopBlank_space sp hsp c (List.all_eq_true.mp hb c hc))
    rw [List.append_nil] at this
    exact this.symm
  · rfl

theorem autopChunksFrom_words (sp : Char → Bool) (hn : sp '\n' = true) : ∀ (cs cur : List Char),
    (autopChunksFrom cur cs).flatMap (autopWords sp) = autopWords sp (cur.reverse ++ cs)
  | [], cur => by simp [autopChunksFrom]
  | [c], cur => by simp [autopChunksFrom]
  | c :: d :: cs, cur => by
    rw [autopChunksFrom]
    split
    · rename_i e
      obtain ⟨rfl, rfl⟩ := e
      rw [List.flatMap_cons, autopChunksFrom_words sp hn cs []]
      have h1 : autopWords sp (cur.reverse ++ '\n' :: '\n' :: cs) =
          autopWords sp cur.reverse ++ autopWords sp ('\n' :: cs) :=
        autopWordsFrom_sep sp '\n' hn _ cur.reverse []
      rw [h1, ← List.singleton_append (x := '\n') (l := cs),
        autopWords_head sp ['\n'] cs (by simpa using hn)]
      rfl
    · rw [autopChunksFrom_words sp hn (d :: cs) (c :: cur)]
      simp

theorem autopLinesFrom_map : ∀ (cs cur : List Char), '\n' ∉ cur →
    autopJoin ' ' (autopLinesFrom cur cs) =
      (cur.reverse ++ cs).map (fun c => if c = '\n' then ' ' else c)
  | [], cur, h => by
    rw [autopLinesFrom, autopJoin, List.append_nil]
    conv_lhs => rw [← List.map_id cur.reverse]
    refine List.map_congr_left (fun c hc => ?_)
    rw [if_neg]
    · rfl
    · rintro rfl
      exact h (by simpa using hc)
  | c :: cs, cur, h => by
    rw [autopLinesFrom]
    split
    · rename_i e
      subst e
      have hne : autopLinesFrom [] cs ≠ [] := by
        cases cs with
        | nil => simp [autopLinesFrom]
        | cons d cs =>
          have : ∀ (cs cur : List Char), autopLinesFrom cur cs ≠ [] := by
            intro cs
            induction cs with
            | nil => intro cur; simp [autopLinesFrom]
            | cons d cs ih =>
              intro cur
              rw [autopLinesFrom]
              split
              · simp
              · exact ih _
          exact this _ _
      have ih := autopLinesFrom_map cs [] (by simp)
      have e1 := autopLinesFrom_map [] cur h
      rw [autopLinesFrom, autopJoin, List.append_nil] at e1
      cases hl : autopLinesFrom [] cs with
      | nil => exact absurd hl hne
      | cons m ls =>
        rw [autopJoin, ← hl, ih, List.map_append (l₁ := cur.reverse), List.map_cons, if_pos rfl, ← e1]
        · rfl
        · simp
    · rename_i hc
      rw [autopLinesFrom_map cs (c :: cur) (by simp [h, Ne.symm hc])]
      simp

/-- No white space at the ends. -/
def AutopTight (sp : Char → Bool) (p : List Char) : Prop :=
  (∀ c, p.head? = some c → sp c = false) ∧ ∀ c, p.getLast? = some c → sp c = false

theorem autop_dropWhile_head (sp : Char → Bool) : ∀ (l : List Char) (c : Char),
    (l.dropWhile sp).head? = some c → sp c = false
  | [], c, h => by simp at h
  | x :: l, c, h => by
    rw [List.dropWhile_cons] at h
    split at h
    · exact autop_dropWhile_head sp l c h
    · rename_i hx
      rw [List.head?_cons] at h
      cases h
      simpa using hx

theorem autopStrip_tight (sp : Char → Bool) (l : List Char) : AutopTight sp (autopStrip sp l) := by
  constructor
  · intro c hc
    obtain ⟨t, t1, t2⟩ := autop_dropWhile sp (l.dropWhile sp).reverse
    have e := congrArg List.reverse t2
    rw [List.reverse_reverse, List.reverse_append] at e
    have : l.dropWhile sp = autopStrip sp l ++ t.reverse := e
    refine autop_dropWhile_head sp l c ?_
    rw [this]
    cases hs : autopStrip sp l with
    | nil => rw [hs] at hc; cases hc
    | cons x xs => rw [hs] at hc; exact hc
  · intro c hc
    unfold autopStrip at hc
    rw [List.getLast?_reverse] at hc
    exact autop_dropWhile_head sp _ c hc

theorem autopMap_tight (sp : Char → Bool) (hn : sp '\n' = true) (p : List Char)
    (h : AutopTight sp p) : AutopTight sp (p.map (fun c => if c = '\n' then ' ' else c)) := by
  constructor
  · intro c hc
    rw [List.head?_map] at hc
    cases hp : p.head? with
    | none => rw [hp] at hc; cases hc
    | some d =>
      rw [hp] at hc
      have hd := h.1 d hp
      simp only [Option.map_some, Option.some.injEq] at hc
      rw [if_neg] at hc
      · rw [← hc]; exact hd
      · rintro rfl; rw [hn] at hd; cases hd
  · intro c hc
    rw [List.getLast?_map] at hc
    cases hp : p.getLast? with
    | none => rw [hp] at hc; cases hc
    | some d =>
      rw [hp] at hc
      have hd := h.2 d hp
      simp only [Option.map_some, Option.some.injEq] at hc
      rw [if_neg] at hc
      · rw [← hc]; exact hd
      · rintro rfl; rw [hn] at hd; cases hd

/-- A paragraph as an element: as it is if it begins with a tag, or within `<p>`. -/
def autopElement (p : List Char) : List Char :=
  match p with
  | '<' :: _ => p
  | _ => '<' :: 'p' :: '>' :: (p ++ ['<', '/', 'p', '>'])

theorem autopWrap_element (p : List Char) : autopWrap p = autopElement p := by
  unfold autopWrap
  cases p with
  | nil => rfl
  | cons c p =>
    by_cases h : c = '<'
    · subst h; rfl
    · have e : (['<'].isPrefixOf (c :: p)) = false := by
        simp [List.isPrefixOf, Ne.symm h]
      rw [e, if_neg (by decide)]
      unfold autopElement
      split
      · rename_i heq; cases heq; exact absurd rfl h
      · rfl

theorem autopChunksFrom_ne : ∀ (cs cur : List Char), autopChunksFrom cur cs ≠ []
  | [], cur => by simp [autopChunksFrom]
  | [c], cur => by simp [autopChunksFrom]
  | c :: d :: cs, cur => by
    rw [autopChunksFrom]
    split
    · simp
    · exact autopChunksFrom_ne (d :: cs) (c :: cur)

/-- **C117.** For every message: what is shown is a list of paragraphs, each as an element, and their
words are, in order, the words of the message; no paragraph has a newline, or white space at its
ends. -/
theorem C117_words_are_kept (sp : Char → Bool) (hsp : AutopSpaces sp) (message : List Char) :
    ∃ ps : List (List Char), ps ≠ [] ∧ autop sp message = ps.flatMap autopElement ∧
      ps.flatMap (autopWords sp) = autopWords sp message ∧
      ∀ p ∈ ps, '\n' ∉ p ∧ AutopTight sp p := by
  refine ⟨((autopChunksFrom [] (autopDedent message)).map (autopStrip sp)).map
    (fun para => autopJoin ' ' (autopLines para)), ?_, ?_, ?_, ?_⟩
  · intro e
    rw [List.map_eq_nil_iff, List.map_eq_nil_iff] at e
    exact autopChunksFrom_ne _ _ e
  · unfold autop
    dsimp only
    rw [List.flatMap_def]
    congr 1
    exact List.map_congr_left (fun p _ => autopWrap_element p)
  · rw [List.map_map, List.flatMap_map]
    have h1 : ∀ p : List Char, autopWords sp
        (((fun para => autopJoin ' ' (autopLines para)) ∘ autopStrip sp) p) = autopWords sp p := by
      intro p
      show autopWords sp (autopJoin ' ' (autopLinesFrom [] (autopStrip sp p))) = _
      rw [autopJoin_words sp ' ' hsp.blank, autopLinesFrom_words sp hsp.newline]
      exact autopWords_strip sp p
    simp only [h1]
    rw [autopChunksFrom_words sp hsp.newline]
    exact autopDedent_words sp hsp message
  · intro p hp
    rw [List.map_map, List.mem_map] at hp
    obtain ⟨q, -, rfl⟩ := hp
    show '\n' ∉ autopJoin ' ' (autopLinesFrom [] (autopStrip sp q)) ∧
      AutopTight sp (autopJoin ' ' (autopLinesFrom [] (autopStrip sp q)))
    rw [autopLinesFrom_map _ [] (by simp), List.reverse_nil, List.nil_append]
    refine ⟨?_, autopMap_tight sp hsp.newline _ (autopStrip_tight sp q)⟩
    intro h
    obtain ⟨c, -, e⟩ := List.mem_map.mp h
    split at e
    · exact absurd e (by decide)
    · rename_i hc; exact hc e

theorem autopElement_ends (sp : Char → Bool) (hsp : AutopSpaces sp) (p : List Char)
    (h : '\n' ∉ p ∧ AutopTight sp p) : '\n' ∉ autopElement p ∧
      (autopElement p).head? = some '<' ∧
      ∃ c, (autopElement p).getLast? = some c ∧ sp c = false := by
  unfold autopElement
  split
  · rename_i q
    refine ⟨h.1, rfl, ?_⟩
    obtain ⟨c, hc⟩ : ∃ c, ('<' :: q).getLast? = some c :=
      Option.isSome_iff_exists.mp (by simp)
    exact ⟨c, hc, h.2.2 c hc⟩
  · refine ⟨?_, rfl, '>', ?_, hsp.close⟩
    · simp [h.1]
    · rw [List.getLast?_cons_cons, List.getLast?_cons_cons, List.getLast?_cons,
        List.getLast?_append]
      rfl

theorem autopLinesFrom_one : ∀ (cs cur : List Char), '\n' ∉ cs →
    autopLinesFrom cur cs = [cur.reverse ++ cs]
  | [], cur, _ => by simp [autopLinesFrom]
  | c :: cs, cur, h => by
    rw [List.mem_cons, not_or] at h
    rw [autopLinesFrom, if_neg (Ne.symm h.1), autopLinesFrom_one cs (c :: cur) h.2]
    simp

theorem autopChunksFrom_one : ∀ (cs cur : List Char), '\n' ∉ cs →
    autopChunksFrom cur cs = [cur.reverse ++ cs]
  | [], cur, _ => by simp [autopChunksFrom]
  | [c], cur, _ => by simp [autopChunksFrom]
  | c :: d :: cs, cur, h => by
    rw [List.mem_cons, not_or] at h
    rw [autopChunksFrom, if_neg (fun e => h.1 e.1.symm), autopChunksFrom_one (d :: cs) (c :: cur) h.2]
    simp

theorem autopStrip_id (sp : Char → Bool) (l : List Char) (h : AutopTight sp l) :
    autopStrip sp l = l := by
  have hd : ∀ l : List Char, (∀ c, l.head? = some c → sp c = false) → l.dropWhile sp = l := by
    intro l h
    cases l with
    | nil => rfl
    | cons c l => rw [List.dropWhile_cons, h c rfl]; rfl
  unfold autopStrip
  rw [hd l h.1, hd l.reverse, List.reverse_reverse]
  intro c hc
  rw [List.head?_reverse] at hc
  exact h.2 c hc

/-- **C117.** For every message: what is shown is shown unchanged when it is given as a message
again. -/
theorem C117_shown_again (sp : Char → Bool) (hsp : AutopSpaces sp) (message : List Char) :
    autop sp (autop sp message) = autop sp message := by
  obtain ⟨ps, hne, he, -, hp⟩ := C117_words_are_kept sp hsp message
  rw [he]
  have key : ∀ ps : List (List Char), ps ≠ [] → (∀ p ∈ ps, '\n' ∉ p ∧ AutopTight sp p) →
      '\n' ∉ ps.flatMap autopElement ∧ (ps.flatMap autopElement).head? = some '<' ∧
      ∃ c, (ps.flatMap autopElement).getLast? = some c ∧ sp c = false := by
    intro ps
    induction ps with
    | nil => intro h; exact absurd rfl h
    | cons p ps ih =>
      intro _ h
      obtain ⟨e1, e2, c, e3, e4⟩ := autopElement_ends sp hsp p (h p (by simp))
      rw [List.flatMap_cons]
      cases ps with
      | nil =>
        rw [List.flatMap_nil, List.append_nil]
        exact ⟨e1, e2, c, e3, e4⟩
      | cons q ps =>
        obtain ⟨f1, f2, d, f3, f4⟩ := ih (by simp) (fun r hr => h r (by simp [hr]))
        refine ⟨?_, ?_, d, ?_, f4⟩
        · rw [List.mem_append, not_or]; exact ⟨e1, f1⟩
        · rw [List.head?_append, e2]; rfl
        · rw [List.getLast?_append, f3]; rfl
  obtain ⟨h1, h2, c, h3, h4⟩ := key ps hne hp
  revert h1 h2 h3
  generalize ps.flatMap autopElement = u
  intro h1 h2 h3
  cases u with
  | nil => cases h2
  | cons x u =>
    rw [List.head?_cons] at h2
    cases h2
    have hded : autopDedent ('<' :: u) = '<' :: u := by
      unfold autopDedent autopLines
      rw [autopLinesFrom_one _ [] h1]
      simp [autopMargin, autopBlank, autopJoin, List.isPrefixOf]
    have htight : AutopTight sp ('<' :: u) := by
      refine ⟨fun d hd => ?_, fun d hd => ?_⟩
      · cases hd; exact hsp.open'
      · rw [h3] at hd; cases hd; exact h4
    unfold autop
    dsimp only
    rw [hded, autopChunksFrom_one _ [] h1]
    simp only [List.reverse_nil, List.nil_append, List.map_cons, List.map_nil]
    rw [autopStrip_id sp _ htight]
    unfold autopLines
    rw [autopLinesFrom_one _ [] h1]
    simp [autopJoin, autopWrap, List.isPrefixOf]

/-- The white space of the examples. -/
def autopSp (c : Char) : Bool := c == ' ' || c == '\t' || c == '\n' || c == '\r'

theorem autopSp_spaces : AutopSpaces autopSp := by
  constructor <;> decide

/-- A message in the block style of a file: indented, with a blank line and a list. -/
def autopSample : List Char :=
  "  Take two\n  courses.\n   \n  <b>Not</b> both\n  from 2019.\n".toList

/-- Non-vacuity: two elements, of which one begins with a tag. -/
example : autop autopSp autopSample =
      "<p>Take two courses.</p><b>Not</b> both from 2019.".toList ∧
    (autopWords autopSp autopSample).length = 7 := by
  constructor <;> decide +kernel

/-- **C117.** A message that is given is refused exactly if it is empty: for every other one, what is
kept is what is shown. -/
theorem C117_empty_is_refused_partial (sp : Char → Bool) (hsp : AutopSpaces sp) (message : List Char) :
    requirementMessage sp (some message) =
      if message = [] then none else some (some (autop sp message)) := by
  cases message with
  | nil => rfl
  | cons c cs =>
    rw [if_neg (by simp)]
    unfold requirementMessage
    simp only [List.isEmpty_cons, Bool.false_eq_true, if_false]
    rw [if_neg]
    intro h
    obtain ⟨ps, hne, he, -, hp⟩ := C117_words_are_kept sp hsp (c :: cs)
    obtain ⟨a, b, ha, hb, e⟩ := autopStrip_eq sp (autop sp (c :: cs))
    rw [List.isEmpty_iff] at h
    rw [h, List.append_nil] at e
    have hall : ∀ d ∈ autop sp (c :: cs), sp d = true := by
      intro d hd
      rw [e, List.mem_append] at hd
      exact hd.elim (ha d) (hb d)
    cases ps with
    | nil => exact hne rfl
    | cons p ps =>
      have h2 := (autopElement_ends sp hsp p (hp p (by simp))).2.1
      have : '<' ∈ autop sp (c :: cs) := by
        rw [he, List.flatMap_cons]
        exact List.mem_append_left _ (List.mem_of_mem_head? h2)
      have h3 := hall '<' this
      rw [hsp.open'] at h3
      cases h3

/-- **C117 refuted in part.** The check for a message of blanks comes after the paragraphs are made:
such a message is accepted, and shown as an empty paragraph. -/
theorem C117_blank_message_refuted :
    requirementMessage autopSp (some "   ".toList) = some (some "<p></p>".toList) ∧
      autopWords autopSp "   ".toList = [] := by
  constructor <;> decide +kernel

/-- **C117 refuted in part.** Two blank lines between paragraphs are not one break: four newlines give
an empty element, and a third newline is dropped. -/
theorem C117_empty_paragraph_refuted :
    autop autopSp "One.\n\n\n\nTwo.".toList = "<p>One.</p><p></p><p>Two.</p>".toList ∧
    autop autopSp "One.\n\n\nTwo.".toList = "<p>One.</p><p>Two.</p>".toList := by
  constructor <;> decide +kernel

/-- **C117 refuted in part.** A text that begins with a sign of comparison is taken for a tag: it is
no paragraph. -/
theorem C117_less_than_refuted :
    autop autopSp "<3.0 GPA\n\nSee the chair.".toList =
      "<3.0 GPA<p>See the chair.</p>".toList := by
  decide +kernel

/-! ## Where the paragraphs begin -/

theorem autopJoin_intercalate (sep : Char) : ∀ ls : List (List Char),
    autopJoin sep ls = [sep].intercalate ls
  | [] => rfl
  | [l] => by simp [autopJoin, List.intercalate]
  | l :: m :: ls => by
    rw [autopJoin, autopJoin_intercalate sep (m :: ls)]
    · simp [List.intercalate]
    · simp

/-- A line of text: something, and no white space at its ends. -/
def AutopLine (sp : Char → Bool) (l : List Char) : Prop :=
  l ≠ [] ∧ '\n' ∉ l ∧ AutopTight sp l

theorem autopLinesFrom_append : ∀ (l cur r : List Char), '\n' ∉ l →
    autopLinesFrom cur (l ++ r) = autopLinesFrom (l.reverse ++ cur) r
  | [], cur, r, _ => rfl
  | c :: l, cur, r, h => by
    rw [List.mem_cons, not_or] at h
    rw [List.cons_append, autopLinesFrom, if_neg (Ne.symm h.1),
      autopLinesFrom_append l (c :: cur) r h.2]
    simp

theorem autopLines_join : ∀ ls : List (List Char), ls ≠ [] → (∀ l ∈ ls, '\n' ∉ l) →
    autopLines (autopJoin '\n' ls) = ls
  | [], h, _ => absurd rfl h
  | [l], _, h => by
    rw [autopJoin, autopLines, autopLinesFrom_one l [] (h l (by simp))]
    simp
  | l :: m :: ls, _, h => by
    have ih := autopLines_join (m :: ls) (by simp) (fun k hk => h k (by simp [hk]))
    rw [autopJoin, autopLines, autopLinesFrom_append l [] _ (h l (by simp)), autopLinesFrom,
      if_pos rfl]
    · rw [autopLines] at ih
      rw [ih]
      simp
    · simp

theorem autopCommon_self : ∀ a : List Char, autopCommon a a = a
  | [] => rfl
  | c :: a => by rw [autopCommon, if_pos rfl, autopCommon_self a]

theorem autopMargin_same (m : List Char) : ∀ is : List (List Char), is ≠ [] →
    (∀ i ∈ is, i = m) → autopMargin is = m
  | [], h, _ => absurd rfl h
  | [i], _, h => by rw [autopMargin, h i (by simp)]
  | i :: j :: is, _, h => by
    rw [autopMargin, h i (by simp), h j (by simp), autopCommon_self]
    exact autopMargin_same m (m :: is) (by simp) (by
      intro k hk
      rcases List.mem_cons.mp hk with rfl | hk
      · rfl
      · exact h k (by simp [hk]))
termination_by is => is.length

theorem autop_takeWhile_append (m l : List Char) (hm : ∀ c ∈ m, autopBlank c = true)
    (c : Char) (hl : l.head? = some c) (hc : autopBlank c = false) :
    (m ++ l).takeWhile autopBlank = m ∧ (m ++ l).all autopBlank = false := by
  cases l with
  | nil => cases hl
  | cons d l =>
    cases hl
    constructor
    · rw [List.takeWhile_append_of_pos hm, List.takeWhile_cons, hc]
      simp
    · rw [List.all_append, List.all_cons, hc]
      simp

theorem autop_mapIdx {α β γ : Type} (g : β → γ) (h : α → γ) : ∀ (ls : List α) (f : Nat → α → β),
    (∀ k, ∀ l ∈ ls, g (f k l) = h l) → (ls.mapIdx f).map g = ls.map h
  | [], f, _ => by simp
  | l :: ls, f, hf => by
    rw [List.mapIdx_cons, List.map_cons, List.map_cons, hf 0 l (by simp),
      autop_mapIdx g h ls (fun i => f (i + 1)) (fun k x hx => hf (k + 1) x (by simp [hx]))]

/-- All lines of the text, with the margin, and blanks in the empty lines. -/
theorem autopDedent_margin (sp : Char → Bool) (hsp : AutopSpaces sp) (m : List Char)
    (hm : ∀ c ∈ m, autopBlank c = true) (ls : List (List Char)) (hs : ∃ l ∈ ls, l ≠ [])
    (h : ∀ l ∈ ls, l = [] ∨ AutopLine sp l) (pad : Nat → List Char)
    (hpad : ∀ k, ∀ c ∈ pad k, autopBlank c = true) :
    autopDedent (autopJoin '\n' (ls.mapIdx (fun k l => if l = [] then pad k else m ++ l))) =
      autopJoin '\n' ls := by
  have hbn : ∀ m : List Char, (∀ c ∈ m, autopBlank c = true) → '\n' ∉ m := fun m hm e => by
    have := hm _ e
    simp [autopBlank] at this
  have hline : ∀ l, AutopLine sp l → (m ++ l).takeWhile autopBlank = m ∧
      (m ++ l).all autopBlank = false := by
    intro l hl
    cases hh : l.head? with
    | none => exact absurd (List.head?_eq_none_iff.mp hh) hl.1
    | some c =>
      refine autop_takeWhile_append m l hm c hh ?_
      have := hl.2.2.1 c hh
      cases hb : autopBlank c with
      | false => rfl
      | true => rw [autopBlank_space sp hsp c hb] at this; cases this
  unfold autopDedent
  dsimp only
  rw [autopLines_join]
  · have e1 : (ls.mapIdx (fun k l => if l = [] then pad k else m ++ l)).map
        (fun l => if l.all autopBlank then [] else l) =
        ls.map (fun l => if l = [] then [] else m ++ l) := by
      apply autop_mapIdx
      intro k l hl
      rcases h l hl with rfl | hl'
      · rw [if_pos rfl, if_pos rfl, if_pos (List.all_eq_true.mpr (hpad k))]
      · rw [if_neg hl'.1, if_neg hl'.1, (hline l hl').2]
        rfl
    rw [e1]
    have e2 : autopMargin (((ls.map (fun l => if l = [] then [] else m ++ l)).filter
        (fun l => !l.isEmpty)).map (fun l => l.takeWhile autopBlank)) = m := by
      apply autopMargin_same
      · obtain ⟨l, hl, hl0⟩ := hs
        intro e
        rw [List.map_eq_nil_iff, List.filter_eq_nil_iff] at e
        have := e (m ++ l) (List.mem_map.mpr ⟨l, hl, by rw [if_neg hl0]⟩)
        apply this
        cases l with
        | nil => exact absurd rfl hl0
        | cons c l => simp
      · intro i hi
        obtain ⟨k, hk, rfl⟩ := List.mem_map.mp hi
        rw [List.mem_filter] at hk
        obtain ⟨l, hl, rfl⟩ := List.mem_map.mp hk.1
        rcases h l hl with rfl | hl'
        · simp at hk
        · rw [if_neg hl'.1]
          exact (hline l hl').1
    rw [e2, List.map_map]
    congr 1
    conv_rhs => rw [← List.map_id ls]
    refine List.map_congr_left (fun l _ => ?_)
    simp only [Function.comp, id]
    by_cases h0 : l = []
    · subst h0; simp
    · rw [if_neg h0, if_pos, List.drop_left]
      rw [List.isPrefixOf_iff_prefix]
      exact List.prefix_append m l
  · intro e
    obtain ⟨l, hl, -⟩ := hs
    rw [List.mapIdx_eq_nil_iff] at e
    rw [e] at hl
    cases hl
  · intro t ht
    obtain ⟨k, hk, rfl⟩ := List.mem_mapIdx.mp ht
    rcases h ls[k] (List.getElem_mem hk) with h0 | hl'
    · rw [if_pos h0]
      exact hbn _ (hpad k)
    · rw [if_neg hl'.1, List.mem_append, not_or]
      exact ⟨hbn m hm, hl'.2.1⟩

theorem autopChunksFrom_cons (c : Char) (hc : c ≠ '\n') (cur : List Char) :
    ∀ r : List Char, autopChunksFrom cur (c :: r) = autopChunksFrom (c :: cur) r
  | [] => by simp [autopChunksFrom]
  | d :: r => by rw [autopChunksFrom, if_neg (fun e => hc e.1)]

theorem autopChunksFrom_line : ∀ (l cur r : List Char), '\n' ∉ l →
    autopChunksFrom cur (l ++ r) = autopChunksFrom (l.reverse ++ cur) r
  | [], cur, r, _ => rfl
  | c :: l, cur, r, h => by
    rw [List.mem_cons, not_or] at h
    rw [List.cons_append, autopChunksFrom_cons c (Ne.symm h.1), autopChunksFrom_line l _ r h.2]
    simp

theorem autopJoin_head (sep : Char) (l : List Char) (hl : l ≠ []) (ls : List (List Char)) :
    (autopJoin sep (l :: ls)).head? = l.head? := by
  cases ls with
  | nil => rfl
  | cons m ls =>
    rw [autopJoin]
    · cases l with
      | nil => exact absurd rfl hl
      | cons c l => rfl
    · simp

theorem autopChunksFrom_para (sp : Char → Bool) : ∀ (p : List (List Char)) (cur r : List Char),
    p ≠ [] → (∀ l ∈ p, AutopLine sp l) →
    autopChunksFrom cur (autopJoin '\n' p ++ r) =
      autopChunksFrom ((autopJoin '\n' p).reverse ++ cur) r
  | [], _, _, h, _ => absurd rfl h
  | [l], cur, r, _, h => autopChunksFrom_line l cur r (h l (by simp)).2.1
  | l :: k :: p, cur, r, _, h => by
    have ih := autopChunksFrom_para sp (k :: p) ('\n' :: (l.reverse ++ cur)) r (by simp)
      (fun x hx => h x (by simp [hx]))
    have hk := h k (by simp)
    rw [autopJoin, List.append_assoc, autopChunksFrom_line l cur _ (h l (by simp)).2.1,
      List.cons_append]
    · have hh := autopJoin_head '\n' k hk.1 p
      cases hj : autopJoin '\n' (k :: p) with
      | nil =>
        rw [hj] at hh
        exact absurd (List.head?_eq_none_iff.mp hh.symm) hk.1
      | cons d js =>
        rw [hj] at hh ih
        have hd : d ≠ '\n' := by
          rintro rfl
          exact hk.2.1 (List.mem_of_mem_head? hh.symm)
        rw [List.cons_append, autopChunksFrom, if_neg (fun e => hd e.2)]
        rw [List.cons_append] at ih
        rw [ih]
        simp
    · simp

/-- The lines of paragraphs, an empty line between two of them. -/
theorem autop_paragraphs_chunks (sp : Char → Bool) : ∀ ps : List (List (List Char)), ps ≠ [] →
    (∀ p ∈ ps, p ≠ [] ∧ ∀ l ∈ p, AutopLine sp l) →
    autopChunksFrom [] (autopJoin '\n' ([[]].intercalate ps)) = ps.map (autopJoin '\n')
  | [], h, _ => absurd rfl h
  | [p], _, h => by
    obtain ⟨h1, h2⟩ := h p (by simp)
    have := autopChunksFrom_para sp p [] [] h1 h2
    simp only [List.append_nil] at this
    simp [List.intercalate, this, autopChunksFrom]
  | p :: q :: ps, _, h => by
    obtain ⟨h1, h2⟩ := h p (by simp)
    have ih := autop_paragraphs_chunks sp (q :: ps) (by simp) (fun x hx => h x (by simp [hx]))
    have hq : [[]].intercalate (q :: ps) ≠ ([] : List (List Char)) := by
      obtain ⟨g1, -⟩ := h q (by simp)
      cases ps with
      | nil => simpa [List.intercalate] using g1
      | cons r ps => simp [List.intercalate]
    have happ : ∀ (p r : List (List Char)), p ≠ [] → r ≠ [] →
        autopJoin '\n' (p ++ r) = autopJoin '\n' p ++ '\n' :: autopJoin '\n' r := by
      intro p r hp hr
      induction p with
      | nil => exact absurd rfl hp
      | cons l p ih =>
        cases p with
        | nil =>
          cases r with
          | nil => exact absurd rfl hr
          | cons k r => simp [autopJoin]
        | cons k p =>
          have := ih (by simp)
          have e1 : ∀ x, autopJoin '\n' (l :: k :: x) = l ++ '\n' :: autopJoin '\n' (k :: x) := by
            intro x
            rw [autopJoin]
            simp
          rw [List.cons_append] at this
          rw [List.cons_append, List.cons_append, e1, e1, this]
          simp
    have e : [[]].intercalate (p :: q :: ps) = p ++ ([] :: [[]].intercalate (q :: ps)) := by
      simp [List.intercalate]
    have e2 : autopJoin '\n' ([] :: [[]].intercalate (q :: ps)) =
        '\n' :: autopJoin '\n' ([[]].intercalate (q :: ps)) := by
      rw [autopJoin]
      · rfl
      · exact hq
    rw [e, happ p _ h1 (by simp), e2, autopChunksFrom_para sp p [] _ h1 h2, autopChunksFrom,
      if_pos ⟨rfl, rfl⟩, ih]
    simp

theorem autopJoin_tight (sp : Char → Bool) (p : List (List Char)) (hp : p ≠ [])
    (h : ∀ l ∈ p, AutopLine sp l) : AutopTight sp (autopJoin '\n' p) := by
  constructor
  · intro c hc
    cases p with
    | nil => exact absurd rfl hp
    | cons l p =>
      rw [autopJoin_head '\n' l (h l (by simp)).1 p] at hc
      exact (h l (by simp)).2.2.1 c hc
  · induction p with
    | nil => exact absurd rfl hp
    | cons l p ih =>
      cases p with
      | nil => exact (h l (by simp)).2.2.2
      | cons k p =>
        intro c hc
        rw [autopJoin] at hc
        · refine ih (by simp) (fun x hx => h x (by simp [hx])) c ?_
          rw [List.getLast?_append, List.getLast?_cons] at hc
          cases hj : (autopJoin '\n' (k :: p)).getLast? with
          | none =>
            have hh := autopJoin_head '\n' k (h k (by simp)).1 p
            rw [List.getLast?_eq_none_iff.mp hj] at hh
            exact absurd (List.head?_eq_none_iff.mp hh.symm) (h k (by simp)).1
          | some d => rw [hj] at hc; simpa using hc
        · simp

/-- **C117.** For all paragraphs, each of lines of text, all written with one margin and with a line that
is empty or has only blanks between two paragraphs: what is shown are these paragraphs, each as one
element of one line. `pad` gives the blanks in such a line by its number.
Not covered: lines indented further than the others, and more than one blank line in a row. -/
theorem C117_one_element_for_a_paragraph_partial (sp : Char → Bool) (hsp : AutopSpaces sp)
    (margin : List Char) (hm : ∀ c ∈ margin, c = ' ' ∨ c = '\t')
    (ps : List (List (List Char))) (hps : ps ≠ [])
    (h : ∀ p ∈ ps, p ≠ [] ∧ ∀ l ∈ p, AutopLine sp l)
    (pad : Nat → List Char) (hpad : ∀ k, ∀ c ∈ pad k, c = ' ' ∨ c = '\t') :
    autop sp (['\n'].intercalate
        (([[]].intercalate ps).mapIdx (fun k l => if l = [] then pad k else margin ++ l))) =
      ps.flatMap (fun p => autopElement ([' '].intercalate p)) := by
  have hlines : ∀ ps : List (List (List Char)), (∀ p ∈ ps, p ≠ [] ∧ ∀ l ∈ p, AutopLine sp l) →
      ∀ l ∈ [[]].intercalate ps, l = [] ∨ AutopLine sp l := by
    intro ps
    induction ps with
    | nil => intro _ l hl; simp [List.intercalate] at hl
    | cons p ps ih =>
      intro h l hl
      cases ps with
      | nil =>
        have : l ∈ p := by simpa [List.intercalate] using hl
        exact Or.inr ((h p (by simp)).2 l this)
      | cons q ps =>
        have e : [[]].intercalate (p :: q :: ps) = p ++ ([] :: [[]].intercalate (q :: ps)) := by
          simp [List.intercalate]
        rw [e, List.mem_append, List.mem_cons] at hl
        rcases hl with hl | hl | hl
        · exact Or.inr ((h p (by simp)).2 l hl)
        · exact Or.inl hl
        · exact ih (fun x hx => h x (by simp [hx])) l hl
  have hsome : ∃ l ∈ [[]].intercalate ps, l ≠ [] := by
    cases ps with
    | nil => exact absurd rfl hps
    | cons p ps =>
      obtain ⟨h1, h2⟩ := h p (by simp)
      cases p with
      | nil => exact absurd rfl h1
      | cons l p =>
        refine ⟨l, ?_, (h2 l (by simp)).1⟩
        cases ps <;> simp [List.intercalate]
  have hm' : ∀ c ∈ margin, autopBlank c = true := by
    intro c hc
    rcases hm c hc with rfl | rfl <;> rfl
  have hpad' : ∀ k, ∀ c ∈ pad k, autopBlank c = true := by
    intro k c hc
    rcases hpad k c hc with rfl | rfl <;> rfl
  rw [← autopJoin_intercalate]
  unfold autop
  dsimp only
  rw [autopDedent_margin sp hsp margin hm' _ hsome (hlines ps h) pad hpad',
    autop_paragraphs_chunks sp ps hps h, List.flatMap_def, List.map_map, List.map_map, List.map_map]
  congr 1
  refine List.map_congr_left (fun p hp => ?_)
  obtain ⟨h1, h2⟩ := h p hp
  simp only [Function.comp]
  rw [autopStrip_id sp _ (autopJoin_tight sp p h1 h2),
    autopLines_join p h1 (fun l hl => (h2 l hl).2.1), autopWrap_element, autopJoin_intercalate]

/-- Non-vacuity: two paragraphs, one of two lines, with a margin of two blanks. -/
example : autop autopSp (['\n'].intercalate (([[]].intercalate
      [["Take two".toList, "courses.".toList], ["See the chair.".toList]]).mapIdx
        (fun _ l => if l = [] then " ".toList else "  ".toList ++ l))) =
    "<p>Take two courses.</p><p>See the chair.</p>".toList := by
  decide +kernel

end Dp
