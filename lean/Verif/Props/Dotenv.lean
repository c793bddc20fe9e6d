import Verif.Model.Dotenv
import Mathlib.Tactic.Common

/-
C109: the settings of the file `.env` are those of the environment.
-/
namespace Dp

/-! ### What a line says -/

/-- nothing but characters that do not count -/
def AllBlank (sp : Char → Bool) (l : List Char) : Prop := ∀ c ∈ l, sp c = true

/-- neither the first nor the last character is blank -/
def Trim (sp : Char → Bool) (l : List Char) : Prop := (∀ c, l.head? = some c → sp c = false) ∧ ∀ c, l.getLast? = some c → sp c = false

/-- the line is `k = v`, with blanks wherever one likes -/
def Sets (sp : Char → Bool) (line k v : List Char) : Prop :=
  ∃ a b c d, AllBlank sp a ∧ AllBlank sp b ∧ AllBlank sp c ∧ AllBlank sp d ∧ line = a ++ k ++ b ++ '=' :: (c ++ v ++ d) ∧
    Trim sp k ∧ Trim sp v ∧ k ≠ [] ∧ k.head? ≠ some '#' ∧ '=' ∉ k ∧ '=' ∉ v

/-- the line is a comment -/
def Comment (sp : Char → Bool) (line : List Char) : Prop := ∃ a rest, AllBlank sp a ∧ line = a ++ '#' :: rest

theorem dropWhile_blank {sp : Char → Bool} {a l : List Char} (ha : AllBlank sp a) : (a ++ l).dropWhile sp = l.dropWhile sp := by
  induction a with
  | nil => rfl
  | cons c a ih =>
    rw [List.cons_append, List.dropWhile_cons, if_pos (ha c List.mem_cons_self)]
    exact ih (fun x hx => ha x (List.mem_cons_of_mem _ hx))

theorem dropWhile_keep {sp : Char → Bool} {l : List Char} (h : ∀ c, l.head? = some c → sp c = false) : l.dropWhile sp = l := by
  cases l with
  | nil => rfl
  | cons c l => rw [List.dropWhile_cons, if_neg (by simp [h c rfl])]

theorem strip_eq {sp : Char → Bool} {a t b : List Char} (ha : AllBlank sp a) (hb : AllBlank sp b) (ht : Trim sp t) :
    stripChars sp (a ++ t ++ b) = t := by
  unfold stripChars
  rw [List.append_assoc, dropWhile_blank ha]
  cases t with
  | nil =>
    rw [List.nil_append]
    have : b.dropWhile sp = [] := by
      have := dropWhile_blank (l := []) hb
      simpa using this
    rw [this]; rfl
  | cons c t =>
    rw [dropWhile_keep (l := c :: t ++ b) (by intro x hx; exact ht.1 x (by simpa using hx)), List.reverse_append,
      dropWhile_blank (by intro x hx; exact hb x (List.mem_reverse.1 hx)),
      dropWhile_keep (by intro x hx; rw [List.head?_reverse] at hx; exact ht.2 x hx), List.reverse_reverse]

theorem dropWhile_split (sp : Char → Bool) (l : List Char) : ∃ a, AllBlank sp a ∧ l = a ++ l.dropWhile sp ∧
    ∀ c, (l.dropWhile sp).head? = some c → sp c = false := by
  induction l with
  | nil => exact ⟨[], by simp [AllBlank], rfl, by simp⟩
  | cons c l ih =>
    rw [List.dropWhile_cons]
    split
    · rename_i h
      obtain ⟨a, h1, h2, h3⟩ := ih
      refine ⟨c :: a, ?_, by rw [List.cons_append, ← h2], h3⟩
      intro x hx
      rcases List.mem_cons.1 hx with rfl | hx
      · exact h
      · exact h1 x hx
    · rename_i h
      refine ⟨[], by simp [AllBlank], rfl, fun x hx => ?_⟩
      simp only [List.head?_cons, Option.some.injEq] at hx
      subst hx
      simpa using h

theorem strip_split (sp : Char → Bool) (l : List Char) : ∃ a b, AllBlank sp a ∧ AllBlank sp b ∧ l = a ++ stripChars sp l ++ b ∧
    Trim sp (stripChars sp l) := by
  obtain ⟨a, h1, h2, h3⟩ := dropWhile_split sp l
  obtain ⟨b, h4, h5, h6⟩ := dropWhile_split sp (l.dropWhile sp).reverse
  have h7 : l.dropWhile sp = stripChars sp l ++ b.reverse := by
    have := congrArg List.reverse h5
    rw [List.reverse_reverse, List.reverse_append] at this
    exact this
  refine ⟨a, b.reverse, h1, fun c hc => h4 c (List.mem_reverse.1 hc), by rw [List.append_assoc, ← h7]; exact h2, ?_, ?_⟩
  · intro c hc
    refine h3 c ?_
    rw [h7]
    cases hs : stripChars sp l with
    | nil => rw [hs] at hc; cases hc
    | cons x s => rw [hs] at hc; exact hc
  · intro c hc
    refine h6 c ?_
    unfold stripChars at hc
    rw [List.getLast?_reverse] at hc
    exact hc

theorem splitEq_none {l : List Char} (h : '=' ∉ l) : splitEq l = [l] := by
  induction l with
  | nil => rfl
  | cons c l ih =>
    rw [List.mem_cons, not_or] at h
    rw [splitEq, if_neg (fun e => h.1 e.symm), ih h.2]

theorem splitEq_one {k v : List Char} (hk : '=' ∉ k) (hv : '=' ∉ v) : splitEq (k ++ '=' :: v) = [k, v] := by
  induction k with
  | nil => rw [List.nil_append, splitEq, if_pos rfl, splitEq_none hv]
  | cons c k ih =>
    rw [List.mem_cons, not_or] at hk
    rw [List.cons_append, splitEq, if_neg (fun e => hk.1 e.symm), ih hk.2]

theorem splitEq_ne (l : List Char) : splitEq l ≠ [] := by
  cases l with
  | nil => simp [splitEq]
  | cons c l =>
    rw [splitEq]
    split
    · simp
    · split <;> simp

theorem splitEq_inv1 {l w : List Char} (h : splitEq l = [w]) : l = w ∧ '=' ∉ w := by
  induction l generalizing w with
  | nil => simp only [splitEq, List.cons.injEq, and_true] at h; subst h; simp
  | cons c l ih =>
    rw [splitEq] at h
    split at h
    · simp only [List.cons.injEq] at h
      exact absurd h.2 (splitEq_ne l)
    · rename_i hc
      cases hs : splitEq l with
      | nil => exact absurd hs (splitEq_ne l)
      | cons x xs =>
        rw [hs] at h
        simp only [List.cons.injEq] at h
        obtain ⟨rfl, rfl⟩ := h
        obtain ⟨rfl, h2⟩ := ih hs
        exact ⟨rfl, by rw [List.mem_cons, not_or]; exact ⟨fun e => hc e.symm, h2⟩⟩

theorem splitEq_inv {l k v : List Char} (h : splitEq l = [k, v]) : l = k ++ '=' :: v ∧ '=' ∉ k ∧ '=' ∉ v := by
  induction l generalizing k with
  | nil => simp [splitEq] at h
  | cons c l ih =>
    rw [splitEq] at h
    split at h
    · rename_i hc
      simp only [List.cons.injEq] at h
      obtain ⟨rfl, h⟩ := h
      obtain ⟨rfl, h2⟩ := splitEq_inv1 h
      exact ⟨by rw [hc]; rfl, by simp, h2⟩
    · rename_i hc
      cases hs : splitEq l with
      | nil => exact absurd hs (splitEq_ne l)
      | cons x xs =>
        rw [hs] at h
        simp only [List.cons.injEq] at h
        obtain ⟨rfl, rfl⟩ := h
        obtain ⟨h1, h2, h3⟩ := ih hs
        exact ⟨by rw [h1]; rfl, by rw [List.mem_cons, not_or]; exact ⟨fun e => hc e.symm, h2⟩, h3⟩

theorem blank_mem {sp : Char → Bool} (he : sp '=' = false) {l : List Char} (h : AllBlank sp l) : '=' ∉ l := by
  intro hm
  have := h _ hm
  rw [he] at this
  cases this

theorem dotenvLine_none {sp : Char → Bool} (hh : sp '#' = false) {line : List Char} :
    dotenvLine sp line = .ok none ↔ AllBlank sp line ∨ Comment sp line := by
  obtain ⟨a, b, ha, hb, hl, ht⟩ := strip_split sp line
  unfold dotenvLine
  dsimp only
  constructor
  · intro h
    split at h
    · rename_i h1
      cases hs : stripChars sp line with
      | nil => rw [hs] at h1; cases h1
      | cons c s =>
        rw [hs] at h1 hl
        simp only [List.head?_cons, Option.some.injEq] at h1
        subst h1
        exact .inr ⟨a, s ++ b, ha, by rw [hl]; simp⟩
    · split at h
      · rename_i h2
        rw [h2] at hl
        refine .inl fun c hc => ?_
        rw [hl] at hc
        simp only [List.append_nil, List.mem_append] at hc
        rcases hc with hc | hc
        · exact ha c hc
        · exact hb c hc
      · split at h
        · split at h <;> cases h
        · cases h
  · rintro (h | ⟨a', rest, ha', rfl⟩)
    · have : stripChars sp line = [] := by
        have := strip_eq (t := []) (b := []) h (by simp [AllBlank]) (by simp [Trim])
        simpa using this
      rw [this]; rfl
    · have : (stripChars sp (a' ++ '#' :: rest)).head? = some '#' := by
        unfold stripChars
        rw [dropWhile_blank ha', dropWhile_keep (l := '#' :: rest) (by intro c hc; cases hc; exact hh), List.head?_reverse]
        obtain ⟨x, hx, hx2, -⟩ := dropWhile_split sp ('#' :: rest).reverse
        cases hd : ('#' :: rest).reverse.dropWhile sp with
        | nil =>
          rw [hd, List.append_nil] at hx2
          have := hx '#' (hx2 ▸ by simp)
          rw [hh] at this
          cases this
        | cons y ys =>
          rw [hd] at hx2
          have := congrArg List.getLast? hx2
          rw [List.getLast?_reverse, List.getLast?_append] at this
          simp only [List.head?_cons] at this
          cases hg : (y :: ys).getLast? with
          | none => simp at hg
          | some z => rw [hg] at this; simpa using this.symm
      rw [if_pos this]

theorem dotenvLine_some {sp : Char → Bool} (he : sp '=' = false) {line k v : List Char} :
    dotenvLine sp line = .ok (some (k, v)) ↔ Sets sp line k v := by
  constructor
  · intro h
    obtain ⟨a, b, ha, hb, hl, ht⟩ := strip_split sp line
    unfold dotenvLine at h
    dsimp only at h
    split at h
    · cases h
    rename_i hhash
    split at h
    · cases h
    rename_i hne
    split at h
    · rename_i key value hs
      split at h
      · cases h
      rename_i hkne
      simp only [Except.ok.injEq, Option.some.injEq, Prod.mk.injEq] at h
      obtain ⟨rfl, rfl⟩ := h
      obtain ⟨h1, h2, h3⟩ := splitEq_inv hs
      obtain ⟨a1, b1, ha1, hb1, hk, htk⟩ := strip_split sp key
      obtain ⟨a2, b2, ha2, hb2, hv, htv⟩ := strip_split sp value
      refine ⟨a ++ a1, b1, a2, b2 ++ b, ?_, hb1, ha2, ?_, ?_, htk, htv, hkne, ?_, ?_, ?_⟩
      · intro c hc
        rcases List.mem_append.1 hc with hc | hc
        exacts [ha c hc, ha1 c hc]
      · intro c hc
        rcases List.mem_append.1 hc with hc | hc
        exacts [hb2 c hc, hb c hc]
      · rw [h1] at hl
        conv_lhs => rw [hl, hk, hv]
        simp only [List.append_assoc, List.cons_append]
      · intro hh
        cases ha1' : a1 with
        | nil =>
          rw [ha1', List.nil_append] at hk
          refine hhash ?_
          rw [h1, hk]
          cases hsk : stripChars sp key with
          | nil => exact absurd hsk hkne
          | cons x s => rw [hsk] at hh; exact hh
        | cons x s =>
          have hx : (stripChars sp line).head? = some x := by rw [h1, hk, ha1']; rfl
          have h4 := ht.1 x hx
          have h5 := ha1 x (by rw [ha1']; simp)
          rw [h4] at h5
          cases h5
      · exact fun hm => h2 (by rw [hk]; simp [hm])
      · exact fun hm => h3 (by rw [hv]; simp [hm])
    · cases h
  · rintro ⟨a, b, c, d, ha, hb, hc, hd, rfl, hk, hv, hkne, hhash, hek, hev⟩
    obtain ⟨x, k', rfl⟩ : ∃ x k', k = x :: k' := by
      cases k with
      | nil => exact absurd rfl hkne
      | cons x k' => exact ⟨x, k', rfl⟩
    have key : ∃ w, stripChars sp (a ++ (x :: k') ++ b ++ '=' :: (c ++ v ++ d)) = (x :: k') ++ b ++ '=' :: w ∧ '=' ∉ w ∧ stripChars sp w = v := by
      cases v with
      | nil =>
        refine ⟨[], ?_, by simp, rfl⟩
        have := strip_eq (sp := sp) (a := a) (t := (x :: k') ++ b ++ ['=']) (b := c ++ d) ha
          (by intro z hz; rcases List.mem_append.1 hz with hz | hz; exacts [hc z hz, hd z hz])
          ⟨by intro z hz; exact hk.1 z hz, by
            intro z hz
            rw [List.getLast?_append] at hz
            simp only [List.getLast?_singleton, Option.some_or, Option.some.injEq] at hz
            exact hz ▸ he⟩
        rw [← this]
        simp
      | cons y v' =>
        refine ⟨c ++ y :: v', ?_, ?_, ?_⟩
        · have := strip_eq (sp := sp) (a := a) (t := (x :: k') ++ b ++ '=' :: (c ++ y :: v')) (b := d) ha hd
            ⟨by intro z hz; exact hk.1 z hz, by
              intro z hz
              refine hv.2 z ?_
              rw [← hz]
              rw [show (x :: k') ++ b ++ '=' :: (c ++ y :: v') = ((x :: k') ++ b ++ '=' :: c) ++ (y :: v') by simp]
              rw [List.getLast?_append]
              cases hg : (y :: v').getLast? with
              | none => simp at hg
              | some q => simp⟩
          rw [← this]
          simp
        · rw [List.mem_append, not_or]; exact ⟨blank_mem he hc, hev⟩
        · have := strip_eq (sp := sp) (a := c) (t := y :: v') (b := []) hc (by simp [AllBlank]) hv
          simpa using this
    obtain ⟨w, hw, hew, hsw⟩ := key
    unfold dotenvLine
    dsimp only
    rw [hw]
    rw [if_neg (by simpa using hhash), if_neg (by simp)]
    rw [splitEq_one (by rw [List.mem_append, not_or]; exact ⟨hek, blank_mem he hb⟩) hew]
    dsimp only
    have hks : stripChars sp (x :: k' ++ b) = x :: k' := by
      have := strip_eq (sp := sp) (a := []) (t := x :: k') (b := b) (by simp [AllBlank]) hb hk
      simpa using this
    rw [hks, if_neg (by simp), hsw]

/-! ### What the file does -/

theorem envSet_lookup {k v : List Char} (k' : List Char) : ∀ d : List (List Char × List Char),
    (envSet k v d).lookup k' = if k' = k then some v else d.lookup k'
  | [] => by
    by_cases h : k' = k
    · simp [envSet, h]
    · have : (k' == k) = false := by simpa using h
      simp [envSet, List.lookup, h, this]
  | (x, y) :: d => by
    unfold envSet
    have ih := envSet_lookup (k := k) (v := v) k' d
    by_cases hx : x = k
    · subst hx
      rw [if_pos rfl]
      by_cases h : k' = x
      · simp [h]
      · have : (k' == x) = false := by simpa using h
        simp [List.lookup, h, this]
    · rw [if_neg hx]
      by_cases h : k' = x
      · subst h
        simp [hx]
      · have : (k' == x) = false := by simpa using h
        simp only [List.lookup, this, ih]

theorem envSet_mem {k v : List Char} : ∀ {d : List (List Char × List Char)} {x}, x ∈ (envSet k v d).map (·.1) ↔ x = k ∨ x ∈ d.map (·.1)
  | [], x => by simp [envSet]
  | (a, b) :: d, x => by
    unfold envSet
    have ih := envSet_mem (k := k) (v := v) (d := d) (x := x)
    by_cases hx : a = k
    · rw [if_pos hx]; simp [hx]
    · rw [if_neg hx, List.map_cons, List.mem_cons, ih, List.map_cons, List.mem_cons]; tauto

theorem envSet_nodup {k v : List Char} : ∀ {d : List (List Char × List Char)}, (d.map (·.1)).Nodup → ((envSet k v d).map (·.1)).Nodup
  | [], _ => by simp [envSet]
  | (a, b) :: d, h => by
    rw [List.map_cons, List.nodup_cons] at h
    unfold envSet
    by_cases hx : a = k
    · rw [if_pos hx, List.map_cons, List.nodup_cons]; subst hx; exact h
    · rw [if_neg hx, List.map_cons, List.nodup_cons, envSet_mem]
      exact ⟨fun hm => hm.elim hx h.1, envSet_nodup h.2⟩

theorem foldl_lookup (k : List Char) : ∀ (args env : List (List Char × List Char)), (args.map (·.1)).Nodup →
    (args.foldl (fun env kv => envSet kv.1 kv.2 env) env).lookup k = (args.lookup k).or (env.lookup k)
  | [], env, _ => by simp
  | (a, b) :: args, env, h => by
    rw [List.map_cons, List.nodup_cons] at h
    rw [List.foldl_cons, foldl_lookup k args _ h.2, envSet_lookup]
    by_cases hk : k = a
    · subst hk
      have : args.lookup k = none := by
        rw [List.lookup_eq_none_iff]
        intro p hp
        simp only [bne_iff_ne, ne_eq]
        intro hkp
        have hm : p.1 ∈ args.map (·.1) := List.mem_map_of_mem hp
        rw [← hkp] at hm
        exact h.1 hm
      simp [this]
    · have : (k == a) = false := by simpa using hk
      simp [List.lookup, this, hk]

/-- a line the file may have -/
def Proper (sp : Char → Bool) (line : List Char) : Prop := AllBlank sp line ∨ Comment sp line ∨ ∃ k v, Sets sp line k v

/-- the last line that sets `k` sets it to `v` -/
def LastSets (sp : Char → Bool) (lines : List (List Char)) (k v : List Char) : Prop :=
  ∃ before line after, lines = before ++ line :: after ∧ Sets sp line k v ∧ ∀ l ∈ after, ∀ v', ¬ Sets sp l k v'

theorem dotenvRead_spec {sp : Char → Bool} (he : sp '=' = false) (hh : sp '#' = false) :
    ∀ {lines : List (List Char)} {args : List (List Char × List Char)}, (∀ l ∈ lines, Proper sp l) → (args.map (·.1)).Nodup →
      ∃ out, dotenvRead sp args lines = .ok out ∧ (out.map (·.1)).Nodup ∧ ∀ k, (∀ v, LastSets sp lines k v → out.lookup k = some v) ∧
        ((∀ l ∈ lines, ∀ v, ¬ Sets sp l k v) → out.lookup k = args.lookup k)
  | [], args, _, hn => ⟨args, rfl, hn, fun k => ⟨by rintro v ⟨b, l, a, h, -⟩; simp at h, fun _ => rfl⟩⟩
  | line :: lines, args, hp, hn => by
    have hrest : ∀ l ∈ lines, Proper sp l := fun l hl => hp l (List.mem_cons_of_mem _ hl)
    have skip : dotenvLine sp line = .ok none →
        ∃ out, dotenvRead sp args (line :: lines) = .ok out ∧ (out.map (·.1)).Nodup ∧ ∀ k, (∀ v, LastSets sp (line :: lines) k v → out.lookup k = some v) ∧
          ((∀ l ∈ line :: lines, ∀ v, ¬ Sets sp l k v) → out.lookup k = args.lookup k) := fun hnone => by
      obtain ⟨out, h1, h2, h3⟩ := dotenvRead_spec he hh hrest hn
      refine ⟨out, ?_, h2, fun k => ⟨?_, fun h => (h3 k).2 (fun l hl => h l (List.mem_cons_of_mem _ hl))⟩⟩
      · unfold dotenvRead; rw [hnone]; exact h1
      · rintro v ⟨before, l, after, heq, hs, ha⟩
        cases before with
        | nil =>
          simp only [List.nil_append, List.cons.injEq] at heq
          obtain ⟨rfl, -⟩ := heq
          rw [(dotenvLine_some he).2 hs] at hnone
          cases hnone
        | cons b before =>
          simp only [List.cons_append, List.cons.injEq] at heq
          exact (h3 k).1 v ⟨before, l, after, heq.2, hs, ha⟩
    rcases hp line List.mem_cons_self with h | h | ⟨k0, v0, h⟩
    · exact skip ((dotenvLine_none hh).2 (.inl h))
    · exact skip ((dotenvLine_none hh).2 (.inr h))
    · have hsome := (dotenvLine_some he).2 h
      obtain ⟨out, h1, h2, h3⟩ := dotenvRead_spec he hh (args := envSet k0 v0 args) hrest (envSet_nodup hn)
      refine ⟨out, ?_, h2, fun k => ⟨?_, fun hno => ?_⟩⟩
      · unfold dotenvRead; rw [hsome]; exact h1
      · rintro v ⟨before, l, after, heq, hs, ha⟩
        cases before with
        | nil =>
          simp only [List.nil_append, List.cons.injEq] at heq
          obtain ⟨rfl, rfl⟩ := heq
          have := (dotenvLine_some he).2 hs
          rw [hsome] at this
          cases this
          rw [(h3 _).2 ha, envSet_lookup, if_pos rfl]
        | cons b before =>
          simp only [List.cons_append, List.cons.injEq] at heq
          exact (h3 k).1 v ⟨before, l, after, heq.2, hs, ha⟩
      · rw [(h3 k).2 (fun l hl => hno l (List.mem_cons_of_mem _ hl)), envSet_lookup, if_neg]
        rintro rfl
        exact hno line List.mem_cons_self v0 h

/-- **C109** Of a file whose lines are blank, comments, or settings without a second equals sign, every setting is in the environment, the last
one for a name that is set more than once, and what the file does not set is as it was. -/
theorem C109_settings_are_loaded_partial (sp : Char → Bool) (he : sp '=' = false) (hh : sp '#' = false) (lines : List (List Char))
    (hp : ∀ l ∈ lines, Proper sp l) (env : List (List Char × List Char)) :
    (dotenvLoad sp (some lines) env).2 = none ∧ ∀ k,
      (∀ v, LastSets sp lines k v → (dotenvLoad sp (some lines) env).1.lookup k = some v) ∧
      ((∀ l ∈ lines, ∀ v, ¬ Sets sp l k v) → (dotenvLoad sp (some lines) env).1.lookup k = env.lookup k) := by
  obtain ⟨out, h1, h2, h3⟩ := dotenvRead_spec he hh (args := []) hp (by simp)
  unfold dotenvLoad
  dsimp only [Option.getD_some]
  rw [h1]
  refine ⟨rfl, fun k => ⟨fun v hv => ?_, fun hno => ?_⟩⟩
  · rw [foldl_lookup k _ _ h2, (h3 k).1 v hv]; rfl
  · rw [foldl_lookup k _ _ h2, (h3 k).2 hno]; simp

theorem dotenvRead_bad {sp : Char → Bool} (he : sp '=' = false) (hh : sp '#' = false) {bad : List Char} (hb : ¬ Proper sp bad) :
    ∀ {lines : List (List Char)} {args : List (List Char × List Char)}, bad ∈ lines → ∃ e, dotenvRead sp args lines = .error e
  | [], _, h => by simp at h
  | line :: lines, args, h => by
    unfold dotenvRead
    cases hl : dotenvLine sp line with
    | error e => exact ⟨e, rfl⟩
    | ok o =>
      have hprop : Proper sp line := by
        cases o with
        | none => rcases (dotenvLine_none hh).1 hl with h | h; exacts [.inl h, .inr (.inl h)]
        | some kv => exact .inr (.inr ⟨kv.1, kv.2, (dotenvLine_some he).1 hl⟩)
      have hm : bad ∈ lines := by
        rcases List.mem_cons.1 h with rfl | h
        · exact absurd hprop hb
        · exact h
      cases o with
      | none => exact dotenvRead_bad he hh hb hm
      | some kv => exact dotenvRead_bad he hh hb hm

/-- **C109**, for the other files: if a single line is neither blank, nor a comment, nor a setting, nothing is loaded, and the program ends with
an exception. -/
theorem C109_other_lines_raise (sp : Char → Bool) (he : sp '=' = false) (hh : sp '#' = false) (lines : List (List Char)) (bad : List Char)
    (hm : bad ∈ lines) (hb : ¬ Proper sp bad) (env : List (List Char × List Char)) :
    (dotenvLoad sp (some lines) env).1 = env ∧ (dotenvLoad sp (some lines) env).2 ≠ none := by
  obtain ⟨e, h⟩ := dotenvRead_bad he hh hb (args := []) hm
  unfold dotenvLoad
  dsimp only [Option.getD_some]
  rw [h]
  exact ⟨rfl, by simp⟩

/-- blanks -/
def plainBlank (c : Char) : Bool := c == ' ' || c == '\t' || c == '\n' || c == '\r'

/-- **C109**, refuted for values with an equals sign: nothing is loaded. -/
theorem C109_equals_in_value_refuted : dotenvLoad plainBlank (some ["PGUSER=dp".toList, "PGPASSWORD=a=b".toList]) [] = ([], some .valueError) := by
  decide +kernel

/-- a file with all kinds of lines: a comment, a blank line, a setting with blanks, and one that is set twice -/
example : plainBlank '=' = false ∧ plainBlank '#' = false ∧
    dotenvLoad plainBlank (some ["# settings\n".toList, "\n".toList, " AREA_ROOT = /srv/areas \n".toList, "A=1\n".toList, "A=\n".toList])
      [("A".toList, "0".toList), ("B".toList, "2".toList)] =
    ([("A".toList, "".toList), ("B".toList, "2".toList), ("AREA_ROOT".toList, "/srv/areas".toList)], none) := by
  decide +kernel

/-- without a file nothing changes -/
example : dotenvLoad plainBlank none [("A".toList, "0".toList)] = ([("A".toList, "0".toList)], none) := by decide +kernel

/-- the last of two lines counts, as the theorem has it -/
example : LastSets plainBlank ["A=1".toList, " A = 2 ".toList] "A".toList "2".toList := by
  refine ⟨["A=1".toList], " A = 2 ".toList, [], rfl, ⟨" ".toList, " ".toList, " ".toList, " ".toList, ?_⟩, by simp⟩
  unfold AllBlank Trim
  decide +kernel

end Dp
