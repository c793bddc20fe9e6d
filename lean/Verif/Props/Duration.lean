import Verif.Model.Duration
import Mathlib.Algebra.Order.Floor.Ring
import Mathlib.Tactic.Linarith
import Mathlib.Tactic.FieldSimp
import Mathlib.Tactic.Common
import Mathlib.Tactic.NormNum
import Mathlib.Algebra.Order.Field.Basic

/-
Durations (C44).
-/
namespace Dp

/-! ### Splitting into days, hours, … -/

theorem floor_div (q : Rat) (n : Nat) (hn : 0 < n) : ⌊q / (n : Rat)⌋ = ⌊q⌋ / (n : Int) := by
  have hn' : (0 : Rat) < n := by exact_mod_cast hn
  have hz : (0 : Int) < n := by exact_mod_cast hn
  rw [Int.floor_eq_iff]
  have h1 := Int.floor_le q
  have h2 := Int.lt_floor_add_one q
  have e := Int.emod_add_mul_ediv ⌊q⌋ (n : Int)
  have m0 := Int.emod_nonneg ⌊q⌋ (ne_of_gt hz)
  have m1 := Int.emod_lt_of_pos ⌊q⌋ hz
  constructor
  · rw [le_div_iff₀ hn']
    have : (⌊q⌋ / (n : Int)) * n ≤ ⌊q⌋ := by nlinarith
    have : (((⌊q⌋ / (n : Int)) * n : Int) : Rat) ≤ (⌊q⌋ : Rat) := by exact_mod_cast this
    push_cast at this ⊢
    linarith
  · rw [div_lt_iff₀ hn']
    have : ⌊q⌋ + 1 ≤ (⌊q⌋ / (n : Int) + 1) * n := by nlinarith
    have : ((⌊q⌋ + 1 : Int) : Rat) ≤ (((⌊q⌋ / (n : Int) + 1) * n : Int) : Rat) := by exact_mod_cast this
    push_cast at this ⊢
    linarith

theorem toZero_nonneg {q : Rat} (h : 0 ≤ q) : toZero q = ⌊q⌋ := by simp [toZero, h]

theorem toZero_neg (q : Rat) : toZero (-q) = -toZero q := by
  simp only [toZero]
  by_cases h : 0 ≤ q
  · by_cases h2 : 0 ≤ -q
    · have : q = 0 := by linarith
      subst this; simp
    · simp [h, h2]
  · have h2 : 0 ≤ -q := by linarith
    simp [h, h2]

theorem decRem_neg (q n : Rat) : decRem (-q) n = -decRem q n := by
  simp only [decRem]
  rw [show -q / n = -(q / n) by ring, toZero_neg]
  push_cast
  ring

theorem decRem_nonneg {q : Rat} {n : Nat} (hn : 0 < n) (h : 0 ≤ q) :
    0 ≤ decRem q n ∧ decRem q n < n ∧ decRem q n = q - n * (⌊q⌋ / (n : Int) : Int) := by
  have hn' : (0 : Rat) < n := by exact_mod_cast hn
  have hd : (0 : Rat) ≤ q / n := div_nonneg h hn'.le
  have e : decRem q n = q - n * (⌊q⌋ / (n : Int) : Int) := by
    simp only [decRem, toZero_nonneg hd, floor_div q n hn]
  have h1 := Int.floor_le (q / n)
  have h2 := Int.lt_floor_add_one (q / n)
  rw [floor_div q n hn] at h1 h2
  rw [le_div_iff₀ hn'] at h1
  rw [div_lt_iff₀ hn'] at h2
  refine ⟨by rw [e]; linarith, by rw [e]; linarith, e⟩

theorem toZero_decRem {q : Rat} {n : Nat} (hn : 0 < n) (h : 0 ≤ q) :
    toZero (decRem q n) = ⌊q⌋ % (n : Int) := by
  obtain ⟨h0, _, e⟩ := decRem_nonneg hn h
  rw [toZero_nonneg h0, e]
  have : q - n * ((⌊q⌋ / (n : Int) : Int) : Rat) = q - (((n : Int) * (⌊q⌋ / (n : Int)) : Int) : Rat) := by
    push_cast; ring
  rw [this, Int.floor_sub_intCast, Int.emod_def]

theorem parseMs_nonneg {q : Rat} (h : 0 ≤ q) :
    parseMs q = { days := ⌊q⌋ / 86400000, hours := ⌊q⌋ / 3600000 % 24, minutes := ⌊q⌋ / 60000 % 60,
                  seconds := ⌊q⌋ / 1000 % 60, milliseconds := ⌊q⌋ % 1000,
                  microseconds := ⌊q * 1000⌋ % 1000, nanoseconds := ⌊q * 1000000⌋ % 1000 } := by
  have f1 := floor_div q 86400000 (by decide)
  have f2 := floor_div q 3600000 (by decide)
  have f3 := floor_div q 60000 (by decide)
  have f4 := floor_div q 1000 (by decide)
  have g2 := toZero_decRem (q := q / 3600000) (n := 24) (by decide) (by positivity)
  have g3 := toZero_decRem (q := q / 60000) (n := 60) (by decide) (by positivity)
  have g4 := toZero_decRem (q := q / 1000) (n := 60) (by decide) (by positivity)
  have g5 := toZero_decRem (q := q) (n := 1000) (by decide) h
  have g6 := toZero_decRem (q := q * 1000) (n := 1000) (by decide) (by positivity)
  have g7 := toZero_decRem (q := q * 1000000) (n := 1000) (by decide) (by positivity)
  push_cast at f1 f2 f3 f4 g2 g3 g4 g5 g6 g7
  have h1 : toZero (q / 86400000) = ⌊q⌋ / 86400000 := by rw [toZero_nonneg (by positivity), f1]
  simp only [parseMs, h1, g2, g3, g4, g5, g6, g7, f2, f3, f4]

theorem parseMs_neg (q : Rat) :
    parseMs (-q) = { days := -(parseMs q).days, hours := -(parseMs q).hours, minutes := -(parseMs q).minutes,
                     seconds := -(parseMs q).seconds, milliseconds := -(parseMs q).milliseconds,
                     microseconds := -(parseMs q).microseconds, nanoseconds := -(parseMs q).nanoseconds } := by
  simp only [parseMs, neg_div, neg_mul, decRem_neg, toZero_neg]

/-- **C44**: the parts a number of milliseconds is split into add up to that number, cut to
whole milliseconds -/
theorem C44_parts_recompose (q : Rat) : (parseMs q).ms = toZero q := by
  have key : ∀ p : Rat, 0 ≤ p → (parseMs p).ms = toZero p := by
    intro p hp
    rw [parseMs_nonneg hp, toZero_nonneg hp]
    simp only [Ms.ms]
    omega
  rcases le_total 0 q with h | h
  · exact key q h
  · have e := key (-q) (by linarith)
    have e2 := parseMs_neg q
    rw [e2, toZero_neg] at e
    simp only [Ms.ms] at e ⊢
    linarith

/-- **C44**: each part stays below one of the next greater unit -/
theorem C44_parts_bounded (q : Rat) (h : 0 ≤ q) :
    0 ≤ (parseMs q).days ∧ (0 ≤ (parseMs q).hours ∧ (parseMs q).hours < 24)
      ∧ (0 ≤ (parseMs q).minutes ∧ (parseMs q).minutes < 60)
      ∧ (0 ≤ (parseMs q).seconds ∧ (parseMs q).seconds < 60)
      ∧ (0 ≤ (parseMs q).milliseconds ∧ (parseMs q).milliseconds < 1000)
      ∧ (0 ≤ (parseMs q).microseconds ∧ (parseMs q).microseconds < 1000)
      ∧ (0 ≤ (parseMs q).nanoseconds ∧ (parseMs q).nanoseconds < 1000) := by
  rw [parseMs_nonneg h]
  have : 0 ≤ ⌊q⌋ := Int.floor_nonneg.mpr h
  dsimp only
  omega

/-! ### Parsing -/

/-- A part of a duration text: an amount, in digits, of a unit. -/
structure Part where
  neg : Bool
  digits : List Char
  unit : List Char

/-- how a part is written -/
def Part.text (p : Part) : List Char := (if p.neg then ['-'] else []) ++ p.digits ++ p.unit

/-- digits, then something that is neither a digit nor a minus sign -/
def Part.WellFormed (p : Part) : Prop :=
  p.digits ≠ [] ∧ p.unit ≠ [] ∧ (∀ c ∈ p.digits, c ∈ ['0', '1', '2', '3', '4', '5', '6', '7', '8', '9'])
    ∧ ∀ c ∈ p.unit, c ∉ ['-', '0', '1', '2', '3', '4', '5', '6', '7', '8', '9']

/-- milliseconds in a unit: day, hour, minute, second, millisecond; anything else counts for
nothing -/
def msOfUnit (u : String) : Int :=
  match u with
  | "d" => 24 * 60 * 60 * 1000
  | "h" => 60 * 60 * 1000
  | "m" => 60 * 1000
  | "s" => 1000
  | "ms" => 1
  | _ => 0

/-- the amount of a part: the digits read as a decimal number -/
def Part.amount (p : Part) : Int :=
  let n : Int := (Nat.ofDigitChars 10 p.digits 0 : Nat)
  if p.neg then -n else n

theorem char_toNat_inj {c d : Char} (h : c.toNat = d.toNat) : c = d := by
  have := congrArg Char.ofNat h
  simpa using this

theorem isDig_iff (c : Char) : isDig c = true ↔ c ∈ ['0', '1', '2', '3', '4', '5', '6', '7', '8', '9'] := by
  constructor
  · intro h
    simp only [isDig, Bool.and_eq_true, decide_eq_true_eq] at h
    obtain ⟨h1, h2⟩ := h
    have e : c = Char.ofNat c.toNat := by simp
    generalize c.toNat = n at *
    subst e
    have : n = 48 ∨ n = 49 ∨ n = 50 ∨ n = 51 ∨ n = 52 ∨ n = 53 ∨ n = 54 ∨ n = 55 ∨ n = 56 ∨ n = 57 := by omega
    rcases this with h | h | h | h | h | h | h | h | h | h <;> subst h <;> decide
  · intro h
    simp only [List.mem_cons, List.not_mem_nil, or_false] at h
    rcases h with h | h | h | h | h | h | h | h | h | h <;> subst h <;> decide

theorem isUnitChar_iff (c : Char) :
    isUnitChar c = true ↔ c ∉ ['-', '0', '1', '2', '3', '4', '5', '6', '7', '8', '9'] := by
  rw [List.mem_cons, not_or]
  simp only [isUnitChar, Bool.and_eq_true, Bool.not_eq_true']
  rw [← isDig_iff]
  simp

theorem isUnitChar_not_dig {c : Char} (h : isUnitChar c = true) : isDig c = false := by
  simp only [isUnitChar, Bool.and_eq_true, Bool.not_eq_true'] at h
  exact h.2

theorem isDig_not_unit {c : Char} (h : isDig c = true) : isUnitChar c = false := by
  simp [isUnitChar, h]

theorem digitsValue_eq (ds : List Char) (h : ∀ c ∈ ds, isDig c = true) :
    digitsValue ds = (Nat.ofDigitChars 10 ds 0 : Nat) := by
  have key : ∀ (ds : List Char) (n : Nat), (∀ c ∈ ds, isDig c = true) →
      ds.foldl (fun n c => n * 10 + ((c.toNat : Int) - 48)) (n : Int) = (Nat.ofDigitChars 10 ds n : Nat) := by
    intro ds
    induction ds with
    | nil => intro n _; simp [Nat.ofDigitChars]
    | cons d ds ih =>
      intro n hd
      have h1 : isDig d = true := hd d List.mem_cons_self
      simp only [isDig, Bool.and_eq_true, decide_eq_true_eq] at h1
      rw [List.foldl_cons, Nat.ofDigitChars_cons]
      rw [← ih _ (fun c hc => hd c (List.mem_cons_of_mem _ hc))]
      congr 1
      have : '0'.toNat = 48 := rfl
      rw [this]
      push_cast [h1.1]
      ring
  have := key ds 0 h
  simpa [digitsValue] using this

theorem takeWhile_append_stop {α} (p : α → Bool) (l r : List α) (hl : ∀ x ∈ l, p x = true)
    (hr : ∀ x, r.head? = some x → p x = false) : (l ++ r).takeWhile p = l ∧ (l ++ r).dropWhile p = r := by
  induction l with
  | nil =>
    cases r with
    | nil => simp
    | cons x r =>
      have := hr x rfl
      simp [List.takeWhile_cons, List.dropWhile_cons, this]
  | cons y l ih =>
    have hy := hl y List.mem_cons_self
    have := ih (fun x hx => hl x (List.mem_cons_of_mem _ hx))
    simp [List.takeWhile_cons, List.dropWhile_cons, hy, this]

theorem unitValue_eq (us : List Char) : unitValue us = msOfUnit (String.ofList us) := by
  simp only [unitValue, msOfUnit]
  have key : ∀ l : List Char, (String.ofList us = String.ofList l) ↔ us = l := by
    intro l
    exact String.ofList_inj
  split
  · next h => subst h; rfl
  split
  · next h => subst h; rfl
  split
  · next h => subst h; rfl
  split
  · next h => subst h; rfl
  split
  · next h => subst h; rfl
  · next h1 h2 h3 h4 h5 =>
    split
    · next h => exact absurd ((key ['d']).mp h) h5
    · next h => exact absurd ((key ['h']).mp h) h4
    · next h => exact absurd ((key ['m']).mp h) h3
    · next h => exact absurd ((key ['s']).mp h) h2
    · next h => exact absurd ((key ['m', 's']).mp h) h1
    · rfl

theorem takeSign_part (p : Part) (hp : p.WellFormed) (r : List Char) :
    takeSign (p.text ++ r) = (p.neg, p.digits ++ p.unit ++ r) := by
  obtain ⟨hd, hu, hdd, huu⟩ := hp
  rcases p with ⟨neg, ds, us⟩
  dsimp only at *
  cases neg with
  | true => simp [Part.text, takeSign]
  | false =>
    cases ds with
    | nil => exact absurd rfl hd
    | cons d ds =>
      have : d ≠ '-' := by
        intro e
        have := hdd d List.mem_cons_self
        subst e
        revert this; decide
      simp only [Part.text, Bool.false_eq_true, if_false, List.nil_append, List.cons_append, takeSign]
      split
      · next h => exact absurd (by injection h) this
      · rfl

theorem findChunks_parts (parts : List Part) (hp : ∀ p ∈ parts, p.WellFormed) :
    ∀ (fuel : Nat), (parts.flatMap Part.text).length ≤ fuel →
      findChunks fuel (parts.flatMap Part.text) = parts.map (fun p => (p.neg, p.digits, p.unit)) := by
  induction parts with
  | nil => intro fuel _; cases fuel <;> rfl
  | cons p ps ih =>
    intro fuel hf
    have hw := hp p List.mem_cons_self
    have hts := takeSign_part p hw (ps.flatMap Part.text)
    obtain ⟨hd, hu, hdd, huu⟩ := id hw
    have hlen : p.text.length ≥ 2 := by
      have h1 := List.length_pos_iff.mpr hd
      have h2 := List.length_pos_iff.mpr hu
      simp only [Part.text, List.length_append]; omega
    rw [List.flatMap_cons] at hf ⊢
    have htext : ∃ c cs, p.text ++ ps.flatMap Part.text = c :: cs := by
      cases h : p.text with
      | nil => rw [h] at hlen; simp at hlen
      | cons c cs => exact ⟨c, cs ++ ps.flatMap Part.text, rfl⟩
    obtain ⟨c, cs, hc⟩ := htext
    have hhead : ∀ x, (ps.flatMap Part.text).head? = some x → isUnitChar x = false := by
      intro x hx
      cases ps with
      | nil => simp at hx
      | cons q ps =>
        have hq := hp q (by simp)
        obtain ⟨qd, qu, qdd, quu⟩ := hq
        rcases q with ⟨neg, ds, us⟩
        dsimp only at *
        rw [List.flatMap_cons] at hx
        cases neg with
        | true => simp [Part.text] at hx; subst hx; decide
        | false =>
          cases ds with
          | nil => exact absurd rfl qd
          | cons d ds =>
            simp [Part.text] at hx
            subst hx
            exact isDig_not_unit ((isDig_iff _).mpr (qdd _ List.mem_cons_self))
    have t1 := takeWhile_append_stop isDig p.digits (p.unit ++ ps.flatMap Part.text)
      (fun x hx => (isDig_iff x).mpr (hdd x hx)) (by
        intro x hx
        cases hus : p.unit with
        | nil => exact absurd hus hu
        | cons u us =>
          rw [hus] at hx
          simp at hx
          subst hx
          exact isUnitChar_not_dig ((isUnitChar_iff _).mpr (huu _ (by rw [hus]; exact List.mem_cons_self))))
    have t2 := takeWhile_append_stop isUnitChar p.unit (ps.flatMap Part.text)
      (fun x hx => (isUnitChar_iff x).mpr (huu x hx)) hhead
    cases fuel with
    | zero => simp only [List.length_append] at hf; omega
    | succ fuel =>
      rw [hc] at hts ⊢
      simp only [findChunks, hts, List.append_assoc, t1.1, t1.2, t2.1, t2.2]
      rw [if_pos ⟨hd, hu⟩, List.map_cons]
      congr 1
      apply ih (fun q hq => hp q (List.mem_cons_of_mem _ hq))
      simp only [List.length_append] at hf; omega

theorem plainValue_parts (parts : List Part) (hp : ∀ p ∈ parts, p.WellFormed) :
    plainValue (parts.flatMap Part.text) = 0 := by
  cases parts with
  | nil => rfl
  | cons p ps =>
    have hw := hp p List.mem_cons_self
    have hts := takeSign_part p hw (ps.flatMap Part.text)
    obtain ⟨hd, hu, hdd, huu⟩ := hw
    simp only [plainValue, List.flatMap_cons, hts]
    rw [if_neg]
    rintro ⟨_, h⟩
    rw [List.all_eq_true] at h
    cases hus : p.unit with
    | nil => exact hu hus
    | cons u us =>
      have h1 := h u (by rw [hus]; simp)
      have h2 := isUnitChar_not_dig ((isUnitChar_iff _).mpr (huu u (by rw [hus]; exact List.mem_cons_self)))
      rw [h1] at h2; exact absurd h2 (by decide)

/-- **C44**: a text made of amounts with units, however spaced, stands for the sum of its
parts: each amount times the milliseconds of its unit, an unknown unit counting for nothing -/
theorem C44_parse_adds_parts (parts : List Part) (hp : ∀ p ∈ parts, p.WellFormed)
    (text : List Char) (ht : text.filter (fun c => !isSpaceChar c) = parts.flatMap Part.text) :
    (parseMsStr text).ms = (parts.map (fun p => p.amount * msOfUnit (String.ofList p.unit))).sum := by
  have hz : ∀ n : Int, toZero (n : Rat) = n := by
    intro n
    simp only [toZero]
    split
    · simp
    · rw [show -(n : Rat) = ((-n : Int) : Rat) by push_cast; ring, Int.floor_intCast]; ring
  simp only [parseMsStr, C44_parts_recompose, durationTotal, ht, hz]
  rw [plainValue_parts parts hp, findChunks_parts parts hp _ (Nat.le_refl _), List.map_map, zero_add]
  congr 1
  apply List.map_congr_left
  intro p hpm
  obtain ⟨_, _, hdd, _⟩ := hp p hpm
  simp only [Function.comp, signedValue, unitValue_eq, Part.amount,
    digitsValue_eq p.digits (fun c hc => (isDig_iff c).mpr (hdd c hc))]

/-- **C44**: a text that is only a number, however spaced, stands for that many milliseconds -/
theorem C44_parse_plain (neg : Bool) (ds : List Char) (hne : ds ≠ [])
    (hd : ∀ c ∈ ds, c ∈ ['0', '1', '2', '3', '4', '5', '6', '7', '8', '9'])
    (text : List Char)
    (ht : text.filter (fun c => !isSpaceChar c) = (if neg then ['-'] else []) ++ ds) :
    (parseMsStr text).ms = Part.amount ⟨neg, ds, []⟩ := by
  have hz : ∀ n : Int, toZero (n : Rat) = n := by
    intro n
    simp only [toZero]
    split
    · simp
    · rw [show -(n : Rat) = ((-n : Int) : Rat) by push_cast; ring, Int.floor_intCast]; ring
  have hd' : ∀ c ∈ ds, isDig c = true := fun c hc => (isDig_iff c).mpr (hd c hc)
  have hts : takeSign ((if neg then ['-'] else []) ++ ds) = (neg, ds) := by
    cases neg with
    | true => simp [takeSign]
    | false =>
      cases ds with
      | nil => exact absurd rfl hne
      | cons d ds =>
        have : d ≠ '-' := by
          intro e
          have := hd d List.mem_cons_self
          subst e
          revert this; decide
        simp only [Bool.false_eq_true, if_false, List.nil_append, takeSign]
        split
        · next h => exact absurd (by injection h) this
        · rfl
  have nochunk : ∀ (fuel : Nat) (cs : List Char), (∀ c ∈ cs, isUnitChar c = false) → findChunks fuel cs = [] := by
    intro fuel
    induction fuel with
    | zero => intro cs _; cases cs <;> rfl
    | succ fuel ih =>
      intro cs hcs
      cases cs with
      | nil => rfl
      | cons c cs =>
        rw [findChunks, if_neg, ih cs (fun x hx => hcs x (List.mem_cons_of_mem _ hx))]
        rintro ⟨_, h⟩
        apply h
        have hsub : ∀ x ∈ ((takeSign (c :: cs)).2.dropWhile isDig), isUnitChar x = false := by
          intro x hx
          have h1 := (List.dropWhile_sublist _).mem hx
          have h2 : x ∈ c :: cs := by
            unfold takeSign at h1
            split at h1
            · next heq => rw [heq]; exact List.mem_cons_of_mem _ h1
            · exact h1
          exact hcs x h2
        cases hr : ((takeSign (c :: cs)).2.dropWhile isDig) with
        | nil => rfl
        | cons x xs =>
          have := hsub x (by rw [hr]; exact List.mem_cons_self)
          simp [List.takeWhile_cons, this]
  simp only [parseMsStr, C44_parts_recompose, durationTotal, ht, hz]
  rw [nochunk]
  · simp only [plainValue, hts]
    rw [if_pos ⟨hne, List.all_eq_true.mpr hd'⟩]
    simp only [signedValue, Part.amount, digitsValue_eq ds hd', List.map_nil, List.sum_nil, add_zero]
  · intro c hc
    rcases List.mem_append.mp hc with h | h
    · cases neg with
      | true => simp at h; subst h; decide
      | false => simp at h
    · exact isDig_not_unit (hd' c h)

/-- "1d 2h -30s 5 ms", and a number by itself -/
example : (parseMsStr "1d 2h -30s 5 ms".toList).ms = 86400000 + 2 * 3600000 - 30000 + 5
    ∧ (parseMsStr "-1 500".toList).ms = -1500 := by decide +kernel

/-- a decimal point is not understood: what comes before it is an amount without a known unit -/
theorem C44_decimal_point_misread : (parseMsStr "1.5h".toList).ms = 5 * 3600000 := by decide +kernel

/-- a number without unit after a part is left out -/
theorem C44_trailing_number_dropped : (parseMsStr "1h30".toList).ms = 3600000 := by decide +kernel

/-! ### Formatting -/

/-- how many milliseconds a unit has -/
def TimeUnit.inMs : TimeUnit → Rat
  | .year => 365 * 24 * 60 * 60 * 1000
  | .day => 24 * 60 * 60 * 1000
  | .hour => 60 * 60 * 1000
  | .minute => 60 * 1000
  | .second => 1000
  | .millisecond => 1
  | .microsecond => 1 / 1000
  | .nanosecond => 1 / 1000000

/-- what a list of amounts with units stands for, in milliseconds -/
def inMs (l : List (Rat × TimeUnit)) : Rat := (l.map (fun p => p.1 * p.2.inMs)).sum

theorem addPart_eq (v : Rat) (u : TimeUnit) (ret : List (Rat × TimeUnit)) :
    addPart v u ret = ret ++ [(v, u)].filter (fun p => decide (p.1 ≠ 0)) := by
  by_cases h : v = 0 <;> simp [addPart, h]

theorem inMs_append (l r : List (Rat × TimeUnit)) : inMs (l ++ r) = inMs l + inMs r := by
  simp [inMs]

theorem inMs_addPart (v : Rat) (u : TimeUnit) (ret : List (Rat × TimeUnit)) :
    inMs (addPart v u ret) = inMs ret + v * u.inMs := by
  by_cases h : v = 0 <;> simp [addPart, h, inMs]

/-- what is listed is a selection of amounts of distinct units, the greater unit first -/
theorem prettyParts_filter (o : PrettyOptions) (ms : Rat) :
    ∃ l : List (Rat × TimeUnit), prettyParts o ms = l.filter (fun p => decide (p.1 ≠ 0))
      ∧ l.Pairwise (fun a b => b.2.inMs < a.2.inMs) := by
  have pw : ∀ a b c d e f g h : Rat, [(a, TimeUnit.year), (b, .day), (c, .hour), (d, .minute), (e, .second),
      (f, .millisecond), (g, .microsecond), (h, .nanosecond)].Pairwise (fun a b => b.2.inMs < a.2.inMs) := by
    intros
    simp only [List.pairwise_cons, List.mem_cons, List.not_mem_nil, or_false, forall_eq_or_imp, forall_eq, TimeUnit.inMs]
    norm_num
  simp only [prettyParts]
  split
  · split
    · exact ⟨_, by simp only [addPart_eq, List.nil_append, ← List.filter_append, List.cons_append]; rfl,
        pw _ _ _ _ _ _ _ _⟩
    · exact ⟨_, by simp only [addPart_eq, List.nil_append, ← List.filter_append, List.cons_append]; rfl,
        (pw _ _ _ _ _ _ 0 0).sublist (List.sublist_append_left [_, _, _, _, _, _] [_, _])⟩
  · exact ⟨_, by simp only [addPart_eq, List.nil_append, ← List.filter_append, List.cons_append]; rfl,
        (pw _ _ _ _ _ 0 0 0).sublist (List.sublist_append_left [_, _, _, _, _] [_, _, _])⟩

theorem prettyShown_sublist (o : PrettyOptions) (ms : Rat) : (prettyShown o ms).Sublist (prettyParts o ms) := by
  simp only [prettyShown]
  split
  · exact List.take_sublist _ _
  · split
    · exact List.take_sublist _ _
    · exact List.Sublist.refl _

/-- **C44**: whatever the options and the number, the units are shown from the greatest to the
least, none twice and none with an amount of 0 -/
theorem C44_units_in_order (o : PrettyOptions) (ms : Rat) :
    (prettyShown o ms).Pairwise (fun a b => b.2.inMs < a.2.inMs) ∧ ∀ p ∈ prettyShown o ms, p.1 ≠ 0 := by
  obtain ⟨l, hl, hp⟩ := prettyParts_filter o ms
  have hs := prettyShown_sublist o ms
  rw [hl] at hs
  refine ⟨(hp.sublist List.filter_sublist).sublist hs, ?_⟩
  intro p hpm
  have := List.mem_filter.mp (hs.subset hpm)
  simpa using this.2

/-- years and days make up the days -/
theorem years_days (d : Int) : ((toZero ((d : Rat) / 365) : Int) : Rat) * 365 + decRem d 365 = d := by
  simp only [decRem]; ring

/-- the amounts down to minutes -/
theorem head_total (q : Rat) :
    ((toZero (((parseMs q).days : Rat) / 365) : Int) : Rat) * (365 * 24 * 60 * 60 * 1000)
      + decRem (parseMs q).days 365 * (24 * 60 * 60 * 1000) + ((parseMs q).hours : Rat) * (60 * 60 * 1000)
      + ((parseMs q).minutes : Rat) * (60 * 1000)
    = (toZero q : Rat) - ((parseMs q).seconds : Rat) * 1000 - ((parseMs q).milliseconds : Rat) := by
  have h1 := years_days (parseMs q).days
  have h2 := congrArg (fun n : Int => (n : Rat)) (C44_parts_recompose q)
  simp only [Ms.ms] at h2
  push_cast at h2
  linarith

theorem roundHalfEven_near (q : Rat) : |(roundHalfEven q : Rat) - q| ≤ 1 / 2 := by
  have h1 := Int.floor_le q
  have h2 := Int.lt_floor_add_one q
  simp only [roundHalfEven]
  rw [abs_le]
  split
  · constructor <;> linarith
  · split
    · push_cast; constructor <;> linarith
    · split
      · constructor <;> linarith
      · push_cast; constructor <;> linarith

theorem fixed_near (q : Rat) (k : Nat) : |fixed q k - q| ≤ 1 / 2 / 10 ^ k := by
  have hk : (0 : Rat) < 10 ^ k := by positivity
  have h := roundHalfEven_near (q * 10 ^ k)
  have e : fixed q k - q = ((roundHalfEven (q * 10 ^ k) : Rat) - q * 10 ^ k) / 10 ^ k := by
    simp only [fixed]; field_simp
  rw [e, abs_div, abs_of_pos hk]
  exact div_le_div_of_nonneg_right h hk.le

/-- with sub-millisecond units -/
theorem sub_total {q : Rat} (h : 0 ≤ q) :
    (toZero q : Rat) + ((parseMs q).microseconds : Rat) / 1000 + ((parseMs q).nanoseconds : Rat) / 1000000
      = (⌊q * 1000000⌋ : Rat) / 1000000 := by
  rw [parseMs_nonneg h, toZero_nonneg h]
  have f1 := floor_div (q * 1000000) 1000 (by decide)
  have f2 := floor_div (q * 1000000) 1000000 (by decide)
  push_cast at f1 f2
  rw [show q * 1000000 / 1000 = q * 1000 by ring] at f1
  rw [show q * 1000000 / 1000000 = q by ring] at f2
  dsimp only
  rw [f1, f2]
  generalize ⌊q * 1000000⌋ = K
  have : K / 1000000 * 1000000 + K / 1000 % 1000 * 1000 + K % 1000 = K := by omega
  have := congrArg (fun n : Int => (n : Rat)) this
  push_cast at this
  linarith

/-- what the amounts of `pretty_ms` add up to, for the number it splits -/
theorem parts_total {q ms : Rat} (o : PrettyOptions) (hq : roundUpMs o ms = q) (h : 0 ≤ q) :
    (o.formatSubMs = true → inMs (prettyParts o ms) = (⌊q * 1000000⌋ : Rat) / 1000000)
    ∧ (o.formatSubMs = false → o.separateMs = true ∨ q < 1000 →
        inMs (prettyParts o ms) = (⌈(⌊q * 1000000⌋ : Rat) / 1000000⌉ : Int))
    ∧ (o.formatSubMs = false → o.separateMs = false → ¬ q < 1000 →
        inMs (prettyParts o ms) = q - decRem (q / 1000) 60 * 1000
          + fixed (decRem (q / 1000) 60) (if o.compact then 0 else o.secDigits) * 1000) := by
  have hh := head_total q
  have hs := sub_total h
  refine ⟨?_, ?_, ?_⟩
  · intro hf
    simp only [prettyParts, hq, hf, true_or, or_true, if_true, inMs_addPart, TimeUnit.inMs]
    simp only [inMs, List.map_nil, List.sum_nil]
    linarith
  · intro hf hsep
    simp only [prettyParts, hq, hf, Bool.false_eq_true, false_or, if_false]
    rw [if_pos hsep]
    simp only [inMs_addPart, TimeUnit.inMs]
    simp only [inMs, List.map_nil, List.sum_nil]
    have e : (⌊q * 1000000⌋ : Rat) / 1000000
        = ((toZero q - (parseMs q).milliseconds : Int) : Rat)
          + (((parseMs q).milliseconds : Rat) + ((parseMs q).microseconds : Rat) / 1000
            + ((parseMs q).nanoseconds : Rat) / 1000000) := by
      push_cast; linarith
    rw [e, Int.ceil_intCast_add]
    push_cast
    linarith
  · intro hf hsep hlt
    simp only [prettyParts, hq, hf, hsep, Bool.false_eq_true, false_or, if_false, hlt, inMs_addPart, TimeUnit.inMs]
    simp only [inMs, List.map_nil, List.sum_nil]
    have key : (toZero q : Rat) - ((parseMs q).seconds : Rat) * 1000 - ((parseMs q).milliseconds : Rat)
        = q - decRem (q / 1000) 60 * 1000 := by
      have hd := (decRem_nonneg (q := q / 1000) (n := 60) (by decide) (by positivity)).2.2
      have f4 := floor_div q 1000 (by decide)
      push_cast at hd f4
      rw [hd, f4, parseMs_nonneg h, toZero_nonneg h]
      dsimp only
      have : ⌊q⌋ - ⌊q⌋ / 1000 % 60 * 1000 - ⌊q⌋ % 1000 = ⌊q⌋ / 1000 / 60 * 60000 := by omega
      have := congrArg (fun n : Int => (n : Rat)) this
      push_cast at this
      linarith
    linarith

theorem near_floor (q : Rat) : 0 ≤ q - (⌊q * 1000000⌋ : Rat) / 1000000 ∧ q - (⌊q * 1000000⌋ : Rat) / 1000000 < 1 / 1000000 := by
  have h1 := Int.floor_le (q * 1000000)
  have h2 := Int.lt_floor_add_one (q * 1000000)
  constructor <;> linarith

theorem near_ceil (q : Rat) : |((⌈(⌊q * 1000000⌋ : Rat) / 1000000⌉ : Int) : Rat) - q| < 1 := by
  obtain ⟨h1, h2⟩ := near_floor q
  generalize hx : (⌊q * 1000000⌋ : Rat) / 1000000 = x at *
  have h3 := Int.le_ceil x
  have h4 := Int.ceil_lt_add_one x
  rw [abs_lt]
  constructor <;> linarith

/-- **C44**: the amounts listed for a duration add up to it: cut to whole nanoseconds if these
are asked for, to less than a millisecond if milliseconds are separate, and otherwise to half
of the last decimal shown of the seconds -/
theorem C44_amounts_add_up (o : PrettyOptions) (ms : Rat) (h : 0 ≤ ms) (hc : o.compact = false)
    (hd : 1 ≤ o.secDigits) :
    (o.formatSubMs = true →
        0 ≤ ms - inMs (prettyParts o ms) ∧ ms - inMs (prettyParts o ms) < 1 / 1000000)
    ∧ (o.separateMs = true ∨ ms < 1000 → |inMs (prettyParts o ms) - ms| < 1)
    ∧ (|inMs (prettyParts o ms) - ms| ≤ 500 / 10 ^ o.secDigits ∨ |inMs (prettyParts o ms) - ms| < 1) := by
  have hq : roundUpMs o ms = ms := by
    simp only [roundUpMs, hc, Bool.false_eq_true, if_false]
    rw [if_neg (by omega)]
  obtain ⟨t1, t2, t3⟩ := parts_total o hq h
  have sub1 : o.formatSubMs = true →
      0 ≤ ms - inMs (prettyParts o ms) ∧ ms - inMs (prettyParts o ms) < 1 / 1000000 := by
    intro hf
    rw [t1 hf]
    exact near_floor ms
  have sub2 : o.separateMs = true ∨ ms < 1000 → |inMs (prettyParts o ms) - ms| < 1 := by
    intro hs
    cases hf : o.formatSubMs with
    | true =>
      obtain ⟨a, b⟩ := sub1 hf
      rw [abs_lt]
      constructor <;> linarith
    | false =>
      rw [t2 hf hs]
      exact near_ceil ms
  refine ⟨sub1, sub2, ?_⟩
  by_cases hs : o.separateMs = true ∨ ms < 1000
  · exact Or.inr (sub2 hs)
  · rw [not_or] at hs
    cases hf : o.formatSubMs with
    | true =>
      obtain ⟨a, b⟩ := sub1 hf
      right
      rw [abs_lt]
      constructor <;> linarith
    | false =>
      left
      rw [t3 hf (by simpa using hs.1) hs.2]
      have := fixed_near (decRem (ms / 1000) 60) o.secDigits
      simp only [hc, Bool.false_eq_true, if_false]
      have e : ms - decRem (ms / 1000) 60 * 1000 + fixed (decRem (ms / 1000) 60) o.secDigits * 1000 - ms
          = (fixed (decRem (ms / 1000) 60) o.secDigits - decRem (ms / 1000) 60) * 1000 := by ring
      rw [e, abs_mul, abs_of_pos (by norm_num : (0 : Rat) < 1000)]
      have e2 : (500 : Rat) / 10 ^ o.secDigits = 1 / 2 / 10 ^ o.secDigits * 1000 := by ring
      rw [e2]
      exact mul_le_mul_of_nonneg_right this (by norm_num)

/-- **C44**: when seconds are shown without decimals the amounts add up to the duration to half
a second -/
theorem C44_amounts_whole_seconds (o : PrettyOptions) (ms : Rat) (h : 0 ≤ ms)
    (hd : o.compact = true ∨ o.secDigits = 0) : |inMs (prettyParts o ms) - ms| ≤ 500 := by
  have hk : (if o.compact then 0 else o.secDigits) = 0 := by
    rcases hd with hd | hd <;> simp [hd]
  obtain ⟨r0, r1, r2⟩ := decRem_nonneg (q := ms) (n := 1000) (by decide) h
  push_cast at r0 r1 r2
  by_cases hup : 1000 - decRem ms 1000 < 500
  · -- the number is a whole number of seconds
    have hq : roundUpMs o ms = ms + (1000 - decRem ms 1000) := by
      simp only [roundUpMs, hk]
      rw [if_pos (by decide), if_pos hup]
    have hsec : roundUpMs o ms = (((⌊ms⌋ / 1000 + 1) * 1000 : Int) : Rat) := by
      rw [hq, r2]; push_cast; ring
    have hn : 0 ≤ ⌊ms⌋ := Int.floor_nonneg.mpr h
    generalize hS : (⌊ms⌋ / 1000 + 1 : Int) = S at *
    have hS0 : 0 ≤ S := by omega
    have h0 : (0 : Rat) ≤ ((S * 1000 : Int) : Rat) := by exact_mod_cast (by omega : (0 : Int) ≤ S * 1000)
    have f1 : ⌊((S * 1000 : Int) : Rat) * 1000000⌋ = S * 1000 * 1000000 := by
      rw [show ((S * 1000 : Int) : Rat) * 1000000 = ((S * 1000 * 1000000 : Int) : Rat) by push_cast; ring]
      exact Int.floor_intCast _
    have exact_ : inMs (prettyParts o ms) = ((S * 1000 : Int) : Rat) := by
      obtain ⟨t1, t2, t3⟩ := parts_total o hsec h0
      rw [f1] at t1 t2
      have e1 : (((S * 1000 * 1000000 : Int)) : Rat) / 1000000 = ((S * 1000 : Int) : Rat) := by
        push_cast; ring
      cases hf : o.formatSubMs with
      | true => rw [t1 hf, e1]
      | false =>
        by_cases hs : o.separateMs = true ∨ ((S * 1000 : Int) : Rat) < 1000
        · rw [t2 hf hs, e1, Int.ceil_intCast]
        · rw [not_or] at hs
          rw [t3 hf (by simpa using hs.1) hs.2, hk]
          have e2 : ((S * 1000 : Int) : Rat) / 1000 = (S : Rat) := by push_cast; field_simp
          rw [e2]
          have e3 : decRem (S : Rat) 60 = ((S - 60 * (S / 60) : Int) : Rat) := by
            have := (decRem_nonneg (q := (S : Rat)) (n := 60) (by decide) (by exact_mod_cast hS0)).2.2
            rw [Int.floor_intCast] at this
            push_cast at this ⊢
            rw [this]
          have e4 : ∀ n : Int, fixed (n : Rat) 0 = n := by
            intro n; simp [fixed, roundHalfEven]
          rw [e3, e4]; ring
    rw [exact_]
    have e : ((S * 1000 : Int) : Rat) = ms + (1000 - decRem ms 1000) := by rw [← hq, hsec]
    rw [e, abs_le]
    constructor <;> linarith
  · have hq : roundUpMs o ms = ms := by
      simp only [roundUpMs, hk]
      rw [if_pos (by decide), if_neg hup]
    obtain ⟨t1, t2, t3⟩ := parts_total o hq h
    cases hf : o.formatSubMs with
    | true =>
      rw [t1 hf]
      have := near_floor ms
      rw [abs_le]
      constructor <;> linarith
    | false =>
      by_cases hs : o.separateMs = true ∨ ms < 1000
      · rw [t2 hf hs]
        have := near_ceil ms
        linarith
      · rw [not_or] at hs
        rw [t3 hf (by simpa using hs.1) hs.2, hk]
        have := fixed_near (decRem (ms / 1000) 60) 0
        have e : ms - decRem (ms / 1000) 60 * 1000 + fixed (decRem (ms / 1000) 60) 0 * 1000 - ms
            = (fixed (decRem (ms / 1000) 60) 0 - decRem (ms / 1000) 60) * 1000 := by ring
        rw [e, abs_mul, abs_of_pos (by norm_num : (0 : Rat) < 1000)]
        simp only [pow_zero, div_one] at this
        linarith

/-- an hour, two minutes and 3.456 seconds, in four ways -/
example : prettyParts {} 3723456 = [(1, .hour), (2, .minute), (35 / 10, .second)]
    ∧ prettyParts { separateMs := true } 3723456 = [(1, .hour), (2, .minute), (3, .second), (456, .millisecond)]
    ∧ prettyParts { formatSubMs := true } (3723456 + 1 / 2) =
        [(1, .hour), (2, .minute), (3, .second), (456, .millisecond), (500, .microsecond)]
    ∧ prettyMs { compact := true } 3723456 = "~1h".toList
    ∧ prettyMs {} 3723456 = "1h 2m 3.5s".toList
    ∧ prettyMs { verbose := true, secDigits := 2 } 3723456 = "1 hour 2 minutes 3.46 seconds".toList := by
  decide +kernel

/-- seconds are rounded without carrying into the minutes -/
theorem C44_sixty_seconds_shown : prettyMs {} 59960 = "60s".toList ∧ prettyMs {} 119960 = "1m 60s".toList := by
  decide +kernel

/-- nothing at all is shown as a unit without a number -/
theorem C44_zero_has_no_number : prettyMs {} 0 = "ms".toList := by decide +kernel

/-! ### Reading what was written -/

theorem filter_intercalate (xs : List (List Char)) (f : Char → Bool) (hf : f ' ' = false) :
    ([' '].intercalate xs).filter f = xs.flatMap (fun x => x.filter f) := by
  induction xs with
  | nil => rfl
  | cons x xs ih =>
    cases xs with
    | nil => simp [List.intercalate, List.intersperse]
    | cons y ys =>
      have e : [' '].intercalate (x :: y :: ys) = x ++ [' '] ++ [' '].intercalate (y :: ys) := by
        simp [List.intercalate, List.intersperse]
      rw [e, List.filter_append, List.filter_append, ih]
      simp [hf]

theorem numText_nat (n k : Nat) : numText (n : Rat) k = Nat.toDigits 10 n := by
  have h0 : ¬ ((n : Rat) < 0) := by exact_mod_cast Nat.not_lt_zero n
  have e : (⌊|(n : Rat)| * 10 ^ k⌋).toNat = n * 10 ^ k := by
    rw [abs_of_nonneg (by exact_mod_cast Nat.zero_le n)]
    rw [show (n : Rat) * 10 ^ k = ((n * 10 ^ k : Nat) : Rat) by push_cast; ring, Int.floor_natCast]
    exact Int.toNat_natCast _
  have hk : 0 < 10 ^ k := Nat.pow_pos (by decide)
  simp only [numText, e, h0, if_false, List.nil_append, Nat.mul_mod_left, if_true, List.append_nil,
    Nat.mul_div_cancel _ hk]

theorem toDigits_digit {n : Nat} {c : Char} (h : c ∈ Nat.toDigits 10 n) : isDig c = true := by
  have := Nat.isDigit_of_mem_toDigits (b := 10) (by decide) (by decide) h
  simp only [Char.isDigit, ge_iff_le, UInt32.le_iff_toNat_le, Bool.and_eq_true, decide_eq_true_eq] at this
  simp only [isDig, Bool.and_eq_true, decide_eq_true_eq]
  exact this

/-- `separate_ms`, or less than a second: the amounts are whole numbers of days, hours,
minutes, seconds and milliseconds -/
theorem whole_parts (o : PrettyOptions) (n : Nat) (hc : o.compact = false) (hd : 1 ≤ o.secDigits)
    (hf : o.formatSubMs = false) (hs : o.separateMs = true ∨ n < 1000) (hn : n < 365 * 86400000) :
    ∀ p ∈ prettyParts o n, (∃ k : Nat, p.1 = k)
      ∧ p.2 ∈ [TimeUnit.day, .hour, .minute, .second, .millisecond] := by
  have h0 : (0 : Rat) ≤ n := by exact_mod_cast Nat.zero_le n
  have hq : roundUpMs o n = n := by
    simp only [roundUpMs, hc, Bool.false_eq_true, if_false]
    rw [if_neg (by omega)]
  have hs' : o.separateMs = true ∨ (n : Rat) < 1000 := by
    rcases hs with h | h
    · exact Or.inl h
    · exact Or.inr (by exact_mod_cast h)
  have hfl : ⌊(n : Rat)⌋ = (n : Int) := Int.floor_natCast n
  have hp := parseMs_nonneg h0
  rw [hfl] at hp
  have e1 : ⌊(n : Rat) * 1000⌋ = (n : Int) * 1000 := by
    rw [show (n : Rat) * 1000 = ((n * 1000 : Int) : Rat) by push_cast; ring]; exact Int.floor_intCast _
  have e2 : ⌊(n : Rat) * 1000000⌋ = (n : Int) * 1000000 := by
    rw [show (n : Rat) * 1000000 = ((n * 1000000 : Int) : Rat) by push_cast; ring]; exact Int.floor_intCast _
  have hday : (n : Int) / 86400000 < 365 := by omega
  have hday0 : 0 ≤ (n : Int) / 86400000 := by omega
  have hy : toZero ((((n : Int) / 86400000 : Int) : Rat) / 365) = 0 := by
    rw [toZero_nonneg (by positivity)]
    have := floor_div (((n : Int) / 86400000 : Int) : Rat) 365 (by decide)
    push_cast at this
    rw [this, Int.floor_intCast]
    omega
  have hdd : decRem (((n : Int) / 86400000 : Int) : Rat) 365 = (((n : Int) / 86400000 : Int) : Rat) := by
    have := years_days ((n : Int) / 86400000)
    rw [hy] at this
    simpa using this
  have nat_of : ∀ z : Int, 0 ≤ z → ∃ k : Nat, (z : Rat) = k := by
    intro z hz
    obtain ⟨k, rfl⟩ := Int.eq_ofNat_of_zero_le hz
    exact ⟨k, by push_cast; rfl⟩
  intro p hpm
  simp only [prettyParts, hq, hf, Bool.false_eq_true, false_or, if_false] at hpm
  rw [if_pos hs', hp] at hpm
  dsimp only at hpm
  rw [hy, hdd, e1, e2] at hpm
  have hceil : ⌈(((n : Int) % 1000 : Int) : Rat) + (((n : Int) * 1000 % 1000 : Int) : Rat) / 1000
      + (((n : Int) * 1000000 % 1000 : Int) : Rat) / 1000000⌉ = (n : Int) % 1000 := by
    have z1 : (n : Int) * 1000 % 1000 = 0 := by omega
    have z2 : (n : Int) * 1000000 % 1000 = 0 := by omega
    rw [z1, z2]
    simp only [Int.cast_zero, zero_div, add_zero]
    exact Int.ceil_intCast _
  rw [hceil] at hpm
  simp only [addPart_eq, List.nil_append, List.mem_append, List.mem_filter, List.mem_cons, List.not_mem_nil,
    or_false, decide_eq_true_eq] at hpm
  rcases hpm with (((((⟨h, h2⟩ | ⟨h, _⟩) | ⟨h, _⟩) | ⟨h, _⟩) | ⟨h, _⟩) | ⟨h, _⟩)
  · rw [h] at h2; simp at h2
  all_goals subst h; exact ⟨nat_of _ (by omega), by simp⟩

/-- **C44**: a whole number of milliseconds of less than a year, written with separate
milliseconds, is read back as the same number -/
theorem C44_written_reads_back (o : PrettyOptions) (n : Nat) (hc : o.compact = false) (hd : 1 ≤ o.secDigits)
    (hv : o.verbose = false) (hu : o.unitCount = none) (hf : o.formatSubMs = false)
    (hs : o.separateMs = true ∨ n < 1000) (hn : n < 365 * 86400000) :
    (parseMsStr (prettyMs o n)).ms = n := by
  have hw := whole_parts o n hc hd hf hs hn
  have hsum : inMs (prettyParts o n) = n := by
    have h0 : (0 : Rat) ≤ n := by exact_mod_cast Nat.zero_le n
    have hq : roundUpMs o n = n := by
      simp only [roundUpMs, hc, Bool.false_eq_true, if_false]
      rw [if_neg (by omega)]
    have hs' : o.separateMs = true ∨ (n : Rat) < 1000 := by
      rcases hs with h | h
      · exact Or.inl h
      · exact Or.inr (by exact_mod_cast h)
    rw [(parts_total o hq h0).2.1 hf hs']
    rw [show (n : Rat) * 1000000 = ((n * 1000000 : Int) : Rat) by push_cast; ring, Int.floor_intCast]
    rw [show (((n : Int) * 1000000 : Int) : Rat) / 1000000 = ((n : Int) : Rat) by push_cast; field_simp,
      Int.ceil_intCast]
    simp
  by_cases hnil : prettyParts o n = []
  · rw [hnil] at hsum
    have hz : n = 0 := by
      simp only [inMs, List.map_nil, List.sum_nil] at hsum
      exact_mod_cast hsum.symm
    have e : prettyMs o n = "ms".toList := by
      simp only [prettyMs, hnil, if_true, hv, Bool.false_eq_true, if_false]
    rw [e, hz]
    decide +kernel
  · generalize hL : prettyParts o n = L at *
    have hshow : prettyMs o n = [' '].intercalate (L.map (partText o)) := by
      simp only [prettyMs, prettyShown, hL, hnil, if_false, hc, hu, Bool.false_eq_true]
      simp
    let toPart : Rat × TimeUnit → Part := fun p => ⟨false, Nat.toDigits 10 (⌊p.1⌋.toNat), p.2.short.toList⟩
    have htext : ∀ p ∈ L, partText o p = (toPart p).text
        ∧ (partText o p).filter (fun c => !isSpaceChar c) = (toPart p).text ∧ (toPart p).WellFormed
        ∧ ((toPart p).amount * msOfUnit (String.ofList (toPart p).unit) : Int) = p.1 * p.2.inMs := by
      intro p hp
      obtain ⟨⟨k, hk⟩, hunit⟩ := hw p hp
      rcases p with ⟨v, u⟩
      dsimp only at hk hunit
      subst hk
      have htp : toPart ((k : Rat), u) = ⟨false, Nat.toDigits 10 k, u.short.toList⟩ := by
        simp only [toPart, Int.floor_natCast, Int.toNat_natCast]
      have e1 : partText o ((k : Rat), u) = (toPart ((k : Rat), u)).text := by
        rw [htp]
        simp only [partText, numText_nat, hv, Bool.false_eq_true, if_false, Part.text, List.nil_append]
      have hun : ∀ c ∈ u.short.toList, isSpaceChar c = false ∧ c ∉ ['-', '0', '1', '2', '3', '4', '5', '6', '7', '8', '9'] := by
        cases u <;> decide
      have hdg : ∀ c ∈ Nat.toDigits 10 k, isSpaceChar c = false ∧ c ∈ ['0', '1', '2', '3', '4', '5', '6', '7', '8', '9'] := by
        intro c hcm
        have h1 := (isDig_iff c).mp (toDigits_digit hcm)
        refine ⟨?_, h1⟩
        have : ∀ c ∈ ['0', '1', '2', '3', '4', '5', '6', '7', '8', '9'], isSpaceChar c = false := by decide
        exact this c h1
      refine ⟨e1, ?_, ?_, ?_⟩
      · rw [e1, htp]
        simp only [Part.text, Bool.false_eq_true, if_false, List.nil_append]
        rw [List.filter_eq_self]
        intro c hcm
        rcases List.mem_append.mp hcm with h | h
        · rw [(hdg c h).1]; rfl
        · rw [(hun c h).1]; rfl
      · rw [htp]
        refine ⟨?_, ?_, fun c h => (hdg c h).2, fun c h => (hun c h).2⟩
        · dsimp only
          intro hn
          have := Nat.length_toDigits_pos (b := 10) (n := k)
          rw [hn] at this
          simp at this
        · dsimp only
          cases u <;> decide
      · rw [htp]
        simp only [Part.amount, Bool.false_eq_true, if_false, Nat.ofDigitChars_ten_toDigits]
        simp only [List.mem_cons, List.not_mem_nil, or_false] at hunit
        rcases hunit with h | h | h | h | h <;> subst h <;> 
          simp [msOfUnit, TimeUnit.short, TimeUnit.inMs] <;> norm_num
    have key := C44_parse_adds_parts (L.map toPart)
      (by
        intro p hp
        obtain ⟨q, hq, rfl⟩ := List.mem_map.mp hp
        exact (htext q hq).2.2.1)
      (prettyMs o n)
      (by
        rw [hshow, filter_intercalate _ _ (by decide), List.flatMap_map, List.flatMap_map]
        simp only [List.flatMap]
        congr 1
        apply List.map_congr_left
        intro p hp
        exact (htext p hp).2.1)
    rw [key, List.map_map]
    have cast_eq : ((((L.map ((fun p => p.amount * msOfUnit (String.ofList p.unit)) ∘ toPart)).sum : Int)) : Rat) = n := by
      rw [← hsum, inMs]
      have : ∀ M : List (Rat × TimeUnit), (∀ p ∈ M, p ∈ L) →
          (((M.map ((fun p => p.amount * msOfUnit (String.ofList p.unit)) ∘ toPart)).sum : Int) : Rat)
            = (M.map (fun p => p.1 * p.2.inMs)).sum := by
        intro M
        induction M with
        | nil => intro _; simp
        | cons p M ih =>
          intro hM
          have h1 := (htext p (hM p List.mem_cons_self)).2.2.2
          have h2 := ih (fun q hq => hM q (List.mem_cons_of_mem _ hq))
          rw [List.map_cons, List.sum_cons, List.map_cons, List.sum_cons, Int.cast_add, h2]
          rw [← h1]; rfl
      exact this L (fun p hp => hp)
    exact_mod_cast cast_eq

example : prettyMs { separateMs := true } 3723456 = "1h 2m 3s 456ms".toList
    ∧ (parseMsStr "1h 2m 3s 456ms".toList).ms = 3723456 := by decide +kernel

end Dp
