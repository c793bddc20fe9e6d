import Verif.Props.MeansFilter
import Verif.Props.Satisfied

/-
C64: what an assertion of an area file expects, in terms of the text of the file.
-/
namespace Dp

/-! ### Specification -/

/-- the number written behind an operator -/
inductive NumberWritten (c : Constants) : Y → Rat → Prop
  | whole (n : Int) : NumberWritten c (.int n) n
  | named {s : String} {n : Int} : TextStands c s (.int n) → NumberWritten c (.str s) n
  | text {s t : String} {q : Rat} : TextStands c s (.str t) → DecimalText t.toList q → NumberWritten c (.str s) q

/-- the amount of a change -/
inductive AmountWritten : Y → Rat → Prop
  | whole (n : Int) : AmountWritten (.int n) n
  | text {s : String} {q : Rat} : DecimalText s.toList q → AmountWritten (.str s) q

/-- `ChangedBy x es y q r`: the change `y`, as it is written, makes `r` of the number `q`.  A change whose condition does
not hold for the student makes no difference. -/
inductive ChangedBy (x : Ctx) (es : List Exc) : Y → Rat → Rat → Prop
  | skipped {cond action : Y} {q : Rat} : Decides x es cond false → ChangedBy x es (.list [cond, action]) q q
  | add {cond amount : Y} {q k : Rat} : Decides x es cond true → AmountWritten amount k →
      ChangedBy x es (.list [cond, .map [("add", amount)]]) q (q + k)
  | subtract {cond amount : Y} {q k : Rat} : Decides x es cond true → AmountWritten amount k →
      ChangedBy x es (.list [cond, .map [("subtract", amount)]]) q (q - k)
  | set {cond amount : Y} {q k : Rat} : Decides x es cond true → AmountWritten amount k →
      ChangedBy x es (.list [cond, .map [("set", amount)]]) q k

/-- all changes, one after the other -/
inductive ChangedByAll (x : Ctx) (es : List Exc) : List Y → Rat → Rat → Prop
  | nil (q : Rat) : ChangedByAll x es [] q q
  | cons {y : Y} {ys : List Y} {q r s : Rat} : ChangedBy x es y q r → ChangedByAll x es ys r s → ChangedByAll x es (y :: ys) q s

/-- the changes that a comparison lists -/
def ChangesListed (d : Dict) (l : List Y) : Prop :=
  (d.get? "$changes" = none ∧ l = []) ∨ (d.get? "$changes" = some (.map []) ∧ l = []) ∨ d.get? "$changes" = some (.list l)

/-- `v` is the number of the first value exception at the path -/
def FirstValueAt (es : List Exc) (p : Path) (v : Rat) : Prop :=
  ∃ before after, es = before ++ ⟨p, .value v⟩ :: after ∧ ∀ w, ⟨p, .value w⟩ ∉ before

/-- `Expects x es c p d raw v`: the comparison `d` of the assertion at `p`, with `raw` behind its operator, expects the
number `v`: that of the first value exception at the path, or else the written number with the changes made to it -/
def Expects (x : Ctx) (es : List Exc) (c : Constants) (p : Path) (d : Dict) (raw : Y) (v : Rat) : Prop :=
  ∃ written l changed, NumberWritten c raw written ∧ ChangesListed d l ∧ ChangedByAll x es l written changed ∧
    (FirstValueAt es p v ∨ ((∀ w, ⟨p, .value w⟩ ∉ es) ∧ v = changed))

/-- the flag is set -/
def FlagSet (d : Dict) (k : String) : Prop := d.get? k = some (.bool true)

/-- `m` is what the filter `w`, as it is written, keeps of `l` -/
def KeepsWritten (x : Ctx) (es : List Exc) (c : Constants) (w : Option Y) (l m : List Item) : Prop :=
  match w with
  | none => m = l
  | some y => ∃ f : Item → Bool, (∀ i ∈ l, Accepts x es c i y (f i)) ∧ m = l.filter f

/-- `MetAsWritten final x0 x es c t p data is`: the records `is`, of kind `t`, meet the assertion written as `data` at `p`.
Conditions in the text are about `x0`, exceptions insert courses of `x`.  If it is to hold finally, the courses not in
progress meet it alone, unless the text lets courses in progress pass. -/
def MetAsWritten (final : Bool) (x0 x : Ctx) (es : List Exc) (c : Constants) (t : DataType) (p : Path) (data : Dict)
    (is : List Item) : Prop :=
  ∃ (key : String) (d : Dict) (op : Operator) (raw : Y) (expected : Rat) (sel m : List Item) (v : Rat),
    data.get? "assert" = some (.map [(key, .map d)]) ∧ OneOperator d op raw ∧ Expects x0 es c p d raw expected ∧
    KeepsWritten x0 es c (data.opt "where") is sel ∧ MeasuredOn x es p sel m ∧
    MeasuresItems key m v ∧ NumHolds op v expected ∧
    (final = true → ¬ FlagSet d "treat_in_progress_as_pass" → t = .course → ∀ cs : List Course, m = cs.map .course →
      (∀ k ∈ cs, 0 ≤ k.credits) → key ∉ mostCommonKeys →
      ∃ w, Measures key (Completed cs) w ∧ NumHolds op w expected)

/-- a `$when` condition, as it is written, holds of the courses -/
inductive WhenHolds (cs : List Course) : Y → Prop
  | all {l : List Y} : (∀ y ∈ l, WhenHolds cs y) → WhenHolds cs (.map [("$and", .list l)])
  | any {l : List Y} {y : Y} : y ∈ l → WhenHolds cs y → WhenHolds cs (.map [("$or", .list l)])
  | has {a : String} {k : Course} : k ∈ cs → a ∈ k.attributes →
      WhenHolds cs (.map [("query-has-course-with-attribute", .str a)])
  | single {a : String} {k : Course} {before after : List Course} : cs = before ++ k :: after → a ∈ k.attributes →
      (∀ k' ∈ before ++ after, a ∉ k'.attributes) → WhenHolds cs (.map [("query-has-single-course-with-attribute", .str a)])

/-- `AsksAsWritten x es whens is p y q data`: the text `y` at the place `p` asks of the records `is` what `data` says,
whose place is `q`.  `whens`: the text may use `$when` (in queries it may, in audits it may not). -/
inductive AsksAsWritten (x : Ctx) (es : List Exc) (whens : Bool) (is : List Item) (p : Path) : Y → Path → Dict → Prop
  | plain {data : Dict} : (whens = true → data.get? "$when" = none) → data.get? "$if" = none →
      AsksAsWritten x es whens is p (.map data) (p ++ [".assert"]) data
  | thenPart {data d : Dict} {yif : Y} : (whens = true → data.get? "$when" = none) → data.get? "$if" = some yif →
      Decides x es yif true → data.get? "$then" = some (.map d) →
      AsksAsWritten x es whens is p (.map data) (p ++ ["/t", ".assert"]) d
  | elsePart {data d : Dict} {yif : Y} : (whens = true → data.get? "$when" = none) → data.get? "$if" = some yif →
      Decides x es yif false → data.opt "$else" = some (.map d) →
      AsksAsWritten x es whens is p (.map data) (p ++ ["/f", ".assert"]) d
  | whenPart {data d : Dict} {yw : Y} {cs : List Course} : whens = true → data.get? "$when" = some yw →
      is = cs.map .course → WhenHolds cs yw → data.get? "$then" = some (.map d) →
      AsksAsWritten x es whens is p (.map data) (p ++ ["/t", ".assert"]) d

/-- whatever the text asks of the records is waived or met -/
def MeetsWritten (final : Bool) (x0 x : Ctx) (es : List Exc) (c : Constants) (t : DataType) (whens : Bool) (is : List Item)
    (p : Path) (y : Y) : Prop :=
  ∀ q data, AsksAsWritten x0 es whens is p y q data → WaivedAt es q ∨ MetAsWritten final x0 x es c t q data is

/-! ### The number -/

theorem asDecimal_says {y : Y} {q : Rat} (h : y.asDecimal = .ok q) : AmountWritten y q := by
  unfold Y.asDecimal at h
  split at h
  · cases h; exact .whole _
  · split at h
    · cases h; exact .text (parseDecimal_says (by assumption))
    · cases h
  · cases h

theorem loadExpected_says {c : Constants} {y : Y} {q : Rat} (h : loadExpected c y = .ok q) : NumberWritten c y q := by
  unfold loadExpected at h
  split at h
  · cases h; exact .whole _
  · rw [ld_bind_ok] at h
    obtain ⟨v, hv, h⟩ := h
    have hv := getByName_says hv
    split at h
    · cases h; exact .named hv
    · have h := asDecimal_says h
      cases h with
      | text h => exact .text hv h
    · cases h
  all_goals cases h

theorem applyChange_says {x : Ctx} {es : List Exc} (hx : x.exceptions = groupExceptions es) {q r : Rat} {y : Y}
    (h : applyChange x q y = .ok r) : ChangedBy x es y q r := by
  unfold applyChange at h
  split at h
  · rename_i cond action
    simp only [ld_bind_ok, ld_asDict] at h
    obtain ⟨b, hb, d, rfl, h⟩ := h
    have hb := cond_decides hx _ _ hb
    split at h
    · rename_i mode amount
      simp only [ld_bind_ok, ld_check_ok] at h
      obtain ⟨_, hm, k, hk, h⟩ := h
      have hk := asDecimal_says hk
      cases b with
      | false => cases h; exact .skipped hb
      | true =>
        simp only [Bool.not_true, Bool.false_eq_true, if_false, beq_iff_eq] at h
        have hm : mode = "add" ∨ mode = "subtract" ∨ mode = "set" := by simpa using hm
        rcases hm with rfl | rfl | rfl
        · cases h; exact .add hb hk
        · cases h; exact .subtract hb hk
        · cases h; exact .set hb hk
    · cases h
  · cases h

theorem applyChanges_says {x : Ctx} {es : List Exc} (hx : x.exceptions = groupExceptions es) {q r : Rat} {l : List Y}
    (h : applyChanges x q l = .ok r) : ChangedByAll x es l q r := by
  induction l generalizing q with
  | nil => cases h; exact .nil _
  | cons y l ih =>
    rw [applyChanges, ld_bind_ok] at h
    obtain ⟨q', hq, h⟩ := h
    exact .cons (applyChange_says hx hq) (ih h)

theorem changesOf_says {d : Dict} {l : List Y} (h : changesOf d = .ok l) : ChangesListed d l := by
  unfold changesOf at h
  split at h
  · cases h; exact .inl ⟨by assumption, rfl⟩
  · cases h; exact .inr (.inr (by assumption))
  · cases h; exact .inr (.inl ⟨by assumption, rfl⟩)
  · cases h

theorem overrideValue_says {es : List Exc} {p : Path} {q : Rat} :
    FirstValueAt es p (overrideValue (groupExceptions es) p q) ∨
      ((∀ w, (⟨p, .value w⟩ : Exc) ∉ es) ∧ overrideValue (groupExceptions es) p q = q) := by
  unfold overrideValue
  rw [(C07_exact_path_first_wins es p).2.2.2]
  cases hf : es.find? (fun e => e.path == p && e.isValue) with
  | none =>
    right
    rw [List.find?_eq_none] at hf
    refine ⟨fun w hw => ?_, rfl⟩
    exact hf _ hw (by simp [Exc.isValue])
  | some e =>
    left
    obtain ⟨he, before, after, rfl, hb⟩ := List.find?_eq_some_iff_append.1 hf
    rw [Bool.and_eq_true, beq_iff_eq] at he
    obtain ⟨hp, hv⟩ := he
    obtain ⟨ep, ek⟩ := e
    cases hp
    unfold Exc.isValue at hv
    cases ek with
    | value v =>
      refine ⟨before, after, rfl, fun w hw => ?_⟩
      have := hb _ hw
      simp [Exc.isValue] at this
    | _ => cases hv

/-! ### Uniqueness -/

theorem textStands_unique {c : Constants} {s : String} {v w : ConstVal} (h : TextStands c s v) (h' : TextStands c s w) : v = w := by
  have := getByName_of h
  rw [getByName_of h'] at this
  exact (Except.ok.inj this).symm

theorem amountWritten_unique {y : Y} {q r : Rat} (h : AmountWritten y q) (h' : AmountWritten y r) : q = r := by
  cases h with
  | whole n => cases h'; rfl
  | text h => cases h' with | text h' => exact decimal_unique h h'

theorem numberWritten_unique {c : Constants} {y : Y} {q r : Rat} (h : NumberWritten c y q) (h' : NumberWritten c y r) : q = r := by
  cases h with
  | whole n => cases h'; rfl
  | named h => cases h' with
    | named h' => cases textStands_unique h h'; rfl
    | text h' _ => cases textStands_unique h h'
  | text h hd => cases h' with
    | named h' => cases textStands_unique h h'
    | text h' hd' => cases textStands_unique h h'; exact decimal_unique hd hd'

theorem changedBy_unique {x : Ctx} {es : List Exc} {y : Y} {q r r' : Rat} (h : ChangedBy x es y q r)
    (h' : ChangedBy x es y q r') : r = r' := by
  have no {cond : Y} (h1 : Decides x es cond true) (h2 : Decides x es cond false) : False := by cases decides_unique h1 h2
  cases h with
  | skipped hf => cases h' with
    | skipped _ => rfl
    | add ht _ => exact (no ht hf).elim
    | subtract ht _ => exact (no ht hf).elim
    | set ht _ => exact (no ht hf).elim
  | @add cond amount _ _ ht ha =>
    generalize hy : Y.list [cond, .map [("add", amount)]] = y at h'
    cases h' with
    | skipped hf => cases hy; exact (no ht hf).elim
    | add _ ha' => cases hy; rw [amountWritten_unique ha ha']
    | _ => simp at hy
  | @subtract cond amount _ _ ht ha =>
    generalize hy : Y.list [cond, .map [("subtract", amount)]] = y at h'
    cases h' with
    | skipped hf => cases hy; exact (no ht hf).elim
    | subtract _ ha' => cases hy; rw [amountWritten_unique ha ha']
    | _ => simp at hy
  | @set cond amount _ _ ht ha =>
    generalize hy : Y.list [cond, .map [("set", amount)]] = y at h'
    cases h' with
    | skipped hf => cases hy; exact (no ht hf).elim
    | set _ ha' => cases hy; rw [amountWritten_unique ha ha']
    | _ => simp at hy

theorem changedByAll_unique {x : Ctx} {es : List Exc} {l : List Y} {q r r' : Rat} (h : ChangedByAll x es l q r)
    (h' : ChangedByAll x es l q r') : r = r' := by
  induction h with
  | nil => cases h'; rfl
  | cons h _ ih => cases h' with
    | cons h1 h2 => cases changedBy_unique h h1; exact ih h2

theorem changesListed_unique {d : Dict} {l l' : List Y} (h : ChangesListed d l) (h' : ChangesListed d l') : l = l' := by
  rcases h with ⟨h, rfl⟩ | ⟨h, rfl⟩ | h <;> rcases h' with ⟨h', rfl⟩ | ⟨h', rfl⟩ | h' <;> rw [h] at h' <;> simp_all

theorem firstValueAt_mem {es : List Exc} {p : Path} {v : Rat} (h : FirstValueAt es p v) : (⟨p, .value v⟩ : Exc) ∈ es := by
  obtain ⟨b, a, rfl, _⟩ := h
  simp

theorem firstValueAt_unique {es : List Exc} {p : Path} {v w : Rat} (h : FirstValueAt es p v) (h' : FirstValueAt es p w) : v = w := by
  have find {v : Rat} (h : FirstValueAt es p v) : es.find? (fun e => e.path == p && e.isValue) = some ⟨p, .value v⟩ := by
    obtain ⟨b, a, rfl, hb⟩ := h
    rw [List.find?_eq_some_iff_append]
    refine ⟨by simp [Exc.isValue], b, a, rfl, fun e he => ?_⟩
    obtain ⟨ep, ek⟩ := e
    by_contra hc
    rw [Bool.not_eq_true'] at hc
    rw [Bool.not_eq_false, Bool.and_eq_true, beq_iff_eq] at hc
    obtain ⟨rfl, hv⟩ := hc
    cases ek with
    | value w => exact hb w he
    | _ => cases hv
  have := find h
  rw [find h'] at this
  cases this
  rfl

theorem oneOperator_unique {d : Dict} {op op' : Operator} {raw raw' : Y} (h : OneOperator d op raw)
    (h' : OneOperator d op' raw') : op = op' ∧ raw = raw' := by
  have := theOperator_of h
  rw [theOperator_of h'] at this
  cases this
  exact ⟨rfl, rfl⟩

/-- the text expects one number only -/
theorem expects_unique {x : Ctx} {es : List Exc} {c : Constants} {p : Path} {d : Dict} {raw : Y} {v w : Rat}
    (h : Expects x es c p d raw v) (h' : Expects x es c p d raw w) : v = w := by
  obtain ⟨wr, l, ch, h1, h2, h3, h4⟩ := h
  obtain ⟨wr', l', ch', g1, g2, g3, g4⟩ := h'
  cases numberWritten_unique h1 g1
  cases changesListed_unique h2 g2
  cases changedByAll_unique h3 g3
  rcases h4 with h4 | ⟨h4, rfl⟩ <;> rcases g4 with g4 | ⟨g4, rfl⟩
  · exact firstValueAt_unique h4 g4
  · exact absurd (firstValueAt_mem h4) (g4 _)
  · exact absurd (firstValueAt_mem g4) (h4 _)
  · rfl

/-! ### Assertions -/

theorem flag_says {d : Dict} {k : String} {b : Bool} (h : d.flag k false = .ok b) : b = true ↔ FlagSet d k := by
  unfold Dict.flag at h
  unfold FlagSet
  split at h
  · rename_i hk; cases h; simp [hk]
  · rename_i v hk; cases h; simp [hk]
  · cases h

/-- what is read from the text of an assertion -/
structure ReadAs (x : Ctx) (es : List Exc) (c : Constants) (t : DataType) (p : Path) (data : Dict) (a : Assertion) : Prop where
  path : a.path = p
  dataType : a.dataType = t
  comparison : ∃ key d raw, data.get? "assert" = some (.map [(key, .map d)]) ∧ a.key = key ∧ OneOperator d a.op raw ∧
    Expects x es c p d raw a.expected ∧ (a.atMost = true ↔ FlagSet d "at_most") ∧
    (a.treatInProgressAsPass = true ↔ FlagSet d "treat_in_progress_as_pass")
  filter : ∀ l m, SelectsItems a.where' l m → KeepsWritten x es c (data.opt "where") l m
  waived : a.overridden = true ↔ WaivedAt es p

theorem loadOptFilter_says {x : Ctx} {es : List Exc} (hx : x.exceptions = groupExceptions es) {c : Constants} {t : DataType}
    {y : Option Y} {w : Option Pred} (h : loadOptFilter x c t y = .ok w) {l m : List Item} (hs : SelectsItems w l m) :
    KeepsWritten x es c y l m := by
  unfold loadOptFilter at h
  split at h
  · cases h; exact hs
  · rw [ld_map_ok] at h
    obtain ⟨p, hp, rfl⟩ := h
    obtain ⟨f, hf, rfl⟩ := hs
    exact ⟨f, fun i hi => C63_filter_selects_what_it_says x es hx c t _ p hp i _ (hf i hi), rfl⟩

theorem loadSingle_says {x : Ctx} {es : List Exc} (hx : x.exceptions = groupExceptions es) {c : Constants} {t : DataType}
    {p : Path} {y : Y} {a : Assertion} (h : loadSingle x c t p y = .ok a) :
    ∃ data, y = .map data ∧ ReadAs x es c t (p ++ [".assert"]) data a ∧ a.key ∈ actionKeys t := by
  obtain ⟨data, key, d, op, raw, changes, written, changed, w, atMost, treat, rfl, h1, h2, h3, _, _, _, h4, h5, h6, h7, h8, h9, _, rfl⟩ :=
    loadSingle_inv h
  refine ⟨data, rfl, ⟨rfl, rfl, ⟨key, d, raw, h1, rfl, theOperator_says h3, ?_, flag_says h8, flag_says h9⟩, ?_, ?_⟩, h2⟩
  · refine ⟨written, changes, changed, loadExpected_says h5, changesOf_says h4, applyChanges_says hx h6, ?_⟩
    rw [hx]
    exact overrideValue_says
  · exact fun l m hs => loadOptFilter_says hx h7 hs
  · simp only
    exact waivedAt_iff hx

/-- **C64.** What an assertion of an area file is read as is what its text says: it measures what its key names, compares
with its one operator, its filter keeps what the written filter accepts, and it expects the written number with the listed
changes whose condition holds for the student made to it in their order; the first value exception at its path replaces
that number. -/
theorem C64_assertion_reads_its_text (x : Ctx) (es : List Exc) (hx : x.exceptions = groupExceptions es) (c : Constants)
    (t : DataType) (p : Path) (y : Y) (a : Assertion) (h : loadSingle x c t p y = .ok a) :
    ∃ data, y = .map data ∧ ReadAs x es c t (p ++ [".assert"]) data a := by
  obtain ⟨data, h1, h2, _⟩ := loadSingle_says hx h
  exact ⟨data, h1, h2⟩

/-- **C64.** The text expects at most one number. -/
theorem C64_one_number (x : Ctx) (es : List Exc) (c : Constants) (p : Path) (d : Dict) (raw : Y) (v w : Rat)
    (h : Expects x es c p d raw v) (h' : Expects x es c p d raw w) : v = w := expects_unique h h'

/-! ### `$when` conditions -/

mutual
theorem loadDyn_says {cs : List Course} : (y : Y) → (e : DynCond) → loadDyn y = .ok e → (e.Holds cs ↔ WhenHolds cs y)
  | .map [(k, .list l)], e, h => by
    rw [loadDyn] at h
    simp only [beq_iff_eq] at h
    by_cases k1 : k = "$and"
    · subst k1
      rw [if_pos rfl, ld_bind_ok] at h
      obtain ⟨es, hes, h⟩ := h
      cases h
      have := (loadDyns_say (cs := cs) l es hes).1
      rw [DynCond.Holds, this]
      constructor
      · exact .all
      · intro h
        generalize hy : Y.map [("$and", .list l)] = y at h
        cases h with
        | all h => cases hy; exact h
        | _ => simp at hy
    rw [if_neg k1] at h
    by_cases k2 : k = "$or"
    · subst k2
      rw [if_pos rfl, ld_bind_ok] at h
      obtain ⟨es, hes, h⟩ := h
      cases h
      have := (loadDyns_say (cs := cs) l es hes).2
      rw [DynCond.Holds, this]
      constructor
      · rintro ⟨y, hy, h⟩; exact .any hy h
      · intro h
        generalize hy : Y.map [("$or", .list l)] = y at h
        cases h with
        | any h h' => cases hy; exact ⟨_, h, h'⟩
        | _ => simp at hy
    rw [if_neg k2] at h
    cases h
  | .map [(k, .str s)], e, h => by
    rw [loadDyn] at h
    simp only [beq_iff_eq] at h
    by_cases k1 : k = "query-has-course-with-attribute"
    · subst k1
      rw [if_pos rfl] at h
      cases h
      rw [DynCond.Holds]
      constructor
      · rintro ⟨k, hk, ha⟩; exact .has hk ha
      · intro h
        generalize hy : Y.map [("query-has-course-with-attribute", .str s)] = y at h
        cases h with
        | has h h' => cases hy; exact ⟨_, h, h'⟩
        | _ => simp at hy
    rw [if_neg k1] at h
    by_cases k2 : k = "query-has-single-course-with-attribute"
    · subst k2
      rw [if_pos rfl] at h
      cases h
      rw [DynCond.Holds]
      constructor
      · rintro ⟨i, hi, ha, hu⟩
        have hsp : cs = cs.take i ++ cs[i] :: cs.drop (i + 1) := by
          rw [← List.drop_eq_getElem_cons hi, List.take_append_drop]
        refine .single hsp ha ?_
        intro k' hk' ha'
        rcases List.mem_append.1 hk' with hk' | hk'
        · obtain ⟨j, hj, rfl⟩ := List.mem_iff_getElem.1 hk'
          rw [List.length_take] at hj
          rw [List.getElem_take] at ha'
          have := hu j (by omega) ha'
          omega
        · obtain ⟨j, hj, rfl⟩ := List.mem_iff_getElem.1 hk'
          rw [List.length_drop] at hj
          rw [List.getElem_drop] at ha'
          have := hu (i + 1 + j) (by omega) ha'
          omega
      · intro h
        generalize hy : Y.map [("query-has-single-course-with-attribute", .str s)] = y at h
        cases h with
        | @single a k before after hcs ha hno =>
          cases hy
          subst hcs
          refine ⟨before.length, by simp, by simpa using ha, fun j hj hja => ?_⟩
          rcases Nat.lt_trichotomy j before.length with hlt | heq | hgt
          · rw [List.getElem_append_left hlt] at hja
            exact absurd hja (hno _ (by simp))
          · exact heq
          · rw [List.getElem_append_right (by omega)] at hja
            obtain ⟨m, hm⟩ : ∃ m, j - before.length = m + 1 := ⟨j - before.length - 1, by omega⟩
            simp only [hm, List.getElem_cons_succ] at hja
            exact absurd hja (hno _ (by simp))
        | _ => simp at hy
    rw [if_neg k2] at h
    cases h
  | .map [(k, .map v)], e, h => by rw [loadDyn] at h <;> simp_all
  | .map [(k, .bool v)], e, h => by rw [loadDyn] at h <;> simp_all
  | .map [(k, .int v)], e, h => by rw [loadDyn] at h <;> simp_all
  | .map [(k, .float v)], e, h => by rw [loadDyn] at h <;> simp_all
  | .map [(k, .null)], e, h => by rw [loadDyn] at h <;> simp_all
  | .map [], e, h => by rw [loadDyn] at h <;> simp_all
  | .map (_ :: _ :: _), e, h => by rw [loadDyn] at h <;> simp_all
  | .null, e, h => by rw [loadDyn] at h <;> simp_all
  | .bool _, e, h => by rw [loadDyn] at h <;> simp_all
  | .int _, e, h => by rw [loadDyn] at h <;> simp_all
  | .float _, e, h => by rw [loadDyn] at h <;> simp_all
  | .str _, e, h => by rw [loadDyn] at h <;> simp_all
  | .list _, e, h => by rw [loadDyn] at h <;> simp_all
theorem loadDyns_say {cs : List Course} : (l : List Y) → (es : List DynCond) → loadDyns l = .ok es →
    (DynCond.AllHold cs es ↔ ∀ y ∈ l, WhenHolds cs y) ∧ (DynCond.SomeHolds cs es ↔ ∃ y ∈ l, WhenHolds cs y)
  | [], es, h => by
    rw [loadDyns] at h
    cases h
    simp [DynCond.AllHold, DynCond.SomeHolds]
  | y :: ys, es, h => by
    rw [loadDyns] at h
    simp only [ld_bind_ok] at h
    obtain ⟨e, he, es', hes, h⟩ := h
    cases h
    have h1 := loadDyn_says (cs := cs) y e he
    have h2 := loadDyns_say (cs := cs) ys es' hes
    simp only [DynCond.AllHold, DynCond.SomeHolds, List.mem_cons, forall_eq_or_imp, exists_eq_or_imp, h1, h2.1, h2.2,
      and_self]
end

/-! ### What is asked and what is met -/

theorem ReadAs.met {final : Bool} {x0 x : Ctx} {es : List Exc} {c : Constants} {t : DataType} {q : Path} {data : Dict}
    {a : Assertion} (h : ReadAs x0 es c t q data a) {is : List Item} (hm : WaivedAt es a.path ∨ MetOn final x es a is) :
    WaivedAt es q ∨ MetAsWritten final x0 x es c t q data is := by
  rw [h.path] at hm
  rcases hm with hm | ⟨sel, m, v, h1, h2, h3, h4, h5⟩
  · exact .inl hm
  right
  obtain ⟨key, d, raw, k1, rfl, k3, k4, _, k6⟩ := h.comparison
  rw [h.path] at h2
  refine ⟨a.key, d, a.op, raw, a.expected, sel, m, v, k1, k3, k4, h.filter _ _ h1, h2, h3, h4, ?_⟩
  intro hf htr ht cs hcs hcr hk
  refine h5 hf ?_ cs hcs (by rw [h.dataType, ht]) hcr hk
  rw [← k6] at htr
  simpa using htr

theorem loadAssertion_asks {x : Ctx} {es : List Exc} (hx : x.exceptions = groupExceptions es) {c : Constants} {t : DataType}
    {p : Path} {y : Y} {b : AnyAssertion} (h : loadAssertion x c t p y = .ok b) {whens : Bool} {is : List Item} {q : Path}
    {data : Dict} (hw : ∀ (d : Dict) (yw : Y), y = .map d → whens = true → d.get? "$when" ≠ some yw)
    (ha : AsksAsWritten x es whens is p y q data) :
    ∃ a, AsksOf is b a ∧ ReadAs x es c t q data a := by
  unfold loadAssertion at h
  simp only [ld_bind_ok, ld_asDict] at h
  obtain ⟨d, rfl, h⟩ := h
  cases hif : d.get? "$if" with
  | none =>
    rw [if_neg (by simp [Dict.has, hif])] at h
    simp only [ld_bind_ok] at h
    obtain ⟨a, h1, h⟩ := h
    cases h
    obtain ⟨data', hd, hr, _⟩ := loadSingle_says hx h1
    cases hd
    generalize hy : Y.map d = y' at ha
    cases ha with
    | plain _ _ => cases hy; exact ⟨a, .single a, hr⟩
    | thenPart _ h2 _ _ => cases hy; rw [hif] at h2; cases h2
    | elsePart _ h2 _ _ => cases hy; rw [hif] at h2; cases h2
    | whenPart h2 h3 _ _ _ => cases hy; exact absurd h3 (hw _ _ rfl h2)
  | some yif =>
    rw [if_pos (by simp [Dict.has, hif])] at h
    simp only [ld_bind_ok, ld_need, hif, Option.some.injEq] at h
    obtain ⟨_, rfl, b', hb, yt, hyt, a, h1, f, hf, h⟩ := h
    cases h
    have hb := cond_decides hx _ _ hb
    generalize hy : Y.map d = y' at ha
    cases ha with
    | plain _ h2 => cases hy; rw [hif] at h2; cases h2
    | thenPart _ h2 h3 h4 =>
      cases hy
      rw [hif] at h2
      cases h2
      cases decides_unique hb h3
      rw [hyt] at h4
      cases h4
      obtain ⟨data', hd, hr, _⟩ := loadSingle_says hx h1
      cases hd
      refine ⟨a, .thenPart a f, ?_⟩
      simpa using hr
    | elsePart _ h2 h3 h4 =>
      cases hy
      rw [hif] at h2
      cases h2
      cases decides_unique hb h3
      rw [h4] at hf
      simp only [ld_map_ok] at hf
      obtain ⟨f', hf, rfl⟩ := hf
      obtain ⟨data', hd, hr, _⟩ := loadSingle_says hx hf
      cases hd
      refine ⟨f', .elsePart a f', ?_⟩
      simpa using hr
    | whenPart h2 h3 _ _ _ => cases hy; exact absurd h3 (hw _ _ rfl h2)

theorem loadAnyAssertion_asks {x : Ctx} {es : List Exc} (hx : x.exceptions = groupExceptions es) {c : Constants} {t : DataType}
    {p : Path} {y : Y} {b : AnyAssertion} (h : loadAnyAssertion x c t p y = .ok b) {is : List Item} {q : Path}
    {data : Dict} (ha : AsksAsWritten x es true is p y q data) :
    ∃ a, AsksOf is b a ∧ ReadAs x es c t q data a := by
  unfold loadAnyAssertion at h
  simp only [ld_bind_ok, ld_asDict] at h
  obtain ⟨d, rfl, h⟩ := h
  cases hw : d.get? "$when" with
  | none =>
    rw [if_neg (by simp [Dict.has, hw])] at h
    refine loadAssertion_asks hx h ?_ ha
    intro d' yw hd _ hc
    cases hd
    rw [hw] at hc
    cases hc
  | some yw =>
    rw [if_pos (by simp [Dict.has, hw])] at h
    simp only [ld_bind_ok, ld_need, hw, Option.some.injEq] at h
    obtain ⟨_, _, _, rfl, cd, hcd, yt, hyt, a, h1, h⟩ := h
    cases h
    generalize hy : Y.map d = y' at ha
    cases ha with
    | plain h2 _ => cases hy; rw [hw] at h2; cases h2 rfl
    | thenPart h2 _ _ _ => cases hy; rw [hw] at h2; cases h2 rfl
    | elsePart h2 _ _ _ => cases hy; rw [hw] at h2; cases h2 rfl
    | whenPart _ h2 h3 h4 h5 =>
      cases hy
      rw [hw] at h2
      cases h2
      rw [hyt] at h5
      cases h5
      obtain ⟨data', hd, hr, _⟩ := loadSingle_says hx h1
      cases hd
      refine ⟨a, .whenPart cd none a _ h3 ((loadDyn_says _ _ hcd).2 h4), ?_⟩
      simpa using hr

/-- **C64.** If an assertion of a query (with `$if` or `$when` or neither), loaded from a text, is reported as passing for some
records, then whatever its text asks of these records is met as it is written, or waived at its place.  `final`: the same of
the statuses done and waived, where what is in progress is not needed. -/
theorem C64_passing_assertion_is_met_as_written (final : Bool) (x0 x : Ctx) (es : List Exc)
    (hx0 : x0.exceptions = groupExceptions es) (hx : x.exceptions = groupExceptions es) (c : Constants) (t : DataType) (p : Path)
    (y : Y) (b b' : AnyAssertion) (is : List Item) (h : loadAnyAssertion x0 c t p y = .ok b) (ha : b.audit x is = .ok b')
    (he : Enough final b'.status) : MeetsWritten final x0 x es c t true is p y := by
  intro q data hask
  obtain ⟨a, h1, h2⟩ := loadAnyAssertion_asks hx0 h hask
  exact h2.met (AnyAssertion.audit_met hx ((loadAnyAssertion_inv h).fresh hx0) ha he a h1)

/-! ### Non-trivial cases -/

/-- at least 4.50 credits of mathematics; 2 more for students who took MATH 126, none for those who took MATH 999, and one
less for those who did not -/
def expectingText : Y :=
  .map [("where", .map [("subject", .map [("$eq", .str "MATH")])]),
    ("assert", .map [("sum(credits)", .map [("$gte", .str "4.50"),
      ("$changes", .list [
        .list [.map [("has-course", .str "MATH 126")], .map [("add", .str "2")]],
        .list [.map [("has-course", .str "MATH 999")], .map [("set", .int 0)]],
        .list [.map [("$not", .map [("has-course", .str "MATH 999")])], .map [("subtract", .int 1)]]])])])]

example : (match loadSingle { filterCtx with exceptions := groupExceptions [] } {} .course ["$"] expectingText with
    | .ok a => some (a.key, a.op, a.expected)
    | .error _ => none) = some ("sum(credits)", .gte, 11 / 2) := by decide +kernel

/-- the same with value exceptions -/
example : (match loadSingle { filterCtx with exceptions := groupExceptions [⟨["$"], .value 9⟩, ⟨["$", ".assert"], .value 3⟩,
      ⟨["$", ".assert"], .value 7⟩] } {} .course ["$"] expectingText with
    | .ok a => some (a.path, a.expected)
    | .error _ => none) = some (["$", ".assert"], 3) := by decide +kernel

/-- the assertion with a `$when` condition passes for courses of which one has the attribute, and asks what is written -/
def whenText : Y := .map [("$when", .map [("query-has-course-with-attribute", .str "writing")]), ("$then", expectingText)]

example : (do
    let b ← loadAnyAssertion { filterCtx with exceptions := groupExceptions [⟨["$", "/t", ".assert"], .value 2⟩] } {} .course ["$"] whenText
    let r ← b.audit { filterCtx with exceptions := groupExceptions [⟨["$", "/t", ".assert"], .value 2⟩] }
      [.course { clbid := "1", subject := "MATH", attributes := ["writing"] }, .course { clbid := "2", subject := "MATH" }]
    .ok r.status).toOption = some .done := by decide +kernel

end Dp
