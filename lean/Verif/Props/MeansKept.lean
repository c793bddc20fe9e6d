import Verif.Props.FoundQuery
import Verif.Props.MeansLimit
import Verif.Props.MeansSensible
import Verif.Props.MeansCount

/-
Choices of courses that keep the limits written in an area file (for C69 and C86).
-/
namespace Dp

/-! ### Specification -/

/-- the text of the limit `d` takes in the course -/
def LimitTakes (w : Setting) (d : Dict) (k : Course) : Prop :=
  ∃ y, d.get? "where" = some y ∧ Accepts w.record w.es w.c (.course k) y true

/-- `sel` is a choice of those of the courses `looked` that the limits `l` take in, and keeps each of them; `free` are the ids of
courses to which no limit applies.  For limits in credits: the courses taken in have credits, and if all of them fit then all of
them are chosen. -/
structure WithinLimitsOf (w : Setting) (l : List Y) (looked : List Course) (free : String → Prop) (sel : List Course) : Prop where
  nodup : sel.Nodup
  limited : ∀ k ∈ sel, k ∈ looked ∧ ¬ free k.clbid ∧ ∃ d, Y.map d ∈ l ∧ LimitTakes w d k
  courses : ∀ d q, Y.map d ∈ l → LimitAllows d q .courses → 0 ≤ q ∧
    ∀ ks : List Course, ks.Nodup → (∀ k, k ∈ ks ↔ k ∈ sel ∧ LimitTakes w d k) → (ks.length : Rat) ≤ q
  credits : ∀ d q, Y.map d ∈ l → LimitAllows d q .credits → 0 ≤ q ∧
    ∀ ks : List Course, ks.Nodup → (∀ k, k ∈ ks ↔ k ∈ sel ∧ LimitTakes w d k) → (ks.map (·.credits)).sum ≤ q
  positive : ∀ d q, Y.map d ∈ l → LimitAllows d q .credits → ∀ k ∈ looked, ¬ free k.clbid → LimitTakes w d k → 0 < k.credits
  whole : ∀ d q, Y.map d ∈ l → LimitAllows d q .credits →
    (∀ ks : List Course, ks.Nodup → (∀ k, k ∈ ks ↔ k ∈ looked ∧ ¬ free k.clbid ∧ LimitTakes w d k) →
      (ks.map (·.credits)).sum ≤ q) →
    ∀ k ∈ looked, ¬ free k.clbid → LimitTakes w d k → k ∈ sel

/-- the limits can be told apart: they allow different numbers, or one of them takes in a course and the other does not -/
def LimitsDiffer (w : Setting) (l : List Y) (looked : List Course) : Prop :=
  l.Pairwise fun a b => ∀ d e : Dict, a = .map d → b = .map e →
    (∃ q q' what what', LimitAllows d q what ∧ LimitAllows e q' what' ∧ (q ≠ q' ∨ what ≠ what')) ∨
      ∃ k ∈ looked, ¬ (LimitTakes w d k ↔ LimitTakes w e k)

/-- the comparisons of the limits make sense for the courses -/
def LimitsSensible (w : Setting) (l : List Y) (looked : List Course) : Prop :=
  ∀ (d : Dict) (y : Y), Y.map d ∈ l → d.get? "where" = some y → ∀ k ∈ looked, Sensible w.c (.course k) y

/-! ### Lemmas -/

theorem counts_taken {x : Ctx} {es : List Exc} (hx : x.exceptions = groupExceptions es) {c : Constants} {l : Limit} {y : Y}
    (hw : loadFilter x c .course y = .ok l.where') {forced : List String} {k : Course} (hf : k.clbid ∉ forced) {b : Bool}
    (hev : l.where'.applyCourse k = .ok b) : l.Counts forced k ↔ Accepts x es c (.course k) y true := by
  have h1 := C63_filter_selects_what_it_says x es hx c .course y l.where' hw (.course k) b hev
  constructor
  · intro h
    rw [h.2] at hev
    cases hev
    exact h1
  · intro h
    have h2 := accepts_unique h1 h
    rw [h2] at hev
    exact ⟨hf, hev⟩

/-- a choice that keeps the limits as they are written keeps those that are loaded -/
theorem WithinLimitsOf.kept {w : Setting} {l : List Y} {limits : List Limit}
    (hent : List.Forall₂ (fun y k => loadLimit w.record w.c y = .ok k) l limits) (hdiff : limits.Nodup) {looked sel : List Course}
    {free : String → Prop} {forced : List String} (hfree : ∀ k, free k ↔ k ∈ forced) (hsel : WithinLimitsOf w l looked free sel)
    (hev : Evaluable limits forced looked) :
    KeptWithin limits forced looked sel ∧
      ∀ k ∈ looked, Limited limits forced k ↔ ¬ free k.clbid ∧ ∃ d, Y.map d ∈ l ∧ LimitTakes w d k := by
  -- a limit and its text
  have htext : ∀ lim ∈ limits, ∃ (d : Dict) (y : Y), Y.map d ∈ l ∧ LimitAllows d lim.atMost lim.what ∧
      ∀ k ∈ looked, ¬ free k.clbid → (lim.Counts (forced) k ↔ LimitTakes w d k) ∧
        d.get? "where" = some y := by
    intro lim hlim
    obtain ⟨y, hy, hly⟩ := forall₂_left hent hlim
    obtain ⟨d, wy, rfl, hw, hf, hal⟩ := loadLimit_says hly
    refine ⟨d, wy, hy, hal, fun k hk hnf => ⟨?_, hw⟩⟩
    have hkf : k.clbid ∉ forced := fun h => hnf ((hfree _).2 h)
    obtain ⟨b, hb⟩ := hev lim hlim k hk hkf
    rw [counts_taken w.exceptions hf hkf hb]
    constructor
    · intro h
      exact ⟨wy, hw, h⟩
    · rintro ⟨y, hy, h⟩
      cases hw.symm.trans hy
      exact h
  have hnf : ∀ {lim : Limit} {k : Course}, lim.Counts (forced) k → ¬ free k.clbid :=
    fun h hf => h.1 ((hfree _).1 hf)
  have hlimited : ∀ k ∈ looked, Limited limits (forced) k ↔
      ¬ free k.clbid ∧ ∃ d, Y.map d ∈ l ∧ LimitTakes w d k := by
    intro k hk
    constructor
    · rintro ⟨lim, hlim, h⟩
      obtain ⟨d, _, hd, _, hc⟩ := htext lim hlim
      exact ⟨hnf h, d, hd, ((hc k hk (hnf h)).1).1 h⟩
    · rintro ⟨hf, d, hd, h⟩
      obtain ⟨lim, hlim, hld⟩ := forall₂_right hent hd
      obtain ⟨d', wy, hdd, hw, hfl, _⟩ := loadLimit_says hld
      cases hdd
      obtain ⟨y, hy, h⟩ := h
      cases hw.symm.trans hy
      have hkf : k.clbid ∉ forced := fun h => hf ((hfree _).2 h)
      obtain ⟨b, hb⟩ := hev lim hlim k hk hkf
      exact ⟨lim, hlim, (counts_taken w.exceptions hfl hkf hb).2 h⟩
  have hfilter : ∀ lim ∈ limits, ∀ d, (∀ k ∈ looked, ¬ free k.clbid →
      (lim.Counts (forced) k ↔ LimitTakes w d k)) →
      ∀ k, k ∈ sel.filter (fun k => decide (lim.Counts (forced) k)) ↔ k ∈ sel ∧ LimitTakes w d k := by
    intro lim _ d hc k
    rw [List.mem_filter, decide_eq_true_eq]
    refine and_congr_right fun hk => ?_
    obtain ⟨h1, h2, _⟩ := hsel.limited k hk
    exact hc k h1 h2
  have hadm : Admissible limits looked (forced) sel := by
    refine ⟨hsel.nodup, ?_, ?_⟩
    · intro k hk
      obtain ⟨h1, h2, h3⟩ := hsel.limited k hk
      exact ⟨h1, (hlimited k h1).2 ⟨h2, h3⟩⟩
    · intro lim hlim
      obtain ⟨d, y, hd, hal, hc⟩ := htext lim hlim
      have hm := hfilter lim hlim d (fun k hk hf => (hc k hk hf).1)
      have hn : (sel.filter (fun k => decide (lim.Counts (forced) k))).Nodup := hsel.nodup.filter _
      unfold Limit.used
      cases hw : lim.what with
      | courses =>
        rw [hw] at hal
        exact (hsel.courses d _ hd hal).2 _ hn hm
      | credits =>
        rw [hw] at hal
        exact (hsel.credits d _ hd hal).2 _ hn hm
  have hmax : ∀ lim ∈ limits, 0 ≤ lim.atMost := by
    intro lim hlim
    obtain ⟨d, y, hd, hal, _⟩ := htext lim hlim
    cases hw : lim.what with
    | courses => rw [hw] at hal; exact (hsel.courses d _ hd hal).1
    | credits => rw [hw] at hal; exact (hsel.credits d _ hd hal).1
  refine ⟨⟨hdiff, hmax, hadm, ?_, ?_⟩, hlimited⟩
  · intro lim hlim hw k hk hcount
    obtain ⟨d, y, hd, hal, hc⟩ := htext lim hlim
    rw [hw] at hal
    exact hsel.positive d _ hd hal k hk (hnf hcount) (((hc k hk (hnf hcount)).1).1 hcount)
  · intro lim hlim hw hfit k hk hcount
    obtain ⟨d, y, hd, hal, hc⟩ := htext lim hlim
    rw [hw] at hal
    refine hsel.whole d _ hd hal ?_ k hk (hnf hcount) (((hc k hk (hnf hcount)).1).1 hcount)
    intro ks hks hmem
    refine le_trans (le_of_eq ?_) hfit
    unfold Limit.used
    rw [hw]
    refine List.Perm.sum_eq (List.Perm.map _ ((List.perm_ext_iff_of_nodup hks ((List.nodup_dedup _).filter _)).2 fun k => ?_))
    rw [hmem, List.mem_filter, List.mem_dedup, decide_eq_true_eq]
    refine and_congr_right fun hk => ?_
    constructor
    · rintro ⟨h1, h2⟩
      exact ((hc k hk h1).1).2 h2
    · intro h
      exact ⟨hnf h, ((hc k hk (hnf h)).1).1 h⟩

theorem LimitsSensible.evaluable {w : Setting} {l : List Y} {limits : List Limit}
    (hent : List.Forall₂ (fun y k => loadLimit w.record w.c y = .ok k) l limits) {looked : List Course}
    (h : LimitsSensible w l looked) (forced : List String) : Evaluable limits forced looked := by
  intro lim hlim k hk _
  obtain ⟨y, hy, hly⟩ := forall₂_left hent hlim
  obtain ⟨d, wy, rfl, hw, hf, _⟩ := loadLimit_says hly
  obtain ⟨b, hb, _⟩ := C68_sensible_filter_answers w.record w.es w.exceptions w.c .course wy _ hf (.course k) (h d wy hy hw k hk)
  exact ⟨b, hb⟩

theorem LimitsDiffer.nodup {w : Setting} {l : List Y} {limits : List Limit}
    (hent : List.Forall₂ (fun y k => loadLimit w.record w.c y = .ok k) l limits) {looked : List Course}
    (hs : LimitsSensible w l looked) (h : LimitsDiffer w l looked) : limits.Nodup := by
  have hev := hs.evaluable hent []
  unfold LimitsDiffer at h
  clear hs
  induction hent with
  | nil => exact List.nodup_nil
  | @cons y lim l limits hy hrest ih =>
    rw [List.pairwise_cons] at h
    rw [List.nodup_cons]
    refine ⟨fun hm => ?_, ih h.2 fun lim hl => hev lim (by simp [hl])⟩
    obtain ⟨y', hy', hl⟩ := forall₂_left hrest hm
    obtain ⟨d, wd, rfl, hwd, hfd, had⟩ := loadLimit_says hy
    obtain ⟨e, we, rfl, hwe, hfe, hae⟩ := loadLimit_says hl
    rcases h.1 _ hy' d e rfl rfl with ⟨q, q', what, what', h1, h2, h3⟩ | ⟨k, hk, hne⟩
    · obtain ⟨rfl, rfl⟩ := limitAllows_unique h1 had
      obtain ⟨rfl, rfl⟩ := limitAllows_unique h2 hae
      simp at h3
    · obtain ⟨b, hb⟩ := hev lim (by simp) k hk (by simp)
      have c1 := counts_taken (forced := []) w.exceptions hfd (by simp) hb
      have c2 := counts_taken (forced := []) w.exceptions hfe (by simp) hb
      refine hne ?_
      have t1 : LimitTakes w d k ↔ Accepts w.record w.es w.c (.course k) wd true :=
        ⟨fun ⟨y, hy, ha⟩ => by cases hwd.symm.trans hy; exact ha, fun ha => ⟨_, hwd, ha⟩⟩
      have t2 : LimitTakes w e k ↔ Accepts w.record w.es w.c (.course k) we true :=
        ⟨fun ⟨y, hy, ha⟩ => by cases hwe.symm.trans hy; exact ha, fun ha => ⟨_, hwe, ha⟩⟩
      rw [t1, t2, ← c1, ← c2]

end Dp
