import Verif.Props.MeansFound

/-
C69: a case in which a query asks several things, within a limit.
-/
namespace Dp

namespace Several
/-- one course of the first level may count -/
def limits : List Y := [.map [("at_most", .int 1), ("where", .map [("level", .map [("$eq", .int 100)])])]]
/-- two courses, and one of the second level -/
def asked : List Y := [.map [("assert", .map [("count(courses)", .map [("$gte", .int 2)])])],
  .map [("where", .map [("level", .map [("$eq", .int 200)])]), ("assert", .map [("sum(credits)", .map [("$gte", .int 1)])])]]
def query : Dict := [("from", .str "courses"), ("where", .map [("subject", .map [("$eq", .str "CSCI")])]),
  ("limit", .list limits), ("all", .list asked)]
/-- an area that asks for two courses in computer science, one credit of which is to be of the second level; of the first
level at most one counts -/
def spec : Dict := [("name", .str "Computing"), ("type", .str "concentration"), ("code", .str "155"), ("result", .map query)]
def first : Course := { clbid := "1", identity := "CSCI 121", subject := "CSCI", level := 100 }
def again : Course := { clbid := "2", identity := "CSCI 125", subject := "CSCI", level := 100 }
def second : Course := { clbid := "3", identity := "CSCI 251", subject := "CSCI", level := 200 }
def other : Course := { clbid := "4", identity := "ART 102", subject := "ART", level := 100 }
def student : Student := { courses := [first, again, other, second] }
def setting : Setting := ⟨student, [], {}, []⟩

theorem areaText : AreaText student false spec [] [] (.map query) :=
  ⟨rfl, .inr ⟨rfl, rfl⟩, [], fun e => student.areas.any (fun a => a.kind == "Emphasis" && a.code == e.1), .inr ⟨rfl, rfl⟩,
    fun e => by simp, rfl⟩

/-- what is loaded is one query that leaves nothing out -/
def plainTop (a : Area) : Bool := match a.result with | .query _ d => d.excluded.isEmpty | _ => false

theorem loaded : ∃ a, loadArea {} [] student [] false spec = .ok a ∧ plainTop a = true ∧ (auditArea .insertion a student [] {}).err = none := by
  have h : (match loadArea {} [] student [] false spec with
    | .ok a => plainTop a && decide ((auditArea .insertion a student [] {}).err = none) | .error _ => false) = true := by decide +kernel
  cases hl : loadArea {} [] student [] false spec with
  | error e => rw [hl] at h; cases h
  | ok a =>
    rw [hl] at h
    simp only [Bool.and_eq_true, decide_eq_true_eq] at h
    exact ⟨a, rfl, h.1, h.2⟩

theorem kept {a : Area} (hl : loadArea {} [] student [] false spec = .ok a) (hp : plainTop a = true) (k : String) :
    ¬ KeptByText setting [] [] (.map query) k := by
  obtain ⟨kids, ems, y, h1, h2⟩ := C53_kept_as_written {} [] student [] false spec a hl (by decide)
  obtain ⟨rfl, rfl, rfl⟩ := areaText_unique areaText h1
  unfold plainTop at hp
  split at hp
  · rename_i s d hr
    intro hk
    have := (h2 s d (by rw [hr]; simp [Node.leaves]) k).2 (.inl hk)
    rw [List.isEmpty_iff] at hp
    rw [hp] at this
    cases this
  · cases hp

/-- a filter with one comparison, by what is loaded for it -/
theorem compares {x : Ctx} {es : List Exc} (hx : x.exceptions = groupExceptions es) {key : String} {v : Y} {leaf : PredLeaf}
    (hf : loadFilter x {} .course (.map [(key, .map [("$eq", v)])]) = .ok (.leaf leaf))
    (hl : loadLeaf {} .course key (.map [("$eq", v)]) = .ok leaf)
    (hkey : PlainFilter [(key, .map [("$eq", v)])]) {k : Course} {b : Bool} (hb : applyCourseLeaf k leaf = .ok b) :
    Accepts x es {} (.course k) (.map [(key, .map [("$eq", v)])]) b ∧ Sensible {} (.course k) (.map [(key, .map [("$eq", v)])]) := by
  refine ⟨C63_filter_selects_what_it_says x es hx {} .course _ _ hf _ _ hb, .every hkey ?_⟩
  intro e he
  rw [List.mem_singleton] at he
  subst he
  exact (C68_comparison_answers_iff {} .course key _ leaf hl (.course k)).1 ⟨b, hb⟩

theorem bySubject (k : Course) (hk : k ∈ student.courses) :
    Accepts (loadCtx student []) [] {} (.course k) (.map [("subject", .map [("$eq", .str "CSCI")])]) (k.subject == "CSCI") ∧
    Sensible {} (.course k) (.map [("subject", .map [("$eq", .str "CSCI")])]) := by
  refine compares (leaf := { key := "subject", op := .eq, expected := .sc (.str "CSCI") }) rfl rfl rfl (by simp [PlainFilter, Dict.get?]) ?_
  revert k
  decide +kernel

theorem byLevel (n : Int) (hn : n = 100 ∨ n = 200) (k : Course) (hk : k ∈ student.courses) :
    Accepts (loadCtx student []) [] {} (.course k) (.map [("level", .map [("$eq", .int n)])]) (k.level == n) ∧
    Sensible {} (.course k) (.map [("level", .map [("$eq", .int n)])]) := by
  refine compares (leaf := { key := "level", op := .eq, expected := .sc (.num n (toString n)) }) rfl rfl rfl (by simp [PlainFilter, Dict.get?]) ?_
  rcases hn with rfl | rfl <;> (revert k; decide +kernel)
end Several

open Several in
/-- the hypotheses of `C69_area_with_what_is_written_is_complete_partial` -/
example : ∃ a : Area, loadArea {} [] student [] false spec = .ok a ∧ ¬ TextAt spec "type" "major" ∧
    spec.get? "limit" = none ∧ (student.courses.map (·.clbid)).Nodup ∧
    AreaText student false spec [] [] (.map query) ∧ WantsAll setting [] [] (.map query) ∧
    (∀ k ∈ student.courses, k.Dated ∧ CountsOnceWritten spec student [] k) ∧
    TextFulfilled ⟨setting, true, areaCtx a student [] student.courses, KeptByText setting [] [] (.map query)⟩ [] [] ["$"] (.map query)
      [second, first] ∧ (auditArea .insertion a student [] {}).err = none := by
  obtain ⟨a, hload, hplain, hruns⟩ := loaded
  refine ⟨a, hload, by simp [TextAt, spec, Dict.get?], by simp [spec, Dict.get?], by decide, areaText, .single (by decide), ?_, ?_, hruns⟩
  · intro k hk
    refine ⟨?_, ?_, by simp, by simp [spec, Dict.get?]⟩
    · have : k.isInProgress = false := by revert k; decide
      intro h; rw [this] at h; cases h
    · revert k; decide
  have htakes : ∀ k ∈ [first, again, second], LimitTakes setting [("at_most", .int 1), ("where", .map [("level", .map [("$eq", .int 100)])])] k ↔
      k.level = 100 := by
    intro k hk
    have h := (byLevel 100 (.inl rfl) k (by revert k; decide)).1
    constructor
    · rintro ⟨y, hy, ha⟩
      cases hy
      have := accepts_unique ha h
      simpa using this.symm
    · intro e
      rw [e] at h
      exact ⟨_, rfl, h⟩
  have hone : ∀ d : Dict, Y.map d ∈ limits → d = [("at_most", .int 1), ("where", .map [("level", .map [("$eq", .int 100)])])] := by
    intro d hd
    simpa [limits] using hd
  have hallows : LimitAllows [("at_most", .int 1), ("where", .map [("level", .map [("$eq", .int 100)])])] 1 .courses :=
    ⟨.int 1, .underscore rfl rfl rfl, by exact_mod_cast AtMostSays.number (n := 1)⟩
  have hcourses : ∀ d q, Y.map d ∈ limits → ¬ LimitAllows d q .credits := by
    intro d q hd h
    rw [hone d hd] at h
    cases (limitAllows_unique hallows h).2
  refine .queries limits asked [⟨"count(courses)", .gte, 2, false⟩, ⟨"sum(credits)", .gte, 1, false⟩]
    (student.courses.map .course) [first, again, second] [first] [second, first] (by decide) rfl (.inl rfl) (.inr rfl)
    (.inr ⟨rfl, rfl⟩) (by simp [setting]) ?_ ?_ ?_ (by decide +kernel) ?_ (by simp [LimitsDiffer, limits]) ?_ (by simp) ?_ rfl ?_ ?_ (fun _ => by decide)
  · have := LooksThrough.courses (w := ⟨setting, true, areaCtx a student [] student.courses, KeptByText setting [] [] (.map query)⟩)
      (d := query) (q := ["$"] ++ [".query"]) (fun _ => true) rfl (by simp [FlagSet, query, Dict.get?])
      (fun k => by
        have := kept hload hplain k.clbid
        simp [LeftOut, BlockedAt, setting] at this ⊢
        exact this)
    have htr : (areaCtx a student [] student.courses).transcript = student.courses := rfl
    simpa [htr] using this
  · intro y hy i hi
    cases hy
    obtain ⟨k, hk, rfl⟩ := List.mem_map.1 hi
    exact (bySubject k hk).2
  · refine ⟨fun i => match i with | .course k => k.subject == "CSCI" | _ => false, ?_, by rfl⟩
    intro i hi
    obtain ⟨k, hk, rfl⟩ := List.mem_map.1 hi
    exact (bySubject k hk).1
  · intro d y hd hw k hk
    rw [hone d hd] at hw
    cases hw
    exact (byLevel 100 (.inl rfl) k (by revert k; decide)).2
  · refine ⟨by simp, ?_, ?_, fun d q hd h => absurd h (hcourses d q hd), fun d q hd h => absurd h (hcourses d q hd),
      fun d q hd h => absurd h (hcourses d q hd)⟩
    · intro k hk
      rw [List.mem_singleton] at hk
      subst hk
      exact ⟨by simp, by simp, _, List.mem_singleton.2 rfl, (htakes first (by simp)).2 rfl⟩
    · intro d q hd hq
      rw [hone d hd] at hq
      obtain ⟨h1, _⟩ := limitAllows_unique hallows hq
      subst h1
      refine ⟨by norm_num, fun ks hks hmem => ?_⟩
      have : ks.length ≤ [first].length := (hks.subperm fun k hk => ((hmem k).1 hk).1).length_le
      exact_mod_cast this
  · intro k hk
    simp only [List.mem_cons, List.not_mem_nil, or_false] at hk
    rcases hk with rfl | rfl
    · refine ⟨by simp, fun ⟨d, hd, ht⟩ => ?_⟩
      rw [hone d hd] at ht
      have := (htakes second (by simp)).1 ht
      exact absurd this (by decide)
    · exact ⟨by simp, fun _ => by simp⟩
  · intro j y m hy hm
    match j with
    | 0 =>
      cases hy
      cases hm
      refine ⟨_, rfl, ⟨rfl, rfl⟩, ⟨_, _, rfl, ⟨"$gte", [], [], rfl, by decide, by simp⟩,
        ⟨2, [], 2, .whole 2, .inl ⟨rfl, rfl⟩, .nil _, .inr ⟨by simp [setting], by norm_num⟩⟩, by simp [FlagSet, Dict.get?]⟩,
        by simp [setting], by simp [mostCommonKeys], by simp [Dict.opt, Dict.get?], [second, first], _, rfl, .courses _, ?_⟩
      simp only [NumHolds]
      decide +kernel
    | 1 =>
      cases hy
      cases hm
      refine ⟨_, rfl, ⟨rfl, rfl⟩, ⟨_, _, rfl, ⟨"$gte", [], [], rfl, by decide, by simp⟩,
        ⟨1, [], 1, .whole 1, .inl ⟨rfl, rfl⟩, .nil _, .inr ⟨by simp [setting], by norm_num⟩⟩, by simp [FlagSet, Dict.get?]⟩,
        by simp [setting], by simp [mostCommonKeys], ?_, [second], _, ?_, .sumCredits _, ?_⟩
      · intro y hy k hk
        cases hy
        exact (byLevel 200 (.inr rfl) k (by revert k; decide)).2
      · refine ⟨fun i => match i with | .course k => k.level == 200 | _ => false, ?_, by rfl⟩
        intro i hi
        obtain ⟨k, hk, rfl⟩ := List.mem_map.1 hi
        exact (byLevel 200 (.inr rfl) k (by revert k; decide)).1
      · simp only [NumHolds]
        decide +kernel
    | j + 2 => cases hy
  · refine .counted ⟨_, List.mem_cons_self, .inl rfl⟩ ?_
    intro m hm hc
    simp only [List.mem_cons, List.not_mem_nil, or_false] at hm
    rcases hm with rfl | rfl
    · exact ⟨rfl, rfl, 2, by norm_num, by simp⟩
    · rcases hc with h | h <;> exact absurd h (by decide)

end Dp
