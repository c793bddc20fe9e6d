import Verif.Props.MeansFound
import Verif.Props.TwoFilesFound

/-
C69 and C86 for areas with limits: if courses that the limits allow fulfil the text, the audit reports the area as complete.
-/
namespace Dp

/-! ### Specification -/

/-- `sel` is a choice of those of the student's courses that the limits `l` of the area take in, and keeps each of them; limits do not
apply to what an exception forces in -/
abbrev WithinLimits (w : Setting) (l : List Y) (sel : List Course) : Prop := WithinLimitsOf w l w.st.courses (IsForced w.es) sel

/-- the course is chosen, or forced in by an exception, or taken in by no limit -/
def LeftByLimits (w : Setting) (l : List Y) (sel : List Course) (k : Course) : Prop :=
  k ∈ w.st.courses ∧ (k ∈ sel ∨ IsForced w.es k.clbid ∨ ∀ d, Y.map d ∈ l → ¬ LimitTakes w d k)

/-! ### Lemmas -/

/-- the transcript with a choice that keeps the limits is audited -/
theorem within_limits_offered {c : Constants} {templates : List (String × TemplateCourse)} {st : Student} {es : List Exc} {all : Bool}
    {spec : Dict} {a : Area} (hload : loadArea c templates st es all spec = .ok a) {l : List Y}
    (hl : spec.get? "limit" = some (.list l)) (hdiff : a.limit.Nodup) {sel : List Course}
    (hsel : WithinLimits ⟨st, es, c, templates⟩ l sel) {o : Orders} (ho : o.Lawful)
    (hev : Evaluable a.limit (forcedClbids es) st.courses) :
    ∃ tr ∈ (limitedTranscripts (o.limit []) a.limit st.courses (forcedClbids es)).items,
      ∀ k, k ∈ tr ↔ LeftByLimits ⟨st, es, c, templates⟩ l sel k := by
  have hent := area_limit_of hload hl
  obtain ⟨hkept, hlimited⟩ := WithinLimitsOf.kept (w := ⟨st, es, c, templates⟩) hent hdiff (fun k => mem_forcedClbids.symm) hsel hev
  obtain ⟨t, ht, hmem⟩ := hkept.offered (ho.1 []) hev
  refine ⟨t, ht, fun k => ?_⟩
  rw [hmem]
  unfold LeftByLimits
  refine and_congr_right fun hk => ?_
  rw [hlimited k hk]
  constructor
  · intro h
    by_cases hf : IsForced es k.clbid
    · exact .inr (.inl hf)
    · by_cases hd : ∃ d, Y.map d ∈ l ∧ LimitTakes ⟨st, es, c, templates⟩ d k
      · exact .inl (h ⟨hf, hd⟩)
      · exact .inr (.inr fun d hm ht => hd ⟨d, hm, ht⟩)
  · rintro (h | h | h) ⟨h1, d, h2, h3⟩
    · exact h
    · exact absurd h h1
    · exact absurd h3 (h d h2)

/-- an audit that raises nothing has evaluated the limits -/
theorem limits_evaluated {o : Orders} {a : Area} {st : Student} {es : List Exc} {args : Args} (hp : args.Plain)
    (hest : args.estimateOnly = false) (hstop : args.stopAfter = none) (hok : (auditArea o a st es args).err = none) :
    Evaluable a.limit (forcedClbids es) st.courses := by
  by_cases hne : a.limit = []
  · rw [hne]
    intro l hl
    cases hl
  cases hpr : probeAll (fun c => (forcedClbids es).contains c.clbid) st.courses a.limit [] with
  | ok d =>
    intro l hl k hk hf
    exact ⟨_, (probeAll_nil hpr).2 l hl k hk (by simpa using hf)⟩
  | error e =>
    exfalso
    have hs : a.solutions o st es = ⟨[], some e⟩ := by
      unfold Area.solutions limitedTranscripts
      rw [if_neg hne]
      dsimp only
      rw [hpr]
      rfl
    unfold auditArea runAudit at hok
    split at hok
    · simp [Gen.raise] at hok
    rw [hest, hs] at hok
    obtain ⟨_, h1, _⟩ := Gen.append_clean hok
    simp only [Bool.false_eq_true, if_false, Gen.map] at h1
    obtain ⟨out, hout, _⟩ := runLoop_tail args hp hstop e _ _ h1
    cases hout

/-! ### Theorems -/

/-- **C69, partial, for areas with limits.**  Let `sel` be a choice of courses that keeps the limits written in the area file.  If the
courses `cs`, taken from those chosen and those that no limit takes in, fulfil the text, the audit reports the area as complete.
Missing: limits of which two mean the same (`C11_repeated_limit_refuted`); limits in credits where all the courses taken in fit
and yet not all are chosen (`C11_refuted`); otherwise as for `C69_area_with_what_is_written_is_complete_partial`. -/
theorem C69_area_with_limits_partial (c : Constants) (templates : List (String × TemplateCourse)) (st : Student)
    (es : List Exc) (all : Bool) (spec : Dict) (a : Area) (hload : loadArea c templates st es all spec = .ok a)
    (htidy : TidyText st all spec) (hreal : RealText (.map spec)) (htype : ¬ TextAt spec "type" "major")
    (l : List Y) (hlimit : spec.get? "limit" = some (.list l)) (hdiff : a.limit.Nodup) (hids : (st.courses.map (·.clbid)).Nodup)
    (kids : Dict) (ems : List Dict) (y : Y) (htext : AreaText st all spec kids ems y)
    (hall : WantsAll ⟨st, es, c, templates⟩ kids ems y)
    (sel : List Course) (hsel : WithinLimits ⟨st, es, c, templates⟩ l sel) (cs : List Course)
    (hcs : ∀ k ∈ cs, LeftByLimits ⟨st, es, c, templates⟩ l sel k ∧ k.Dated ∧ CountsOnceWritten spec st es k)
    (hnd : (cs.map (·.clbid)).Nodup)
    (hful : ∀ tr, (∀ k, k ∈ tr ↔ LeftByLimits ⟨st, es, c, templates⟩ l sel k) →
      TextFulfilled ⟨⟨st, es, c, templates⟩, true, areaCtx a st es tr, KeptByText ⟨st, es, c, templates⟩ kids ems y⟩ kids ems ["$"] y cs)
    (o : Orders) (ho : o.Lawful) (args : Args) (hp : args.Plain) (hest : args.estimateOnly = false) (hstop : args.stopAfter = none)
    (hok : (auditArea o a st es args).err = none) :
    ∃ r i n, (auditArea o a st es args).items.getLast? = some (.result r (some i) n n) ∧ Complete r.status := by
  obtain ⟨tr, htr, hmem⟩ := within_limits_offered hload hlimit hdiff hsel ho (limits_evaluated hp hest hstop hok)
  exact area_with_what_is_written c templates st es all spec a hload htidy hreal htype hids kids ems y htext hall o ho tr htr cs
    (fun k hk => ⟨(hmem k).2 (hcs k hk).1, (hcs k hk).2⟩) hnd (hful tr hmem) args hp hest hstop hok

/-- What the student's file says fulfils what the area file says, within the limits of the area: for the student, the exceptions and the
area that the files give, `sel` is a choice that keeps the limits `lim`, and the courses `cs`, each counting once, are left by it and fulfil
the text. -/
structure FilesFulfilWithin (spec : Dict) (lim : List Y) (l : Loaded) (es : List Exc) (a : Area) (kids : Dict) (ems : List Dict) (y : Y)
    (sel cs : List Course) : Prop where
  different : a.limit.Nodup
  text : AreaText l.student false spec kids ems y
  all : WantsAll ⟨l.student, es, l.constants, l.templates⟩ kids ems y
  choice : WithinLimits ⟨l.student, es, l.constants, l.templates⟩ lim sel
  courses : ∀ k ∈ cs, LeftByLimits ⟨l.student, es, l.constants, l.templates⟩ lim sel k ∧ k.Dated ∧ CountsOnceWritten spec l.student es k
  once : (cs.map (·.clbid)).Nodup
  fulfilled : ∀ tr, (∀ k, k ∈ tr ↔ LeftByLimits ⟨l.student, es, l.constants, l.templates⟩ lim sel k) →
    TextFulfilled ⟨⟨l.student, es, l.constants, l.templates⟩, true, areaCtx a l.student es tr,
      KeptByText ⟨l.student, es, l.constants, l.templates⟩ kids ems y⟩ kids ems ["$"] y cs

/-- **C86, partial, for areas with limits.**  Missing: as for `C69_area_with_limits_partial`. -/
theorem C86_files_that_fulfil_within_limits_partial (o : Orders) (ho : o.Lawful) (args : Args) (hp : args.Plain)
    (hest : args.estimateOnly = false) (hstop : args.stopAfter = none) (raw : RawStudent) (spec : Dict)
    (htidy : TidyFiles raw spec) (hreal : RealText (.map spec)) (htype : ¬ TextAt spec "type" "major")
    (lim : List Y) (hlimit : spec.get? "limit" = some (.list lim))
    (hful : ∀ l es a, FilesSay raw spec l es → prepareStudent raw spec = .ok ⟨l, es⟩ →
      loadArea l.constants l.templates l.student es false spec = .ok a →
      ∃ kids ems y sel cs, FilesFulfilWithin spec lim l es a kids ems y sel cs)
    (hok : (runFiles o args raw spec).err = none) :
    ∃ r i n, (runFiles o args raw spec).items.getLast? = some (.result r (some i) n n) ∧ Complete r.status := by
  unfold runFiles at hok ⊢
  cases hprep : prepareStudent raw spec with
  | error e => rw [hprep] at hok; cases hok
  | ok p =>
    rw [hprep] at hok
    dsimp only at hok ⊢
    cases hload : loadArea p.loaded.constants p.loaded.templates p.loaded.student p.exceptions false spec with
    | error e => rw [hload] at hok; cases hok
    | ok a =>
      rw [hload] at hok
      have hf := prepareStudent_says hprep
      have hnd : (p.loaded.student.courses.map (·.clbid)).Nodup := by
        obtain ⟨_, _, _, _, _, _, _, _, _, _, hc, _⟩ := hf
        exact hc.ids
      obtain ⟨kids, ems, y, sel, cs, h⟩ := hful _ _ _ hf hprep hload
      exact C69_area_with_limits_partial _ _ _ _ _ _ _ hload (htidy _ _ hf) hreal htype lim hlimit h.different hnd kids ems y
        h.text h.all sel h.choice cs h.courses h.once h.fulfilled o ho args hp hest hstop hok

/-! ### A non-trivial case -/

namespace LimitedFiles
open EntryText
/-- one course in computer science may count -/
def limits : List Y := [.map [("at_most", .int 1), ("where", .map [("subject", .map [("$eq", .str "CSCI")])])]]
/-- students with CSCI 251 need CSCI 121, others a course that is not there -/
def top : Dict := [("$if", .map [("has-course", .str "CSCI 251")]), ("$then", .map [("requirement", .str "Core")]),
  ("$else", .map [("course", .str "CSCI 999")])]
/-- a requirement with one course, a limit, and a conditional at the top -/
def spec : Dict := area [("limit", .list limits),
  ("requirements", .map [("Core", .map [("result", .map [("course", .str "CSCI 121")])])])] (.map top)
def row : Row := { clbid := "1", subject := "CSCI", number := "121", year := 2018, gradePoints := 4, gradeCode := .A }
def row2 : Row := { clbid := "2", subject := "CSCI", number := "251", year := 2019, gradePoints := 3, gradeCode := .B }
/-- a student with two courses in computer science, of which one may count -/
def raw : RawStudent := { rows := [row2, row] }
def taken : Course := loadCourse none [] [] row
def other : Course := loadCourse none [] [] row2
theorem decided {st : Student} (h : st.courses = [taken, other]) : loadCond (loadCtx st []) (.map [("has-course", .str "CSCI 251")]) = .ok true := by
  have e : loadCond (loadCtx st []) (.map [("has-course", .str "CSCI 251")]) =
      loadCond (loadCtx { courses := st.courses } []) (.map [("has-course", .str "CSCI 251")]) := rfl
  rw [e, h]
  decide +kernel
theorem prepared {l : Loaded} {es : List Exc} (h : prepareStudent raw spec = .ok ⟨l, es⟩) :
    es = [] ∧ l.student.courses = [taken, other] ∧ l.student.coursesWithFailed = [taken, other] ∧ l.student.areas = [] := by
  cases h
  exact ⟨rfl, rfl, rfl, rfl⟩
end LimitedFiles

open LimitedFiles in
/-- the hypotheses of `C86_files_that_fulfil_within_limits_partial` (and of `C69_area_with_limits_partial`) -/
example : TidyFiles raw spec ∧ RealText (.map spec) ∧ ¬ TextAt spec "type" "major" ∧ spec.get? "limit" = some (.list limits) ∧
    (∀ l es a, FilesSay raw spec l es → prepareStudent raw spec = .ok ⟨l, es⟩ →
      loadArea l.constants l.templates l.student es false spec = .ok a →
      ∃ kids ems y sel cs, FilesFulfilWithin spec limits l es a kids ems y sel cs) ∧
    (runFiles .insertion {} raw spec).err = none := by
  have hclean : TidyFiles raw spec := by
    rintro l es -
    refine ⟨?_, ?_⟩
    · simp [spec, top, limits, EntryText.area, Y.CleanDict, Y.Clean, Y.CleanList]
    · intro emphases declared h1 h2
      cases h1
      cases h2
      decide
  refine ⟨hclean, realText_of_unused (by decide), by simp [TextAt, spec, EntryText.area, Dict.get?], rfl, ?_, by decide +kernel⟩
  intro l es a _ hp hload
  obtain ⟨rfl, hc, hcf, har⟩ := prepared hp
  have hta : taken.identity = "CSCI 121" ∧ taken.isStolaf = true ∧ taken.isInProgress = false ∧ taken.clbid = "1" ∧
    other.clbid = "2" := by decide
  have hleft : LeftByLimits ⟨l.student, [], l.constants, l.templates⟩ limits [taken] taken := ⟨by rw [hc]; simp, .inl (by simp)⟩
  have hdec : Decides (loadCtx l.student []) [] (.map [("has-course", .str "CSCI 251")]) true := cond_decides rfl _ _ (decided hc)
  refine ⟨[("Core", .map [("result", .map [("course", .str "CSCI 121")])])], [], .map top, [taken], [taken],
    ?_, ⟨rfl, .inl rfl, [], fun e => l.student.areas.any (fun a => a.kind == "Emphasis" && a.code == e.1), .inr ⟨rfl, rfl⟩,
      fun e => by simp, rfl⟩, .thenPart (by decide) rfl hdec rfl (.single (by decide)), ?_, ?_, by simp, ?_⟩
  · have h := (area_limit_of hload (l := limits) rfl).length_eq
    match ha : a.limit with
    | [] => simp
    | [x] => simp
    | _ :: _ :: _ => rw [ha] at h; simp [limits] at h
  · have hone : ∀ d : Dict, Y.map d ∈ limits → LimitAllows d 1 .courses := by
      intro d hd
      simp only [limits, List.mem_singleton, Y.map.injEq] at hd
      subst hd
      exact ⟨.int 1, .underscore rfl rfl rfl, by exact_mod_cast AtMostSays.number (n := 1)⟩
    have hcourses : ∀ d q, Y.map d ∈ limits → ¬ LimitAllows d q .credits := by
      intro d q hd h
      cases (limitAllows_unique (hone d hd) h).2
    refine ⟨by simp, ?_, ?_, fun d q hd h => absurd h (hcourses d q hd), fun d q hd h => absurd h (hcourses d q hd),
      fun d q hd h => absurd h (hcourses d q hd)⟩
    · intro k hk
      rw [List.mem_singleton] at hk
      subst hk
      refine ⟨hleft.1, by simp [IsForced], _, List.mem_singleton.2 rfl, _, rfl, ?_⟩
      have hp : ∃ p, loadFilter (loadCtx l.student []) l.constants .course (.map [("subject", .map [("$eq", .str "CSCI")])]) = .ok p ∧
          p.apply (Item.course taken).applyLeaf = .ok true := ⟨_, rfl, by decide +kernel⟩
      obtain ⟨p, hp, hb⟩ := hp
      exact C63_filter_selects_what_it_says (loadCtx l.student []) [] rfl l.constants .course _ p hp (.course taken) true hb
    · intro d q hd hq
      obtain ⟨h1, _⟩ := limitAllows_unique (hone d hd) hq
      subst h1
      refine ⟨by norm_num, fun ks hks hmem => ?_⟩
      have : ks.length ≤ [taken].length := (hks.subperm fun k hk => ((hmem k).1 hk).1).length_le
      exact_mod_cast this
  · intro k hk
    rw [List.mem_singleton] at hk
    subst hk
    refine ⟨hleft, ?_, ?_, by simp, by simp [spec, EntryText.area, Dict.get?]⟩
    · intro h; rw [hta.2.2.1] at h; cases h
    · rw [hc, hcf]
      intro k' hk' e
      simp only [List.cons_append, List.nil_append, List.mem_cons, List.not_mem_nil, or_false] at hk'
      rcases hk' with rfl | rfl | rfl | rfl
      · rfl
      · rw [hta.2.2.2.1, hta.2.2.2.2] at e; exact absurd e (by decide)
      · rfl
      · rw [hta.2.2.2.1, hta.2.2.2.2] at e; exact absurd e (by decide)
  · intro tr htr
    refine .condTrue (by decide) rfl hdec rfl ?_
    refine .req (own := []) (name := "Core") (.inr ⟨by decide, rfl, rfl⟩) ?_ rfl (.inr ⟨rfl, rfl⟩) ?_
    · simp [DepartmentAudited, FlagSet, Dict.get?]
    · refine .course taken (by rfl) (by simp [FlagSet, Dict.get?]) ?_ ?_ (by simp [BlockedAt]) (fun _ => hta.2.2.1)
      · exact (htr taken).2 hleft
      · constructor
        · constructor <;> simp [TextAt, Dict.get?, hta]
        · simp [TextAt, Dict.get?]
        · simp [TextAt, Dict.get?]

end Dp
