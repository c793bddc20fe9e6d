import Verif.Model.Front
import Verif.Props.TwoFilesFound

/-
An area whose file is missing.
-/
namespace Dp

/-- the requirement that stands in for the area -/
def errorRequirement (stem : String) : Dict :=
  [("name", .str "Error"), ("message", .str ("The '" ++ stem ++ "' area specification for this catalog year has not yet been transcribed.")),
   ("department_audited", .bool true)]

theorem missing_real (stem : String) : RealText (.map (missingArea stem)) := by
  intro d yw hd hw _
  unfold missingArea at hd
  have key : ∀ y : Y, Occurs d y → (y = .map (missingArea stem) ∨ y = .map [("all", .list [.map (errorRequirement stem)])] ∨
      y = .list [.map (errorRequirement stem)] ∨ y = .map (errorRequirement stem) ∨ ∀ e l, y ≠ .map e ∧ y ≠ .list l) → False := by
    intro y hy
    induction hy with
    | here =>
      rintro (h | h | h | h | h)
      · cases h; cases hw
      · cases h; cases hw
      · cases h
      · cases h; cases hw
      · exact (h d []).1 rfl
    | @entry e k y hm _ ih =>
      rintro (h | h | h | h | h)
      · cases h
        apply ih
        unfold missingArea at hm
        simp only [List.mem_cons, Prod.mk.injEq, List.not_mem_nil, or_false] at hm
        rcases hm with ⟨-, rfl⟩ | ⟨-, rfl⟩ | ⟨-, rfl⟩ | ⟨-, rfl⟩
        · exact .inr (.inr (.inr (.inr (by simp))))
        · exact .inr (.inr (.inr (.inr (by simp))))
        · exact .inr (.inr (.inr (.inr (by simp))))
        · exact .inr (.inl rfl)
      · cases h
        apply ih
        simp only [List.mem_cons, Prod.mk.injEq, List.not_mem_nil, or_false] at hm
        exact .inr (.inr (.inl hm.2))
      · cases h
      · cases h
        apply ih
        unfold errorRequirement at hm
        simp only [List.mem_cons, Prod.mk.injEq, List.not_mem_nil, or_false] at hm
        rcases hm with ⟨-, rfl⟩ | ⟨-, rfl⟩ | ⟨-, rfl⟩ <;> exact .inr (.inr (.inr (.inr (by simp))))
      · exact (h e []).1 rfl
    | @item l y hm _ ih =>
      rintro (h | h | h | h | h)
      · cases h
      · cases h
      · cases h
        apply ih
        simp only [List.mem_cons, List.not_mem_nil, or_false] at hm
        exact .inr (.inr (.inr (.inl hm)))
      · cases h
      · exact (h [] l).2 rfl
  exact key _ hd (.inl rfl)

theorem missing_tidy (stem : String) (st : Student) (all : Bool) : TidyText st all (missingArea stem) := by
  refine ⟨by simp [missingArea, Y.CleanDict, Y.Clean, Y.CleanList], ?_⟩
  intro emphases declared h1 h2
  have : emphases = [] := (Except.ok.inj h1).symm
  subst this
  have : declared = [] := by simpa [declaredEmphases, mapE] using h2
  subst this
  simp

/-- all parts are shown if none is a conditional -/
theorem shownParts_all {w : Setting} {q : Path} {i n : Nat} {ys : List Y} (h : ShownParts w q i ys n)
    (hk : ∀ y ∈ ys, ∀ d, y = .map d → ruleKind d ≠ .conditional) : n = ys.length := by
  induction h with
  | nil => rfl
  | hidden hh _ _ =>
    obtain ⟨d, _, hd, hc, _⟩ := hh
    exact absurd hc (hk _ List.mem_cons_self d hd)
  | shown _ _ ih => rw [ih (fun y hy => hk y (List.mem_cons_of_mem _ hy))]; rfl

theorem error_met {w : Audited} {p : Path} {stem : String} {r : Node}
    (h : TextMeets w [] [] p (.map (errorRequirement stem)) r) : WaivedAt w.es (p ++ ["%Error"]) := by
  have hk : ruleKind (errorRequirement stem) = .inline := rfl
  generalize hy : Y.map (errorRequirement stem) = y at h
  cases h with
  | waived hp hw =>
    subst hy
    generalize hy : Y.map (errorRequirement stem) = y at hp
    cases hp with
    | req hr =>
      cases hy
      rcases hr with ⟨-, hn, -⟩ | ⟨hk', -⟩
      · have : Dict.get? (errorRequirement stem) "name" = some (.str "Error") := rfl
        rw [this] at hn
        cases hn
        exact hw
      · rw [hk] at hk'; cases hk'
    | course h => cases hy; rw [hk] at h; cases h
    | query h => cases hy; rw [hk] at h; cases h
    | count h => cases hy; rw [hk] at h; cases h
    | prof h => cases hy; rw [hk] at h; cases h
  | req hr hn _ _ _ =>
    cases hy
    rcases hr with ⟨-, -, rfl⟩ | ⟨hk', -⟩
    · exact absurd (.inl rfl) hn
    · rw [hk] at hk'; cases hk'
  | course h _ => cases hy; rw [hk] at h; cases h
  | query _ _ h => cases hy; rw [hk] at h; cases h
  | queryWaived h => cases hy; rw [hk] at h; cases h
  | count _ _ h => cases hy; rw [hk] at h; cases h
  | condTrue h => cases hy; rw [hk] at h; cases h
  | condFalse h => cases hy; rw [hk] at h; cases h
  | condNothing h => cases hy; rw [hk] at h; cases h
  | profRecord h => cases hy; rw [hk] at h; cases h
  | profCourse h => cases hy; rw [hk] at h; cases h

theorem missing_met {w : Audited} {stem : String} {r : Node}
    (h : TextMeets w [] [] ["$"] (.map [("all", .list [.map (errorRequirement stem)])]) r) :
    WaivedAt w.es ["$", ".count"] ∨ WaivedAt w.es ["$", ".count", "[0]", "%Error"] := by
  have hk : ruleKind [("all", .list [.map (errorRequirement stem)])] = .count := rfl
  generalize hy : Y.map [("all", .list [.map (errorRequirement stem)])] = y at h
  cases h with
  | waived hp hw =>
    subst hy
    generalize hy : Y.map [("all", .list [.map (errorRequirement stem)])] = y at hp
    cases hp with
    | count h => exact .inl hw
    | req hr => cases hy; rcases hr with ⟨h, -⟩ | ⟨h, -⟩ <;> (rw [hk] at h; cases h)
    | course h => cases hy; rw [hk] at h; cases h
    | query h => cases hy; rw [hk] at h; cases h
    | prof h => cases hy; rw [hk] at h; cases h
  | count chosen cs _ hparts hshown hask hchosen hnd hn hmeets =>
    right
    cases hy
    obtain ⟨listed, expanded, added, ins, hl, hex, hem, hin, rfl, -⟩ := hparts
    have hlisted : listed = [.map (errorRequirement stem)] := by
      obtain ⟨before, k, after, h1, h2, h3⟩ := hl
      cases before with
      | nil => cases h1; cases h3; rfl
      | cons b before =>
        have hb : b = "all" := (List.cons.inj h1).1.symm
        have := h2 b List.mem_cons_self
        rw [hb] at this
        cases this
    subst hlisted
    have hexp : expanded = [.map (errorRequirement stem)] := by
      cases hex with
      | plain _ h => cases h; rfl
      | template h _ _ => exact absurd h (by unfold TextAt; simp [errorRequirement, Dict.get?])
    subst hexp
    cases hem
    have hlen : _ = (([.map (errorRequirement stem)] : List Y) ++ [] ++ ins).length := shownParts_all hshown (by
      intro y hy d hd
      simp only [List.append_nil, List.cons_append, List.nil_append, List.mem_cons] at hy
      rcases hy with rfl | hy
      · cases hd; show RuleKind.inline ≠ _; decide
      · unfold InsertedParts at hin
        obtain ⟨e, he, k, f, -, c, -, -, rfl⟩ := forall₂_mem_right hin hy
        cases hd
        show RuleKind.course ≠ _
        decide)
    have hall : _ = (([.map (errorRequirement stem)] : List Y) ++ [] ++ ins).length := hlen
    subst hlen
    have hnum : chosen.length ≥ (([.map (errorRequirement stem)] : List Y) ++ [] ++ ins).length := by
      cases hask with
      | all => exact hn
      | any h => cases h
      | bothMore h => cases h
      | both h => cases h
      | either h => cases h
      | number h => exact absurd (h "all" (by simp)) (by simp [Dict.get?])
      | text h => exact absurd (h "all" (by simp)) (by simp [Dict.get?])
    -- the first part is among the chosen ones
    have h0 : 0 ∈ chosen.map (·.1) := by
      by_contra hn0
      have hsub : (0 :: chosen.map (·.1)) ⊆ List.range (([.map (errorRequirement stem)] : List Y) ++ [] ++ ins).length := by
        intro i hi
        rw [List.mem_range]
        rcases List.mem_cons.1 hi with rfl | hi
        · simp
        · obtain ⟨e, he, rfl⟩ := List.mem_map.1 hi
          have := (hchosen e he).1
          exact (List.getElem?_eq_some_iff.1 this).1
      have := (List.nodup_cons.2 ⟨hn0, hnd⟩).subperm hsub |>.length_le
      simp only [List.length_cons, List.length_map, List.length_range] at this
      omega
    obtain ⟨e, he, h0⟩ := List.mem_map.1 h0
    have hpart := (hchosen e he).1
    have hm := hmeets e he
    rw [h0] at hpart hm
    simp only [List.append_nil, List.cons_append, List.nil_append, List.getElem?_cons_zero, Option.some.injEq] at hpart
    rw [← hpart] at hm
    exact error_met hm
  | req hr => cases hy; rcases hr with ⟨h, -⟩ | ⟨h, -⟩ <;> (rw [hk] at h; cases h)
  | course h _ => cases hy; rw [hk] at h; cases h
  | query _ _ h => cases hy; rw [hk] at h; cases h
  | queryWaived h => cases hy; rw [hk] at h; cases h
  | condTrue h => cases hy; rw [hk] at h; cases h
  | condFalse h => cases hy; rw [hk] at h; cases h
  | condNothing h => cases hy; rw [hk] at h; cases h
  | profRecord h => cases hy; rw [hk] at h; cases h
  | profCourse h => cases hy; rw [hk] at h; cases h

/-- **C99**: an area whose file is missing is never reported as passing, for any student and with any arguments, unless the
student's file has an exception for the area that waives it, at one of two places. -/
theorem C99_missing_area_does_not_pass (o : Orders) (ho : o.Lawful) (args : Args) (raw : RawStudent) (stem : String)
    (r : AreaResult) (i : Option Int) (n m : Int)
    (h : .result r i n m ∈ (runFiles o args raw (loadAreaFile stem none)).items) (hp : Passes r.status) :
    ∃ e ∈ raw.exceptions, e.areaCode = stem ∧ e.exc.type = "override" ∧
      (e.exc.path = ["$", ".count"] ∨ e.exc.path = ["$", ".count", "[0]", "%Error"]) := by
  obtain ⟨l, es, hf, x, kids, ems, y, own, kind, ha, -, -, -, hm⟩ := C85_passing_audit_of_two_files o ho args raw _ r i n m h hp
    (missing_real stem) (fun l es _ => missing_tidy stem _ _)
  have hy : y = .map [("all", .list [.map (errorRequirement stem)])] := by
    have := ha.result
    exact (Option.some.inj this).symm
  subst hy
  have hkids : kids = [] := by
    rcases ha.requirements with h | h
    · cases h
    · exact h.2
  subst hkids
  have hems : ems = [] := by
    obtain ⟨written, f, h1, -, h3⟩ := ha.emphases
    rcases h1 with h1 | h1
    · cases h1
    · rw [h1.2] at h3
      simpa using h3.symm
  subst hems
  have hw : WaivedAt es ["$", ".count"] ∨ WaivedAt es ["$", ".count", "[0]", "%Error"] := by
    rcases hm with hm | ⟨⟨d, hd, hc⟩, -⟩
    · exact missing_met hm
    · cases hd; cases hc
  obtain ⟨code, ms, ov, table, hcode, hms, hes, -⟩ := hf
  have hcode : code = stem := by
    have : some (Y.str stem) = some (Y.str code) := hcode
    cases this; rfl
  subst hcode
  have hms : ms = [] := by
    cases hms with
    | absent => rfl
    | written h _ => cases h
  subst hms
  have key : ∀ p, WaivedAt es p → ∃ e ∈ raw.exceptions, e.areaCode = code ∧ e.exc.type = "override" ∧ e.exc.path = p := by
    rintro p ⟨x, hx, rfl, hk⟩
    obtain ⟨e, he, hr, hmv⟩ := forall₂_mem_right hes hx
    rw [List.mem_filter] at he
    refine ⟨e, he.1, by simpa using he.2, ?_, ?_⟩
    · rw [hk] at hr; cases hr; assumption
    · generalize e.exc.path = q at hmv
      cases hmv; rfl
  rcases hw with hw | hw
  · obtain ⟨e, h1, h2, h3, h4⟩ := key _ hw
    exact ⟨e, h1, h2, h3, .inl h4⟩
  · obtain ⟨e, h1, h2, h3, h4⟩ := key _ hw
    exact ⟨e, h1, h2, h3, .inr h4⟩

/-! ### A result is reported -/

theorem count_stays {x : Ctx} {es : List Exc} {s : Stage} {d : CountData} {items : List Node} :
    ∃ items', prepareRule x es (.count s d items) = .count s d items' := by
  unfold prepareRule
  rw [Node.exclude, applyBlocks_count]
  exact ⟨_, rfl⟩

/-- an area that is a count without limits has a solution, or the search raises -/
theorem area_never_silent {o : Orders} {a : Area} {st : Student} {es : List Exc} (hl : a.limit = [])
    (hc : ∃ s d items, a.result = .count s d items) : (a.solutions o st es).items ≠ [] ∨ (a.solutions o st es).err ≠ none := by
  obtain ⟨s, d, items, hc⟩ := hc
  have h1 := topCount_never_silent (areaCtx a st es st.courses) o d items []
  have h2 : (a.solutions o st es) = ((transcriptSolutions o a st es [] st.courses).1).append ⟨[], none⟩ := by
    unfold Area.solutions
    rw [hl]
    simp [limitedTranscripts, Gen.one, areaLoop]
  rw [h2]
  unfold transcriptSolutions
  rw [hc]
  dsimp only [Node.topSolutions]
  split
  · rename_i err t' heq
    rw [heq] at h1
    rcases h1 with h1 | h1
    · exact absurd rfl h1
    · right
      cases err with
      | none => exact absurd rfl h1
      | some e => simp [Gen.append]
  · left
    rename_i s' ss err t' heq
    cases err <;> simp [Gen.append]

/-- **C99**: an audit that ends without an exception reports exactly one result, as its last message, if the text of the area is
a list of which some number is asked for, without limits: it does not end without any audit. -/
theorem C99_some_result_is_reported (o : Orders) (args : Args) (hp : args.Plain) (hest : args.estimateOnly = false)
    (raw : RawStudent) (spec d : Dict) (hres : spec.get? "result" = some (.map d)) (hkind : ruleKind d = .count)
    (hlimit : spec.get? "limit" = none) (hok : (runFiles o args raw spec).err = none) :
    ∃ before r i n, (runFiles o args raw spec).items = before ++ [.result r (some i) n n] ∧
      ∀ m ∈ before, m.isEstimate = true ∨ m.isProgress = true := by
  unfold runFiles at hok ⊢
  cases hprep : prepareStudent raw spec with
  | error e => rw [hprep] at hok; cases hok
  | ok p =>
    rw [hprep] at hok
    dsimp only at hok ⊢
    cases hload : loadArea p.loaded.constants p.loaded.templates p.loaded.student p.exceptions false spec with
    | error e => rw [hload] at hok; cases hok
    | ok a =>
      rw [hload] at hok
      dsimp only at hok ⊢
      obtain ⟨_, _, _, data, rule, _, _, _, _, _, hdata, hb, hres', _, _, _, hlim, _⟩ := loadArea_inv hload
      have hal : a.limit = [] := by
        have : Dict.opt spec "limit" = none := by unfold Dict.opt; rw [hlimit]
        rw [this] at hlim
        exact (Except.ok.inj hlim).symm
      have hac : ∃ s d items, a.result = .count s d items := by
        rw [hres] at hdata
        cases hdata
        rw [hres']
        generalize hy : Y.map d = y at hb
        generalize hn : some rule = n at hb
        cases hb with
        | count => cases hn; obtain ⟨i, hi⟩ := count_stays; exact ⟨_, _, _, hi⟩
        | prof h => cases hy; rw [hkind] at h; cases h
        | course h => cases hy; rw [hkind] at h; cases h
        | query h => cases hy; rw [hkind] at h; cases h
        | cond h => cases hy; rw [hkind] at h; cases h
        | req h => cases hy; rcases h with ⟨h, _⟩ | ⟨h, _⟩ <;> (rw [hkind] at h; cases h)
      unfold auditArea at hok ⊢
      obtain ⟨n, progress, final, h1, -, h2, -, h4⟩ := C22_protocol_partial args hp hest _ _ hok
      have hne : ((a.solutions o p.loaded.student p.exceptions).map (AreaSolution.outcome o a)).items ≠ [] := by
        intro hnil
        rcases area_never_silent (o := o) (st := p.loaded.student) (es := p.exceptions) hal hac with h | h
        · simp [Gen.map] at hnil
          exact h hnil
        · obtain ⟨e, he⟩ := Option.ne_none_iff_exists'.1 h
          unfold runAudit at hok
          cases hest' : a.estimate o p.loaded.student p.exceptions with
          | error e => rw [hest'] at hok; cases hok
          | ok k =>
            rw [hest', hest, hnil] at hok
            have he' : ((a.solutions o p.loaded.student p.exceptions).map (AreaSolution.outcome o a)).err = some e := by
              simpa [Gen.map] using he
            rw [he'] at hok
            cases hok
      obtain ⟨r, i, k, rfl⟩ := h4 hne
      refine ⟨.estimate n :: progress, r, i, k, by rw [h1]; rfl, fun m hm => ?_⟩
      rcases List.mem_cons.1 hm with rfl | hm
      · exact .inl rfl
      · exact .inr (h2 m hm)

/-- **C99**: so the audit of an area whose file is missing, if it ends without an exception, reports one result, and it does not
pass, unless the student's file waives the area. -/
theorem C99_missing_area_is_reported (o : Orders) (ho : o.Lawful) (args : Args) (hp : args.Plain)
    (hest : args.estimateOnly = false) (raw : RawStudent) (stem : String)
    (hex : ∀ e ∈ raw.exceptions, e.areaCode = stem → e.exc.type ≠ "override")
    (hok : (runFiles o args raw (loadAreaFile stem none)).err = none) :
    ∃ before r i n, (runFiles o args raw (loadAreaFile stem none)).items = before ++ [.result r (some i) n n] ∧
      (∀ m ∈ before, m.isEstimate = true ∨ m.isProgress = true) ∧ ¬ Passes r.status := by
  obtain ⟨before, r, i, n, h1, h2⟩ := C99_some_result_is_reported o args hp hest raw (loadAreaFile stem none) _ rfl rfl rfl hok
  refine ⟨before, r, i, n, h1, h2, fun hps => ?_⟩
  obtain ⟨e, he, hc, ht, -⟩ := C99_missing_area_does_not_pass o ho args raw stem r (some i) n n (by rw [h1]; simp) hps
  exact hex e he hc ht

/-! ### Non-trivial cases -/

namespace MissingCase
/-- a student with a class, and an exception for another area -/
def raw : RawStudent :=
  { rows := [{ clbid := "1", subject := "CSCI", number := "121", year := 2018, gradePoints := 4, gradeCode := .A }]
    exceptions := [⟨"140", { type := "override", path := ["$", ".count"] }⟩] }
/-- the same student, with the missing area waived at `p` -/
def waived (p : Path) : RawStudent := { raw with exceptions := [⟨"741", { type := "override", path := p }⟩] }
/-- the statuses of the results reported -/
def statuses (raw : RawStudent) : List (Option Bool) :=
  (runFiles .insertion {} raw (loadAreaFile "741" none)).items.map fun m => match m with
    | .result r _ _ _ => some (decide (Passes r.status))
    | _ => none
end MissingCase

open MissingCase in
/-- the hypotheses of `C99_missing_area_is_reported` -/
example : (∀ e ∈ raw.exceptions, e.areaCode = "741" → e.exc.type ≠ "override") ∧
    (runFiles .insertion {} raw (loadAreaFile "741" none)).err = none ∧ statuses raw = [none, some false] := by
  refine ⟨?_, ?_, ?_⟩ <;> decide +kernel

open MissingCase in
/-- the hypotheses of `C99_missing_area_does_not_pass`: both places matter -/
example : statuses (waived ["$", ".count"]) = [none, some true] ∧
    statuses (waived ["$", ".count", "[0]", "%Error"]) = [none, some true] ∧ statuses (waived ["$"]) = [none, some false] := by
  refine ⟨?_, ?_, ?_⟩ <;> decide +kernel

end Dp
