import Verif.Props.Missing

/-
The command line, the batch and the index of students.
-/
namespace Dp

/-! ### The command line -/

theorem mainLoop_plain {ρ τ : Type} {render : ρ → Except Err τ} {tail : Option Err} {before : List (Msg ρ)}
    (h : ∀ m ∈ before, m.isEstimate = true ∨ m.isProgress = true) (rest : List (Msg ρ)) :
    ∃ w, (∀ x ∈ w, ∀ t, x ≠ Output.report t) ∧
      mainLoop false render tail (before ++ rest) = (w ++ (mainLoop false render tail rest).1, (mainLoop false render tail rest).2) := by
  induction before with
  | nil => exact ⟨[], by simp, rfl⟩
  | cons m before ih =>
    obtain ⟨w, h1, h2⟩ := ih (fun m hm => h m (List.mem_cons_of_mem _ hm))
    have hm := h m List.mem_cons_self
    cases m with
    | estimate n =>
      refine ⟨.estimate n :: w, ?_, ?_⟩
      · intro x hx t
        rcases List.mem_cons.1 hx with rfl | hx
        · simp
        · exact h1 x hx t
      · rw [List.cons_append, mainLoop, h2]; rfl
    | progress _ _ _ _ =>
      refine ⟨.progress :: w, ?_, ?_⟩
      · intro x hx t
        rcases List.mem_cons.1 hx with rfl | hx
        · simp
        · exact h1 x hx t
      · rw [List.cons_append, mainLoop, h2]; rfl
    | noAudits => rcases hm with hm | hm <;> cases hm
    | result _ _ _ _ => rcases hm with hm | hm <;> cases hm

theorem mainLoop_exit {ρ τ : Type} {quiet : Bool} {render : ρ → Except Err τ} {tail : Option Err} {before : List (Msg ρ)}
    (h : ∀ m ∈ before, m.isEstimate = true ∨ m.isProgress = true) (rest : List (Msg ρ)) :
    (mainLoop quiet render tail (before ++ rest)).2 = (mainLoop quiet render tail rest).2 := by
  induction before with
  | nil => rfl
  | cons m before ih =>
    have ih := ih (fun m hm => h m (List.mem_cons_of_mem _ hm))
    have hm := h m List.mem_cons_self
    cases m with
    | estimate n => rw [List.cons_append, mainLoop]; exact ih
    | progress _ _ _ _ => rw [List.cons_append, mainLoop]; exact ih
    | noAudits => rcases hm with hm | hm <;> cases hm
    | result _ _ _ _ => rcases hm with hm | hm <;> cases hm

/-- the messages of an audit of two files, with plain arguments -/
theorem messages_cases (o : Orders) (args : Args) (hp : args.Plain) (hest : args.estimateOnly = false) (raw : RawStudent)
    (spec : Dict) :
    (∃ e, (runFiles o args raw spec).err = some e ∧
      ∀ m ∈ (runFiles o args raw spec).items, m.isEstimate = true ∨ m.isProgress = true) ∨
    ((runFiles o args raw spec).err = none ∧ ∃ before final, (runFiles o args raw spec).items = before ++ [final] ∧
      (∀ m ∈ before, m.isEstimate = true ∨ m.isProgress = true) ∧
      (final = .noAudits ∨ ∃ r i n, final = .result r (some i) n n)) := by
  unfold runFiles
  cases prepareStudent raw spec with
  | error e => exact .inl ⟨e, rfl, by simp [Gen.raise]⟩
  | ok p =>
    dsimp only
    cases loadArea p.loaded.constants p.loaded.templates p.loaded.student p.exceptions false spec with
    | error e => exact .inl ⟨e, rfl, by simp [Gen.raise]⟩
    | ok a =>
      dsimp only
      unfold auditArea
      generalize a.estimate o p.loaded.student p.exceptions = est
      generalize (a.solutions o p.loaded.student p.exceptions).map (AreaSolution.outcome o a) = sols
      cases herr : (runAudit args est sols).err with
      | some e => exact .inl ⟨e, rfl, C22_no_result_before_exception args hp est sols (by simp [herr])⟩
      | none =>
        obtain ⟨n, progress, final, h1, -, h2, h3, h4⟩ := C22_protocol_partial args hp hest est sols herr
        refine .inr ⟨rfl, .estimate n :: progress, final, by rw [h1]; rfl, fun m hm => ?_, ?_⟩
        · rcases List.mem_cons.1 hm with rfl | hm
          · exact .inl rfl
          · exact .inr (h2 m hm)
        · by_cases hs : sols.items = []
          · exact .inl (h3 hs)
          · exact .inr (h4 hs)

/-- what is written to standard output -/
def reports {τ : Type} (w : List (Output τ)) : List τ := w.filterMap fun x => match x with
  | .report t => some t
  | _ => none

theorem reports_none {τ : Type} {w : List (Output τ)} (h : ∀ x ∈ w, ∀ t, x ≠ Output.report t) : reports w = [] := by
  unfold reports
  rw [List.filterMap_eq_nil_iff]
  intro x hx
  cases x with
  | report t => exact absurd rfl (h _ hx t)
  | estimate _ => rfl
  | progress => rfl

/-- **C100**: the command exits with code 0 exactly if the audit ends without an exception, with a result that can be written;
then it has written one report, of this result.  Otherwise it has written none. -/
theorem C100_exit_code_tells_of_a_report {τ : Type} (o : Orders) (args : Args) (hp : args.Plain) (hest : args.estimateOnly = false)
    (render : AreaResult → Except Err τ) (raw : RawStudent) (stem : String) (file : Option Dict) :
    let msgs := runFiles o args raw (loadAreaFile stem file)
    let out := mainProgram o args false render raw stem file
    (out.2 = .code 0 ↔ msgs.err = none ∧ ∃ r i n t, msgs.items.getLast? = some (.result r i n n) ∧ render r = .ok t) ∧
    (out.2 = .code 0 → ∃ r i n t, msgs.items.getLast? = some (.result r i n n) ∧ render r = .ok t ∧ reports out.1 = [t]) ∧
    (out.2 ≠ .code 0 → reports out.1 = []) := by
  intro msgs out
  have hout : out = mainLoop false render msgs.err msgs.items := rfl
  rcases messages_cases o args hp hest raw (loadAreaFile stem file) with ⟨e, he, hall⟩ | ⟨he, before, final, hitems, hall, hf⟩
  · obtain ⟨w, hw, hm⟩ := mainLoop_plain (render := render) (tail := msgs.err) hall []
    rw [List.append_nil] at hm
    rw [hm] at hout
    have he' : msgs.err = some e := he
    rw [he', mainLoop] at hout
    rw [hout, List.append_nil]
    refine ⟨⟨(fun h => by cases h), fun h => ?_⟩, (fun h => by cases h), fun _ => reports_none hw⟩
    rw [he'] at h
    cases h.1
  · obtain ⟨w, hw, hm⟩ := mainLoop_plain (render := render) (tail := msgs.err) hall [final]
    have hitems' : msgs.items = before ++ [final] := hitems
    have he' : msgs.err = none := he
    rw [hitems', hm, he'] at hout
    rw [hitems', List.getLast?_concat, he', hout]
    have key : ∀ ts, reports (w ++ ts) = reports ts := fun ts => by
      have := reports_none hw
      unfold reports at this ⊢
      rw [List.filterMap_append, this, List.nil_append]
    rcases hf with rfl | ⟨r, i, n, rfl⟩
    · rw [mainLoop]
      refine ⟨⟨(fun h => by cases h), ?_⟩, (fun h => by cases h), fun _ => by rw [List.append_nil]; exact reports_none hw⟩
      rintro ⟨-, r, i, n, t, h, -⟩
      cases h
    · rw [mainLoop]
      dsimp only [Bool.false_eq_true, if_false]
      rw [if_neg Bool.false_ne_true]
      cases hr : render r with
      | error e =>
        refine ⟨⟨(fun h => by cases h), ?_⟩, (fun h => by cases h), fun _ => by rw [List.append_nil]; exact reports_none hw⟩
        rintro ⟨-, r', i', n', t, h, h'⟩
        cases h
        rw [hr] at h'
        cases h'
      | ok t =>
        refine ⟨⟨fun _ => ⟨rfl, r, some i, n, t, rfl, hr⟩, fun _ => rfl⟩, fun _ => ⟨r, some i, n, t, rfl, hr, ?_⟩, fun h => absurd rfl h⟩
        rw [key]
        rfl

/-- **C100**: it exits with code 2 exactly if the audit ends without an exception and without any result. -/
theorem C100_exit_code_two {τ : Type} (o : Orders) (args : Args) (hp : args.Plain) (hest : args.estimateOnly = false)
    (quiet : Bool) (render : AreaResult → Except Err τ) (raw : RawStudent) (stem : String) (file : Option Dict) :
    (mainProgram o args quiet render raw stem file).2 = .code 2 ↔
      .noAudits ∈ (runFiles o args raw (loadAreaFile stem file)).items := by
  unfold mainProgram
  dsimp only
  rcases messages_cases o args hp hest raw (loadAreaFile stem file) with ⟨e, he, hall⟩ | ⟨he, before, final, hitems, hall, hf⟩
  · have h1 := mainLoop_exit (quiet := quiet) (render := render) (tail := some e) hall []
    rw [List.append_nil] at h1
    rw [he, h1, mainLoop]
    refine ⟨(fun h => by cases h), fun h => ?_⟩
    rcases hall _ h with h | h <;> cases h
  · have hno : ∀ m ∈ before, m ≠ .noAudits := by
      rintro m hm rfl
      rcases hall _ hm with h | h <;> cases h
    rw [hitems, mainLoop_exit hall, he]
    rcases hf with rfl | ⟨r, i, n, rfl⟩
    · simp [mainLoop]
    · have : Msg.noAudits ∉ before ++ [Msg.result r (some i) n n] := by
        simp only [List.mem_append, List.mem_singleton, not_or]
        exact ⟨fun h => hno _ h rfl, by simp⟩
      simp only [this, iff_false]
      rw [mainLoop]
      cases quiet with
      | true => simp [mainLoop]
      | false =>
        rw [if_neg Bool.false_ne_true]
        cases render r <;> simp [mainLoop]

/-- **C100**: with `--quiet` nothing is written. -/
theorem C100_quiet {τ : Type} (o : Orders) (args : Args) (render : AreaResult → Except Err τ) (raw : RawStudent) (stem : String)
    (file : Option Dict) : (mainProgram o args true render raw stem file).1 = [] := by
  unfold mainProgram
  dsimp only
  generalize (runFiles o args raw (loadAreaFile stem file)).items = items
  induction items with
  | nil => rfl
  | cons m ms ih => cases m <;> simpa [mainLoop] using ih

/-! ### A non-trivial case -/

open PlainFiles in
/-- the command for a student with the course, for one without it (with the same exit code), and for an area file that is missing -/
example :
    let complete : AreaResult → Except Err Bool := fun r => .ok (decide (Complete r.status))
    mainProgram .insertion {} false complete raw "741" (some spec) = ([.estimate 1, .report true], .code 0) ∧
    mainProgram .insertion {} false complete {} "741" (some spec) = ([.estimate 1, .report false], .code 0) ∧
    mainProgram .insertion {} false complete raw "741" none = ([.estimate 1, .report false], .code 0) ∧
    (mainProgram .insertion {} true complete raw "741" (some spec)).2 = .code 0 := by
  refine ⟨?_, ?_, ?_, ?_⟩ <;> decide +kernel

end Dp
