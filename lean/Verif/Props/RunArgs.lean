import Verif.Props.Run
import Mathlib.Data.List.Basic

/-
The options of an audit run: which solutions are audited and which are printed (C22).
-/
namespace Dp

variable {ρ : Type}

/-! ### Specification -/

/-- number the members of a list from `k + 1` on -/
def numbered {α : Type} : Int → List α → List (Int × α)
  | _, [] => []
  | k, a :: l => (k + 1, a) :: numbered (k + 1) l

/-- the run looks at the `i`-th solution: it is one of those asked for, if any are, and every `auditEach`-th one -/
def Args.Selects (args : Args) (i : Int) : Prop := (args.printOnly = [] ∨ i ∈ args.printOnly) ∧ args.auditEach ∣ i

instance (args : Args) (i : Int) : Decidable (args.Selects i) := inferInstanceAs (Decidable (_ ∧ _))

/-- the solutions that the run looks at, with their numbers -/
def Args.selected {α : Type} (args : Args) (sols : List α) : List (Int × α) :=
  (numbered 0 sols).filter (fun p => decide (args.Selects p.1))

/-- of these, those before it stops: it looks at one at least -/
def Args.upTo {α : Type} (args : Args) (l : List α) : List α :=
  match args.stopAfter with
  | none => l
  | some n => l.take (max 1 n.toNat)

/-- the result that a message tells, with the number of its solution -/
def Msg.told : Msg ρ → Option (ρ × Int)
  | .result r _ _ total => some (r, total)
  | _ => none

/-! ### Lemmas -/

theorem selects_iff {args : Args} (hae : args.auditEach ≠ 0) (i : Int) :
    args.Selects i ↔ ¬ (args.printOnly ≠ [] ∧ ¬ args.printOnly.contains i = true) ∧ ¬ i % args.auditEach ≠ 0 := by
  unfold Args.Selects
  rw [Int.dvd_iff_emod_eq_zero]
  simp only [List.contains_iff_mem]
  tauto

/-- what a run does depends on the selected solutions only -/
theorem runLoop_selected (args : Args) (hae : args.auditEach ≠ 0) (tail : Option Err) :
    ∀ (sols sols' : List (Except Err (Outcome ρ))) (s : RunState ρ), sols.length = sols'.length →
      (numbered s.total sols).filter (fun p => decide (args.Selects p.1)) =
        (numbered s.total sols').filter (fun p => decide (args.Selects p.1)) →
      runLoop args tail sols s = runLoop args tail sols' s := by
  intro sols
  induction sols with
  | nil =>
    intro sols' s h _
    have : sols' = [] := by simpa using h.symm
    subst this; rfl
  | cons sol sols ih =>
    intro sols' s h hsel
    cases sols' with
    | nil => simp at h
    | cons sol' sols' =>
      have hlen : sols.length = sols'.length := by simpa using h
      simp only [numbered, List.filter_cons] at hsel
      have hsi := selects_iff hae (s.total + 1)
      by_cases hs : args.Selects (s.total + 1)
      · rw [if_pos (by simpa using hs), if_pos (by simpa using hs)] at hsel
        obtain ⟨h1, h2⟩ := List.cons.inj hsel
        have h1 : sol = sol' := (Prod.mk.inj h1).2
        subst h1
        obtain ⟨k1, k2⟩ := hsi.1 hs
        unfold runLoop
        dsimp only
        rw [if_neg k1, if_neg hae, if_neg k2, if_neg k1, if_neg hae, if_neg k2]
        cases sol with
        | error e => rfl
        | ok out =>
          dsimp only
          split
          · rfl
          split
          · rfl
          rw [ih sols' _ hlen h2]
      · rw [if_neg (by simpa using hs), if_neg (by simpa using hs)] at hsel
        have hrec := ih sols' { s with total := s.total + 1 } hlen hsel
        unfold runLoop
        dsimp only
        by_cases k1 : args.printOnly ≠ [] ∧ ¬ args.printOnly.contains (s.total + 1) = true
        · rw [if_pos k1, if_pos k1]; exact hrec
        · rw [if_neg k1, if_neg k1, if_neg hae, if_neg hae]
          have k2 : (s.total + 1) % args.auditEach ≠ 0 := by
            by_contra k2
            exact hs (hsi.2 ⟨k1, by simpa using k2⟩)
          rw [if_pos k2, if_pos k2]; exact hrec

/-- stop after `k` have been looked at already -/
def Args.upToFrom {α : Type} (args : Args) (k : Int) (l : List α) : List α :=
  match args.stopAfter with
  | none => l
  | some n => l.take (max 1 (n - k).toNat)

theorem runLoop_prints (args : Args) (hae : args.auditEach ≠ 0) (hpr : args.printAll = true ∨ args.printOnly ≠ []) (tail : Option Err) :
    ∀ (sols : List (Except Err (Outcome ρ))) (s : RunState ρ),
      (s.best ≠ none → (args.printAll || s.printedSome) = true) → (runLoop args tail sols s).err = none →
      (∀ p ∈ args.upToFrom s.audited ((numbered s.total sols).filter (fun p => decide (args.Selects p.1))), ∀ out, p.2 = .ok out →
        ¬ Complete out.status) →
      ∃ outs : List (Int × Outcome ρ),
        args.upToFrom s.audited ((numbered s.total sols).filter (fun p => decide (args.Selects p.1))) =
          outs.map (fun p => (p.1, .ok p.2)) ∧
        (runLoop args tail sols s).items.filterMap Msg.told = outs.map (fun p => (p.2.result, p.1)) ∧
        (Msg.noAudits ∈ (runLoop args tail sols s).items ↔ s.best = none ∧ outs = []) := by
  intro sols
  have hend : ∀ s : RunState ρ, (s.best ≠ none → (args.printAll || s.printedSome) = true) →
      (runEnd args s).items.filterMap Msg.told = [] ∧ (Msg.noAudits ∈ (runEnd args s).items ↔ s.best = none) := by
    intro s hs
    unfold runEnd
    cases hb : s.best with
    | none => simp [Gen.one, Msg.told]
    | some b =>
      dsimp only
      rw [if_pos (hs (by simp [hb]))]
      simp [Gen.nil]
  have hunext : ∀ {α : Type} (k : Int), args.upToFrom k ([] : List α) = [] := by
    intro α k
    unfold Args.upToFrom
    split <;> simp
  induction sols with
  | nil =>
    intro s hs hok _
    unfold runLoop at hok ⊢
    cases tail with
    | some e => exact absurd hok (by simp [Gen.raise])
    | none =>
      refine ⟨[], ?_, ?_, ?_⟩
      · simp [numbered, hunext]
      · exact (hend s hs).1
      · simp [(hend s hs).2]
  | cons sol sols ih =>
    intro s hs hok hnc
    have hsi := selects_iff hae (s.total + 1)
    by_cases hsel : args.Selects (s.total + 1)
    · obtain ⟨k1, k2⟩ := hsi.1 hsel
      simp only [numbered, List.filter_cons, if_pos (show decide (args.Selects (s.total + 1)) = true by simpa using hsel)] at hnc ⊢
      -- the first one is looked at
      have hfirst : ∀ (l : List (Int × Except Err (Outcome ρ))), ∃ l', args.upToFrom s.audited ((s.total + 1, sol) :: l) =
          (s.total + 1, sol) :: l' ∧ l' = (if args.stopAfter.any (fun n => decide (n ≤ s.audited + 1)) then [] else
            args.upToFrom (s.audited + 1) l) := by
        intro l
        unfold Args.upToFrom
        cases hst : args.stopAfter with
        | none => exact ⟨l, rfl, by simp⟩
        | some n =>
          refine ⟨l.take (max 1 (n - s.audited).toNat - 1), ?_, ?_⟩
          · have : max 1 (n - s.audited).toNat = (max 1 (n - s.audited).toNat - 1) + 1 := by omega
            dsimp only
            rw [this, List.take_succ_cons]
            simp
          · by_cases hn : n ≤ s.audited + 1
            · rw [if_pos (by simpa using hn)]
              have : max 1 (n - s.audited).toNat - 1 = 0 := by omega
              rw [this]; rfl
            · rw [if_neg (by simpa using hn)]
              congr 1
              omega
      obtain ⟨l', e1, e2⟩ := hfirst ((numbered (s.total + 1) sols).filter (fun p => decide (args.Selects p.1)))
      rw [e1] at hnc ⊢
      unfold runLoop at hok ⊢
      dsimp only at hok ⊢
      rw [if_neg k1, if_neg hae, if_neg k2] at hok ⊢
      cases sol with
      | error e => exact absurd hok (by simp [Gen.raise])
      | ok out =>
        dsimp only at hok ⊢
        have hc : ¬ out.status.inWaivedAndDone = true := fun h => hnc _ List.mem_cons_self out rfl ((wd_iff _).1 h)
        rw [if_neg hc] at hok ⊢
        by_cases hpe : args.progressEvery = 0
        · rw [if_pos hpe] at hok; exact absurd hok (by simp [Gen.raise])
        rw [if_neg hpe] at hok ⊢
        have hpo : (args.printAll || args.printOnly.contains (s.total + 1)) = true := by
          rcases hpr with h | h
          · simp [h]
          · by_cases hpa : args.printAll = true
            · simp [hpa]
            · have : args.printOnly.contains (s.total + 1) = true := by
                by_contra hh
                exact k1 ⟨h, hh⟩
              rw [this, Bool.or_true]
        rw [if_pos hpo] at hok ⊢
        generalize hprog : (if (s.audited + 1) % args.progressEvery = 0 then
          Gen.one (Msg.progress (betterOf s.best out (s.total + 1)).2.1 (some (betterOf s.best out (s.total + 1)).2.2)
            (s.audited + 1) (s.total + 1)) else Gen.nil) = prog at hok ⊢
        have hp1 : prog.err = none ∧ prog.items.filterMap Msg.told = [] ∧ Msg.noAudits ∉ prog.items := by
          rw [← hprog]
          split <;> simp [Gen.one, Gen.nil, Msg.told]
        generalize hs' : (⟨s.total + 1, s.audited + 1, some (betterOf s.best out (s.total + 1)),
          s.printedSome || args.printOnly.contains (s.total + 1)⟩ : RunState ρ) = s' at hok ⊢
        have hs1 : s'.best ≠ none → (args.printAll || s'.printedSome) = true := by
          intro _
          rw [← hs']
          dsimp only
          revert hpo
          cases args.printAll <;> cases args.printOnly.contains (s.total + 1) <;> simp
        have hb' : s'.best ≠ none := by rw [← hs']; simp
        have ht' : s'.total = s.total + 1 := by rw [← hs']
        have ha' : s'.audited = s.audited + 1 := by rw [← hs']
        have happ : ∀ (g : Gen (Msg ρ)) (m : Msg ρ), prog.err = none →
            ((prog.append ((Gen.one m).append g)).items = prog.items ++ m :: g.items) ∧
            ((prog.append ((Gen.one m).append g)).err = g.err) := by
          intro g m he
          simp [Gen.append, Gen.one, he]
        rw [(happ _ _ hp1.1).2] at hok
        rw [(happ _ _ hp1.1).1]
        by_cases hst : args.stopAfter.any (fun n => decide (n ≤ s.audited + 1)) = true
        · rw [if_pos hst] at hok ⊢
          rw [if_pos hst] at e2
          subst e2
          obtain ⟨q1, q2⟩ := hend s' hs1
          refine ⟨[(s.total + 1, out)], rfl, ?_, ?_⟩
          · rw [List.filterMap_append, hp1.2.1, List.filterMap_cons, q1]
            simp [Msg.told]
          · simp [hp1.2.2, q2, hb']
        · rw [if_neg hst] at hok ⊢
          rw [if_neg hst] at e2
          subst e2
          have hnc' : ∀ p ∈ args.upToFrom s'.audited ((numbered s'.total sols).filter (fun p => decide (args.Selects p.1))),
              ∀ out, p.2 = .ok out → ¬ Complete out.status := by
            rw [ht', ha']
            intro p hp
            exact hnc p (by simp [hp])
          obtain ⟨outs, h1, h2, h3⟩ := ih s' hs1 hok hnc'
          rw [ht', ha'] at h1
          refine ⟨(s.total + 1, out) :: outs, by rw [h1]; rfl, ?_, ?_⟩
          · rw [List.filterMap_append, hp1.2.1, List.filterMap_cons, h2]
            simp [Msg.told]
          · simp [hp1.2.2, h3, hb']
    · simp only [numbered, List.filter_cons, if_neg (show ¬ decide (args.Selects (s.total + 1)) = true by simpa using hsel)] at hnc ⊢
      have hrec := ih { s with total := s.total + 1 } hs
      unfold runLoop at hok ⊢
      dsimp only at hok ⊢
      by_cases k1 : args.printOnly ≠ [] ∧ ¬ args.printOnly.contains (s.total + 1) = true
      · rw [if_pos k1] at hok ⊢
        exact hrec hok hnc
      · have k2 : (s.total + 1) % args.auditEach ≠ 0 := by
          by_contra k2
          exact hsel (hsi.2 ⟨k1, by simpa using k2⟩)
        rw [if_neg k1, if_neg hae, if_pos k2] at hok ⊢
        exact hrec hok hnc

/-! ### The properties -/

/-- **C22**, for every argument: solutions that are not selected (by `print_only` and `audit_each`) have no influence on the
messages of a run, not even by failing. -/
theorem C22_only_selected_solutions_matter (args : Args) (hae : args.auditEach ≠ 0) (estimate : Except Err Int)
    (sols sols' : List (Except Err (Outcome ρ))) (tail : Option Err) (hlen : sols.length = sols'.length)
    (h : args.selected sols = args.selected sols') :
    runAudit args estimate ⟨sols, tail⟩ = runAudit args estimate ⟨sols', tail⟩ := by
  unfold runAudit
  cases estimate with
  | error e => rfl
  | ok n =>
    dsimp only
    rw [runLoop_selected args hae tail sols sols' {} hlen h]

/-- **C22**, with a printing option: a run that ends normally tells the result of each selected solution once and in order, up
to where it is told to stop, and no other, and it says that there are no audits exactly if it selected none.  Partial: none of
these may be complete (`C22_print_all_refuted`, `C22_print_only_refuted`). -/
theorem C22_printed_results_partial (args : Args) (hae : args.auditEach ≠ 0) (hest : args.estimateOnly = false)
    (hpr : args.printAll = true ∨ args.printOnly ≠ []) (estimate : Except Err Int) (sols : Gen (Except Err (Outcome ρ)))
    (hok : (runAudit args estimate sols).err = none)
    (hnc : ∀ p ∈ args.upTo (args.selected sols.items), ∀ out, p.2 = .ok out → ¬ Complete out.status) :
    ∃ outs : List (Int × Outcome ρ), args.upTo (args.selected sols.items) = outs.map (fun p => (p.1, .ok p.2)) ∧
      (runAudit args estimate sols).items.filterMap Msg.told = outs.map (fun p => (p.2.result, p.1)) ∧
      (Msg.noAudits ∈ (runAudit args estimate sols).items ↔ outs = []) := by
  unfold runAudit at hok ⊢
  cases estimate with
  | error e => exact absurd hok (by simp [Gen.raise])
  | ok n =>
    simp only [hest, Bool.false_eq_true, if_false, Gen.one, Gen.append] at hok ⊢
    have e : ∀ (l : List (Int × Except Err (Outcome ρ))), args.upTo l = args.upToFrom 0 l := by
      intro l
      unfold Args.upTo Args.upToFrom
      cases args.stopAfter <;> simp
    unfold Args.selected at hnc ⊢
    rw [e] at hnc ⊢
    obtain ⟨outs, h1, h2, h3⟩ := runLoop_prints args hae hpr sols.err sols.items {} (by simp) hok hnc
    refine ⟨outs, h1, ?_, ?_⟩
    · rw [List.filterMap_append, h2]
      simp [Msg.told]
    · simp only [List.mem_append, List.mem_singleton, h3]
      simp

/-- With `print_only`, a complete solution is left out if another one was printed before it. -/
theorem C22_print_only_refuted :
    let args : Args := { printOnly := [1, 2] }
    let run := runAudit (ρ := Nat) args (.ok 2) ⟨[.ok ⟨10, 1, .empty⟩, .ok ⟨20, 2, .done⟩], none⟩
    run.err = none ∧ run.items.filterMap Msg.told = [(10, 1)] := by decide +kernel

/-- every third solution, of five: the third only; the others may even fail -/
example : (runAudit (ρ := Nat) { printAll := true, auditEach := 3 } (.ok 5)
    ⟨[.error .other, .ok ⟨20, 2, .empty⟩, .ok ⟨30, 1, .empty⟩, .ok ⟨40, 3, .done⟩, .error .other], none⟩).items.filterMap
      Msg.told = [(30, 3)] := by
  decide +kernel

/-- the second and the third of four, each told once -/
example : (runAudit (ρ := Nat) { printOnly := [2, 3] } (.ok 4)
    ⟨[.ok ⟨10, 9, .done⟩, .ok ⟨20, 2, .empty⟩, .ok ⟨30, 1, .empty⟩, .ok ⟨40, 3, .done⟩], none⟩).items.filterMap
      Msg.told = [(20, 2), (30, 3)] := by
  decide +kernel

end Dp
