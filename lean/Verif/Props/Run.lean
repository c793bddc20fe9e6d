import Verif.Props.Tree

/-
The audit run: which solution is reported (C21) and which messages are emitted (C22).
-/
namespace Dp
variable {ρ : Type}

/-- The `i`-th (from 1) of the examined solutions is the one to report: the first that
is done or waived, or else the first of greatest rank. -/
def IsBest (ex : List (Outcome ρ)) (i : Nat) (out : Outcome ρ) : Prop :=
  1 ≤ i ∧ ex[i - 1]? = some out ∧
  ((Complete out.status ∧ ∀ p ∈ ex.take (i - 1), ¬ Complete p.status) ∨
   ((∀ p ∈ ex, ¬ Complete p.status) ∧ (∀ p ∈ ex, p.rank ≤ out.rank) ∧
      ∀ p ∈ ex.take (i - 1), p.rank < out.rank))

/-- a progress message -/
def Msg.isProgress : Msg ρ → Bool
  | .progress .. => true
  | _ => false

/-- an estimate message -/
def Msg.isEstimate : Msg ρ → Bool
  | .estimate .. => true
  | _ => false

/-- Why a run stopped after the solutions `ex`: there are no more, the last one is done
or waived, or as many as asked for were audited. -/
def Stopped (args : Args) (sols : List (Except Err (Outcome ρ))) (ex : List (Outcome ρ)) : Prop :=
  ex.length = sols.length ∨ (∃ o, ex.getLast? = some o ∧ Complete o.status) ∨
    (∃ n : Int, args.stopAfter = some n ∧ n ≤ ex.length)

/-- no options that print solutions, and every solution is audited -/
def Args.Plain (args : Args) : Prop := args.printAll = false ∧ args.printOnly = [] ∧ args.auditEach = 1

theorem IsBest.step {ex : List (Outcome ρ)} {i : Nat} {b o : Outcome ρ} (h : IsBest ex i b)
    (hn : ∀ p ∈ ex, ¬ Complete p.status) (ho : ¬ Complete o.status) :
    (b.rank < o.rank → IsBest (ex ++ [o]) (ex.length + 1) o) ∧
    (¬ b.rank < o.rank → IsBest (ex ++ [o]) i b) := by
  obtain ⟨h1, h2, h3⟩ := h
  have hi : i - 1 < ex.length := (List.getElem?_eq_some_iff.mp h2).1
  have hb : b ∈ ex := List.mem_of_getElem? h2
  have hall : ∀ p ∈ ex ++ [o], ¬ Complete p.status := by
    intro p hp
    rcases List.mem_append.mp hp with hp | hp
    · exact hn p hp
    · rw [List.mem_singleton.mp hp]; exact ho
  rcases h3 with ⟨hc, _⟩ | ⟨_, hr, hlt⟩
  · exact absurd hc (hn b hb)
  constructor
  · intro hlt'
    refine ⟨by omega, by simp, Or.inr ⟨hall, ?_, ?_⟩⟩
    · intro p hp
      rcases List.mem_append.mp hp with hp | hp
      · exact le_of_lt (lt_of_le_of_lt (hr p hp) hlt')
      · rw [List.mem_singleton.mp hp]
    · intro p hp
      simp only [Nat.add_sub_cancel, List.take_left'] at hp
      exact lt_of_le_of_lt (hr p hp) hlt'
  · intro hge
    refine ⟨h1, by rw [List.getElem?_append_left hi]; exact h2, Or.inr ⟨hall, ?_, ?_⟩⟩
    · intro p hp
      rcases List.mem_append.mp hp with hp | hp
      · exact hr p hp
      · rw [List.mem_singleton.mp hp]; exact not_lt.mp hge
    · intro p hp
      rw [List.take_append_of_le_length (le_of_lt hi)] at hp
      exact hlt p hp

theorem isBest_complete {ex : List (Outcome ρ)} {o : Outcome ρ}
    (hn : ∀ p ∈ ex, ¬ Complete p.status) (ho : Complete o.status) :
    IsBest (ex ++ [o]) (ex.length + 1) o := by
  refine ⟨by omega, by simp, Or.inl ⟨ho, ?_⟩⟩
  intro p hp
  simp only [Nat.add_sub_cancel, List.take_left'] at hp
  exact hn p hp

/-- what the state of the loop says about the solutions examined so far -/
def RunInv (ex : List (Outcome ρ)) (s : RunState ρ) : Prop :=
  s.total = ex.length ∧ s.audited = ex.length ∧ s.printedSome = false ∧
  (∀ p ∈ ex, ¬ Complete p.status) ∧
  (ex = [] → s.best = none) ∧
  (ex ≠ [] → ∃ i b, IsBest ex i b ∧ s.best = some (b.result, b.rank, (i : Int)))

theorem runLoop_spec (args : Args) (hp : args.Plain) (tail : Option Err) :
    ∀ (sols : List (Except Err (Outcome ρ))) (ex : List (Outcome ρ)) (s : RunState ρ),
      RunInv ex s → (runLoop args tail sols s).err = none →
      ∃ (progress : List (Msg ρ)) (final : Msg ρ) (more : List (Outcome ρ)),
        (runLoop args tail sols s).items = progress ++ [final] ∧
        (∀ m ∈ progress, m.isProgress = true) ∧
        more.map Except.ok <+: sols ∧
        (ex ++ more = [] → final = .noAudits ∧ sols = []) ∧
        (ex ++ more ≠ [] → ∃ i b, IsBest (ex ++ more) i b ∧
          final = .result b.result (some i) (ex ++ more).length (ex ++ more).length) ∧
        (more.length = sols.length ∨ (∃ o, more.getLast? = some o ∧ Complete o.status) ∨
          ∃ n : Int, args.stopAfter = some n ∧ n ≤ (ex ++ more).length) := by
  obtain ⟨hpa, hpo, hae⟩ := hp
  intro sols
  induction sols with
  | nil =>
    intro ex s hs herr
    obtain ⟨h1, h2, h3, _, h5, h6⟩ := hs
    simp only [runLoop] at herr ⊢
    cases tail with
    | some e => exact absurd herr (by simp [Gen.raise])
    | none =>
      by_cases hex : ex = []
      · refine ⟨[], .noAudits, [], ?_, by simp, by simp, fun _ => ⟨rfl, trivial⟩, fun h => absurd (by simp [hex]) h, Or.inl rfl⟩
        simp [runEnd, h5 hex, Gen.one]
      · obtain ⟨i, b, hb, hbest⟩ := h6 hex
        refine ⟨[], .result b.result (some i) ex.length ex.length, [], ?_, by simp, by simp,
          fun h => absurd (by simpa using h) hex, fun _ => ⟨i, b, by simpa using hb, by simp⟩, Or.inl rfl⟩
        simp [runEnd, hbest, hpa, h3, h1, h2, Gen.one]
  | cons sol sols ih =>
    intro ex s hs herr
    obtain ⟨h1, h2, h3, h4, h5, h6⟩ := hs
    unfold runLoop at herr ⊢
    simp only [hpo, ne_eq, not_true_eq_false, false_and, if_false, hae, one_ne_zero, Int.emod_one,
      hpa, List.contains_nil, Bool.or_false, Bool.false_eq_true, h3] at herr ⊢
    cases sol with
    | error e => exact absurd herr (by simp [Gen.raise])
    | ok out =>
      dsimp only at herr ⊢
      by_cases hc : out.status.inWaivedAndDone = true
      · simp only [hc, if_true] at herr ⊢
        have hc' := (wd_iff _).mp hc
        refine ⟨[], .result out.result (some (ex.length + 1 : Nat)) (ex ++ [out]).length (ex ++ [out]).length, [out], ?_,
          by simp, by simp, fun h => absurd h (by simp), fun _ => ⟨ex.length + 1, out, isBest_complete h4 hc', rfl⟩,
          Or.inr (Or.inl ⟨out, rfl, hc'⟩)⟩
        simp [runEnd, hpa, h1, h2, Gen.one]
      · simp only [hc, if_false, Bool.false_eq_true] at herr ⊢
        have hc' : ¬ Complete out.status := fun h => hc ((wd_iff _).mpr h)
        by_cases hpe : args.progressEvery = 0
        · simp only [hpe, if_true] at herr
          exact absurd herr (by simp [Gen.raise])
        · simp only [hpe, if_false] at herr ⊢
          -- the state after this solution
          generalize hbest' : betterOf s.best out (s.total + 1) = best at herr ⊢
          have hinv : RunInv (ex ++ [out]) (⟨s.total + 1, s.audited + 1, some best, false⟩ : RunState ρ) := by
            refine ⟨by simp [h1], by simp [h2], rfl, ?_, fun h => absurd h (by simp), fun _ => ?_⟩
            · intro p hp
              rcases List.mem_append.mp hp with hp | hp
              · exact h4 p hp
              · rw [List.mem_singleton.mp hp]; exact hc'
            · by_cases hex : ex = []
              · refine ⟨1, out, ⟨le_refl _, by simp [hex], Or.inr ⟨?_, ?_, by simp⟩⟩, ?_⟩
                · simp [hex, hc']
                · simp [hex]
                · rw [← hbest', h5 hex]; simp [h1, hex, betterOf]
              · obtain ⟨i, b, hb, hsb⟩ := h6 hex
                rw [hsb] at hbest'
                simp only [betterOf] at hbest'
                split at hbest'
                · rename_i hlt
                  exact ⟨ex.length + 1, out, (hb.step h4 hc').1 hlt, by rw [← hbest']; simp [h1]⟩
                · rename_i hlt
                  exact ⟨i, b, (hb.step h4 hc').2 hlt, by rw [← hbest']⟩
          -- the progress message
          have hprog : ∀ (g : Gen (Msg ρ)), ∃ pre : List (Msg ρ), (∀ m ∈ pre, m.isProgress = true) ∧
              ((if (s.audited + 1) % args.progressEvery = 0 then
                (Gen.one (.progress best.2.1 (some best.2.2) (s.audited + 1) (s.total + 1)) : Gen (Msg ρ))
                else .nil).append (Gen.nil.append g)) = ⟨pre ++ g.items, g.err⟩ := by
            intro g
            split
            · exact ⟨[_], by simp [Msg.isProgress], rfl⟩
            · exact ⟨[], by simp, rfl⟩
          by_cases hst : args.stopAfter.any (fun n => decide (n ≤ s.audited + 1)) = true
          · simp only [hst, if_true] at herr ⊢
            obtain ⟨pre, hpre, heq⟩ := hprog (runEnd args ⟨s.total + 1, s.audited + 1, some best, false⟩)
            rw [heq] at herr ⊢
            obtain ⟨_, _, _, _, _, h6'⟩ := hinv
            obtain ⟨i, b, hb, hsb⟩ := h6' (by simp)
            refine ⟨pre, .result b.result (some i) (ex ++ [out]).length (ex ++ [out]).length, [out], ?_, hpre,
              by simp, fun h => absurd h (by simp), fun _ => ⟨i, b, hb, rfl⟩, Or.inr (Or.inr ?_)⟩
            · simp only [Option.some.injEq] at hsb
              simp [runEnd, hsb, hpa, Gen.one, h1, h2]
            · cases hsa : args.stopAfter with
              | none => rw [hsa] at hst; exact absurd hst (by simp)
              | some n =>
                rw [hsa] at hst
                have hle : n ≤ s.audited + 1 := by simpa using hst
                exact ⟨n, rfl, by simpa [h2] using hle⟩
          · simp only [hst, if_false, Bool.false_eq_true] at herr ⊢
            obtain ⟨pre, hpre, heq⟩ := hprog (runLoop args tail sols ⟨s.total + 1, s.audited + 1, some best, false⟩)
            rw [heq] at herr ⊢
            obtain ⟨pr, fin, more, hi, hpr, hpref, _, hne, hstop⟩ := ih (ex ++ [out]) _ hinv herr
            refine ⟨pre ++ pr, fin, out :: more, ?_, ?_, ?_, fun h => absurd h (by simp), fun _ => ?_, ?_⟩
            · simp only [hi, List.append_assoc]
            · intro m hm
              rcases List.mem_append.mp hm with hm | hm
              · exact hpre m hm
              · exact hpr m hm
            · simpa using hpref
            · simpa using hne (by simp)
            · rcases hstop with h | ⟨o, ho, hco⟩ | ⟨n, hn, hle⟩
              · exact Or.inl (by simp [h])
              · refine Or.inr (Or.inl ⟨o, ?_, hco⟩)
                rw [List.getLast?_cons, ho]; rfl
              · exact Or.inr (Or.inr ⟨n, hn, by simpa using hle⟩)

/-- **C21.** If an audit run that audits each solution ends normally, the result it
reports is the best of the solutions it examined: the first done or waived one, or else
the first one of greatest rank.  The examined solutions are the first ones generated,
without a gap, and the run stopped only because there are no more, because it found a
done or waived one, or because it was told to stop after that many. -/
theorem C21_reports_the_best (args : Args) (hp : args.Plain) (hest : args.estimateOnly = false)
    (estimate : Except Err Int) (sols : Gen (Except Err (Outcome ρ)))
    (hok : (runAudit args estimate sols).err = none) (hne : sols.items ≠ []) :
    ∃ (ex : List (Outcome ρ)) (i : Nat) (b : Outcome ρ),
      ex.map Except.ok <+: sols.items ∧ IsBest ex i b ∧ Stopped args sols.items ex ∧
      (runAudit args estimate sols).items.getLast? = some (.result b.result (some i) ex.length ex.length) := by
  unfold runAudit at hok ⊢
  cases estimate with
  | error e => exact absurd hok (by simp [Gen.raise])
  | ok n =>
    simp only [hest, Bool.false_eq_true, if_false, Gen.one, Gen.append] at hok ⊢
    obtain ⟨pr, fin, more, hi, _, hpref, hempty, hbest, hstop⟩ :=
      runLoop_spec args hp sols.err sols.items [] {} ⟨rfl, rfl, rfl, by simp, fun _ => rfl, fun h => absurd rfl h⟩ hok
    simp only [List.nil_append] at hempty hbest hstop
    have hm : more ≠ [] := fun h => hne (hempty h).2
    obtain ⟨i, b, hb, hf⟩ := hbest hm
    refine ⟨more, i, b, hpref, hb, hstop, ?_⟩
    rw [hi, hf, ← List.append_assoc, List.getLast?_append]
    simp

/-- **C21** for the audit of an area: the reported result is the best among the results
of the area's first solutions. -/
theorem C21_area_audit (o : Orders) (a : Area) (st : Student) (es : List Exc) (args : Args) (hp : args.Plain)
    (hest : args.estimateOnly = false) (hok : (auditArea o a st es args).err = none)
    (hne : (a.solutions o st es).items ≠ []) :
    ∃ (ex : List (Outcome AreaResult)) (i : Nat) (b : Outcome AreaResult),
      ex.map Except.ok <+: (a.solutions o st es).items.map (AreaSolution.outcome o a) ∧ IsBest ex i b ∧
      Stopped args ((a.solutions o st es).items.map (AreaSolution.outcome o a)) ex ∧
      (auditArea o a st es args).items.getLast? = some (.result b.result (some i) ex.length ex.length) :=
  C21_reports_the_best args hp hest _ _ hok (by simpa [Gen.map] using hne)

/-- three solutions of ranks 1, 3 and 3, none complete: the second is the best -/
example : IsBest (ρ := Nat) [⟨10, 1, .empty⟩, ⟨20, 3, .needsMoreItems⟩, ⟨30, 3, .empty⟩] 2 ⟨20, 3, .needsMoreItems⟩ := by
  refine ⟨by decide, rfl, Or.inr ⟨by decide, ?_, ?_⟩⟩
  · decide +kernel
  · decide +kernel

/-! ### `find_best_solution` -/

/-- what auditing a solution on no claims gives -/
def outcomeOf (x : Ctx) (o : Orders) (s : Node) : Except Err (Outcome Node) :=
  match s.audit x o [] with
  | .error e => .error e
  | .ok (r, _) => match r.rank with
    | .error e => .error e
    | .ok (rank, _) => .ok ⟨r, rank, r.status⟩

theorem bestLoop_spec (x : Ctx) (o : Orders) (tail : Option Err) :
    ∀ (sols : List Node) (ex : List (Outcome Node)) (best : Option (Node × Rat)) (inner : Option ClaimTable)
      (res : Option (Node × Rat)) (inner' : Option ClaimTable),
      (∀ p ∈ ex, ¬ Complete p.status) → (ex = [] → best = none) →
      (ex ≠ [] → ∃ i b, IsBest ex i b ∧ best = some (b.result, b.rank)) →
      bestLoop x o tail sols best inner = .ok (res, inner') →
      ∃ more : List (Outcome Node), more.map Except.ok <+: sols.map (outcomeOf x o) ∧
        (ex ++ more = [] → res = none ∧ sols = []) ∧
        (ex ++ more ≠ [] → ∃ i b, IsBest (ex ++ more) i b ∧ res = some (b.result, b.rank)) ∧
        (more.length = sols.length ∨ ∃ o, more.getLast? = some o ∧ Complete o.status) := by
  intro sols
  induction sols with
  | nil =>
    intro ex best inner res inner' _ h2 h3 h
    simp only [bestLoop] at h
    split at h
    · exact absurd h (by simp)
    · obtain ⟨rfl, rfl⟩ := Prod.mk.inj (Except.ok.inj h)
      refine ⟨[], by simp, fun he => ⟨h2 (by simpa using he), rfl⟩, fun he => by simpa using h3 (by simpa using he), Or.inl rfl⟩
  | cons s ss ih =>
    intro ex best inner res inner' h1 h2 h3 h
    simp only [bestLoop] at h
    split at h
    · exact absurd h (by simp)
    rename_i r t hr
    split at h
    · exact absurd h (by simp)
    rename_i rank m hrank
    have hout : outcomeOf x o s = .ok ⟨r, rank, r.status⟩ := by simp only [outcomeOf, hr, hrank]
    by_cases hc : r.status.inWaivedAndDone = true
    · simp only [hc, if_true] at h
      obtain ⟨rfl, rfl⟩ := Prod.mk.inj (Except.ok.inj h)
      refine ⟨[⟨r, rank, r.status⟩], by simp [hout], fun he => absurd he (by simp),
        fun _ => ⟨ex.length + 1, _, isBest_complete h1 ((wd_iff _).mp hc), rfl⟩, Or.inr ⟨_, rfl, (wd_iff _).mp hc⟩⟩
    · simp only [hc, if_false, Bool.false_eq_true] at h
      have hc' : ¬ Complete r.status := fun h => hc ((wd_iff _).mpr h)
      obtain ⟨more, hm, _, hb, hst⟩ := ih (ex ++ [⟨r, rank, r.status⟩]) _ _ res inner' (by
          intro p hp
          rcases List.mem_append.mp hp with hp | hp
          · exact h1 p hp
          · rw [List.mem_singleton.mp hp]; exact hc') (fun he => absurd he (by simp)) (by
          intro _
          by_cases hex : ex = []
          · refine ⟨1, ⟨r, rank, r.status⟩, ⟨le_refl _, by simp [hex], Or.inr ⟨by simp [hex, hc'], by simp [hex], by simp⟩⟩, ?_⟩
            rw [h2 hex]
          · obtain ⟨i, b, hb, hbe⟩ := h3 hex
            by_cases hlt : b.rank < rank
            · exact ⟨ex.length + 1, ⟨r, rank, r.status⟩, (hb.step h1 hc').1 hlt, by simp [hbe, hlt]⟩
            · exact ⟨i, b, (hb.step h1 hc').2 hlt, by simp [hbe, hlt]⟩) h
      refine ⟨⟨r, rank, r.status⟩ :: more, by simpa [hout] using hm, fun he => absurd he (by simp),
        fun _ => by simpa using hb (by simp), ?_⟩
      rcases hst with h | ⟨p, hp, hpc⟩
      · exact Or.inl (by simp [h])
      · exact Or.inr ⟨p, by rw [List.getLast?_cons, hp]; rfl, hpc⟩

/-- **C21**, for a rule solved on its own (an independent child of the topmost count, or
a common major requirement): the result used is the best among the rule's solutions, each
audited on its own. -/
theorem C21_find_best (x : Ctx) (o : Orders) (rule : Node) (t t' : ClaimTable) (merge : Bool) (r : Node)
    (h : findBest x o rule t merge = .ok (some r, t')) :
    ∃ (ex : List (Outcome Node)) (i : Nat) (b : Outcome Node),
      ex.map Except.ok <+: (rule.solutions x o).items.map (outcomeOf x o) ∧ IsBest ex i b ∧ b.result = r ∧
      (ex.length = (rule.solutions x o).items.length ∨ ∃ o, ex.getLast? = some o ∧ Complete o.status) := by
  unfold findBest at h
  dsimp only at h
  split at h
  · exact absurd h (by simp)
  rename_i best inner hb
  have hbest : best.map (·.1) = some r := by
    split at h
    · split at h
      · exact absurd h (by simp)
      · exact (Prod.mk.inj (Except.ok.inj h)).1
    · exact (Prod.mk.inj (Except.ok.inj h)).1
  obtain ⟨more, hm, he, hi, hst⟩ := bestLoop_spec x o _ _ [] none none best inner (by simp) (fun _ => rfl)
    (fun h => absurd rfl h) hb
  simp only [List.nil_append] at he hi
  have hne : more ≠ [] := by
    intro h0
    rw [(he h0).1] at hbest
    exact absurd hbest (by simp)
  obtain ⟨i, b, hib, hres⟩ := hi hne
  refine ⟨more, i, b, hm, hib, ?_, hst⟩
  rw [hres] at hbest
  exact Option.some.inj hbest

/-! ### C22: messages -/

theorem runEnd_no_estimate (args : Args) (s : RunState ρ) : ∀ m ∈ (runEnd args s).items, m.isEstimate = false := by
  unfold runEnd
  split
  · simp [Gen.one, Msg.isEstimate]
  · split <;> simp [Gen.one, Gen.nil, Msg.isEstimate]

theorem Gen.mem_append {α : Type} {g h : Gen α} {a : α} (ha : a ∈ (g.append h).items) :
    a ∈ g.items ∨ a ∈ h.items := by
  unfold Gen.append at ha
  split at ha
  · exact Or.inl ha
  · exact List.mem_append.mp ha

theorem runLoop_no_estimate (args : Args) (tail : Option Err) :
    ∀ (sols : List (Except Err (Outcome ρ))) (s : RunState ρ),
      ∀ m ∈ (runLoop args tail sols s).items, m.isEstimate = false := by
  intro sols
  induction sols with
  | nil =>
    intro s m hm
    simp only [runLoop] at hm
    split at hm
    · exact absurd hm (by simp [Gen.raise])
    · exact runEnd_no_estimate _ _ _ hm
  | cons sol sols ih =>
    intro s m hm
    unfold runLoop at hm
    dsimp only at hm
    split at hm
    · exact ih _ _ hm
    split at hm
    · exact absurd hm (by simp [Gen.raise])
    split at hm
    · exact ih _ _ hm
    split at hm
    · exact absurd hm (by simp [Gen.raise])
    split at hm
    · exact runEnd_no_estimate _ _ _ hm
    split at hm
    · exact absurd hm (by simp [Gen.raise])
    rcases Gen.mem_append hm with hm | hm
    · split at hm
      · rw [List.mem_singleton.mp hm]; rfl
      · exact absurd hm (by simp [Gen.nil])
    · rcases Gen.mem_append hm with hm | hm
      · split at hm
        · rw [List.mem_singleton.mp hm]; rfl
        · exact absurd hm (by simp [Gen.nil])
      · split at hm
        · exact runEnd_no_estimate _ _ _ hm
        · exact ih _ _ hm

/-- **C22**, whatever the arguments: a run that can be estimated begins with the one
estimate message it emits; if only an estimate was asked for, that is all. -/
theorem C22_one_estimate_first (args : Args) (n : Int) (sols : Gen (Except Err (Outcome ρ))) :
    ∃ rest, (runAudit args (.ok n) sols).items = .estimate n :: rest ∧ (∀ m ∈ rest, m.isEstimate = false) ∧
      (args.estimateOnly = true → rest = [] ∧ (runAudit args (.ok n) sols).err = none) := by
  unfold runAudit
  simp only [Gen.one, Gen.append]
  refine ⟨_, rfl, ?_, ?_⟩
  · split
    · simp [Gen.nil]
    · exact runLoop_no_estimate _ _ _ _
  · intro h
    simp [h, Gen.nil]

/-- **C22**: without the printing options (and auditing every solution), a run that ends
normally emits the estimate, then progress messages only, and then exactly one final
message: a result, or "no audits" exactly when no solution was generated.  (With
`print_all` this fails, `C22_print_all_refuted`.) -/
theorem C22_protocol_partial (args : Args) (hp : args.Plain) (hest : args.estimateOnly = false)
    (estimate : Except Err Int) (sols : Gen (Except Err (Outcome ρ)))
    (hok : (runAudit args estimate sols).err = none) :
    ∃ n progress final, (runAudit args estimate sols).items = .estimate n :: (progress ++ [final]) ∧
      estimate = .ok n ∧ (∀ m ∈ progress, m.isProgress = true) ∧
      (sols.items = [] → final = .noAudits) ∧
      (sols.items ≠ [] → ∃ r i k, final = .result r (some i) k k) := by
  unfold runAudit at hok ⊢
  cases estimate with
  | error e => exact absurd hok (by simp [Gen.raise])
  | ok n =>
    simp only [hest, Bool.false_eq_true, if_false, Gen.one, Gen.append] at hok ⊢
    obtain ⟨pr, fin, more, hi, hpr, hpref, hempty, hbest, hstop⟩ :=
      runLoop_spec args hp sols.err sols.items [] {} ⟨rfl, rfl, rfl, by simp, fun _ => rfl, fun h => absurd rfl h⟩ hok
    simp only [List.nil_append] at hempty hbest
    refine ⟨n, pr, fin, by simp [hi], rfl, hpr, ?_, ?_⟩
    · intro hs
      rw [hs] at hpref
      have : more = [] := by simpa using hpref
      exact (hempty this).1
    · intro hs
      have hm : more ≠ [] := fun h => hs (hempty h).2
      obtain ⟨i, b, _, hf⟩ := hbest hm
      exact ⟨_, _, _, hf⟩

/-- With `print_all`, when the first solution is done, the run ends without any result:
the solution that satisfies the area is not printed and the final message is left out. -/
theorem C22_print_all_refuted :
    let args : Args := { printAll := true }
    let run := runAudit (ρ := Unit) args (.ok 1) (.one (.ok ⟨(), 1, .done⟩))
    run.err = none ∧ run.items.length = 1 := by decide

theorem runLoop_raises (args : Args) (hp : args.Plain) (tail : Option Err) :
    ∀ (sols : List (Except Err (Outcome ρ))) (s : RunState ρ), s.printedSome = false →
      (runLoop args tail sols s).err ≠ none →
      ∀ m ∈ (runLoop args tail sols s).items, m.isProgress = true := by
  obtain ⟨hpa, hpo, hae⟩ := hp
  have hend : ∀ s : RunState ρ, (runEnd args s).err = none := by
    intro s; unfold runEnd; split
    · rfl
    · split <;> rfl
  intro sols
  induction sols with
  | nil =>
    intro s _ herr m hm
    simp only [runLoop] at hm herr
    split at hm
    · exact absurd hm (by simp [Gen.raise])
    · exact absurd (hend _) herr
  | cons sol sols ih =>
    intro s hs herr m hm
    unfold runLoop at hm herr
    simp only [hpo, ne_eq, not_true_eq_false, false_and, if_false, hae, one_ne_zero, Int.emod_one,
      hpa, List.contains_nil, Bool.or_false, Bool.false_eq_true, hs] at herr hm
    cases sol with
    | error e => exact absurd hm (by simp [Gen.raise])
    | ok out =>
      dsimp only at herr hm
      split at hm
      · rename_i hc
        rw [if_pos hc] at herr
        exact absurd (hend _) herr
      rename_i hc
      rw [if_neg hc] at herr
      split at hm
      · exact absurd hm (by simp [Gen.raise])
      rename_i hpe
      rw [if_neg hpe] at herr
      rcases Gen.mem_append hm with hm' | hm'
      · split at hm'
        · rw [List.mem_singleton.mp hm']; rfl
        · exact absurd hm' (by simp [Gen.nil])
      · rcases Gen.mem_append hm' with hm'' | hm''
        · exact absurd hm'' (by simp [Gen.nil])
        · have herr' : ∀ (g : Gen (Msg ρ)), ((if (s.audited + 1) % args.progressEvery = 0 then
              (Gen.one (.progress (betterOf s.best out (s.total + 1)).2.1
                (some (betterOf s.best out (s.total + 1)).2.2)
                (s.audited + 1) (s.total + 1)) : Gen (Msg ρ)) else .nil).append (Gen.nil.append g)).err = g.err := by
            intro g; split <;> rfl
          rw [herr'] at herr
          split at hm''
          · rename_i hst
            rw [if_pos hst] at herr
            exact absurd (hend _) herr
          · rename_i hst
            rw [if_neg hst] at herr
            exact ih _ rfl herr m hm''

/-- **C22**, for runs that fail: a run that raises an exception emitted nothing but the
estimate and progress messages before. -/
theorem C22_no_result_before_exception (args : Args) (hp : args.Plain) (estimate : Except Err Int)
    (sols : Gen (Except Err (Outcome ρ))) (herr : (runAudit args estimate sols).err ≠ none) :
    ∀ m ∈ (runAudit args estimate sols).items, m.isEstimate = true ∨ m.isProgress = true := by
  unfold runAudit at herr ⊢
  cases estimate with
  | error e => simp [Gen.raise]
  | ok n =>
    simp only [Gen.one, Gen.append] at herr ⊢
    intro m hm
    rcases List.mem_append.mp hm with hm | hm
    · rw [List.mem_singleton.mp hm]; exact Or.inl rfl
    · split at hm
      · exact absurd hm (by simp [Gen.nil])
      · rename_i he
        rw [if_neg he] at herr
        exact Or.inr (runLoop_raises args hp _ _ _ rfl herr m hm)

/-- three solutions, the second of greatest rank, with `progress_every = 2` and no done
one: estimate, one progress message, the result of the second -/
example : ∃ r, (runAudit (ρ := Nat) { progressEvery := 2 } (.ok 3)
      ⟨[.ok ⟨10, 1, .empty⟩, .ok ⟨20, 3, .needsMoreItems⟩, .ok ⟨30, 3, .empty⟩], none⟩).items.getLast? =
    some (.result r (some 2) 3 3) := ⟨20, by decide +kernel⟩

end Dp
