import Verif.Model.Render
import Verif.Props.Testbed

/-
C111: what the testbed prints of the stored audits.
-/
namespace Dp

theorem find_first {α κ β : Type} [DecidableEq κ] (key : α → κ) (val : α → β) {l : List α} (hn : (l.map key).Nodup) {k : κ} {v : β} :
    (l.find? (fun s => decide (key s = k))).map val = some v ↔ ∃ s ∈ l, key s = k ∧ val s = v := by
  induction l with
  | nil => simp
  | cons s l ih =>
    simp only [List.map_cons, List.nodup_cons] at hn
    by_cases hk : key s = k
    · rw [List.find?_cons_of_pos (by simpa using hk), Option.map_some, Option.some.injEq]
      constructor
      · intro h; exact ⟨s, by simp, hk, h⟩
      · rintro ⟨t, ht, h1, h2⟩
        rcases List.mem_cons.1 ht with rfl | ht
        · exact h2
        · exact absurd (by rw [hk, ← h1]; exact List.mem_map_of_mem ht) hn.1
    · rw [List.find?_cons_of_neg (by simpa using hk), ih hn.2]
      constructor
      · rintro ⟨t, ht, h⟩; exact ⟨t, List.mem_cons_of_mem _ ht, h⟩
      · rintro ⟨t, ht, h1, h2⟩
        rcases List.mem_cons.1 ht with rfl | ht
        · exact absurd h1 hk
        · exact ⟨t, ht, h1, h2⟩

theorem find_branch {db : TbDb} (hu : db.Unique) {b : String} {k : TbKey} {row : TbRow} :
    (db.branch.find? (fun r => decide (r.1 = b ∧ r.2.1 = k))).map (·.2.2) = some row ↔ (b, k, row) ∈ db.branch := by
  have h := find_first (fun r : String × TbKey × TbRow => (r.1, r.2.1)) (·.2.2) hu.branch (k := (b, k)) (v := row)
  simp only [Prod.mk.injEq] at h
  rw [h]
  constructor
  · rintro ⟨⟨x, y, z⟩, hm, ⟨rfl, rfl⟩, rfl⟩; exact hm
  · intro hm; exact ⟨_, hm, ⟨rfl, rfl⟩, rfl⟩

theorem find_baseline {db : TbDb} (hu : db.Unique) {k : TbKey} {row : TbRow} :
    (db.baseline.find? (fun r => decide (r.1 = k))).map (·.2) = some row ↔ (k, row) ∈ db.baseline := by
  rw [find_first (fun r : TbKey × TbRow => r.1) (fun r => r.2) hu.baseline]
  constructor
  · rintro ⟨⟨x, y⟩, hm, rfl, rfl⟩; exact hm
  · intro hm; exact ⟨_, hm, rfl, rfl⟩

/-- What is to be printed for two texts: with `--diff`, their differences, or that there are none. -/
def TbPrinted (diff : Bool) (x y : String) : TbShown → Prop
  | .one _ => False
  | .noChanges => diff = true ∧ x = y
  | .diff a b => diff = true ∧ x ≠ y ∧ a = x ∧ b = y
  | .both a b => diff = false ∧ a = x ∧ b = y

theorem renderTwo_ok {text : RawStudent → String → Except Err String} {diff : Bool} {raw : RawStudent} {a b : String} {out : TbShown} :
    renderTwo text diff raw a b = .ok out ↔ ∃ x y, text raw a = .ok x ∧ text raw b = .ok y ∧ TbPrinted diff x y out := by
  unfold renderTwo
  cases ha : text raw a with
  | error e => simp
  | ok x =>
    cases hb : text raw b with
    | error e => simp
    | ok y =>
      simp only [Except.ok.injEq, exists_and_left, exists_eq_left']
      cases diff with
      | true =>
        simp only [if_true]
        by_cases hxy : x = y
        · rw [if_pos hxy]
          cases out <;> simp [TbPrinted, hxy]
        · rw [if_neg hxy]
          cases out <;> simp [TbPrinted, hxy, eq_comm]
      | false =>
        cases out <;> simp [TbPrinted, eq_comm]

/-- The audit that is stored under a name: in the baseline, or of a branch. -/
def TbDb.Stored (db : TbDb) (name : String) (k : TbKey) (row : TbRow) : Prop :=
  (name = "baseline" ∧ (k, row) ∈ db.baseline) ∨ (name ≠ "baseline" ∧ (name, k, row) ∈ db.branch)

/-- **C111** `print` of a branch shows something if and only if both audits are stored for the key that is given, and then it shows these two,
of the base first, each as a text for the student of the key; with `--diff` it says that there are no changes if and only if the texts are the
same. Missing: a branch that is named `server` or `baseline` (`C111_print_name_refuted`). -/
theorem C111_print_partial (text : RawStudent → String → Except Err String) (server : TbKey → String) (branch base : String) (diff : Bool)
    (db : TbDb) (hu : db.Unique) (hs : branch ≠ "server") (hb : branch ≠ "baseline") (k : TbKey) (out : TbShown) :
    renderAudit text server branch base diff db k = .ok out ↔
      ∃ secs raw row row' x y, (k, secs, raw) ∈ db.server ∧ db.Stored base k row ∧ (branch, k, row') ∈ db.branch ∧
        text raw row.result = .ok x ∧ text raw row'.result = .ok y ∧ TbPrinted diff x y out := by
  unfold renderAudit
  dsimp only
  rw [if_neg hs, if_neg hb]
  have hsrv : ∀ raw, (db.server.find? (fun s => decide (s.1 = k))).map (·.2.2) = some raw ↔ ∃ secs, (k, secs, raw) ∈ db.server :=
    fun raw => find_server hu.server
  have hbr : ∀ b row, (db.branch.find? (fun r => decide (r.1 = b ∧ r.2.1 = k))).map (·.2.2) = some row ↔ (b, k, row) ∈ db.branch :=
    fun b row => find_branch hu
  have hbl : ∀ row, (db.baseline.find? (fun r => decide (r.1 = k))).map (·.2) = some row ↔ (k, row) ∈ db.baseline :=
    fun row => find_baseline hu
  revert hsrv hbr hbl
  generalize (db.server.find? (fun s => decide (s.1 = k))).map (·.2.2) = S
  generalize (db.baseline.find? (fun r => decide (r.1 = k))).map (·.2) = L
  generalize hB : (fun b => (db.branch.find? (fun r => decide (r.1 = b ∧ r.2.1 = k))).map (·.2.2)) = B
  have hB' : ∀ b, (db.branch.find? (fun r => decide (r.1 = b ∧ r.2.1 = k))).map (·.2.2) = B b := fun b => by rw [← hB]
  simp only [hB']
  intro hsrv hbr hbl
  have hst : ∀ row, db.Stored base k row ↔ (if base = "baseline" then L else B base) = some row := by
    intro row
    unfold TbDb.Stored
    by_cases e : base = "baseline"
    · rw [if_pos e, hbl]; simp [e]
    · rw [if_neg e, hbr]; simp [e]
  have goal : (∃ secs raw row row' x y, (k, secs, raw) ∈ db.server ∧ db.Stored base k row ∧ (branch, k, row') ∈ db.branch ∧
        text raw row.result = .ok x ∧ text raw row'.result = .ok y ∧ TbPrinted diff x y out) ↔
      ∃ raw row row', S = some raw ∧ (if base = "baseline" then L else B base) = some row ∧ B branch = some row' ∧
        renderTwo text diff raw row.result row'.result = .ok out := by
    constructor
    · rintro ⟨secs, raw, row, row', x, y, h1, h2, h3, h4⟩
      exact ⟨raw, row, row', (hsrv raw).2 ⟨secs, h1⟩, (hst row).1 h2, (hbr branch row').2 h3, renderTwo_ok.2 ⟨x, y, h4⟩⟩
    · rintro ⟨raw, row, row', h1, h2, h3, h4⟩
      obtain ⟨secs, h1⟩ := (hsrv raw).1 h1
      obtain ⟨x, y, h4⟩ := renderTwo_ok.1 h4
      exact ⟨secs, raw, row, row', x, y, h1, (hst row).2 h2, (hbr branch row').1 h3, h4⟩
  rw [goal]
  by_cases e : base = "baseline"
  · rw [if_pos e]
    simp only [if_pos e]
    cases S <;> cases hr : B branch <;> cases L <;> simp
  · rw [if_neg e]
    simp only [if_neg e]
    cases S <;> cases hr : B branch <;> cases hb : B base <;> simp

/-- **C111** `print server` and `print baseline` show something if and only if the audit of the key is stored there, and then they show it, as a
text for the student of the key. -/
theorem C111_print_of_one (text : RawStudent → String → Except Err String) (server : TbKey → String) (base : String) (diff : Bool)
    (db : TbDb) (hu : db.Unique) (k : TbKey) (out : TbShown) :
    (renderAudit text server "server" base diff db k = .ok out ↔
      ∃ secs raw x, (k, secs, raw) ∈ db.server ∧ text raw (server k) = .ok x ∧ out = .one x) ∧
    (renderAudit text server "baseline" base diff db k = .ok out ↔
      ∃ secs raw row x, (k, secs, raw) ∈ db.server ∧ (k, row) ∈ db.baseline ∧ text raw row.result = .ok x ∧ out = .one x) := by
  have hsrv : ∀ raw, (db.server.find? (fun s => decide (s.1 = k))).map (·.2.2) = some raw ↔ ∃ secs, (k, secs, raw) ∈ db.server :=
    fun raw => find_server hu.server
  have hbl : ∀ row, (db.baseline.find? (fun r => decide (r.1 = k))).map (·.2) = some row ↔ (k, row) ∈ db.baseline :=
    fun row => find_baseline hu
  have hone : ∀ raw result, (match text raw result with
      | .error e => (.error e : Except Err TbShown)
      | .ok x => .ok (.one x)) = .ok out ↔ ∃ x, text raw result = .ok x ∧ out = .one x := by
    intro raw result
    cases text raw result with
    | error e => simp
    | ok x => simp [eq_comm]
  constructor
  · unfold renderAudit
    dsimp only
    rw [if_pos rfl]
    constructor
    · intro h
      split at h
      · cases h
      · rename_i raw hr
        obtain ⟨secs, hm⟩ := (hsrv raw).1 hr
        obtain ⟨x, h1, h2⟩ := (hone raw _).1 h
        exact ⟨secs, raw, x, hm, h1, h2⟩
    · rintro ⟨secs, raw, x, hm, h⟩
      rw [(hsrv raw).2 ⟨secs, hm⟩]
      exact (hone raw _).2 ⟨x, h⟩
  · unfold renderAudit
    dsimp only
    rw [if_neg (by decide), if_pos rfl]
    constructor
    · intro h
      split at h
      · cases h
      · rename_i raw hr
        obtain ⟨secs, hm⟩ := (hsrv raw).1 hr
        split at h
        · cases h
        · rename_i row hrow
          obtain ⟨x, h1, h2⟩ := (hone raw _).1 h
          exact ⟨secs, raw, row, x, hm, (hbl row).1 hrow, h1, h2⟩
    · rintro ⟨secs, raw, row, x, hm, hrow, h⟩
      rw [(hsrv raw).2 ⟨secs, hm⟩, (hbl row).2 hrow]
      exact (hone raw _).2 ⟨x, h⟩

theorem AuditedAs.same_result {o : Orders} {write : AreaResult → Except Err String} {late late' : Nat → Bool} {secs secs' : Rat}
    {raw : RawStudent} {spec : Dict} {row row' : TbRow} (h : AuditedAs o write late secs raw spec row)
    (h' : AuditedAs o write late' secs' raw spec row') : row.result = row'.result := by
  obtain ⟨before, r, i, n, hr, -, hw, -⟩ := h
  obtain ⟨before', r', i', n', hr', -, hw', -⟩ := h'
  rw [hr] at hr'
  have := List.append_inj' (congrArg Gen.items hr') rfl
  have he := this.2
  simp only [List.cons.injEq, Msg.result.injEq, and_true] at he
  obtain ⟨rfl, -⟩ := he
  rw [hw] at hw'
  exact Except.ok.inj hw'

/-- **C111**, from the files on: after a run for the baseline and one for a branch, with whatever programs and area files, `print` of the branch
shows an audit if and only if both runs were asked for it and both end with a result, and it shows the two results. Missing: as for
`C111_print_partial`. -/
theorem C111_print_of_two_runs_partial (text : RawStudent → String → Except Err String) (server : TbKey → String) (r r' : TbRun)
    (copy copy' : Bool) (b : String) (hs : b ≠ "server") (hb : b ≠ "baseline") (min min' : Rat) (filter filter' : Option String)
    (db db' db'' : TbDb) (hu : db.Unique) (ho : ∀ l, (r.order l).Perm l) (ho' : ∀ l, (r'.order l).Perm l)
    (h : runTestbed r copy none min filter db = (db', none)) (h' : runTestbed r' copy' (some b) min' filter' db' = (db'', none))
    (diff : Bool) (k : TbKey) (out : TbShown) :
    renderAudit text server b "baseline" diff db'' k = .ok out ↔
      ∃ secs raw row row' x y, (k, secs, raw) ∈ db.server ∧ Asked db none min filter k ∧ r.Gives db none k row ∧
        Asked db' (some b) min' filter' k ∧ r'.Gives db (some b) k row' ∧
        text raw row.result = .ok x ∧ text raw row'.result = .ok y ∧ TbPrinted diff x y out := by
  obtain ⟨hsv, hbr, hn, hrows⟩ := C105_baseline_is_what_was_audited_partial r copy min filter db db' hu ho h
  have hu' : db'.Unique := ⟨by rw [hsv]; exact hu.server, hn, by rw [hbr]; exact hu.branch⟩
  obtain ⟨hsv', hb', hn', hrows'⟩ := C105_branch_is_what_was_audited_partial r' copy' b min' filter' db' db'' hu' ho' h'
  have hu'' : db''.Unique := ⟨by rw [hsv']; exact hu'.server, by rw [hb']; exact hn, hn'⟩
  have hg : ∀ k row, r'.Gives db' (some b) k row ↔ r'.Gives db (some b) k row := by
    intro k row; unfold TbRun.Gives; rw [hsv]
  rw [C111_print_partial text server b "baseline" diff db'' hu'' hs hb k out]
  have hst : ∀ row, db''.Stored "baseline" k row ↔ Asked db none min filter k ∧ r.Gives db none k row := by
    intro row
    unfold TbDb.Stored
    rw [hb', hrows]
    simp
  have hbb : ∀ row, (b, k, row) ∈ db''.branch ↔ Asked db' (some b) min' filter' k ∧ r'.Gives db (some b) k row := by
    intro row
    rw [hrows', if_pos rfl, hg]
  simp only [hst, hbb, hsv', hsv, and_assoc]

/-- **C111**, for a branch that changes nothing: if the same program has audited the same files, `print --diff` says of every audit it shows that
there are no changes. -/
theorem C111_nothing_changed_partial (text : RawStudent → String → Except Err String) (server : TbKey → String) (r r' : TbRun)
    (copy copy' : Bool) (b : String) (hs : b ≠ "server") (hb : b ≠ "baseline") (min min' : Rat) (filter filter' : Option String)
    (db db' db'' : TbDb) (hu : db.Unique) (ho : ∀ l, (r.order l).Perm l) (ho' : ∀ l, (r'.order l).Perm l)
    (hsame : r'.o = r.o ∧ r'.write = r.write ∧ r'.area = r.area)
    (h : runTestbed r copy none min filter db = (db', none)) (h' : runTestbed r' copy' (some b) min' filter' db' = (db'', none))
    (k : TbKey) (out : TbShown) (hp : renderAudit text server b "baseline" true db'' k = .ok out) :
    out = .noChanges := by
  obtain ⟨secs, raw, row, row', x, y, -, -, hg, -, hg', hx, hy, ho⟩ := (C111_print_of_two_runs_partial text server r r' copy copy' b hs hb min
    min' filter filter' db db' db'' hu ho ho' h h' true k out).1 hp
  obtain ⟨secs1, raw1, spec, h1, h2, h3⟩ := hg
  obtain ⟨secs2, raw2, spec', h1', h2', h3'⟩ := hg'
  rw [hsame.2.2, h2] at h2'
  cases h2'
  have : raw1 = raw2 := by
    have e1 := (find_server hu.server).2 ⟨secs1, h1⟩
    have e2 := (find_server hu.server).2 ⟨secs2, h1'⟩
    rw [e1] at e2
    exact Option.some.inj e2
  subst this
  rw [hsame.1, hsame.2.1] at h3'
  rw [h3.same_result h3', hy] at hx
  cases hx
  cases out with
  | one => exact ho.elim
  | noChanges => rfl
  | diff => exact absurd rfl ho.2.1
  | both => exact absurd ho.1 (by decide)

namespace RenderText
open TestbedText
/-- a program that writes whether the audit is complete -/
def writes (r : TbRun) : TbRun := { r with write := fun a => .ok (if a.ok then "complete" else "incomplete") }
/-- the results as they are stored -/
def plain : RawStudent → String → Except Err String := fun _ s => .ok s
/-- what is stored after both runs -/
def after (spec : Dict) : TbDb :=
  (runTestbed (writes (run spec)) false (some "new") 30 none (runTestbed (writes (run (need "CSCI 121"))) false none 30 none db).1).1
/-- what is printed, or nothing -/
def printed (x : Except Err TbShown) : Option TbShown :=
  match x with
  | .ok s => some s
  | .error _ => none
end RenderText

open TestbedText RenderText in
/-- the hypotheses hold of two runs, one with another area file; the two results are shown, and of a run with the same area file, that there are no changes -/
example : (after (need "CSCI 251")).Unique ∧
    (runTestbed (writes (run (need "CSCI 251"))) false (some "new") 30 none
      (runTestbed (writes (run (need "CSCI 121"))) false none 30 none db).1).2 = none ∧
    printed (renderAudit plain (fun _ => "") "new" "baseline" false (after (need "CSCI 251")) k1) = some (.both "complete" "incomplete") ∧
    printed (renderAudit plain (fun _ => "") "new" "baseline" true (after (need "CSCI 251")) k2) = some (.diff "incomplete" "complete") ∧
    printed (renderAudit plain (fun _ => "") "new" "baseline" true (after (need "CSCI 121")) k1) = some .noChanges ∧
    printed (renderAudit plain (fun _ => "") "new" "old" false (after (need "CSCI 251")) k1) = some (.both "" "incomplete") ∧
    printed (renderAudit plain (fun _ => "done") "server" "baseline" false (after (need "CSCI 251")) k2) = some (.one "done") ∧
    printed (renderAudit plain (fun _ => "done") "baseline" "baseline" false (after (need "CSCI 251")) k2) = some (.one "incomplete") := by
  refine ⟨⟨?_, ?_, ?_⟩, ?_, ?_, ?_, ?_, ?_, ?_, ?_⟩ <;> decide +kernel

open TestbedText RenderText in
/-- **C111**, refuted for a branch that is named `server`: the audit of the server is shown, and not that of the branch. -/
theorem C111_print_name_refuted :
    let d : TbDb := { server := [(k1, 1, taker)], baseline := [(k1, ⟨1, 1, 4, true, 1, 1, .done, "base"⟩)],
                      branch := [("server", k1, ⟨1, 1, 4, true, 1, 1, .done, "branch"⟩)] }
    d.Unique ∧ printed (renderAudit plain (fun _ => "server's") "server" "baseline" false d k1) = some (.one "server's") := by
  refine ⟨⟨?_, ?_, ?_⟩, ?_⟩ <;> decide +kernel

open TestbedText RenderText in
/-- **C111**, refuted for an audit of a branch that is no longer in the baseline: it is stored, but there is an exception and nothing is shown. -/
theorem C111_print_raises_refuted :
    (∃ row, ("new", k1, row) ∈ db.branch) ∧
    (match renderAudit plain (fun _ => "") "new" "baseline" false db k1 with
      | .error e => some e
      | .ok _ => none) = some Err.typeError := by
  refine ⟨⟨_, List.mem_cons_of_mem _ (List.mem_cons_self ..)⟩, ?_⟩
  decide +kernel

end Dp
