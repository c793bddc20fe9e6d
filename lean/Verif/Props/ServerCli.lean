import Verif.Model.ServerCli
import Verif.Props.Stored

/-
C108: what the audit from the command line stores in the server's database.
-/
namespace Dp

/-- the row is of this audit -/
def ResultRow.IsOf (r : ResultRow) (ask : CliAsk) : Prop := r.student = ask.student ∧ r.catalog = ask.catalog ∧ r.code = ask.code

/-- **C108** An audit from the command line prints an id exactly if there is a result to store, and then adds one row with this id, of this
audit and with the result of the two files; all rows that were there stay as they are.  The row can be reached by its link only, which is what
was asked for if `--link-only` was given. -/
theorem C108_stored_once_partial (o : Orders) (W : Writes) (dump : Json → String) (described : Bool) (raw : RawStudent) (spec : Dict)
    (ask : CliAsk) (id : Nat) (now : Int) (rows : List ResultRow) :
    (∀ i, (serverCli o W dump described raw spec ask id now rows).1 = some i ↔
      i = id ∧ ∃ stored, serverAudit o W described raw spec = some stored) ∧
    ((serverCli o W dump described raw spec ask id now rows).1 = none → (serverCli o W dump described raw spec ask id now rows).2 = rows) ∧
    ∀ stored, serverAudit o W described raw spec = some stored →
      ∃ row, (serverCli o W dump described raw spec ask id now rows).2 = rows ++ [row] ∧ row.id = id ∧ row.IsOf ask ∧
        row.result = dump stored.result ∧ row.ts = now ∧ row.expires = none ∧ (ask.linkOnly = true → row.linkOnly = ask.linkOnly ∧ row.active = false) ∧
        ∀ r ∈ rows, r.student = ask.student → r.code = ask.code → r.revision < row.revision := by
  unfold serverCli
  cases h : serverAudit o W described raw spec with
  | none => exact ⟨fun i => by simp, fun _ => rfl, by simp⟩
  | some stored =>
    refine ⟨fun i => by simp [eq_comm], by simp, ?_⟩
    rintro _ ⟨⟩
    refine ⟨_, rfl, rfl, ⟨rfl, rfl, rfl⟩, rfl, rfl, rfl, fun hl => ⟨hl.symm, rfl⟩, ?_⟩
    intro r hr hs hc
    show r.revision < ((rows.filter (fun r => r.student == ask.student && r.code == ask.code)).map (·.revision)).foldr max 0 + 1
    have : r.revision ∈ (rows.filter (fun r => r.student == ask.student && r.code == ask.code)).map (·.revision) :=
      List.mem_map_of_mem (List.mem_filter.2 ⟨hr, by simp [hs, hc]⟩)
    have hle : ∀ l : List Nat, r.revision ∈ l → r.revision ≤ l.foldr max 0 := by
      intro l
      induction l with
      | nil => simp
      | cons a l ih =>
        intro hm
        rcases List.mem_cons.1 hm with rfl | hm
        · exact Nat.le_max_left _ _
        · exact Nat.le_trans (ih hm) (Nat.le_max_right _ _)
    have := hle _ this
    omega

/-- **C108**, refuted without `--link-only`: whatever is asked, which rows are active does not change, and the new row can be reached by its
link only. -/
theorem C108_link_only_refuted (o : Orders) (W : Writes) (dump : Json → String) (described : Bool) (raw : RawStudent) (spec : Dict)
    (ask : CliAsk) (id : Nat) (now : Int) (rows : List ResultRow) :
    (serverCli o W dump described raw spec ask id now rows).2.filter (·.active) = rows.filter (·.active) ∧
      ∀ r ∈ (serverCli o W dump described raw spec ask id now rows).2, r ∈ rows ∨ r.linkOnly = true := by
  unfold serverCli
  cases serverAudit o W described raw spec with
  | none => exact ⟨rfl, fun r hr => .inl hr⟩
  | some stored =>
    constructor
    · show (rows ++ [newRow _ _ _ _ _]).filter (·.active) = _
      rw [List.filter_append]
      simp [newRow]
    · intro r hr
      rcases List.mem_append.1 (show r ∈ rows ++ [newRow _ _ _ _ _] from hr) with hr | hr
      · exact .inl hr
      · rw [List.mem_singleton] at hr
        subst hr
        exact .inr rfl

open EntryText in
/-- the hypotheses of C108, for two files with a result; and an audit that raises, for which "stored with id None" is printed as if all were
well -/
example : (serverCli .insertion plainWrites (fun _ => "{}") true student (area [] twoCs) ⟨"1", "2018-19", "741", true⟩ 8 20
      [{ id := 7, student := "1", catalog := "2018-19", code := "741", result := "{}", ts := 3, active := true, revision := 4 }]) =
    (some 8, [{ id := 7, student := "1", catalog := "2018-19", code := "741", result := "{}", ts := 3, active := true, revision := 4 },
      { id := 8, student := "1", catalog := "2018-19", code := "741", result := "{}", ts := 20, linkOnly := true, revision := 5 }]) ∧
    (runFiles .insertion {} student []).err.isSome = true ∧
    serverCli .insertion plainWrites (fun _ => "{}") true student [] ⟨"1", "2018-19", "741", true⟩ 8 20 [] = (none, []) := by
  refine ⟨?_, ?_, ?_⟩ <;> decide +kernel

end Dp
