import Verif.Props.LoadFuel
import Verif.Props.Entry

/-
C82: loading an area file always comes to an end.
-/
namespace Dp

theorem sure_loadCommon (env : Env) (name : String) (spec : Y) (i : Nat) : Sure (loadCommon env name spec i) := by
  unfold loadCommon
  refine sure_bind (sure_loadRule _ _ _ _ _ (by unfold ruleFuel; omega)) (fun o _ => ?_)
  split <;> simp [Sure]

theorem sure_prepareCommonRules (env : Env) (degree dept : Option String) (others : List AreaPointer) (code : String) :
    Sure (prepareCommonRules env degree dept others code) := by
  unfold prepareCommonRules
  refine sure_bind (sure_loadCommon _ _ _ _) (fun _ _ => sure_bind (sure_loadCommon _ _ _ _) (fun _ _ => ?_))
  split
  · exact sure_ok _
  · exact sure_bind (sure_loadCommon _ _ _ _) (fun _ _ => sure_ok _)

theorem sure_loadMulticountable (d : Dict) : Sure (loadMulticountable d) := by
  unfold loadMulticountable
  refine sure_mapE (fun e _ => sure_bind (sure_asList _) (fun _ _ => sure_bind (sure_mapE (fun y _ => ?_)) (fun _ _ => sure_ok _)))
  exact sure_bind (sure_asList _) (fun _ _ => sure_bind (sure_mapE (fun _ _ => sure_asText _)) (fun _ _ => sure_ok _))

theorem sure_loadAreaRules (c : Constants) (templates : List (String × TemplateCourse)) (st : Student) (es : List Exc)
    (all checkOnly : Bool) (spec emphases : Dict) : Sure (loadAreaRules c templates st es all checkOnly spec emphases) := by
  unfold loadAreaRules
  have h1 : Sure (declaredEmphases st emphases all) := by
    unfold declaredEmphases
    exact sure_mapE (fun _ _ => sure_asDict _)
  dsimp only
  refine sure_bind (sure_text _ _) (fun _ _ => sure_bind h1 (fun _ _ => sure_bind (sure_dict _ _) (fun _ _ =>
    sure_bind (sure_need _ _) (fun _ _ => sure_bind (sure_loadRule _ _ _ _ _ (by unfold ruleFuel; omega)) (fun o _ => ?_)))))
  split
  · exact sure_err (by decide)
  · refine sure_bind (sure_limits _ _ _) (fun _ _ => sure_bind (sure_dict _ _) (fun _ _ => sure_bind (sure_loadMulticountable _)
      (fun _ _ => sure_bind (sure_check (by decide)) (fun _ _ => sure_bind (sure_text _ _) (fun _ _ => sure_bind (sure_text _ _)
      (fun _ _ => sure_bind (sure_prepareCommonRules _ _ _ _ _) (fun _ _ => sure_ok _)))))))

theorem sure_checkEmphases (c : Constants) (templates : List (String × TemplateCourse)) (st : Student) :
    ∀ n (d : Dict), Y.sizeDict d + 1 ≤ n → Sure (checkEmphases c templates st n d) := by
  intro n
  induction n with
  | zero => intro d h; omega
  | succ n ih =>
    intro d h
    cases d with
    | nil => exact sure_ok _
    | cons e rest =>
      obtain ⟨k, y⟩ := e
      unfold checkEmphases
      have hs : Y.sizeDict ((k, y) :: rest) = y.size + Y.sizeDict rest := by simp only [Y.sizeDict]
      have hpos := Y.size_pos y
      refine sure_bind (sure_asDict _) (fun spec hspec => sure_bind (sure_dict _ _) (fun emphases he => ?_))
      have hy : y = .map spec := by
        unfold Y.asDict at hspec
        split at hspec
        · cases hspec; rfl
        · cases hspec
      have hle : Y.sizeDict emphases + 1 ≤ n := by
        unfold Dict.dict at he
        split at he
        · cases he
          have := Y.size_pos y
          simp only [Y.sizeDict]; omega
        · rename_i v hv
          cases he
          have := Dict.size_get hv
          have hsz : y.size = Y.sizeDict spec + 1 := by rw [hy]; simp only [Y.size]
          simp only [Y.size] at this
          omega
        · cases he
      exact sure_bind (ih _ hle) (fun _ _ => sure_bind (sure_loadAreaRules _ _ _ _ _ _ _ _) (fun _ _ => ih _ (by omega)))

/-- **C82** Loading an area file never runs deeper than the file is: the depth that the size of the file allows is enough for every
file, so loading ends with an area or with one of python's exceptions. -/
theorem C82_loading_ends (c : Constants) (templates : List (String × TemplateCourse)) (st : Student) (es : List Exc) (all : Bool)
    (spec : Dict) : (∃ a, loadArea c templates st es all spec = .ok a)
      ∨ ∃ e, e ≠ .outOfFuel ∧ loadArea c templates st es all spec = .error e := by
  have h : Sure (loadArea c templates st es all spec) := by
    unfold loadArea
    exact sure_bind (sure_dict _ _) (fun _ _ => sure_bind (sure_checkEmphases _ _ _ _ _ (Nat.le_refl _))
      (fun _ _ => sure_loadAreaRules _ _ _ _ _ _ _ _))
  cases hx : loadArea c templates st es all spec with
  | ok a => exact .inl ⟨a, rfl⟩
  | error e =>
    rw [hx] at h
    exact .inr ⟨e, fun e' => h (by rw [e']), rfl⟩

open EntryText in
/-- Non-trivial case: a requirement that asks for itself does not send the loader round in circles: it is looked up among its own parts,
and not found.  An emphasis within an emphasis is followed to its end. -/
example :
    let err (spec : Dict) : Option Err := match loadArea {} [] {} [] false spec with
      | .ok _ => none
      | .error e => some e
    let asks : Y := .map [("requirement", .str "A")]
    err (area [("requirements", .map [("A", .map [("result", asks)])])] asks) = some .keyError
      ∧ err (area [("requirements", .map [("A", .map [("result", twoCs)])])] asks) = none
      ∧ err (area [("emphases", .map [("1", .map [("result", twoCs), ("emphases", .map [("2", .map [("result", asks)])])])])] twoCs)
          = some .keyError := by
  decide +kernel

end Dp
