import Verif.Model.Rule

/-
What loading a rule guarantees of the fields that only solutions and results use
(`load` of `dp/rule/*.py`).  The searches are applied to loaded rules only.
-/
namespace Dp

/-- `CourseRule.load`, `dp/rule/course.py:80-107`: nothing claimed or waived yet. -/
def CourseData.Loaded (d : CourseData) : Prop :=
  d.claim = none ∧ d.matched = none ∧ d.forced = false ∧ d.overridden = false

/-- `QueryRule.load`, `dp/rule/query.py:86-108`: nothing claimed or inserted yet, and
`overridden` tells whether there is a waiver. -/
def QueryData.Loaded (x : Ctx) (d : QueryData) : Prop :=
  d.inserted = [] ∧ d.forceInserted = [] ∧ d.output = [] ∧ d.successful = [] ∧ d.failed = [] ∧
    d.overridden = (getWaiveException x.exceptions d.path).isSome

mutual
/-- A tree as `load_rule` makes it, `dp/rule/course.py:80-107`, `query.py:86-108`,
`count.py:183-199`, `requirement.py:70-81`, `conditional.py:48-61`, `proficiency.py:36-44`. -/
def Node.Loaded (x : Ctx) : Node → Prop
  | .course s d => s = .rule ∧ d.Loaded
  | .query s d => s = .rule ∧ d.Loaded x
  | .count s d items => s = .rule ∧ d.overridden = false ∧ Node.LoadedList x items
  | .req s d r => s = .rule ∧ d.overridden = false ∧ Node.LoadedOpt x r
  | .cond s d t f => s = .rule ∧ d.overridden = (getWaiveException x.exceptions d.path).isSome ∧
      t.Loaded x ∧ Node.LoadedOpt x f
  | .prof s d c => s = .rule ∧ d.overridden = false ∧ ∀ p, c = some p → p.1 = .rule ∧ p.2.Loaded
/-- all children are loaded -/
def Node.LoadedList (x : Ctx) : List Node → Prop
  | [] => True
  | n :: ns => n.Loaded x ∧ Node.LoadedList x ns
/-- an optional child is loaded -/
def Node.LoadedOpt (x : Ctx) : Option Node → Prop
  | none => True
  | some n => n.Loaded x
end

end Dp
