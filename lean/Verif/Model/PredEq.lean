import Verif.Model.Predicate

/-
Decidable equality of filters (attrs-generated `__eq__`,
`dp/predicate_clause.py:108-185`), needed because `Limit`s are dictionary keys.
-/
namespace Dp

mutual
/-- attrs `__eq__` on filters, `dp/predicate_clause.py:108-185`; simplification:
values of different python types that compare equal (`1 == True`) are distinct
here. -/
def Pred.beq : Pred → Pred → Bool
  | .and a, .and b => Pred.beqList a b
  | .or a, .or b => Pred.beqList a b
  | .not a, .not b => Pred.beq a b
  | .cond r t e, .cond r' t' e' => r == r' && (Pred.beq t t' && Pred.beqOpt e e')
  | .leaf a, .leaf b => a == b
  | _, _ => false
/-- tuples of filters -/
def Pred.beqList : List Pred → List Pred → Bool
  | [], [] => true
  | a :: as, b :: bs => Pred.beq a b && Pred.beqList as bs
  | _, _ => false
/-- optional filters -/
def Pred.beqOpt : Option Pred → Option Pred → Bool
  | none, none => true
  | some a, some b => Pred.beq a b
  | _, _ => false
end

mutual
theorem Pred.beq_iff : ∀ a b : Pred, Pred.beq a b = true ↔ a = b
  | .and a, b => by
    cases b <;> simp [Pred.beq]
    exact Pred.beqList_iff a _
  | .or a, b => by
    cases b <;> simp [Pred.beq]
    exact Pred.beqList_iff a _
  | .not a, b => by
    cases b <;> simp [Pred.beq]
    exact Pred.beq_iff a _
  | .cond r t e, b => by
    cases b <;> simp [Pred.beq]
    rename_i r' t' e'
    rw [Pred.beq_iff t t', Pred.beqOpt_iff e e']
    simp
  | .leaf a, b => by cases b <;> simp [Pred.beq]
theorem Pred.beqList_iff : ∀ a b : List Pred, Pred.beqList a b = true ↔ a = b
  | [], b => by cases b <;> simp [Pred.beqList]
  | x :: xs, b => by
    cases b with
    | nil => simp [Pred.beqList]
    | cons y ys => simp [Pred.beqList, Pred.beq_iff x y, Pred.beqList_iff xs ys]
theorem Pred.beqOpt_iff : ∀ a b : Option Pred, Pred.beqOpt a b = true ↔ a = b
  | none, b => by cases b <;> simp [Pred.beqOpt]
  | some x, b => by
    cases b with
    | none => simp [Pred.beqOpt]
    | some y => simp [Pred.beqOpt, Pred.beq_iff x y]
end

instance : DecidableEq Pred := fun a b =>
  if h : Pred.beq a b = true then isTrue ((Pred.beq_iff a b).1 h)
  else isFalse (fun hab => h ((Pred.beq_iff a b).2 hab))

end Dp
