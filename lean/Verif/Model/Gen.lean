/-
Python generators, as the sequence of yielded items followed by either normal
exhaustion or an exception.
-/
namespace Dp

/-- The python exceptions that the modelled code can raise. -/
inductive Err where
  | runtimeError
  | missingClbid
  | typeError
  | keyError
  | valueError
  | indexError
  | assertion
  | unboundLocal
  | outOfFuel
  | other
deriving DecidableEq, Repr

/-- What iterating a python generator to the end gives: the yielded items, and
the exception raised after them, if any. -/
structure Gen (α : Type) where
  items : List α
  err : Option Err
deriving DecidableEq, Repr

namespace Gen
variable {α β γ : Type}

/-- a generator without items -/
def nil : Gen α := ⟨[], none⟩
/-- `raise e` -/
def raise (e : Err) : Gen α := ⟨[], some e⟩
/-- a generator from a list -/
def ofList (l : List α) : Gen α := ⟨l, none⟩
/-- `yield a` -/
def one (a : α) : Gen α := ⟨[a], none⟩
/-- one generator body after another; an exception in the first stops. -/
def append (g h : Gen α) : Gen α :=
  match g.err with
  | some e => ⟨g.items, some e⟩
  | none => ⟨g.items ++ h.items, h.err⟩
/-- `(f(x) for x in g)` with a pure `f` -/
def map (f : α → β) (g : Gen α) : Gen β := ⟨g.items.map f, g.err⟩
/-- `for x in l: yield from f(x)` -/
def forList (l : List α) (f : α → Gen β) : Gen β :=
  match l with
  | [] => nil
  | a :: as => (f a).append (forList as f)
/-- `for x in g: yield from f(x)` -/
def bind (g : Gen α) (f : α → Gen β) : Gen β := (forList g.items f).append ⟨[], g.err⟩

end Gen
end Dp
