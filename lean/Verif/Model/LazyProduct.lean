import Verif.Model.Gen

/-
Model of `lazy_product` (`dp/lazy_product.py:63-76`), step by step.
-/
namespace Dp
variable {α : Type}

/-- One column of the odometer: the iterator function, `values[index]`, and
what the current iterator `iterables[index]` has left. -/
structure Cell (α : Type) where
  full : Gen α
  val : α
  rem : List α

/-- `next(i)` on a new iterator of `g` when the caller does not catch
StopIteration: inside a generator (PEP 479) it becomes RuntimeError
(`dp/lazy_product.py:64,74`). -/
def startCell (g : Gen α) : Except Err (Cell α) :=
  match g.items with
  | x :: xs => .ok ⟨g, x, xs⟩
  | [] => .error (g.err.getD .runtimeError)

/-- `values = [next(i) for i in iterables]`, `dp/lazy_product.py:64`; the result
is stored last column first. -/
def startCells (acc : List (Cell α)) : List (Gen α) → Except Err (List (Cell α))
  | [] => .ok acc
  | g :: gs =>
    match startCell g with
    | .ok c => startCells (c :: acc) gs
    | .error e => .error e

/-- Outcome of the inner `for` loop `dp/lazy_product.py:68-76`. -/
inductive Advance (α : Type) where
  | cont (cells : List (Cell α))
  | done
  | error (e : Err)

/-- The inner `for index in reversed(range(len(iterables)))` loop,
`dp/lazy_product.py:68-76`, on the columns listed last first. -/
def advance : List (Cell α) → Advance α
  | [] => .done
  | c :: cs =>
    match c.rem with
    | x :: xs => .cont (⟨c.full, x, xs⟩ :: cs)
    | [] =>
      match c.full.err with
      | some e => .error e
      | none =>
        match startCell c.full with
        | .error e => .error e
        | .ok c' =>
          match advance cs with
          | .cont cs' => .cont (c' :: cs')
          | .done => .done
          | .error e => .error e

/-- `tuple(values)`. -/
def currentTuple (cells : List (Cell α)) : List α := (cells.map (·.val)).reverse

/-- The `while True` loop, `dp/lazy_product.py:66-76`.  `fuel` bounds the number
of turns; `lazyProduct` gives enough for any input (proved). -/
def lazyLoop : Nat → List (Cell α) → Gen (List α)
  | 0, _ => .raise .outOfFuel
  | fuel + 1, cells =>
    match advance cells with
    | .cont cells' => (Gen.one (currentTuple cells)).append (lazyLoop fuel cells')
    | .done => .one (currentTuple cells)
    | .error e => ⟨[currentTuple cells], some e⟩

/-- Number of turns still to go, an upper bound. -/
def turnsLeft : List (Cell α) → Nat
  | [] => 0
  | c :: cs => c.rem.length + c.full.items.length * turnsLeft cs

/-- `lazy_product(*iter_funcs, repeat=repeat)`, `dp/lazy_product.py:6,63-76`.
Column `index` is created from `iter_funcs` in order, `repeat` times, which is
also `iter_funcs[index % len(iter_funcs)]` when it is restarted. -/
def lazyProduct (funcs : List (Gen α)) (rep : Nat := 1) : Gen (List α) :=
  match startCells [] (List.replicate rep funcs).flatten with
  | .error e => .raise e
  | .ok cells => lazyLoop (turnsLeft cells + 1) cells

end Dp
