import Verif.Model.Basic
import Verif.Model.Gen

/-
Model of the path comparison used for sorting (`dp/base/bases.py:165-233`).
-/
namespace Dp

/-- A path segment as compared: an integer for `[i]`, otherwise the text
(`dp/base/bases.py:209-214`). -/
inductive SegKey where
  | idx (i : Int)
  | str (s : String)
deriving DecidableEq, Repr

/-- value of a decimal digit -/
def digitVal (c : Char) : Option Int :=
  if c.isDigit then some ((c.toNat : Int) - ('0'.toNat : Int)) else none

/-- Parse decimal digits; part of python's `int(...)`. -/
def parseDigits (acc : Int) : List Char → Option Int
  | [] => some acc
  | c :: cs => match digitVal c with
    | some d => parseDigits (acc * 10 + d) cs
    | none => none

/-- python's `int(text)`.  Simplification: only plain decimal digits with an
optional minus sign are accepted; signs, blanks and underscores that python also
accepts do not occur in generated index segments and are an error here. -/
def parseInt (cs : List Char) : Option Int :=
  match cs with
  | [] => none
  | '-' :: [] => none
  | '-' :: ds => (parseDigits 0 ds).map (fun n => -n)
  | ds => parseDigits 0 ds

/-- `int(a[1:-1]) if a and a[0] == '[' else a`, `dp/base/bases.py:209-214`;
`none` is the ValueError of `int`. -/
def segKey (s : String) : Option SegKey :=
  match s.toList with
  | '[' :: rest => (parseInt rest.dropLast).map SegKey.idx
  | _ => some (.str s)

/-- The loop of `compare_path_tuples__lt`, `dp/base/bases.py:207-233`. -/
def comparePathsLoop : List String → List String → Except Err Bool
  | a :: as, b :: bs =>
    match segKey a, segKey b with
    | some (.idx i), some (.idx j) =>
      if i = j then comparePathsLoop as bs else .ok (decide (i < j))
    | some (.str s), some (.str t) =>
      if s = t then comparePathsLoop as bs else .ok (decide (s < t))
    | some (.idx _), some (.str _) => .ok true
    | some (.str _), some (.idx _) => .ok false
    | _, _ => .error .valueError
  | _, _ => .ok true

/-- `compare_path_tuples__lt`, `dp/base/bases.py:181-233`. -/
def comparePathsLt (a b : Path) : Except Err Bool :=
  if a.length < b.length then .ok true
  else if b.length < a.length then .ok false
  else comparePathsLoop a b

/-- `compare_path_tuples`, `dp/base/bases.py:165-174`. -/
def comparePaths (a b : Path) : Except Err Int :=
  if a = b then .ok 0
  else match comparePathsLt a b with
    | .ok true => .ok (-1)
    | .ok false => .ok 1
    | .error e => .error e

/-- Insert into a list sorted by `sort_by_path` (after equal elements). -/
def insertByPath {α : Type} (key : α → Path) (x : α) : List α → Except Err (List α)
  | [] => .ok [x]
  | y :: ys =>
    match comparePaths (key x) (key y) with
    | .error e => .error e
    | .ok c =>
      if c ≤ 0 then .ok (x :: y :: ys)
      else match insertByPath key x ys with
        | .ok zs => .ok (y :: zs)
        | .error e => .error e

/-- `sorted(items, key=sort_by_path)` (`dp/rule/count.py:258,291,297,344`,
`dp/base/bases.py:177`).  Python's Timsort is a stable sort; modelled by a
stable insertion sort. -/
def sortByPath {α : Type} (key : α → Path) : List α → Except Err (List α)
  | [] => .ok []
  | x :: xs =>
    match sortByPath key xs with
    | .ok ys => insertByPath key x ys
    | .error e => .error e

end Dp
