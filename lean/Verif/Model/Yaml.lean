import Verif.Model.Gen
import Verif.Model.PathOrder

/-
The parsed text of an area file, and reading values out of it.

Simplification, used throughout the loading functions: where the code would carry a value
of an unforeseen type along (a number where a text is meant, say), the model raises
TypeError.  The keys of a dictionary are texts, in the order of the file.
-/
namespace Dp

/-- What `yaml.load` gives: the `data` arguments of all `load` functions in `dp`
(`dp/load_rule.py:18-26`). -/
inductive Y where
  | null
  | bool (b : Bool)
  | int (n : Int)
  | float (text : String)
  | str (s : String)
  | list (l : List Y)
  | map (d : List (String × Y))

/-- a dictionary of the area file (`Dict`, `dp/load_rule.py:20`) -/
abbrev Dict := List (String × Y)

mutual
/-- the number of parts of a value; bounds how deep loading it can recurse -/
def Y.size : Y → Nat
  | .list l => Y.sizeList l + 1
  | .map d => Y.sizeDict d + 1
  | _ => 1
/-- size of a list -/
def Y.sizeList : List Y → Nat
  | [] => 0
  | y :: ys => y.size + Y.sizeList ys
/-- size of a dictionary -/
def Y.sizeDict : List (String × Y) → Nat
  | [] => 0
  | (_, y) :: ys => y.size + Y.sizeDict ys
end

/-- `d[k]` where present (`dp/rule/course.py:39-52` and elsewhere) -/
def Dict.get? (d : Dict) (k : String) : Option Y :=
  match d with
  | [] => none
  | (k', v) :: rest => if k' == k then some v else Dict.get? rest k

/-- `k in d` -/
def Dict.has (d : Dict) (k : String) : Bool := (d.get? k).isSome

/-- `d.keys()` -/
def Dict.keys (d : Dict) : List String := d.map (·.1)

/-- `d[k] = v`: an existing key keeps its place -/
def Dict.set (d : Dict) (k : String) (v : Y) : Dict :=
  match d with
  | [] => [(k, v)]
  | (k', v') :: rest => if k' == k then (k, v) :: rest else (k', v') :: Dict.set rest k v

/-- `d[k]` with KeyError -/
def Dict.need (d : Dict) (k : String) : Except Err Y :=
  match d.get? k with
  | some v => .ok v
  | none => .error .keyError

/-- `d.get(k, None)` -/
def Dict.opt (d : Dict) (k : String) : Option Y :=
  match d.get? k with
  | some .null => none
  | o => o

/-- `d.get(k, None)` of a text -/
def Dict.text (d : Dict) (k : String) : Except Err (Option String) :=
  match d.opt k with
  | none => .ok none
  | some (.str s) => .ok (some s)
  | some _ => .error .typeError

/-- `d.get(k, None)` of a whole number -/
def Dict.number (d : Dict) (k : String) : Except Err (Option Int) :=
  match d.opt k with
  | none => .ok none
  | some (.int n) => .ok (some n)
  | some _ => .error .typeError

/-- `d.get(k, b)` of a truth value -/
def Dict.flag (d : Dict) (k : String) (b : Bool) : Except Err Bool :=
  match d.get? k with
  | none => .ok b
  | some (.bool v) => .ok v
  | some _ => .error .typeError

/-- `d.get(k, {})` of a dictionary -/
def Dict.dict (d : Dict) (k : String) : Except Err Dict :=
  match d.get? k with
  | none => .ok []
  | some (.map v) => .ok v
  | some _ => .error .typeError

/-- a value that must be a dictionary -/
def Y.asDict : Y → Except Err Dict
  | .map d => .ok d
  | _ => .error .typeError

/-- a value that must be a list -/
def Y.asList : Y → Except Err (List Y)
  | .list l => .ok l
  | _ => .error .typeError

/-- a value that must be a text -/
def Y.asText : Y → Except Err String
  | .str s => .ok s
  | _ => .error .typeError

/-- `assert b` -/
def check (b : Bool) (e : Err := .assertion) : Except Err Unit :=
  if b then .ok () else .error e

/-- `given_keys.difference(allowed_keys) == set()`, e.g. `dp/rule/course.py:74-75` -/
def onlyKeys (allowed : List String) (d : Dict) : Bool := d.all (fun e => allowed.contains e.1)

/-- `[f(a) for a in l]`, stopping at the first error -/
def mapE {α β : Type} (f : α → Except Err β) : List α → Except Err (List β)
  | [] => .ok []
  | a :: as => do
    let b ← f a
    let bs ← mapE f as
    .ok (b :: bs)

/-- `[f(i, a) for i, a in enumerate(l)]`, counting from `i` -/
def mapIdxE {α β : Type} (f : Nat → α → Except Err β) (i : Nat) : List α → Except Err (List β)
  | [] => .ok []
  | a :: as => do
    let b ← f i a
    let bs ← mapIdxE f (i + 1) as
    .ok (b :: bs)

/-- python truth of an optional text -/
def given (s : Option String) : Bool := s.any (· ≠ "")

/-- the path segment of the `i`-th part, `f"[{i}]"` (`dp/rule/count.py:150`) -/
def indexSeg (i : Nat) : String := "[" ++ toString (i : Int) ++ "]"

/-- the digits after the point: value and number of digits -/
def parseFraction (cs : List Char) : Option Rat :=
  match parseDigits 0 cs with
  | some n => some ((n : Rat) / ((10 ^ cs.length : Nat) : Rat))
  | none => none

/-- an unsigned decimal numeral -/
def parseUnsigned (cs : List Char) : Option Rat :=
  let whole := cs.takeWhile (· ≠ '.')
  match cs.drop whole.length with
  | [] => if whole.isEmpty then none else (parseDigits 0 whole).map (fun n => (n : Rat))
  | _ :: frac =>
    if whole.isEmpty && frac.isEmpty then none
    else match parseDigits 0 whole, parseFraction frac with
      | some n, some f => some ((n : Rat) + f)
      | _, _ => none

/-- `Decimal(text)` (`dp/assertion_clause.py:61,724`, `dp/limit.py:69`).  Simplification:
exponents, blanks, underscores, infinities and NaN, which python also accepts, are errors. -/
def parseDecimal (s : String) : Option Rat :=
  match s.toList with
  | '-' :: cs => (parseUnsigned cs).map (fun q => -q)
  | '+' :: cs => parseUnsigned cs
  | cs => parseUnsigned cs

/-- `Decimal(v)` of a whole number or a text; other values are errors -/
def Y.asDecimal : Y → Except Err Rat
  | .int n => .ok (n : Rat)
  | .str s => match parseDecimal s with
    | some q => .ok q
    | none => .error .other
  | _ => .error .typeError

end Dp
