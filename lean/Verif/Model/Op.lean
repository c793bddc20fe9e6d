import Verif.Model.Basic
import Verif.Model.Gen

/-
Model of `apply_operator` (`dp/op.py`).
-/
namespace Dp

/-- `Operator`, `dp/op.py:9-17`. -/
inductive Operator where
  | lt | lte | gt | gte | eq | neq | in' | nin
deriving DecidableEq, Repr

/-- Position in `grade_code_ordering`, `dp/data/course_enums.py:145-175`. -/
def GradeCode.rank : GradeCode → Nat
  | .BC => 0 | .AB => 1 | .NG => 2 | .IP => 3 | .I => 4 | .P => 5 | .N => 6 | .S => 7
  | .U => 8 | .AU => 9 | .UA => 10 | .WF => 11 | .WP => 12 | .W => 13 | .REG => 14
  | .F => 15 | .Dminus => 16 | .D => 17 | .Dplus => 18 | .Cminus => 19 | .C => 20
  | .Cplus => 21 | .Bminus => 22 | .B => 23 | .Bplus => 24 | .Aminus => 25 | .A => 26
  | .Aplus => 27

/-- Member names of `GradeCode` (`dp/data/course_enums.py:89-118`), as shown by `str()`. -/
def GradeCode.pyName : GradeCode → String
  | .A => "A" | .Aplus => "A_plus" | .Aminus => "A_minus" | .B => "B" | .Bplus => "B_plus"
  | .Bminus => "B_minus" | .C => "C" | .Cplus => "C_plus" | .Cminus => "C_minus" | .D => "D"
  | .Dplus => "D_plus" | .Dminus => "D_minus" | .F => "F" | .BC => "_BC" | .AB => "_AB"
  | .NG => "_NG" | .IP => "_IP" | .I => "_I" | .P => "_P" | .N => "_N" | .S => "_S" | .U => "_U"
  | .AU => "_AU" | .UA => "_UA" | .WF => "_WF" | .WP => "_WP" | .W => "_W" | .REG => "_REG"

/-- Member names of `GradeOption` (`dp/data/course_enums.py:7-12`). -/
def GradeOption.pyName : GradeOption → String
  | .audit => "Audit" | .grade => "Grade" | .noGrade => "NoGrade" | .pn => "PN" | .su => "SU"

/-- The scalar python values that reach `apply_operator`: `None`; numbers
(int, bool, Decimal) with their `str()` text, which is not determined by the
value (`Decimal('1.00')`, `1`, `True`); strings; grade codes; grade options. -/
inductive Sc where
  | missing
  | num (v : Rat) (text : String)
  | str (s : String)
  | grade (g : GradeCode)
  | option (o : GradeOption)
deriving DecidableEq, Repr

/-- Arguments of `apply_operator`: a scalar or a tuple of scalars. -/
inductive Val where
  | sc (s : Sc)
  | tup (l : List Sc)
deriving DecidableEq, Repr

/-- `str(value)` (`dp/op.py:73,75,128-129`). -/
def Sc.pyStr : Sc → String
  | .missing => "None"
  | .num _ t => t
  | .str s => s
  | .grade g => "GradeCode." ++ g.pyName
  | .option o => "GradeOption." ++ o.pyName

/-- python `==` between scalars -/
def Sc.pyEq : Sc → Sc → Bool
  | .missing, .missing => true
  | .num v _, .num w _ => v == w
  | .str s, .str t => s == t
  | .grade g, .grade h => g == h
  | .option o, .option p => o == p
  | _, _ => false

/-- python `<` between scalars; `none` is TypeError.  Grade codes define their
own ordering (`dp/data/course_enums.py:120-142`). -/
def Sc.pyLt : Sc → Sc → Option Bool
  | .num v _, .num w _ => some (decide (v < w))
  | .str s, .str t => some (decide (s < t))
  | .grade g, .grade h => some (decide (g.rank < h.rank))
  | _, _ => none

/-- python `<=` -/
def Sc.pyLe : Sc → Sc → Option Bool
  | .num v _, .num w _ => some (decide (v ≤ w))
  | .str s, .str t => some (decide (s ≤ t))
  | .grade g, .grade h => some (decide (g.rank ≤ h.rank))
  | _, _ => none

/-- is it a python `str`? -/
def Sc.isStr : Sc → Bool | .str _ => true | _ => false

/-- `lhs < rhs` or raise TypeError -/
def orTypeError : Option Bool → Except Err Bool
  | some b => .ok b
  | none => .error .typeError

/-- `apply_operator` on two scalars, `dp/op.py:63-110`. -/
def applyScalar (op : Operator) (l r : Sc) : Except Err Bool :=
  if (l == .missing || r == .missing) && !(l.pyEq r) then .ok false
  else
    let r' := if l.isStr && !r.isStr then .str r.pyStr else r
    let l' := if !l.isStr && r.isStr then .str l.pyStr else l
    match op with
    | .eq => .ok (l'.pyEq r')
    | .neq => .ok (!l'.pyEq r')
    | .lt => orTypeError (l'.pyLt r')
    | .lte => orTypeError (l'.pyLe r')
    | .gt => orTypeError (r'.pyLt l')
    | .gte => orTypeError (r'.pyLe l')
    | .in' | .nin => .error .typeError

/-- python `any(f(v) for v in l)`, with exceptions -/
def anyE {α : Type} (f : α → Except Err Bool) : List α → Except Err Bool
  | [] => .ok false
  | a :: l => match f a with
    | .error e => .error e
    | .ok true => .ok true
    | .ok false => anyE f l

/-- python `all(f(v) for v in l)`, with exceptions -/
def allE {α : Type} (f : α → Except Err Bool) : List α → Except Err Bool
  | [] => .ok true
  | a :: l => match f a with
    | .error e => .error e
    | .ok false => .ok false
    | .ok true => allE f l

/-- `apply_operator__tuples`, `dp/op.py:114-132`. -/
def applyTuples (op : Operator) (l r : List Sc) : Except Err Bool :=
  if op ≠ .in' then .error .other
  else if l.isEmpty || r.isEmpty then .ok false
  else .ok (l.any (fun x => r.any (fun y => x.pyStr == y.pyStr)))

/-- `apply_operator__half_tuple` with a tuple on the left, `dp/op.py:136-177`. -/
def applyLeftTuple (op : Operator) (l : List Sc) (r : Sc) : Except Err Bool :=
  match op with
  | .eq => match l with
    | [x] => applyScalar .eq x r
    | [] => .ok false
    | l => anyE (fun v => applyScalar .eq v r) l
  | .neq => allE (fun v => applyScalar .neq v r) l
  | .in' => anyE (fun v => applyScalar .eq v r) l
  | .nin => allE (fun v => applyScalar .neq v r) l
  | _ => .error .other

/-- `apply_operator__half_tuple` with a tuple on the right, `dp/op.py:136-177`. -/
def applyRightTuple (op : Operator) (l : Sc) (r : List Sc) : Except Err Bool :=
  match op with
  | .eq => match r with
    | [x] => applyScalar .eq l x
    | [] => .ok false
    | r => anyE (fun v => applyScalar .eq l v) r
  | .neq => allE (fun v => applyScalar .neq l v) r
  | .in' => anyE (fun v => applyScalar .eq l v) r
  | .nin => allE (fun v => applyScalar .neq l v) r
  | _ => .error .other

/-- `apply_operator`, `dp/op.py:37-110`, without its cache. -/
def applyOperator (op : Operator) (l r : Val) : Except Err Bool :=
  match l, r with
  | .sc l, .sc r => applyScalar op l r
  | .tup l, .tup r => applyTuples op l r
  | .tup l, .sc r => if r == .missing then .ok false else applyLeftTuple op l r
  | .sc l, .tup r => if l == .missing then .ok false else applyRightTuple op l r

/-! ### The `lru_cache` on `apply_operator` (`dp/op.py:37`) -/

/-- python equality of arguments, which is what the cache key compares
(`lru_cache` is untyped, so `1`, `True` and `Decimal('1.00')` are one key). -/
def listPyEq : List Sc → List Sc → Bool
  | [], [] => true
  | a :: as, b :: bs => a.pyEq b && listPyEq as bs
  | _, _ => false

/-- python `==` on arguments -/
def Val.pyEq : Val → Val → Bool
  | .sc a, .sc b => a.pyEq b
  | .tup a, .tup b => listPyEq a b
  | _, _ => false

/-- one cached call -/
structure OpCall where
  op : Operator
  lhs : Val
  rhs : Val
deriving DecidableEq, Repr

/-- cache hit test (`dp/op.py:37`, `functools.lru_cache`) -/
def OpCall.sameKey (a b : OpCall) : Bool := a.op == b.op && a.lhs.pyEq b.lhs && a.rhs.pyEq b.rhs

/-- cache contents -/
abbrev OpCache := List (OpCall × Bool)

/-- A call through the cache; `evict` removes arbitrary entries first (the
bound of 2048 entries and recency are not modelled: any eviction is allowed).
Exceptions are not cached.  Simplification: the recursive calls on tuple
elements use the cache in python too; here they are computed directly. -/
def cachedCall (cache : OpCache) (evict : OpCall → Bool) (c : OpCall) : Except Err Bool × OpCache :=
  let cache := cache.filter (fun e => !evict e.1)
  match cache.find? (fun e => e.1.sameKey c) with
  | some e => (.ok e.2, cache)
  | none =>
    match applyOperator c.op c.lhs c.rhs with
    | .ok b => (.ok b, (c, b) :: cache)
    | .error e => (.error e, cache)

/-- A history of cached calls. -/
def runCached (cache : OpCache) : List ((OpCall → Bool) × OpCall) → List (Except Err Bool)
  | [] => []
  | (ev, c) :: rest =>
    let (r, cache') := cachedCall cache ev c
    r :: runCached cache' rest

end Dp
