/-
`itertools.combinations` and `ncr` (`dp/ncr.py`).
-/
namespace Dp
variable {α : Type}

/-- `itertools.combinations(l, k)` (python standard library, used in
`dp/limit.py:96,107`, `dp/rule/count.py:337`, `dp/rule/query.py:356,366,382`):
the `k`-element sub-sequences by position, in lexicographic order of positions. -/
def combos : Nat → List α → List (List α)
  | 0, _ => [[]]
  | _ + 1, [] => []
  | k + 1, a :: l => (combos k l).map (fun c => a :: c) ++ combos (k + 1) l

/-- `reduce(op.mul, range(n, n - r, -1), 1)`, `dp/ncr.py:8`: the product
`n * (n-1) * ... ` of `r` factors, multiplied from the left. -/
def fallingProd (n : Int) : Nat → Int
  | 0 => 1
  | k + 1 => fallingProd n k * (n - k)

/-- `reduce(op.mul, range(1, r + 1), 1)`, `dp/ncr.py:9`. -/
def risingProd : Nat → Int
  | 0 => 1
  | k + 1 => risingProd k * (k + 1 : Int)

/-- `ncr`, `dp/ncr.py:6-10`.  `//` is floor division; python ranges with a
non-positive length are empty. -/
def ncr (n r : Int) : Int :=
  let r := min r (n - r)
  Int.fdiv (fallingProd n r.toNat) (risingProd r.toNat)

/-- `mult`, `dp/ncr.py:13-14`. -/
def mult (l : List Int) : Int := l.foldl (· * ·) 1

end Dp
