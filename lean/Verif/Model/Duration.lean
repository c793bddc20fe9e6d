import Mathlib.Data.Rat.Floor
import Mathlib.Algebra.Order.Ring.Rat

/-
Durations (`dp/ms.py`): parsing texts and formatting numbers of milliseconds.

`decimal.Decimal` is modelled by the rationals: the rounding to 28 digits is left out.  Only
the ten ASCII digits count as digits (`\d` also matches others).
-/
namespace Dp

/-- `to_zero`, `dp/ms.py:12-13` -/
def toZero (q : Rat) : Int := if 0 ≤ q then ⌊q⌋ else -⌊-q⌋

/-- `q % n` of `decimal.Decimal`, which has the sign of `q` -/
def decRem (q n : Rat) : Rat := q - n * toZero (q / n)

/-- `Ms`, `dp/ms.py:22-30` -/
structure Ms where
  days : Int
  hours : Int
  minutes : Int
  seconds : Int
  milliseconds : Int
  microseconds : Int
  nanoseconds : Int
deriving DecidableEq, Repr

/-- `Ms.ms`, `dp/ms.py:35-40` -/
def Ms.ms (m : Ms) : Int :=
  m.days * 86400000 + m.hours * 3600000 + m.minutes * 60000 + m.seconds * 1000 + m.milliseconds

/-- `parse_ms`, `dp/ms.py:43-52` -/
def parseMs (ms : Rat) : Ms where
  days := toZero (ms / 86400000)
  hours := toZero (decRem (ms / 3600000) 24)
  minutes := toZero (decRem (ms / 60000) 60)
  seconds := toZero (decRem (ms / 1000) 60)
  milliseconds := toZero (decRem ms 1000)
  microseconds := toZero (decRem (ms * 1000) 1000)
  nanoseconds := toZero (decRem (ms * 1000000) 1000)

/-! ### Parsing -/

/-- `[0-9]` -/
def isDig (c : Char) : Bool := decide (48 ≤ c.toNat) && decide (c.toNat ≤ 57)

/-- `[^-0-9]` -/
def isUnitChar (c : Char) : Bool := !(c == '-') && !isDig c

/-- `\s` in ASCII -/
def isSpaceChar (c : Char) : Bool :=
  c == ' ' || decide (9 ≤ c.toNat) && decide (c.toNat ≤ 13) || decide (28 ≤ c.toNat) && decide (c.toNat ≤ 31)

/-- `int(...)` of digits -/
def digitsValue (ds : List Char) : Int := ds.foldl (fun n c => n * 10 + ((c.toNat : Int) - 48)) 0

/-- `int(...)` of digits with a sign -/
def signedValue (neg : Bool) (ds : List Char) : Int := if neg then -digitsValue ds else digitsValue ds

/-- the table `chunks`, `dp/ms.py:64,69` -/
def unitValue (us : List Char) : Int :=
  if us = ['m', 's'] then 1
  else if us = ['s'] then 1000
  else if us = ['m'] then 60000
  else if us = ['h'] then 3600000
  else if us = ['d'] then 86400000
  else 0

/-- the sign that may come first -/
def takeSign : List Char → Bool × List Char
  | '-' :: cs => (true, cs)
  | cs => (false, cs)

/-- `re.finditer(r'-?\d+[^-0-9]+', ...)`, `dp/ms.py:66-68`: every match as sign, digits and
unit.  At each place the digits and then the unit are as long as possible; when there are
none of either the search goes on one character later.  `fuel` bounds the number of places
tried. -/
def findChunks : Nat → List Char → List (Bool × List Char × List Char)
  | 0, _ => []
  | _, [] => []
  | fuel + 1, c :: cs =>
    let neg := (takeSign (c :: cs)).1
    let ds := (takeSign (c :: cs)).2.takeWhile isDig
    let rest := (takeSign (c :: cs)).2.dropWhile isDig
    let us := rest.takeWhile isUnitChar
    if ds ≠ [] ∧ us ≠ [] then (neg, ds, us) :: findChunks fuel (rest.dropWhile isUnitChar)
    else findChunks fuel cs

/-- `re.match(r'-?\d+$', cleaned)`, `dp/ms.py:61-62` -/
def plainValue (cs : List Char) : Int :=
  if (takeSign cs).2 ≠ [] ∧ (takeSign cs).2.all isDig then signedValue (takeSign cs).1 (takeSign cs).2 else 0

/-- the total of `parse_ms_str`, `dp/ms.py:60-69` -/
def durationTotal (text : List Char) : Int :=
  let cleaned := text.filter (fun c => !isSpaceChar c)
  plainValue cleaned +
    ((findChunks cleaned.length cleaned).map (fun (neg, ds, us) => signedValue neg ds * unitValue us)).sum

/-- `parse_ms_str`, `dp/ms.py:55-73`, for a text -/
def parseMsStr (text : List Char) : Ms := parseMs (durationTotal text)

/-! ### Formatting -/

/-- the units of `pretty_ms`, the greatest first -/
inductive TimeUnit
  | year | day | hour | minute | second | millisecond | microsecond | nanosecond
deriving DecidableEq, Repr

/-- `round` to a number of decimal places, a half to the even neighbour
(`format(sec, '.1f')` of a `Decimal`) -/
def roundHalfEven (q : Rat) : Int :=
  let f := ⌊q⌋
  let r := q - f
  if r < 1 / 2 then f else if 1 / 2 < r then f + 1 else if f % 2 = 0 then f else f + 1

/-- `format(q, f'.{digits}f')` as a number -/
def fixed (q : Rat) (digits : Nat) : Rat := (roundHalfEven (q * 10 ^ digits) : Rat) / 10 ^ digits

/-- the options of `pretty_ms`, `dp/ms.py:76-85`, that are numbers of the output -/
structure PrettyOptions where
  secDigits : Nat := 1
  separateMs : Bool := false
  formatSubMs : Bool := false
  compact : Bool := false
  unitCount : Option Nat := none
  verbose : Bool := false
deriving DecidableEq, Repr

/-- `add`, `dp/ms.py:93-99`: nothing is added for 0 -/
def addPart (value : Rat) (u : TimeUnit) (ret : List (Rat × TimeUnit)) : List (Rat × TimeUnit) :=
  if value = 0 then ret else ret ++ [(value, u)]

/-- `dp/ms.py:101-104`: without decimals, up to half a second is added to get to a whole one -/
def roundUpMs (o : PrettyOptions) (ms : Rat) : Rat :=
  if (if o.compact then 0 else o.secDigits) < 1 then
    if 1000 - decRem ms 1000 < 500 then ms + (1000 - decRem ms 1000) else ms
  else ms

/-- the list `ret` of `pretty_ms`, `dp/ms.py:86-128`, as numbers with units -/
def prettyParts (o : PrettyOptions) (ms0 : Rat) : List (Rat × TimeUnit) :=
  let ms := roundUpMs o ms0
  let p := parseMs ms
  let ret := addPart (toZero ((p.days : Rat) / 365)) .year []
  let ret := addPart (decRem p.days 365) .day ret
  let ret := addPart p.hours .hour ret
  let ret := addPart p.minutes .minute ret
  if o.separateMs = true ∨ o.formatSubMs = true ∨ ms < 1000 then
    let ret := addPart p.seconds .second ret
    if o.formatSubMs then
      addPart p.nanoseconds .nanosecond (addPart p.microseconds .microsecond (addPart p.milliseconds .millisecond ret))
    else
      addPart (⌈(p.milliseconds : Rat) + (p.microseconds : Rat) / 1000 + (p.nanoseconds : Rat) / 1000000⌉ : Int) .millisecond ret
  else
    addPart (fixed (decRem (ms / 1000) 60) (if o.compact then 0 else o.secDigits)) .second ret

/-- what of `ret` is shown, `dp/ms.py:133-139` -/
def prettyShown (o : PrettyOptions) (ms : Rat) : List (Rat × TimeUnit) :=
  if o.compact then (prettyParts o ms).take 1
  else match o.unitCount with
    | some n => (prettyParts o ms).take n
    | none => prettyParts o ms

/-- the letters of a unit, `dp/ms.py:108-128` -/
def TimeUnit.short : TimeUnit → String
  | .year => "y" | .day => "d" | .hour => "h" | .minute => "m" | .second => "s"
  | .millisecond => "ms" | .microsecond => "us" | .nanosecond => "ns"

/-- the name of a unit, `dp/ms.py:108-128` -/
def TimeUnit.long : TimeUnit → String
  | .year => "year" | .day => "day" | .hour => "hour" | .minute => "minute" | .second => "second"
  | .millisecond => "millisecond" | .microsecond => "microsecond" | .nanosecond => "nanosecond"

/-- a number as text, `dp/ms.py:126-128`: with `k` decimals, or none if they are all 0.  All
numbers but the seconds of the last branch are whole. -/
def numText (q : Rat) (k : Nat) : List Char :=
  let n := (⌊|q| * 10 ^ k⌋).toNat
  let frac := n % 10 ^ k
  let fracText := Nat.toDigits 10 frac
  (if q < 0 then ['-'] else []) ++ Nat.toDigits 10 (n / 10 ^ k)
    ++ (if frac = 0 then [] else '.' :: (List.replicate (k - fracText.length) '0' ++ fracText))

/-- one element of `ret`, `dp/ms.py:97-99` -/
def partText (o : PrettyOptions) (p : Rat × TimeUnit) : List Char :=
  numText p.1 (if o.compact then 0 else o.secDigits)
    ++ (if o.verbose then (" " ++ (if p.1 = 1 then p.2.long else p.2.long ++ "s")).toList else p.2.short.toList)

/-- `pretty_ms`, `dp/ms.py:76-139`; the conditional of line 131 binds weaker than the `+`.
`keep_decimals_on_whole_seconds` is not used by the code; a negative `unit_count` is left out. -/
def prettyMs (o : PrettyOptions) (ms : Rat) : List Char :=
  if prettyParts o ms = [] then (if o.verbose then "0" ++ " milliseconds" else "ms").toList
  else if o.compact = true ∨ o.unitCount ≠ none then
    '~' :: [' '].intercalate ((prettyShown o ms).map (partText o))
  else [' '].intercalate ((prettyShown o ms).map (partText o))

end Dp
