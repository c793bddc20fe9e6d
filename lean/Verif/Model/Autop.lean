/-!
# The message of a requirement

What becomes of the `message` that an area file gives for a requirement (`dp/autop/autop.py`,
`textwrap.dedent` of Python 3.8, `dp/rule/requirement.py:62-69`).

A text is a list of characters.  `sp` says which characters are white space for `str.strip`.
-/

namespace Dp

/-- `str.split` with a newline; `cur` is the line so far, backwards -/
def autopLinesFrom (cur : List Char) : List Char → List (List Char)
  | [] => [cur.reverse]
  | c :: cs => if c = '\n' then cur.reverse :: autopLinesFrom [] cs else autopLinesFrom (c :: cur) cs

/-- the lines of a text, `dp/autop/autop.py:13` and the anchors of the expressions in `dedent` -/
def autopLines (cs : List Char) : List (List Char) := autopLinesFrom [] cs

/-- `str.join` of lines -/
def autopJoin (sep : Char) : List (List Char) → List Char
  | [] => []
  | [l] => l
  | l :: ls => l ++ sep :: autopJoin sep ls

/-- a blank or a tab: `[ \t]` in the expressions of `dedent` -/
def autopBlank (c : Char) : Bool := c == ' ' || c == '\t'

/-- the longest common beginning: the three cases of the loop of `dedent` over the indents -/
def autopCommon : List Char → List Char → List Char
  | a :: as, b :: bs => if a = b then a :: autopCommon as bs else []
  | _, _ => []

/-- the margin, the loop of `dedent` over the indents of the lines that are not blank -/
def autopMargin : List (List Char) → List Char
  | [] => []
  | [i] => i
  | i :: j :: is => autopMargin (autopCommon i j :: is)
termination_by is => is.length

/-- `textwrap.dedent`, called in `dp/autop/autop.py:5`: lines of blanks become empty, and the margin is taken from the
lines that begin with it -/
def autopDedent (cs : List Char) : List Char :=
  let ls := (autopLines cs).map (fun l => if l.all autopBlank then [] else l)
  let margin := autopMargin ((ls.filter (fun l => !l.isEmpty)).map (fun l => l.takeWhile autopBlank))
  autopJoin '\n' (ls.map (fun l => if margin.isPrefixOf l then l.drop margin.length else l))

/-- `data.split('\n\n')`, `dp/autop/autop.py:7`; `cur` is the chunk so far, backwards -/
def autopChunksFrom (cur : List Char) : List Char → List (List Char)
  | [] => [cur.reverse]
  | [c] => [(c :: cur).reverse]
  | c :: d :: cs =>
    if c = '\n' ∧ d = '\n' then cur.reverse :: autopChunksFrom [] cs
    else autopChunksFrom (c :: cur) (d :: cs)

/-- `para.strip()`, `dp/autop/autop.py:9` -/
def autopStrip (sp : Char → Bool) (cs : List Char) : List Char :=
  ((cs.dropWhile sp).reverse.dropWhile sp).reverse

/-- `wrap_untagged`, `dp/autop/autop.py:16-20` -/
def autopWrap (cs : List Char) : List Char :=
  if ['<'].isPrefixOf cs then cs else "<p>".toList ++ cs ++ "</p>".toList

/-- `autop`, `dp/autop/autop.py:4-13` -/
def autop (sp : Char → Bool) (data : List Char) : List Char :=
  let chunks := autopChunksFrom [] (autopDedent data)
  let chunks := chunks.map (autopStrip sp)
  let chunks := chunks.map (fun para => autopJoin ' ' (autopLines para))
  (chunks.map autopWrap).flatten

/-- what the requirement keeps of its message, `dp/rule/requirement.py:62-69`; `none`: the assertion fails -/
def requirementMessage (sp : Char → Bool) : Option (List Char) → Option (Option (List Char))
  | none => some none
  | some message =>
    let message := if message.isEmpty then message else autop sp message
    if (autopStrip sp message).isEmpty then none else some (some message)

end Dp
