import Verif.Model.Gen

/-
The settings file `.env` (`dp/dotenv/dotenv.py`).  Texts are lists of characters; `sp` tells which characters `str.strip` removes.
Left out: a file that is not UTF-8, and names and values with a NUL, which `os.environ` refuses.
-/
namespace Dp

/-- `str.strip`, `dp/dotenv/dotenv.py:12,21-22` -/
def stripChars (sp : Char → Bool) (l : List Char) : List Char := ((l.dropWhile sp).reverse.dropWhile sp).reverse

/-- `d[k] = v` on the settings read so far, `dp/dotenv/dotenv.py:26`, and on the environment, line 37 -/
def envSet (k v : List Char) : List (List Char × List Char) → List (List Char × List Char)
  | [] => [(k, v)]
  | (k', v') :: d => if k' = k then (k, v) :: d else (k', v') :: envSet k v d

/-- `str.split('=')`, `dp/dotenv/dotenv.py:20` -/
def splitEq : List Char → List (List Char)
  | [] => [[]]
  | c :: l => if c = '=' then [] :: splitEq l else match splitEq l with
    | w :: ws => (c :: w) :: ws
    | [] => [[c]]

/-- one line, `dp/dotenv/dotenv.py:12-26`: `none` if it is passed over -/
def dotenvLine (sp : Char → Bool) (line : List Char) : Except Err (Option (List Char × List Char)) :=
  let line := stripChars sp line
  if line.head? = some '#' then .ok none
  else if line = [] then .ok none
  else match splitEq line with
    | [key, value] =>
      if stripChars sp key = [] then .error .assertion else .ok (some (stripChars sp key, stripChars sp value))
    | _ => .error .valueError

/-- `read`, `dp/dotenv/dotenv.py:6-30`, on the lines of the file -/
def dotenvRead (sp : Char → Bool) : List (List Char × List Char) → List (List Char) → Except Err (List (List Char × List Char))
  | args, [] => .ok args
  | args, line :: lines => match dotenvLine sp line with
    | .error e => .error e
    | .ok none => dotenvRead sp args lines
    | .ok (some (k, v)) => dotenvRead sp (envSet k v args) lines

/-- `load`, `dp/dotenv/dotenv.py:33-37`: the environment afterwards, and the exception, if any; `none`: there is no file -/
def dotenvLoad (sp : Char → Bool) (file : Option (List (List Char))) (env : List (List Char × List Char)) :
    List (List Char × List Char) × Option Err :=
  match dotenvRead sp [] (file.getD []) with
  | .error e => (env, some e)
  | .ok args => (args.foldl (fun env kv => envSet kv.1 kv.2 env) env, none)

end Dp
