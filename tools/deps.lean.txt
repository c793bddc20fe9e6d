import Verif
import Lean.Util.CollectAxioms
open Lean
def isMine (n : Name) : Bool := n.getRoot == `Dp || (n.toString.startsWith "_private.Verif")
#eval show CoreM Unit from do
  let env ← getEnv
  let h ← IO.FS.Handle.mk "/tmp/w/deps.txt" .write
  for (n, c) in env.constants.toList do
    if isMine n then
      let us := (c.type.getUsedConstants ++ (match c.value? (allowOpaque := true) with | some v => v.getUsedConstants | none => #[])).toList.filter isMine
      let k := match c with | .thmInfo _ => "T" | .defnInfo _ => "D" | _ => "O"
      h.putStrLn s!"{n}\t{k}\t{String.intercalate " " (us.map toString)}"
  let h2 ← IO.FS.Handle.mk "/tmp/w/axioms.txt" .write
  for (n, c) in env.constants.toList do
    if n.getRoot == `Dp then
      let l := n.getString!
      if l.length > 4 && l.startsWith "C" && (l.toList.getD 1 'x').isDigit && ((l.toList.getD 3 'x') == '_' || (l.toList.getD 4 'x') == '_') then
        let ax ← collectAxioms n
        h2.putStrLn s!"{n}\t{String.intercalate " " (ax.toList.map toString)}"
