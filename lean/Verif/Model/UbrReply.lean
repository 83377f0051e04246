import Verif.Model.UbrSync
/-
Model of the text of the reply to the command "scan" in /repo/src/resource/ubr.c, what udev is told (1405-1450), and of what
/repo/src/tools/usid/usid.c makes of it (88-137).  Which properties are told is in Model/UbrSync.lean (`udevLine`,
`exportOne`).

Simplifications: adding to the response buffer and printing succeed; the way of the reply to the client is in Model/Ifc.lean.
-/
namespace Sid.Ubr
open Sid.Ifc (txt)

/-- src/resource/ubr.c:57-58, 1432-1439 the bytes of one property: name, KV_PAIR_C, value, one byte of KV_END_C -/
def replyLine (x : Str × Str) : Str := x.1 ++ [61] ++ x.2 ++ [0]

/-- src/resource/ubr.c:1346-1546 the bytes the loop adds to the response buffer -/
def replyText (l : List (Str × Str)) : Str := l.flatMap replyLine

/-- src/tools/usid/usid.c:100-101 the loop of `_print_env_from_rsl` with the bytes of the string it is in.  `none`: `strlen`
    reads behind the data. -/
def printFrom (cur : Str) : Str → Option Str
  | [] => if cur = [] then some [] else none
  | b :: s => if b = 0 then (printFrom [] s).map fun t => cur ++ [10] ++ t else printFrom (cur ++ [b]) s

/-- src/tools/usid/usid.c:88-104, 106-133 what `usid scan` prints when the request succeeded: the data of the reply and the
    state of the daemon (here, as there are data, it is active, 51-70) -/
def usidPrints (data : Str) : Option Str := (printFrom [] data).map fun t => t ++ txt "SID_STATUS=active\n"

end Sid.Ubr
