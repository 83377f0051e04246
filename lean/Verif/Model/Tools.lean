import Verif.Model.UbrReply
import Verif.Model.UbrEvent
/-
Model of the command line tools: /repo/src/tools/usid/usid.c (51-349) and /repo/src/tools/sidctl/sidctl.c (32-56, 140-223).

Simplifications: `getopt_long` is not modelled, the arguments are those behind the options; printing succeeds; the help text on
stderr is not modelled; the signal mask is set successfully.  `sidctl version` is in Model/Listing.lean (`ctlVersion`).  How a
request is sent and the reply read is in Model/Ifc.lean; connecting comes before it.
-/
namespace Sid.Tools
open Sid.Ifc
open Sid.LBuf (Buf IoEv Stream)

/-- model only, for src/tools/usid/usid.c:286-349, src/tools/sidctl/sidctl.c:156-216: what a tool finds: its environment, whether connecting fails (and how), the contents of fresh memory, what the
    system calls do, what the daemon sends, the file it passes for a database dump -/
structure World where
  env : List Str
  refused : Option Errno
  fresh : Nat → UInt8
  wsched : List IoEv
  reply : Stream
  rsched : List (IoEv × (Nat → UInt8))
  file : Except Errno (List UInt8)

/-- src/iface/ifc.c:222-366 `sid_ifc_req`: the message is made up first, then the socket is connected (282-285, base/comms.c:61-93),
    then the request is sent and the reply read -/
def ifcReq (w : World) (req : Req) : Out :=
  match message w.env req w.fresh with
  | .error e => .failed e []
  | .ok _ =>
    match w.refused with
    | some e => .failed e []
    | none => request w.env req w.fresh w.wsched w.reply w.rsched w.file

/-- model only, for src/tools/usid/usid.c:286-349: how a tool ends: with an output and an exit status (`true`: EXIT_SUCCESS); it waits (model only: a schedule ended);
    undefined behaviour -/
inductive End
  | ended (out : Str) (ok : Bool)
  | waiting
  | ub
deriving DecidableEq, Repr

/-- model only, for src/tools/usid/usid.c:72-212: what a tool is going to do: end at once, or make a request and go on with its result -/
inductive Plan
  | stop (e : End)
  | ask (req : Req) (k : Out → End)

/-- model only, for src/tools/usid/usid.c:72-212: the tool runs -/
def Plan.run (w : World) : Plan → End
  | .stop e => e
  | .ask req k => k (ifcReq w req)

/-- model only, for src/iface/ifc.c:222-350: the bytes of a request the kernel has taken -/
def taken : Out → List UInt8
  | .failed _ s => s
  | .ok _ s => s
  | .pending s => s

/-- model only, for src/iface/ifc.c:222-350: what the tool sends -/
def Plan.sent (w : World) : Plan → List UInt8
  | .stop _ => []
  | .ask req _ => taken (ifcReq w req)

/-- src/tools/usid/usid.c:24-29 `sid_status_t` -/
inductive Status
  | error | active | inactive | incompatible
deriving DecidableEq, Repr

/-- src/tools/usid/usid.c:31-36 `sid_status_str` -/
def Status.name : Status → Str
  | .error => txt "error"
  | .active => txt "active"
  | .inactive => txt "inactive"
  | .incompatible => txt "incompatible"

/-- src/tools/usid/usid.c:22, 85, 132, 151, 208 the line telling the status -/
def statusLine (s : Status) : Str := txt "SID_STATUS=" ++ s.name ++ [10]

/-- src/tools/usid/usid.c:57-63 `_get_ubr_status` for a request that failed -/
def failedStatus (e : Errno) : Status :=
  if e = .ECONNREFUSED then .inactive else if e = .EBADMSG then .incompatible else .error

/-- src/tools/usid/usid.c:64-69 `_get_ubr_status` for a request that was answered; `none`: undefined behaviour -/
def answeredStatus (r : Rsl) : Option Status :=
  (rslData r).map fun d => if d.isSome && rslProtocol r == some 2 then .active else .incompatible

/-- src/tools/usid/usid.c:80, 177 the sequence number, 0 if there is none -/
def seqOrZero (env : List Str) : Nat :=
  match Util.envGetUll env (txt "SEQNUM") 0 (2 ^ 64 - 1) with
  | .ok v => v
  | .error _ => 0

/-- src/tools/usid/usid.c:81-86 `_usid_cmd_active` once the request is done -/
def activeEnd : Out → End
  | .pending _ => .waiting
  | .failed e _ => .ended (statusLine (failedStatus e)) false
  | .ok r _ =>
    match answeredStatus r with
    | none => .ub
    | some s => .ended (statusLine s) true

/-- src/tools/usid/usid.c:72-87 `_usid_cmd_active`: asks for the version -/
def usidActive (env : List Str) : Plan := .ask ⟨6, 2, seqOrZero env, .none⟩ activeEnd

/-- src/tools/usid/usid.c:96-100 a reply without data: an error if the status says so -/
def noData (r : Rsl) : Bool :=
  match rslStatus r with
  | some s => s % 2 == 0
  | none => false

/-- src/tools/usid/usid.c:89-105 `_print_env_from_rsl`: what is printed and whether it succeeds; `none`: undefined behaviour -/
def printEnv (r : Rsl) : Option (Str × Bool) :=
  match rslData r with
  | none => none
  | some none => some ([], noData r)
  | some (some d) => (Ubr.printFrom [] d).map fun t => (t, true)

/-- src/tools/usid/usid.c:123-132 a request that was answered -/
def envAnswered (r : Rsl) : End :=
  match answeredStatus r, printEnv r with
  | some s, some (t, ok) => .ended (t ++ statusLine s) ok
  | _, _ => .ub

/-- src/tools/usid/usid.c:121-135 `_usid_cmd_print_env` once the request is done; it is no error that the daemon is inactive -/
def envEnd : Out → End
  | .pending _ => .waiting
  | .failed e _ => .ended (statusLine (failedStatus e)) (failedStatus e == .inactive)
  | .ok r _ => envAnswered r

/-- src/tools/usid/usid.c:107-136 `_usid_cmd_print_env` -/
def usidEnv (env : List Str) (cmd : Nat) (data : ReqData) : Plan :=
  match Util.envGetUll env (txt "SEQNUM") 0 (2 ^ 64 - 1) with
  | .error _ => .stop (.ended (statusLine .error) false)
  | .ok v => .ask ⟨cmd, 2, v, data⟩ envEnd

/-- src/tools/usid/usid.c:138-143 `_usid_cmd_scan` -/
def usidScan (env : List Str) : Plan := usidEnv env cmdScan .none

/-- src/tools/usid/usid.c:145-165 `_usid_cmd_checkpoint` with the arguments behind the command -/
def usidCheckpoint (env : List Str) : List Str → Plan
  | [] => .stop (.ended (statusLine .error) false)
  | name :: keys => usidEnv env cmdCheckpoint (.checkpoint (some name) (some keys))

/-- configure.ac:27-29 major, minor, release -/
structure Version where
  major : Nat
  minor : Nat
  release : Nat
deriving DecidableEq, Repr

/-- a line with a number (usid.c:179-185) -/
def numLine (name : String) (n : Nat) : Str := txt name ++ [61] ++ Fmt.dec n ++ [10]

/-- src/tools/usid/usid.c:179-185 the version of the tool -/
def ownVersion (v : Version) : Str :=
  numLine "USID_IFC_PROTOCOL" 2 ++ numLine "USID_MAJOR" v.major ++ numLine "USID_MINOR" v.minor ++ numLine "USID_RELEASE" v.release

/-- `printf("%s", data)` (usid.c:196, sidctl.c:46): up to the first NUL; `none`: there is none in the data, memory behind it is read -/
def cstring (d : Str) : Option Str := if 0 ∈ d then some (d.takeWhile (· ≠ 0)) else none

/-- src/tools/usid/usid.c:194-204, 208 a request for the version that was answered -/
def versionAnswered (v : Version) (r : Rsl) : End :=
  match answeredStatus r, rslData r with
  | some s, some (some d) =>
    match cstring d with
    | none => .ub
    | some t => .ended (ownVersion v ++ t ++ statusLine s) true
  | some s, some none => .ended (ownVersion v ++ statusLine s) false
  | _, _ => .ub

/-- src/tools/usid/usid.c:187-211 `_usid_cmd_version` once the request is done -/
def versionEnd (v : Version) : Out → End
  | .pending _ => .waiting
  | .failed e _ => .ended (ownVersion v ++ statusLine (failedStatus e)) (failedStatus e == .inactive)
  | .ok r _ => versionAnswered v r

/-- src/tools/usid/usid.c:167-212 `_usid_cmd_version` -/
def usidVersion (env : List Str) (v : Version) : Plan := .ask ⟨6, 2, seqOrZero env, .none⟩ (versionEnd v)

/-- src/tools/usid/usid.c:331-346 the command with the arguments behind it; for any other one the help and a failure -/
def usidRun (env : List Str) (v : Version) (rest : List Str) : Nat → Plan
  | 2 => usidActive env
  | 3 => usidCheckpoint env rest
  | 5 => usidScan env
  | 6 => usidVersion env v
  | _ => .stop (.ended [] false)

/-- src/tools/usid/usid.c:319-348 `main` behind the options: without a command the help and a failure -/
def usid (env : List Str) (v : Version) : List Str → Plan
  | [] => .stop (.ended [] false)
  | a :: rest => usidRun env v rest (nameToType (some a))

/-! ### sidctl -/

/-- src/tools/sidctl/sidctl.c:45-52 a request that was answered -/
def ctlAnswered (r : Rsl) : End :=
  match rslData r with
  | none => .ub
  | some none => .ended [] (noData r)
  | some (some d) =>
    match cstring d with
    | none => .ub
    | some t => .ended t true

/-- src/tools/sidctl/sidctl.c:40-55 `_sid_cmd` once the request is done -/
def ctlEnd : Out → End
  | .pending _ => .waiting
  | .failed _ _ => .ended [] false
  | .ok r _ => ctlAnswered r

/-- src/tools/sidctl/sidctl.c:32-56 `_sid_cmd` -/
def ctlCmd (cmd format : Nat) : Plan := .ask ⟨cmd, format, 0, .none⟩ ctlEnd

/-- src/tools/sidctl/sidctl.c:143-154 `_get_format`; include/iface/ifc.h:44-46 -/
def getFormat (f : Str) : Option Nat :=
  if Event.sameCase f (txt "json") then some 1
  else if Event.sameCase f (txt "env") then some 2
  else if Event.sameCase f (txt "table") then some 0
  else none

/-- src/tools/sidctl/sidctl.c:159, 171-178 the formats given one after the other: a bad one ends the tool, else the last counts -/
def formatOf (cur : Nat) : List Str → Option Nat
  | [] => some cur
  | f :: l =>
    match getFormat f with
    | none => none
    | some n => formatOf n l

/-- src/tools/sidctl/sidctl.c:195-216 the command; `version`: what `sidctl version` does (Model/Listing.lean) -/
def ctlRun (version : Plan) (format : Nat) (a : Str) : Plan :=
  if nameToType (some a) = 6 then version
  else if nameToType (some a) = 7 ∨ nameToType (some a) = 8 ∨ nameToType (some a) = 9 ∨ nameToType (some a) = 10 then
    ctlCmd (nameToType (some a)) format
  else .stop (.ended [] false)

/-- src/tools/sidctl/sidctl.c:156-216 `main` with the formats given and the arguments behind the options: there must be one -/
def sidctl (version : Plan) (formats args : List Str) : Plan :=
  match formatOf 0 formats with
  | none => .stop (.ended [] false)
  | some f =>
    match args with
    | [a] => ctlRun version f a
    | _ => .stop (.ended [] false)

end Sid.Tools
