import Verif.Model.Ifc
/-
Model of the daemon's end of a client connection, /repo/src/resource/ubr.c:522-534, 5710-5766, 6031-6229, 6231-6343.

Simplifications: malloc succeeds; of the creation of a command only the checks made on the message are modelled, the rest
(creation of buffers, registration of the handler, setting of the session id) is one result given from outside; what a command
does once it is created is modelled in Model/UbrCmd.lean.  `none` is undefined behaviour of the worker.
-/
namespace Sid.Conn
open Sid.LBuf (Buf IoEv Stream)
open Sid.Ifc

/-- src/resource/ubr.c:522-534 `_cmd_root_only`: the command numbers for which it is true; src/include/iface/ifc.h:22-37 -/
def rootOnly : List Bool := [false, false, false, true, false, true, false, true, true, true, true]

/-- src/include/iface/ifc.h:36 `_SID_IFC_CMD_END` -/
def cmdEnd : Nat := 10

/-- src/resource/ubr.c:504-513 the flags of a registration that matter here -/
structure CReg where
  importUdev : Bool
  session : Bool
deriving DecidableEq, Repr

/-- src/resource/ubr.c:5710-5728 `_client_cmd_regs` -/
def clientRegs : List CReg :=
  [⟨false, false⟩, ⟨false, false⟩, ⟨false, false⟩, ⟨true, false⟩, ⟨false, false⟩, ⟨true, true⟩, ⟨false, false⟩, ⟨false, false⟩,
   ⟨false, false⟩, ⟨false, false⟩, ⟨false, false⟩]

/-- src/resource/ubr.c:5754-5766 `_get_cmd_reg` for a client's command; `none`: behind the array -/
def getReg (cmd : Nat) : Option CReg := clientRegs[cmd]?

/-- src/resource/ubr.c:6055-6066 `_socket_client_is_capable`; `uid`: the user the kernel reports for the socket, if it does;
    `none`: behind the array -/
def capable (uid : Option Nat) (cmd : Nat) : Option Bool :=
  if uid = some 0 then some true else (rootOnly[cmd]?).map (!·)

/-- src/resource/ubr.c:6083-6086 the command number used for the check -/
def sanitized (cmd : Nat) : Nat := if cmd > cmdEnd then cmdUnknown else cmd

/-- src/resource/ubr.c:6068-6110 `_check_msg` for a client's message -/
def checkMsg (uid : Option Nat) (m : List UInt8) : Option Bool :=
  match hdrOf m with
  | none => some false
  | some h => capable uid (sanitized h.cmd)

/-- src/include/iface/ifc.h:20 `SID_IFC_PROTOCOL` -/
def protocol : Nat := 2

/-- src/resource/ubr.c:6291-6307 the environment of a scan or checkpoint request; -EINVAL fails, a variable refused does not (the
    result compared in 4179 is a truth value, never negative) -/
def importEnv (reg : CReg) (m : List UInt8) : Option Bool :=
  if reg.importUdev then
    match parseEnv (m.drop 12) with
    | none => none
    | some (.error _) => some false
    | some (.ok _) => some true
  else some true

/-- src/resource/ubr.c:6231-6343 `_init_command` on a client's message; `ok`: nothing else fails -/
def initCommand (ok : Bool) (h : Hdr) (m : List UInt8) : Option Bool :=
  if h.prot ≠ protocol then some false
  else
    match getReg h.cmd with
    | none => none
    | some reg =>
      match importEnv reg m with
      | none => none
      | some e => some (e && ok)

/-- src/resource/ubr.c:6120-6132 the second part of `_create_cmd_res`: the message's own header is used, not the checked one -/
def createChecked (ok : Bool) (m : List UInt8) : Option Bool :=
  match hdrOf m with
  | none => none
  | some h =>
    match getReg h.cmd with
    | none => none
    | some _ => initCommand ok h m

/-- src/resource/ubr.c:6112-6133 `_create_cmd_res` -/
def createCmd (uid : Option Nat) (ok : Bool) (m : List UInt8) : Option Bool :=
  match checkMsg uid m with
  | none => none
  | some false => some false
  | some true => createChecked ok m

/-- src/resource/ubr.c:6037-6039 the header with which a failure would be answered -/
def failureHdr (prot : Nat) : List UInt8 := (Hdr.mk 1 prot 0 0).bytes

/-- model only, for src/resource/ubr.c:6031-6053: the bytes a write brings to the client -/
def written : LBuf.WOut → List UInt8
  | .done o => o
  | .failed _ o => o
  | .pending o => o

/-- src/resource/ubr.c:6046-6050 the write is only reached if the header could *not* be added -/
def answer (b : Buf) (prot : Nat) (wsched : List IoEv) (fresh : Nat → UInt8) : Buf × List UInt8 × Bool :=
  match LBuf.add b (failureHdr prot) false fresh with
  | (b', .err _) =>
    match LBuf.writeAll b' 0 [] wsched with
    | .done o => (b', o, true)
    | w => (b', written w, false)
  | (b', _) => (b', [], true)

/-- src/resource/ubr.c:6031-6053 `_reply_failure` on the connection's buffer: the buffer, the bytes written, whether it succeeds;
    `none`: the 12 bytes of a header are not there -/
def replyFailure (b : Buf) (wsched : List IoEv) (fresh : Nat → UInt8) : Option (Buf × List UInt8 × Bool) :=
  match hdrOf ((LBuf.getData b 0).1.mem.drop 4) with
  | none => none
  | some h =>
    let b' := (LBuf.release (LBuf.getData b 0).1 0 false true).1
    if h.prot ≤ protocol then some (answer b' h.prot wsched fresh) else some (b', [], false)

/-- model only, for src/resource/ubr.c:191-194, 6135-6178: a connection: buffer, what the client sent and was not read yet, the messages for which a command was created,
    what was written to the client, whether the connection is still served -/
structure Conn where
  buf : Buf
  inp : Stream
  started : List (List UInt8)
  out : List UInt8
  served : Bool
deriving DecidableEq, Repr

/-- model only, for src/resource/ubr.c:6135-6178: what the surroundings do in one event: the read, the contents of fresh memory, the writes of an answer, whether creating the
    command works -/
structure Ev where
  io : IoEv
  fresh : Nat → UInt8
  wsched : List IoEv
  ok : Bool

/-- src/resource/ubr.c:6155-6158 after a refused request -/
def refused (c : Conn) (e : Ev) : Option Conn :=
  (replyFailure c.buf e.wsched e.fresh).map fun r =>
    if r.2.2 then { c with buf := (LBuf.reset r.1 e.fresh).1, out := c.out ++ r.2.1 }
    else { c with buf := r.1, out := c.out ++ r.2.1, served := false }

/-- src/resource/ubr.c:6151-6161 a complete request -/
def onMessage (uid : Option Nat) (c : Conn) (e : Ev) : Option Conn :=
  match LBuf.getData c.buf 0 with
  | (b, .data m) =>
    match createCmd uid e.ok m with
    | none => none
    | some true => some { c with buf := (LBuf.reset b e.fresh).1, started := c.started ++ [m] }
    | some false => refused { c with buf := b } e
  | _ => some c

/-- src/resource/ubr.c:6135-6178 `_on_connection_event` (without EPOLLERR, which only ends the connection) -/
def step (uid : Option Nat) (c : Conn) (e : Ev) : Option Conn :=
  if !c.served then some c
  else
    match LBuf.read c.buf c.inp e.io e.fresh with
    | (b, s, .ok n) =>
      if n = 0 then some { c with buf := b, inp := s, served := false }
      else if LBuf.isComplete b then onMessage uid { c with buf := b, inp := s } e
      else some { c with buf := b, inp := s }
    | (b, s, .error er) =>
      if er = .EAGAIN ∨ er = .EINTR then some { c with buf := b, inp := s } else some { c with buf := b, inp := s, served := false }

/-- model only, for src/resource/ubr.c:6135-6178: a history of events -/
def run (uid : Option Nat) : Conn → List Ev → Option Conn
  | c, [] => some c
  | c, e :: l => (step uid c e).bind fun c => run uid c l

/-- src/resource/ubr.c:6180-6214 `_init_connection`: the buffer has mode size-prefix, step 1 -/
def init (inp : Stream) (fresh : Nat → UInt8) : Option Conn :=
  match LBuf.create .prefixed 0 1 0 fresh with
  | .ok b => some ⟨b, inp, [], [], true⟩
  | _ => none

end Sid.Conn
