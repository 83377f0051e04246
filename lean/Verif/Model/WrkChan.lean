import Verif.Model.BufIo
/-
Model of the channels between a worker and its proxy, /repo/src/resource/wrk-ctl.c:222-348, 361-464, 466-648, 1207-1266,
1337-1346, 1360-1388, /repo/src/base/comms.c:95-180.

Simplifications: malloc succeeds; what the callbacks registered for sending (wrk-ctl.c:1312-1314, 1325-1327) change in the data is
part of the data given to the model; the result of a receiving callback is only logged by the code and not modelled; a file
descriptor is a number standing for the open file, the same in both processes. `none` is undefined behaviour.
-/
namespace Sid.Chan
open Sid.LBuf (Buf IoEv Stream)

/-- model only: what the kernel holds for a byte of a socket or pipe: the byte, and the open file that was sent with it
    (comms.c:113-121) -/
abbrev Cell := UInt8 × Option Nat

/-- wrk-ctl.c:28-33 `worker_channel_cmd_t`, its four bytes on a little-endian machine -/
def cmdBytes (n : Nat) : List UInt8 := [UInt8.ofNat n, 0, 0, 0]

/-- wrk-ctl.c:30 `WORKER_CHANNEL_CMD_YIELD` -/
def cmdYield : Nat := 1
/-- wrk-ctl.c:31 `WORKER_CHANNEL_CMD_DATA` -/
def cmdData : Nat := 2
/-- wrk-ctl.c:32 `WORKER_CHANNEL_CMD_DATA_EXT` -/
def cmdDataExt : Nat := 3

/-- include/resource/wrk-ctl.h:74-86 `struct sid_wrk_data_spec`, data NULL is the empty list; `ext`: `none` if `ext.used` is not
    set, otherwise the file passed (`none` inside: -1) -/
structure Data where
  data : List UInt8
  ext : Option (Option Nat)
deriving DecidableEq, Repr

/-- a message to be sent: data (wrk-ctl.c:1337-1346) or a yield (1360-1388) -/
inductive Msg where
  | data (d : Data)
  | yield
deriving DecidableEq, Repr

/-- wrk-ctl.c:1345, 1382 the command sent with a message -/
def Msg.cmd : Msg → Nat
  | .data d => if d.ext.isSome then cmdDataExt else cmdData
  | .yield => cmdYield

/-- wrk-ctl.c:1211, 1227 the data of a message -/
def Msg.bytes : Msg → List UInt8
  | .data d => d.data
  | .yield => []

/-- wrk-ctl.c:1237 the file to be passed -/
def Msg.ext : Msg → Option (Option Nat)
  | .data d => d.ext
  | .yield => none

/-- model only, for wrk-ctl.c:1207-1266: how a send ends: `pending`: the model's schedule of system calls ended before -/
inductive SOut where
  | ok
  | failed (e : Errno)
  | pending
deriving DecidableEq, Repr

/-- wrk-ctl.c:1246-1261, comms.c:95-125 sending the byte 0xFF with the file -/
def sendAnc (fd : Option Nat) : List IoEv → SOut × List Cell
  | [] => (.pending, [])
  | .fail e :: es => if e = .EAGAIN ∨ e = .EINTR then sendAnc fd es else (.failed e, [])
  | .xfer _ :: _ => (.ok, [(0xFF, fd)])

/-- model only, for wrk-ctl.c:1207-1266: bytes without files -/
def plainCells (l : List UInt8) : List Cell := l.map fun b => (b, none)

/-- model only, for wrk-ctl.c:1207-1266: what the surroundings do during a send: the writes, the sends of the byte, contents of fresh memory -/
structure SEv where
  wsched : List IoEv
  anc : List IoEv
  fresh : Nat → UInt8

/-- wrk-ctl.c:1219-1230 filling the buffer; the flag is false if that fails -/
def fill (tx : Buf) (m : Msg) (fresh : Nat → UInt8) : Buf × Bool :=
  let hdr : Buf × Bool :=
    match tx.mode with
    | .plain => (tx, true)
    | .prefixed =>
      match LBuf.add tx (cmdBytes m.cmd) false fresh with
      | (b, .err _) => (b, false)
      | (b, _) => (b, true)
  if hdr.2 then
    if m.bytes = [] then hdr
    else
      match LBuf.add hdr.1 m.bytes false fresh with
      | (b, .err _) => (b, false)
      | (b, _) => (b, true)
  else hdr

/-- wrk-ctl.c:1237-1263 passing the file, only over a socket -/
def sendExt (socket : Bool) (m : Msg) (anc : List IoEv) : SOut × List Cell :=
  match m.ext with
  | none => (.ok, [])
  | some fd => if socket then sendAnc fd anc else (.ok, [])

/-- wrk-ctl.c:1232-1263 writing the buffer and the file -/
def transmit (socket : Bool) (b : Buf) (m : Msg) (e : SEv) : SOut × List Cell :=
  match LBuf.writeAll b 0 [] e.wsched with
  | .done o =>
    let r := sendExt socket m e.anc
    (r.1, plainCells o ++ r.2)
  | .failed er o => (.failed er, plainCells o)
  | .pending o => (.pending, plainCells o)

/-- wrk-ctl.c:1207-1266 `_chan_buf_send`: the buffer afterwards, the result, what went to the kernel -/
def send (socket : Bool) (tx : Buf) (m : Msg) (e : SEv) : Buf × SOut × List Cell :=
  match fill tx m e.fresh with
  | (b, false) => ((LBuf.reset b e.fresh).1, .failed .ENOMEM, [])
  | (b, true) =>
    let r := transmit socket b m e
    ((LBuf.reset (LBuf.updatePrefix b) e.fresh).1, r.1, r.2)

/-- model only, for wrk-ctl.c:1207-1266: one send after the other; a send that does not return is the last one.  The results and all that went to the kernel. -/
def sendAll (socket : Bool) (tx : Buf) : List (Msg × SEv) → List SOut × List Cell
  | [] => ([], [])
  | (m, e) :: l =>
    match send socket tx m e with
    | (_, .pending, o) => ([.pending], o)
    | (tx', r, o) =>
      let q := sendAll socket tx' l
      (r :: q.1, o ++ q.2)

/-- which end receives: wrk-ctl.c:361-418 or 420-464; which of the two suffixes, the wire -/
structure Side where
  proxy : Bool
  socket : Bool
  /-- wrk-ctl.c:224-226 `data_suffix`, `none`: NULL -/
  suffix : Option (List UInt8)

/-- what a receiver does for a message: calls its callback (390, 444), or makes the worker exit (384) -/
inductive Note where
  | call (d : Data)
  | yielded
deriving DecidableEq, Repr

/-- the receiving end: buffer, what the kernel holds, whether the sender has closed its end, what was done, whether the event source
    is still there (a negative result of the callback, and wrk-ctl.c:415 or 461, end it) -/
structure Chan where
  buf : Buf
  cells : List Cell
  closed : Bool
  notes : List Note
  alive : Bool
deriving DecidableEq, Repr

/-- model only, for wrk-ctl.c:247-349: one event on the channel: EPOLLERR set or not, the read, the receives of the byte, contents of fresh memory -/
structure REv where
  err : Bool
  io : IoEv
  anc : List IoEv
  fresh : Nat → UInt8
  fresh2 : Nat → UInt8
  fresh3 : Nat → UInt8

/-- src/base/comms.c:138-177: result of receiving the byte -/
inductive AncOut where
  | pending
  | failed (e : Errno)
  | got (fd : Option Nat) (rest : List Cell)
deriving DecidableEq, Repr

/-- wrk-ctl.c:302-319, comms.c:144-170 receiving the byte with the file; end of stream counts as a byte without file -/
def recvAnc (cells : List Cell) (closed : Bool) : List IoEv → AncOut
  | [] => .pending
  | .fail e :: es => if e = .EAGAIN ∨ e = .EINTR then recvAnc cells closed es else .failed e
  | .xfer _ :: es =>
    match cells with
    | [] => if closed then .got none [] else recvAnc cells closed es
    | c :: cs => .got c.2 cs

/-- wrk-ctl.c:222-231 `_chan_add_rx_data_suffix` -/
def addSuffix (sd : Side) (b : Buf) (fresh : Nat → UInt8) : Buf × Bool :=
  match sd.suffix with
  | none => (b, true)
  | some x =>
    match LBuf.add b x false fresh with
    | (b, .err _) => (b, false)
    | (b, _) => (b, true)

/-- wrk-ctl.c:374-378, 432-436 the end after an error -/
def fail (c : Chan) (b : Buf) (fresh : Nat → UInt8) : Chan := { c with buf := (LBuf.reset b fresh).1, alive := false }

/-- wrk-ctl.c:380-412, 438-458 handling of a message; `none`: the name of an unknown command is looked up behind the table -/
def handle (sd : Side) (c : Chan) (b : Buf) (cmd : Nat) (d : Data) (fresh : Nat → UInt8) : Option Chan :=
  let c := { c with buf := (LBuf.reset b fresh).1 }
  if cmd = cmdData ∨ cmd = cmdDataExt then some { c with notes := c.notes ++ [.call d] }
  else if cmd = cmdYield ∧ sd.proxy then some { c with notes := c.notes ++ [.yielded] }
  else if cmd ≤ 3 then some c
  else none

/-- wrk-ctl.c:283-325 splitting a complete message, receiving the file; `none`: less than the four bytes of a command -/
def onMsg (sd : Side) (c : Chan) (b : Buf) (m : List UInt8) (e : REv) : Option Chan :=
  if m.length < 4 then none
  else
    let cmd := LBuf.rd32 m
    if cmd = cmdDataExt ∧ sd.socket then
      match recvAnc c.cells c.closed e.anc with
      | .pending => some { c with buf := b, alive := false }
      | .failed _ => some (fail c b e.fresh3)
      | .got fd rest => handle sd { c with cells := rest } b cmd ⟨m.drop 4, some fd⟩ e.fresh3
    else handle sd c b cmd ⟨m.drop 4, none⟩ e.fresh3

/-- wrk-ctl.c:272-280 a complete message -/
def onComplete (sd : Side) (c : Chan) (b : Buf) (e : REv) : Option Chan :=
  match addSuffix sd b e.fresh2 with
  | (b, false) => some (fail c b e.fresh3)
  | (b, true) =>
    match LBuf.getData b 0 with
    | (b, .data m) => onMsg sd c b m e
    | _ => none

/-- wrk-ctl.c:333-347, 415, 461 the end of the stream -/
def onEof (sd : Side) (c : Chan) (b : Buf) (e : REv) : Option Chan :=
  match b.mode with
  | .prefixed => some { c with buf := b, alive := false }
  | .plain =>
    match addSuffix sd b e.fresh2 with
    | (b, false) => some (fail c b e.fresh3)
    | (b, true) =>
      match LBuf.getData b 0 with
      | (b, .data m) =>
        (handle sd c b cmdData ⟨m, none⟩ e.fresh3).map fun c => { c with alive := false }
      | _ => none

/-- wrk-ctl.c:247-349 `_chan_buf_recv`, 365-420 `_on_worker_proxy_channel_event`, 422-468 `_on_worker_channel_event` -/
def step (sd : Side) (c : Chan) (e : REv) : Option Chan :=
  if !c.alive then some c
  else if e.err then some (fail c c.buf e.fresh3)
  else
    match LBuf.read c.buf ⟨c.cells.map Prod.fst, c.closed⟩ e.io e.fresh with
    | (b, s, .ok n) =>
      let c := { c with cells := c.cells.drop (c.cells.length - s.data.length) }
      if n = 0 then onEof sd c b e
      else
        match b.mode with
        | .plain => some { c with buf := b }
        | .prefixed => if LBuf.isComplete b then onComplete sd c b e else some { c with buf := b }
    | (b, s, .error er) =>
      let c := { c with cells := c.cells.drop (c.cells.length - s.data.length) }
      if er = .EAGAIN ∨ er = .EINTR then some { c with buf := b } else some (fail c b e.fresh3)

/-- model only, for wrk-ctl.c:247-349: a history of events -/
def run (sd : Side) : Chan → List REv → Option Chan
  | c, [] => some c
  | c, e :: l => (step sd c e).bind fun c => run sd c l

/-- wrk-ctl.c:466, 524-553, 594-601 the buffer of a lane of an internal worker without own settings -/
def intBuf (fresh : Nat → UInt8) : Res Buf := LBuf.create .prefixed 4 1 0 fresh

/-- wrk-ctl.c:468-470, 541-546 the buffer of a lane to or from an external worker without own settings -/
def extBuf (fresh : Nat → UInt8) : Res Buf := LBuf.create .plain 4096 4096 0 fresh

end Sid.Chan
