import Verif.Model.UbrCmd
/-
Model of the daemon as a whole, as far as messages between processes go: the commands of all workers (Model/UbrCmd), the channel of each
worker to the main process and back, the receiving functions on both sides, and the udev monitor of the main process:
/repo/src/resource/ubr.c 4565-4600, 5710-5735, 5768-5820, 6112-6135, 6739-6830, 6832-7011, 7170-7221; src/resource/wrk-ctl.c 1176-1188.

Not modelled: the bytes of the messages (Model/WrkChan), how workers are chosen and told to end (Model/Worker), what the records are
(Model/UbrSync).  A command stays where it is when the connection it came from is closed (`_connection_cleanup`, 4419-4422: the
connection is taken out of the tree and its children move up); that its response cannot be sent then is an outcome of its handler.
-/
namespace Sid.Sys
open Sid.Cmd

/-- src/resource/ubr.c:5710-5735 the commands there are -/
inductive Kind
  | unknown | active | checkpoint | reply | scan | version | dbdump | dbstats | resources | devices | selfDump
deriving DecidableEq, Repr

/-- src/resource/ubr.c:5710-5735 `name`, which is the id of the command's resource (6112-6135) -/
def Kind.id : Kind → String
  | .unknown => "c-unknown"
  | .active => "c-active"
  | .checkpoint => "c-checkpoint"
  | .reply => "c-reply"
  | .scan => "c-scan"
  | .version => "c-version"
  | .dbdump => "c-dbdump"
  | .dbstats => "c-dbstats"
  | .resources => "c-resource"
  | .devices => "c-devices"
  | .selfDump => "s-dbdump"

/-- src/resource/ubr.c:5710-5735 the other fields -/
def Kind.reg : Kind → Reg
  | .unknown | .active | .checkpoint | .reply => ⟨false, false, false, false, 0, true⟩
  | .scan => Cmd.scan
  | .dbdump => Cmd.dbdump
  | .version | .dbstats | .resources | .devices => Cmd.version
  | .selfDump => Cmd.selfDump

/-- what a worker sends to the main process: src/resource/ubr.c:5789-5812 SYSTEM_CMD_SYNC, 4565-4600 SYSTEM_CMD_RESOURCES, both with
    the id of the command -/
inductive Up
  | sync (id : String) | resources (id : String)
deriving DecidableEq, Repr

/-- what the main process sends to a worker: src/resource/ubr.c:6754-6757, 6790-6795 with the id of the command, 7206-7213 without -/
inductive Down
  | sync (id : String) | resources (id : String) | umonitor
deriving DecidableEq, Repr

/-- a command in a worker: model only, for src/resource/ubr.c:6112-6135 -/
structure Entry where
  kind : Kind
  cmd : Cmd
deriving DecidableEq, Repr

/-- a worker: its commands, in the order they are found, what is on its way to the main process and back, whether the main process still has a
    proxy for it, whether its event loop ended.  Model only, for src/resource/wrk-ctl.c:93-112 -/
structure Wrk where
  cmds : List Entry
  up : List Up
  down : List Down
  proxy : Bool
  gone : Bool
deriving DecidableEq, Repr

/-- what can be seen: something of the command of a kind in a worker; the main process took over the records exported by the command with
    an id in a worker; it told a worker that udev is done.  Model only, for src/resource/ubr.c:5896-6029, 6739-6760, 7170-7221 -/
inductive GObs
  | cmd (i : Nat) (k : Kind) (x : Obs) | merged (i : Nat) (id : String) | told (i : Nat)
deriving DecidableEq, Repr

/-- all workers ever, numbered; the sessions whose response is with udev and whose event is not over; what was seen, newest first.
    The id of a session is the id of the worker (src/resource/ubr.c:6315-6331, src/resource/wrk-ctl.c:1176-1188), here its number; the
    variable's name begins with a dot, so that udev does not keep it for later events. -/
structure Sys where
  wrks : List Wrk
  udev : List Nat
  trace : List GObs
deriving DecidableEq, Repr

/-- the message that goes with what is seen of a command: src/resource/ubr.c:5789-5812 only exports to the main process are sent there;
    4565-4600 -/
def upOf (k : Kind) : Obs → Option Up
  | .exported => if k.reg.toMain then some (.sync k.id) else none
  | .asked => some (.resources k.id)
  | _ => none

/-- src/resource/ubr.c:6315-6331: the response to a scan carries the session id to udev (1432-1439) -/
def udevOf (i : Nat) (k : Kind) : Obs → Option Nat
  | .replied => if k = .scan then some i else none
  | _ => none

/-- model only, for src/resource/ubr.c:5896-6029: what was newly seen, newest first -/
def newObs (c c' : Cmd) : List Obs := c'.log.take (c'.log.length - c.log.length)

/-- model only, for src/resource/ubr.c:5896-6029: the command at position `n` of worker `i` became `c'`.  A command whose handler failed ends the
    event loop of the worker (6335). -/
def update (s : Sys) (i : Nat) (w : Wrk) (n : Nat) (e : Entry) (c' : Cmd) : Sys :=
  { wrks := s.wrks.set i
      { w with
        cmds := w.cmds.set n { e with cmd := c' }
        up := w.up ++ (newObs e.cmd c').reverse.filterMap (upOf e.kind)
        gone := w.gone || c'.gone }
    udev := s.udev ++ (newObs e.cmd c').filterMap (udevOf i e.kind)
    trace := (newObs e.cmd c').map (.cmd i e.kind) ++ s.trace }

/-- model only, for src/resource/ubr.c:5896-6029, 6936-7011: an event of Model/UbrCmd for the command at position `n` of worker `i` -/
def cmdStep (s : Sys) (i : Nat) (w : Wrk) (n : Nat) (ev : Cmd.Ev) : Option Sys :=
  match w.cmds[n]? with
  | none => some s
  | some e => (Cmd.step e.kind.reg e.cmd ev).map (update s i w n e)

/-- src/resource/ubr.c:6897-6901, 6923-6930, 6870-6878: `sid_res_search` by id finds the first command with it -/
def find (w : Wrk) (id : String) : Option Nat := w.cmds.findIdx? (·.kind.id = id)

/-- src/resource/ubr.c:6936-6975 `_worker_recv_fn`: the id of the command a message is for, and what it means to the command -/
def Down.target : Down → String × Msg
  | .sync id => (id, .ack)
  | .resources id => (id, .answer)
  | .umonitor => ("c-scan", .nextStage)

/-- src/resource/ubr.c:6832-6934: a message is taken; `ok`: the data with it can be read (6847-6866, only for SYSTEM_CMD_RESOURCES).
    Without a command of this id there is only a message in the log. -/
def deliver (s : Sys) (i : Nat) (w : Wrk) (d : Down) (ok : Bool) : Option Sys :=
  match find w d.target.1 with
  | none => some s
  | some n => if d.target.2 = .answer ∧ !ok then some s else cmdStep s i w n (.message d.target.2)

/-- src/resource/ubr.c:6739-6798 the answer to a message -/
def answer : Up → Down
  | .sync id => .sync id
  | .resources id => .resources id

/-- src/resource/ubr.c:6752: the records are taken over, whether or not that succeeds, before the acknowledgement is sent -/
def mergeObs (i : Nat) : Up → List GObs
  | .sync id => [.merged i id]
  | .resources _ => []

/-- src/resource/ubr.c:6800-6830 `_worker_proxy_recv_fn`; `ok`: the answer can be built and sent -/
def mainRecv (s : Sys) (i : Nat) (w : Wrk) (u : Up) (rest : List Up) (ok : Bool) : Sys :=
  { s with
    wrks := s.wrks.set i { w with up := rest, down := w.down ++ if ok then [answer u] else [] }
    trace := mergeObs i u ++ s.trace }

/-- src/resource/ubr.c:7197-7213: the worker is found by the session id; `ok`: the message can be sent -/
def tell (s : Sys) (i : Nat) (ok : Bool) : Sys :=
  match s.wrks[i]? with
  | none => s
  | some w =>
    if w.proxy && ok then
      { s with wrks := s.wrks.set i { w with down := w.down ++ [.umonitor] }, trace := .told i :: s.trace }
    else s

/-- model only, for src/resource/ubr.c:5896-6029, 6739-7011, 7170-7221: what happens.  A worker is created; a command of a kind is received by a worker;
    the handler of its `n`-th command runs; the timeout of that command; the worker ends; the main process reads a message of a worker; a
    worker reads a message of the main process; udev is done with the event of a session; an event without session id or of an unknown
    one; the main process notices the end of a worker. -/
inductive Ev
  | spawn | request (i : Nat) (k : Kind) | handle (i n : Nat) (o : Outcome) | timeout (i n : Nat) | stop (i : Nat)
  | mainRecv (i : Nat) (ok : Bool) | wrkRecv (i : Nat) (ok : Bool) | udevDone (i : Nat) (ok : Bool) | udevOther | reap (i : Nat)
deriving DecidableEq, Repr

/-- a worker just created: src/resource/wrk-ctl.c:951-985 -/
def Wrk.new : Wrk := ⟨[], [], [], true, false⟩

/-- what happens at a worker: src/resource/ubr.c:6112-6135 `_create_cmd_res`, 5896-6029 `_cmd_handler`, 4427-4430, 6800-6830, 6936-7011;
    src/resource/wrk-ctl.c:1390-1424: the proxy of an ended worker is removed, which is of lower priority than reading what the worker sent;
    what was sent to it is dropped -/
def wstep (s : Sys) (i : Nat) (w : Wrk) : Ev → Option Sys
  | .request _ k => if w.gone then some s else some { s with wrks := s.wrks.set i { w with cmds := w.cmds ++ [⟨k, Cmd.init k.reg⟩] } }
  | .handle _ n o => if w.gone then some s else cmdStep s i w n (.run o)
  | .timeout _ n => if w.gone then some s else cmdStep s i w n .timeout
  | .stop _ => some { s with wrks := s.wrks.set i { w with gone := true } }
  | .mainRecv _ ok =>
    match w.proxy, w.up with
    | true, u :: rest => some (mainRecv s i w u rest ok)
    | _, _ => some s
  | .wrkRecv _ ok =>
    match w.gone, w.down with
    | false, d :: rest => deliver { s with wrks := s.wrks.set i { w with down := rest } } i { w with down := rest } d ok
    | _, _ => some s
  | .reap _ => if w.gone && w.up.isEmpty then some { s with wrks := s.wrks.set i { w with proxy := false, down := [] } } else some s
  | _ => some s

/-- model only, for src/resource/ubr.c:5896-6029: the worker something happens at -/
def Ev.worker : Ev → Option Nat
  | .request i _ | .handle i _ _ | .timeout i _ | .stop i | .mainRecv i _ | .wrkRecv i _ | .reap i => some i
  | _ => none

/-- model only, for src/resource/ubr.c:5896-6029, 6739-7011, 7170-7221: one thing happens; `none`: undefined behaviour in a worker -/
def step (s : Sys) (e : Ev) : Option Sys :=
  match e with
  | .spawn => some { s with wrks := s.wrks ++ [Wrk.new] }
  | .udevOther => some s
  | .udevDone i ok => if i ∈ s.udev then some (tell { s with udev := s.udev.erase i } i ok) else some s
  | e =>
    match e.worker with
    | none => some s
    | some i =>
      match s.wrks[i]? with
      | none => some s
      | some w => wstep s i w e

/-- model only, for src/resource/ubr.c:5896-6029: no worker yet -/
def init : Sys := ⟨[], [], []⟩

/-- model only, for src/resource/ubr.c:5896-6029: a history -/
def run : Sys → List Ev → Option Sys
  | s, [] => some s
  | s, e :: l => (step s e).bind fun s => run s l

end Sid.Sys
