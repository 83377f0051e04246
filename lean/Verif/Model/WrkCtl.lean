/-
Model of the main process' view of its workers, /repo/src/resource/wrk-ctl.c:113-122, 350-359, 381-396, 787-957, 1116-1141, 1281-1346,
1390-1429, 1465-1486, 1488-1539, /repo/src/resource/ubr.c:7029-7142, 7170-7221.

Simplifications: the proxies are a list instead of children in the resource tree (search and iteration of the tree: Model/Res.lean);
the id of a worker is a UUID, taken as never generated twice; a send on the channel (Model/WrkChan.lean) is one event; messages of
workers that do not concern their state are left out.
-/
namespace Sid.WrkCtl

/-- include/resource/wrk-ctl.h:23-31: include/resource/wrk-ctl.h `sid_wrk_state_t` -/
inductive St where
  | new
  | idle
  | assigned
  | exiting
  | timedOut
  | exited
deriving DecidableEq, Repr

/-- wrk-ctl.c:92-103 `struct worker_proxy`, what matters of it -/
structure Proxy where
  wid : Nat
  state : St
deriving DecidableEq, Repr

/-- model only, for wrk-ctl.c:113-122, 1390-1486: what an observer of the main process notes -/
inductive Act where
  /-- a worker process was started (wrk-ctl.c:824) -/
  | started (wid : Nat)
  /-- a client's connection or a request to dump the database was given to a worker (ubr.c:7087, 7136) -/
  | job (wid : Nat)
  /-- a worker was told about the end of its udev event (ubr.c:7212) -/
  | told (wid : Nat)
  /-- a worker has said that it has finished (wrk-ctl.c:382) -/
  | yielded (wid : Nat)
  /-- the end of the worker's process was noticed (wrk-ctl.c:1409) -/
  | exited (wid : Nat)
deriving DecidableEq, Repr

/-- model only, for wrk-ctl.c:93-103: the worker concerned -/
def Act.wid : Act → Nat
  | .started w | .job w | .told w | .yielded w | .exited w => w

/-- model only, for wrk-ctl.c:66-103: the proxies, the next id, what was noted -/
structure World where
  proxies : List Proxy
  next : Nat
  log : List Act
deriving DecidableEq, Repr

/-- wrk-ctl.c:113-122 `_change_worker_proxy_state` -/
def setState (ps : List Proxy) (wid : Nat) (s : St) : List Proxy :=
  ps.map fun p => if p.wid = wid then { p with state := s } else p

/-- wrk-ctl.c:1116-1134 `sid_wrk_ctl_get_idle_worker` -/
def getIdle (ps : List Proxy) : Option Proxy := ps.find? fun p => p.state = .idle

/-- wrk-ctl.c:1136-1141 `sid_wrk_ctl_find_worker` -/
def findWorker (ps : List Proxy) (wid : Nat) : Option Proxy := ps.find? fun p => p.wid = wid

/-- wrk-ctl.c:787-949 `_do_worker_control_get_new_worker` in the main process, 1488-1500 `_init_worker_proxy`; `ok`: nothing fails -/
def newWorker (w : World) (ok : Bool) : World × Option Nat :=
  if ok then ({ proxies := w.proxies ++ [⟨w.next, .new⟩], next := w.next + 1, log := w.log ++ [.started w.next] }, some w.next)
  else (w, none)

/-- ubr.c:7029-7057 `_get_worker` -/
def getWorker (w : World) (ok : Bool) : World × Option Nat :=
  match getIdle w.proxies with
  | some p => (w, some p.wid)
  | none => newWorker w ok

/-- wrk-ctl.c:1281-1316 `_channel_prepare_send` from the main process, then 1345 the send -/
def send (w : World) (wid : Nat) (a : Act) : World :=
  { w with proxies := setState w.proxies wid .assigned, log := w.log ++ [a] }

/-- model only, for wrk-ctl.c:365-420, 1390-1486: what happens in the main process -/
inductive Ev where
  /-- a client connects (ubr.c:7059-7094), or a dump of the database is asked for (ubr.c:7096-7142): whether a new worker can be
      created, whether the connection can be accepted -/
  | request (newOk acceptOk : Bool)
  /-- the udev monitor reports the end of an event, naming a worker (ubr.c:7170-7221) -/
  | monitor (wid : Nat)
  /-- a worker's word of having finished arrives (wrk-ctl.c:382-396): whether it can be sent a signal -/
  | yielded (wid : Nat) (killOk : Bool)
  /-- a worker runs for too long (wrk-ctl.c:1465-1486) -/
  | timeout (wid : Nat)
  /-- a worker's process has ended (wrk-ctl.c:1390-1429) -/
  | exited (wid : Nat)
deriving DecidableEq, Repr

/-- model only, for wrk-ctl.c:365-420, 1390-1486: one event; events come only from event sources of an existing proxy, which live as long as it does -/
def step (w : World) : Ev → World
  | .request newOk acceptOk =>
    match getWorker w newOk with
    | (w, none) => w
    | (w, some wid) => if acceptOk then send w wid (.job wid) else w
  | .monitor wid =>
    match findWorker w.proxies wid with
    | none => w
    | some _ => send w wid (.told wid)
  | .yielded wid killOk =>
    match findWorker w.proxies wid with
    | none => w
    | some _ =>
      { w with proxies := if killOk then setState w.proxies wid .exiting else w.proxies, log := w.log ++ [.yielded wid] }
  | .timeout wid => { w with proxies := setState w.proxies wid .timedOut }
  | .exited wid =>
    match findWorker w.proxies wid with
    | none => w
    | some _ =>
      { w with proxies := (setState w.proxies wid .exited).filter (fun p => p.wid ≠ wid), log := w.log ++ [.exited wid] }

/-- model only, for wrk-ctl.c:365-420, 1390-1486: a history -/
def run (l : List Ev) : World := l.foldl step ⟨[], 0, []⟩

end Sid.WrkCtl
