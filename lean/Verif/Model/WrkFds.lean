/-
File descriptors of workers, src/resource/wrk-ctl.c:124-223, 484-785, 787-957, 959-1056, and of the daemon's workers,
src/resource/ubr.c:7013-7062.

A process has a table of descriptors; its slots refer to ends of pipes and sockets.  `fork` copies the table, `execve` drops the slots with
close-on-exec.  A new descriptor is the lowest one that is free, and below the limit of the process.
-/
namespace Sid.WrkFds

/-- src/resource/wrk-ctl.c:124-178: an end of a pipe or of a pair of sockets -/
inductive Side
  | rd | wr | left | right
  deriving DecidableEq, Repr

/-- src/resource/wrk-ctl.c:124-178: what a descriptor refers to: an end of the pipe or pair with this number, or something else -/
inductive End
  | wire (n : Nat) (side : Side)
  | other (n : Nat)
  deriving DecidableEq, Repr

/-- model only, for src/resource/wrk-ctl.c:163-166: a slot, with its close-on-exec flag -/
structure Fd where
  to : End
  cloexec : Bool := false
  deriving DecidableEq, Repr

/-- model only, for src/resource/wrk-ctl.c:733-785: the descriptors of a process -/
abbrev Table := List (Option Fd)

/-- model only, for src/resource/wrk-ctl.c:733-785: what a descriptor refers to (`none`: it is closed) -/
def look (t : Table) (i : Nat) : Option Fd := (t[i]?).getD none

/-- model only, for src/resource/wrk-ctl.c:142, 577: a slot is filled; the table grows -/
def put (t : Table) (i : Nat) (x : Fd) : Table :=
  (t ++ List.replicate (i + 1 - t.length) none).set i (some x)

/-- model only, for src/resource/wrk-ctl.c:212: `close` -/
def closeFd (t : Table) (i : Nat) : Table := t.set i none

/-- model only, for src/resource/wrk-ctl.c:142: the lowest descriptor that is free -/
def freeFd (t : Table) : Nat := t.findIdx Option.isNone

/-- model only, for src/resource/wrk-ctl.c:142, 153, 166: `pipe`, `socketpair`: two descriptors, or none -/
def openTwo (limit : Nat) (t : Table) (x y : Fd) : Option (Nat × Nat × Table) :=
  let i := freeFd t
  let t1 := put t i x
  let j := freeFd t1
  if i < limit ∧ j < limit then some (i, j, put t1 j y) else none

/-- model only, for src/resource/wrk-ctl.c:577: `dup2`; the new descriptor survives an exec (if both are the same nothing happens) -/
def dup2 (limit : Nat) (t : Table) (i j : Nat) : Option Table :=
  match look t i with
  | none => none
  | some x => if j < limit then some (if i = j then t else put t j { x with cloexec := false }) else none

/-- src/include/resource/wrk-ctl.h:44-49 `sid_wrk_wire_type_t` (without NONE, which ends the list of channels, src/resource/wrk-ctl.c:1608) -/
inductive Wire
  | pipeToWrk | pipeToPrx | socket
  deriving DecidableEq, Repr

/-- src/include/resource/wrk-ctl.h:51-67 `struct sid_wrk_wire_spec`: the wire and the descriptor the worker is to have it as, if any
    (`ext.used` and `fd_redir` not negative) -/
structure ChanSpec where
  wire : Wire
  redir : Option Nat := none
  deriving DecidableEq, Repr

/-- src/resource/wrk-ctl.c:75-81 `struct sid_wrk_chan`: its descriptor; `to` is not in the code: the end it was created with -/
structure Chan where
  spec : ChanSpec
  fd : Nat
  to : Fd
  deriving DecidableEq, Repr

/-- src/resource/wrk-ctl.c:136-175 the two ends of a wire: the first and the second descriptor -/
def endsOf (w : Wire) (n : Nat) : Fd × Fd :=
  match w with
  | .socket => (⟨.wire n .left, true⟩, ⟨.wire n .right, true⟩)
  | _ => (⟨.wire n .rd, false⟩, ⟨.wire n .wr, false⟩)

/-- src/resource/wrk-ctl.c:124-178 `_create_channel`: the channels of proxy and worker -/
def createChannel (limit : Nat) (t : Table) (n : Nat) (spec : ChanSpec) : Option (Table × Chan × Chan) :=
  let x := endsOf spec.wire n
  match openTwo limit t x.1 x.2 with
  | none => none
  | some (i, j, t') =>
    some (match spec.wire with
      | .pipeToWrk => (t', ⟨spec, j, x.2⟩, ⟨spec, i, x.1⟩)
      | .pipeToPrx => (t', ⟨spec, i, x.1⟩, ⟨spec, j, x.2⟩)
      | .socket => (t', ⟨spec, i, x.1⟩, ⟨spec, j, x.2⟩))

/-- src/resource/wrk-ctl.c:704-731 `_destroy_channels`: the descriptors -/
def destroyChannels (t : Table) (chans : List Chan) : Table := chans.foldl (fun t c => closeFd t c.fd) t

/-- src/resource/wrk-ctl.c:180-223 `_create_channels`: the loop from here on, with the channels created so far (the last one first); on a
    failure all of them are closed again -/
def createChannels (limit : Nat) : (t : Table) → (n : Nat) → (specs : List ChanSpec) → (done : List (Chan × Chan)) →
    Table × Option (List Chan × List Chan)
  | t, _, [], done => (t, some (done.reverse.map (·.1), done.reverse.map (·.2)))
  | t, n, spec :: specs, done =>
    match createChannel limit t n spec with
    | none => (done.foldl (fun t c => closeFd (closeFd t c.1.fd) c.2.fd) t, none)
    | some (t', p, c) => createChannels limit t' (n + 1) specs ((p, c) :: done)

/-- src/resource/wrk-ctl.c:733-785 `_close_non_channel_fds`: all descriptors but those of the channels are closed; the one used for reading
    the directory is closed last.  `none`: there is no descriptor for it.  (Closing does not fail.) -/
def closeNonChannel (limit : Nat) (t : Table) (chans : List Chan) : Option Table :=
  let d := freeFd t
  if d < limit then
    some (closeFd ((put t d ⟨.other 0, true⟩).mapIdx fun i x => if i = d ∨ i ∈ chans.map (·.fd) then x else none) d)
  else none

/-- src/resource/wrk-ctl.c:571-583, 592-604, 618-630 the redirection of one channel: table and channel, or failure.  (For a socket a failing
    `dup2` is logged only.) -/
def redirect (limit : Nat) (t : Table) (c : Chan) : Option (Table × Chan) :=
  match c.spec.redir with
  | none => some (t, c)
  | some r =>
    match dup2 limit t c.fd r with
    | some t' => some (closeFd t' c.fd, { c with fd := r })
    | none => if c.spec.wire = .socket then some (closeFd t c.fd, { c with fd := r }) else none

/-- src/resource/wrk-ctl.c:665-702 `_setup_channels` in a worker: the descriptors.  (Buffers and event sources are in WrkChan.) -/
def setupChannels (limit : Nat) : Table → List Chan → Option (Table × List Chan)
  | t, [] => some (t, [])
  | t, c :: cs =>
    match redirect limit t c with
    | none => none
    | some (t', c') => (setupChannels limit t' cs).map fun r => (r.1, c' :: r.2)

/-- model only, for src/resource/wrk-ctl.c:1041: `execve` -/
def exec (t : Table) : Table := t.map fun x => x.filter fun y => !y.cloexec

/-- src/resource/wrk-ctl.c:787-947: a new worker: the tables of the two processes after the fork, and their channels -/
structure Forked where
  parent : Table
  child : Table
  proxy : List Chan
  own : List Chan
  deriving DecidableEq, Repr

/-- src/resource/wrk-ctl.c:787-947 `_do_worker_control_get_new_worker`: `forks`: does the fork succeed.  Without a worker the caller's table is
    returned.  (Signals, and failures in creating the proxy, are left out.) -/
def getNewWorker (limit : Nat) (t : Table) (n : Nat) (specs : List ChanSpec) (forks : Bool) : Table ⊕ Forked :=
  match createChannels limit t n specs [] with
  | (t', none) => .inl t'
  | (t', some (ps, cs)) =>
    if forks then .inr ⟨destroyChannels t' cs, destroyChannels t' ps, ps, cs⟩
    else .inl (destroyChannels (destroyChannels t' ps) cs)

/-- src/resource/wrk-ctl.c:852-853, 1032-1041: the descriptors an external program starts with (`none`: it is not started) -/
def runExternal (limit : Nat) (f : Forked) : Option Table :=
  match closeNonChannel limit f.child f.own with
  | none => none
  | some t => (setupChannels limit t f.own).map fun r => exec r.1

/-! ### the daemon -/

/-- src/resource/wrk-ctl.c:95-114, src/resource/ubr.c:7013-7026: a worker of the daemon: the process with its channels, the channels of its
    proxy, and the channels of other proxies it has got with the resources of the daemon -/
structure Wrk where
  /-- `none`: the process is gone -/
  table : Option Table
  own : List Chan
  /-- `none`: the proxy is gone -/
  proxy : Option (List Chan)
  /-- `none`: the resources of the daemon are destroyed in this process -/
  copies : Option (List (List Chan))
  deriving Repr

/-- src/resource/ubr.c:7028-7062: the daemon and its workers; `next`: number of the next wire -/
structure Sys where
  daemon : Table
  next : Nat
  ws : List Wrk
  deriving Repr

/-- src/resource/ubr.c:7028-7062, src/resource/wrk-ctl.c:959-1002, 1390-1430: what happens -/
inductive Ev
  /-- a worker is to be created -/
  | spawn (specs : List ChanSpec) (forks : Bool)
  /-- the worker begins to run -/
  | start (i : Nat)
  /-- the worker process ends -/
  | ends (i : Nat)
  /-- the daemon learns that it has ended -/
  | reap (i : Nat)
  deriving Repr

/-- src/resource/wrk-ctl.c:787-947 in the daemon -/
def spawn (limit : Nat) (s : Sys) (specs : List ChanSpec) (forks : Bool) : Sys :=
  match getNewWorker limit s.daemon s.next specs forks with
  | .inl t => { s with daemon := t, next := s.next + specs.length }
  | .inr f =>
    { daemon := f.parent, next := s.next + specs.length,
      ws := s.ws ++ [⟨some f.child, f.own, some f.proxy, some (s.ws.filterMap (·.proxy))⟩] }

/-- src/resource/wrk-ctl.c:959-1002 `_run_internal_worker`, src/resource/ubr.c:7013-7026 `_worker_init_fn`: the proxies of other workers
    are destroyed with the resources of the daemon.  (Redirections are for external workers; descriptors of its own that the process opens
    or that the daemon had otherwise are left out.) -/
def startWrk (w : Wrk) : Wrk :=
  match w.table, w.copies with
  | some t, some cs => { w with table := some (cs.foldl destroyChannels t), copies := none }
  | _, _ => w

/-- src/resource/wrk-ctl.c:1390-1430: a process that ends loses its descriptors -/
def endWrk (w : Wrk) : Wrk := { w with table := none }

/-- src/resource/wrk-ctl.c:1390-1430 `_on_worker_proxy_child_event`, 1542-1550 `_destroy_worker_proxy` -/
def reapWrk (d : Table) (w : Wrk) : Table × Wrk :=
  match w.table, w.proxy with
  | none, some ps => (destroyChannels d ps, { w with proxy := none })
  | _, _ => (d, w)

/-- src/resource/ubr.c:7028-7062: one event -/
def step (limit : Nat) (s : Sys) : Ev → Sys
  | .spawn specs forks => spawn limit s specs forks
  | .start i => { s with ws := s.ws.modify i startWrk }
  | .ends i => { s with ws := s.ws.modify i endWrk }
  | .reap i =>
    match s.ws[i]? with
    | none => s
    | some w => { s with daemon := (reapWrk s.daemon w).1, ws := s.ws.set i (reapWrk s.daemon w).2 }

/-- src/resource/ubr.c:7028-7062: a run of the daemon -/
def run (limit : Nat) (s : Sys) (evs : List Ev) : Sys := evs.foldl (step limit) s

end Sid.WrkFds
