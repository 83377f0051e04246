import Verif.Model.Ifc
/-
Start of the daemon: src/daemon/sid.c:51-107 and 131-246, src/resource/sid.c:36-73, src/resource/ubr.c:7237-7272 and 7646-7759,
src/base/comms.c:15-59; and what these rely on of `sd_listen_fds` and `sd_is_socket_unix` (src/include/iface/srv-lnk.h:61-67).

A process has a table of descriptors; a new descriptor is the lowest one that is free and below the limit of the process.  What the
operating system answers is in `Os`.
-/
namespace Sid.Start
open Sid.Ifc (txt)

/-- model only, for src/base/comms.c:17-20: bytes -/
abbrev Str := Sid.Str

/-- model only, for src/base/comms.c:23-59: a socket: is it in the family AF_UNIX, of type SOCK_STREAM, does it listen, and its address -/
structure Sock where
  unix : Bool
  stream : Bool
  listening : Bool
  addr : Str
  deriving DecidableEq, Repr

/-- model only, for src/daemon/sid.c:85-104: what a descriptor refers to: /dev/null, the event loop of the daemon, a socket, other things -/
inductive File
  | null
  | loop
  | sock (s : Sock)
  | other (n : Nat)
  deriving DecidableEq, Repr

/-- model only, for src/daemon/sid.c:85-104: a descriptor, with its close-on-exec flag -/
structure Fd where
  file : File
  cloexec : Bool := false
  deriving DecidableEq, Repr

/-- model only, for src/daemon/sid.c:85-104: the descriptors of a process -/
abbrev Fds := Nat → Option Fd

/-- model only, for src/daemon/sid.c:90, 95: `close` (`none`) and the target of `dup2` -/
def put (t : Fds) (i : Nat) (x : Option Fd) : Fds := fun j => if j = i then x else t j

/-- model only, for src/daemon/sid.c:51-107: a process: its number, its session, whether the session has a terminal, its directory and
    umask, its descriptors -/
structure Proc where
  pid : Nat
  session : Nat
  tty : Bool
  cwd : Str
  umask : Nat
  fds : Fds

/-- model only, for src/daemon/sid.c:51-246: the answers of the operating system.  `fork1`, `fork2`: the number of the new process;
    `dup i`: whether `dup2` to descriptor `i` succeeds; `limit`: `sysconf(_SC_OPEN_MAX)`; `taken`: the address of the daemon is in use;
    `early`: whatever is done before the socket succeeds; `late`: whatever is done after it succeeds; `run`: result of the event
    loop; `worker`: result of running a worker, if the worker control is found -/
structure Os where
  limit : Nat
  fork1 : Option Nat
  setsid : Bool
  fork2 : Option Nat
  chdir : Bool
  devNull : Bool
  dup : Nat → Bool
  log : Bool
  atfork : Int
  early : Bool
  loop : Bool
  sock : Bool
  taken : Bool
  bind : Bool
  listen : Bool
  late : Bool
  run : Int
  worker : Option Int

/-- model only, for src/daemon/sid.c:85, src/base/comms.c:35: the lowest free descriptor from `a` on and below the limit -/
def lowest (os : Os) (t : Fds) (a : Nat) : Option Nat := (List.range os.limit).find? fun i => a ≤ i && (t i).isNone

/-- src/daemon/sid.c:98-104: the loop that closes descriptors, from `k - 1` down to 3 (an error of `close` other than EBADF is only
    logged, the descriptor is closed nevertheless) -/
def closeDown : Nat → Fds → Fds
  | 0, t => t
  | k + 1, t => if 2 < k then closeDown k (put t k none) else t

/-- src/daemon/sid.c:90: the three `dup2` of `fd` -/
def dup3 (os : Os) (t : Fds) (fd : Nat) : Option Fds :=
  if os.dup 0 && os.dup 1 && os.dup 2 then
    let f := (t fd).map fun x => ({ x with cloexec := false } : Fd)
    some (put (put (put t 0 f) 1 f) 2 f)
  else none

/-- src/daemon/sid.c:85-106: the standard streams to /dev/null, the other descriptors closed, the umask (0077).
    `dup2(fd, fd)` leaves the descriptor as it is, which is the same here as /dev/null is opened without close-on-exec. -/
def streams (os : Os) (p : Proc) : Except Nat Proc :=
  match if os.devNull then lowest os p.fds 0 else none with
  | none => .error 1
  | some fd =>
    match dup3 os (put p.fds fd (some { file := .null })) fd with
    | none => .error 1
    | some t => .ok { p with fds := closeDown os.limit (put t fd none), umask := 0o077 }

/-- src/daemon/sid.c:65-68: `setsid`, which answers -1 on failure while 0 is tested for: a failure goes unnoticed -/
def newSession (os : Os) (p : Proc) : Proc :=
  if os.setsid then { p with session := p.pid, tty := false } else p

/-- src/daemon/sid.c:51-107: `_become_daemon`: the exit status of the process that was started, and the process that goes on -/
def becomeDaemon (os : Os) (p : Proc) : Nat × Except Nat Proc :=
  match os.fork1 with
  | none => (1, .error 1)
  | some c =>
    let p1 := newSession os { p with pid := c }
    match os.fork2 with
    | none => (0, .error 1)
    | some d =>
      let p2 := { p1 with pid := d }
      if os.chdir then (0, streams os { p2 with cwd := txt "/" }) else (0, .error 1)

/-- src/include/iface/ifc-internal.h:29-30: SID_IFC_SOCKET_PATH -/
def address : Str := 0 :: txt "sid-ubridge.socket"

/-- src/base/comms.c:23-59: `sid_comms_unix_create` (108: size of `sun_path`; 1, 5: SOCK_STREAM, SOCK_SEQPACKET; 0x80000: SOCK_CLOEXEC;
    the address is that of the daemon, so `taken` tells whether it is in use) -/
def unixCreate (os : Os) (t : Fds) (path : Str) (type : Nat) : Except Int (Fds × Nat) :=
  if path.length = 0 ∨ 108 ≤ path.length then .error (-22)
  else match if os.sock then lowest os t 0 else none with
  | none => .error (-24)
  | some fd =>
    let fdOf (listening : Bool) : Option Fd :=
      some { file := .sock { unix := true, stream := type &&& 15 = 1, listening, addr := path }, cloexec := type &&& 0x80000 ≠ 0 }
    if os.taken ∨ ¬os.bind then .error (-98)
    else if type &&& (1 ||| 5) ≠ 0 then
      if os.listen then .ok (put t fd (fdOf true), fd) else .error (-98)
    else .ok (put t fd (fdOf false), fd)

/-- model only, for src/resource/ubr.c:7242-7245: the environment: LISTEN_PID, LISTEN_FDS (the inner `none`: not a number) and
    SERVICE_ACTIVATION_TYPE -/
structure Env where
  pid : Option (Option Nat)
  fds : Option (Option Nat)
  type : Option Str

/-- src/include/iface/srv-lnk.h:64: the loop of `sd_listen_fds` that sets close-on-exec on `n` descriptors from `i` on -/
def cloexecFrom (t : Fds) (i : Nat) : Nat → Fds × Bool
  | 0 => (t, true)
  | n + 1 =>
    match t i with
    | none => (t, false)
    | some f => cloexecFrom (put t i (some { f with cloexec := true })) (i + 1) n

/-- src/include/iface/srv-lnk.h:64: `sd_listen_fds`: the number of descriptors passed in, 0 if none are or they are for another process,
    negative on error -/
def listenFds (env : Env) (p : Proc) : Fds × Int :=
  match env.pid with
  | none => (p.fds, 0)
  | some none => (p.fds, -22)
  | some (some pid) =>
    if pid = p.pid then
      match env.fds with
      | none => (p.fds, 0)
      | some none => (p.fds, -22)
      | some (some n) =>
        if 2147483644 < n then (p.fds, -22)
        else match cloexecFrom p.fds 3 n with
        | (t, true) => (t, n)
        | (t, false) => (t, -9)
    else (p.fds, 0)

/-- src/include/iface/srv-lnk.h:67: `sd_is_socket_unix` for a stream socket: `listening` is 1, 0 or negative (does not matter) -/
def isSocketUnix (t : Fds) (fd : Nat) (listening : Int) (path : Str) : Int :=
  match t fd with
  | none => -9
  | some f =>
    match f.file with
    | .sock s => if s.unix && s.stream && (listening < 0 || s.listening == decide (0 < listening)) && s.addr == path then 1 else 0
    | _ => 0

/-- src/resource/ubr.c:7237-7272: `_set_up_ubridge_socket` (0x80801: SOCK_STREAM, SOCK_NONBLOCK and SOCK_CLOEXEC).  Errors of both
    `sd_` functions are taken for a yes. -/
def setUpSocket (os : Os) (env : Env) (p : Proc) : Fds × Except Int Nat :=
  match listenFds env p with
  | (t, r) =>
    if r ≠ 0 then
      match env.type with
      | none => (t, .error (-126))
      | some val =>
        if val ≠ txt "FD_PRELOAD" then (t, .error (-22))
        else if isSocketUnix t 3 1 address = 0 then (t, .error (-22))
        else (t, .ok 3)
    else
      match unixCreate os t address 0x80801 with
      | .error e => (t, .error e)
      | .ok (t', fd) => (t', .ok fd)

/-- src/resource/ubr.c:7646-7759: `_init_ubridge`: its socket, and the descriptors when it returns (those of other resources it creates
    are not in the model; on failure the socket is closed, ubr.c:7752-7756) -/
def initUbridge (os : Os) (env : Env) (p : Proc) : Fds × Option Nat :=
  if os.early then
    match setUpSocket os env p with
    | (t, .error _) => (t, none)
    | (t, .ok fd) => if os.late then (t, some fd) else (put t fd none, none)
  else (p.fds, none)

/-- src/daemon/sid.c:199-215, src/resource/sid.c:36-73: `sid_res_create` of the daemon: its event loop, a descriptor from 3 on (libsystemd
    moves it above the standard streams), then `_init_sid` with `_init_ubridge`; on failure the event loop is closed -/
def createSid (os : Os) (env : Env) (p : Proc) : Fds × Option Nat :=
  match if os.loop then lowest os p.fds 3 else none with
  | none => (p.fds, none)
  | some ep =>
    match initUbridge os env { p with fds := put p.fds ep (some { file := .loop, cloexec := true }) } with
    | (t, none) => (put t ep none, none)
    | (t, some fd) => (t, some fd)

/-- model only, for src/daemon/sid.c:131-246: how far a start comes: the process ends before it serves, with this exit status, or it
    serves on this descriptor and ends with that status later -/
inductive Fate
  | ends (status : Nat)
  | serves (p : Proc) (fd : Nat) (status : Nat)

/-- src/daemon/sid.c:217-246: the exit status once the event loop ended (-10: ECHILD) -/
def exitStatus (os : Os) : Nat :=
  let r := if os.run = -10 then os.worker.getD os.run else os.run
  if r < 0 then 1 else 0

/-- src/daemon/sid.c:194-246: `main` from the fork handler on.  If the resource is not created, `r` is the result of `pthread_atfork`. -/
def serve (os : Os) (env : Env) (p : Proc) : Fate :=
  if os.atfork < 0 then .ends 1
  else match createSid os env p with
  | (_, none) => .ends (if os.atfork < 0 then 1 else 0)
  | (t, some fd) => .serves { p with fds := t } fd (exitStatus os)

/-- model only, for src/daemon/sid.c:131-246: a start: the exit status the caller gets if the process started is not the one that serves,
    and the fate of the one that serves -/
structure Started where
  caller : Option Nat
  fate : Fate

/-- src/daemon/sid.c:177-246: `main` after its options were read (the log's descriptors are not in the model) -/
def main (foreground : Bool) (os : Os) (env : Env) (p : Proc) : Started :=
  if os.log then
    if foreground then { caller := none, fate := serve os env p }
    else match becomeDaemon os p with
      | (s, .error e) => { caller := some s, fate := .ends e }
      | (s, .ok q) => { caller := some s, fate := serve os env q }
  else { caller := none, fate := .ends 1 }

end Sid.Start
