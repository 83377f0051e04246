import Verif.Model.Start
/-
What is expected of a start of the daemon (C105).
-/
namespace Sid.Spec.Start
open Sid.Start
open Sid.Ifc (txt)

/-- this descriptor is a listening stream socket with the abstract address `sid-ubridge.socket` -/
def Listens (t : Fds) (fd : Nat) : Prop :=
  ∃ c, t fd = some { file := .sock { unix := true, stream := true, listening := true, addr := 0 :: txt "sid-ubridge.socket" }, cloexec := c }

/-- after is a process in the background: in a session of its own that has no terminal and that it does not lead, so it cannot get one;
    in the root directory; new files are for its user only; standard streams are /dev/null; and its other descriptors are those of the
    daemon: its event loop and the socket it serves -/
structure Background (before after : Proc) (fd : Nat) : Prop where
  session : after.session ≠ before.session
  tty : after.tty = false
  lead : after.session ≠ after.pid
  cwd : after.cwd = txt "/"
  umask : after.umask = 0o077
  streams : ∀ i, i < 3 → after.fds i = some { file := .null }
  rest : ∀ i f, 3 ≤ i → after.fds i = some f → f.file = .loop ∨ i = fd
  fd : 3 ≤ fd

/-- new processes have numbers that are in use neither for processes nor for sessions here -/
def NewPids (os : Os) (p : Proc) : Prop :=
  ∀ c d, os.fork1 = some c → os.fork2 = some d → c ≠ p.pid ∧ c ≠ p.session ∧ d ≠ c ∧ d ≠ p.pid ∧ d ≠ p.session

/-- the service manager passes `n` descriptors to this process, the first is the socket of the daemon -/
structure Passed (env : Env) (p : Proc) (n : Nat) : Prop where
  pid : env.pid = some (some p.pid)
  fds : env.fds = some (some n)
  type : env.type = some (txt "FD_PRELOAD")
  some : 1 ≤ n
  range : n ≤ 2147483644
  opened : ∀ i, i < n → (p.fds (3 + i)).isSome
  first : Listens p.fds 3

/-- all the daemon asks for succeeds, and its address is free -/
structure AllWell (os : Os) : Prop where
  log : os.log = true
  atfork : 0 ≤ os.atfork
  early : os.early = true
  loop : os.loop = true
  sock : os.sock = true
  taken : os.taken = false
  bind : os.bind = true
  listen : os.listen = true
  late : os.late = true

end Sid.Spec.Start
