import Verif.Model.WrkFds
/-
What a user of workers expects of their file descriptors.
-/
namespace Sid.Spec.WrkFds
open Sid.WrkFds

/-- the same descriptors -/
def Same (t t' : Table) : Prop := ∀ i, look t' i = look t i

/-- `t'` has the descriptors of `t` as they are, those of `l`, which are free in `t` and different, and no others -/
structure Plus (t : Table) (l : List (Nat × Fd)) (t' : Table) : Prop where
  nodup : (l.map Prod.fst).Nodup
  free : ∀ p ∈ l, look t p.1 = none
  iff : ∀ i x, look t' i = some x ↔ look t i = some x ∨ (i, x) ∈ l

/-- the process has a descriptor for this end -/
def Holds (t : Table) (e : End) : Prop := ∃ i x, look t i = some x ∧ x.to = e

/-- the numbers of the wires known to the process are below `n` -/
def Below (t : Table) (n : Nat) : Prop := ∀ k side, Holds t (.wire k side) → k < n

/-- the proxy writes to a pipe to the worker, and reads from one to the proxy -/
def proxySide : Wire → Side
  | .pipeToWrk => .wr
  | .pipeToPrx => .rd
  | .socket => .left

def workerSide : Wire → Side
  | .pipeToWrk => .rd
  | .pipeToPrx => .wr
  | .socket => .right

/-- the two channels of a wire: opposite ends of wire `n`; only sockets are closed on exec -/
structure Made (n : Nat) (spec : ChanSpec) (p c : Chan) : Prop where
  pspec : p.spec = spec
  cspec : c.spec = spec
  pend : p.to = ⟨.wire n (proxySide spec.wire), spec.wire = .socket⟩
  cend : c.to = ⟨.wire n (workerSide spec.wire), spec.wire = .socket⟩

/-- one wire for each channel, numbered from `n` on -/
def MadeAll : Nat → List ChanSpec → List Chan → List Chan → Prop
  | _, [], [], [] => True
  | n, spec :: specs, p :: ps, c :: cs => Made n spec p c ∧ MadeAll (n + 1) specs ps cs
  | _, _, _, _ => False

/-- the descriptors of channels -/
def entries (cs : List Chan) : List (Nat × Fd) := cs.map fun c => (c.fd, c.to)

/-- descriptors that programs are to have channels as -/
def targets (specs : List ChanSpec) : List Nat := specs.filterMap (·.redir)

/-- What an external program starts with: each channel as the descriptor asked for; a pipe for which none is asked as the one it has; nothing
    else. -/
def ProgramFds (own : List Chan) (t : Table) : Prop :=
  ∀ i x, look t i = some x ↔
    ∃ c ∈ own, x = ⟨c.to.to, false⟩ ∧ (c.spec.redir = some i ∨ (c.spec.redir = none ∧ c.fd = i ∧ c.spec.wire ≠ .socket))

/-- the channels of the proxies the daemon has -/
def proxies (ws : List Wrk) : List Chan := ws.flatMap fun w => w.proxy.getD []

end Sid.Spec.WrkFds
