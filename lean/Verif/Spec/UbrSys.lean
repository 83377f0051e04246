import Verif.Model.UbrSys
import Verif.Spec.UbrCmd
/-
What the main process and the workers tell each other, seen from outside.
-/
namespace Sid.Spec.Sys
open Sid.Cmd Sid.Sys

/-- a history of the daemon from its start -/
def Reaches (l : List Sid.Sys.Ev) (s : Sys) : Prop := Sid.Sys.run Sid.Sys.init l = some s

/-- no worker gets two commands of the same kind -/
def OneOfAKind (l : List Sid.Sys.Ev) : Prop := ∀ i k, l.count (.request i k) ≤ 1

/-- no message got lost on its way: all sending and reading succeeded -/
def NoneLost (l : List Sid.Sys.Ev) : Prop :=
  ∀ e ∈ l, (∀ i, e ≠ .mainRecv i false) ∧ (∀ i, e ≠ .wrkRecv i false) ∧ ∀ i, e ≠ .udevDone i false

/-- nothing more happens by itself in a worker: it runs, no message is on its way, no handler is due -/
def AtRest (w : Wrk) : Prop := w.gone = false ∧ w.up = [] ∧ w.down = [] ∧ ∀ e ∈ w.cmds, e.cmd.due = false

/-- something holds at any time in the past (a trace is newest first) -/
def Always (t : List GObs) (P : List GObs → Prop) : Prop := ∀ later earlier, t = later ++ earlier → P earlier

end Sid.Spec.Sys
