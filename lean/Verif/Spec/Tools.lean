import Verif.Spec.Ifc
import Verif.Spec.Frame
import Verif.Spec.UbrEvent
import Verif.Model.Tools
/-
What the command line tools are expected to say: in terms of the messages of the daemon (bytes), the environment of the tool and
its output.
-/
namespace Sid.Spec.Tools
open Sid.Tools Sid.Spec.Client Sid.Spec.Frame
open Sid.Ifc (txt)
open Sid.Spec.Event (SameWord)
open Sid.LBuf (IoEv)

/-- the message `p` says that the command succeeded -/
def Success (p : List UInt8) : Prop := number (p.take 8) % 2 = 0

/-- the message `p` has the protocol number of the tools -/
def SameProtocol (p : List UInt8) : Prop := number ((p.drop 8).take 1) = 2

instance (p : List UInt8) : Decidable (Success p) := inferInstanceAs (Decidable (_ = _))
instance (p : List UInt8) : Decidable (SameProtocol p) := inferInstanceAs (Decidable (_ = _))

/-- what follows the header of a message -/
def payload (p : List UInt8) : List UInt8 := p.drop 12

/-- strings, each on its line -/
def lines (l : List Str) : Str := l.flatMap fun s => s ++ [10]

/-- the daemon can be reached and sends the message `p` (with at least a header) -/
def Sends (w : World) (p : List UInt8) : Prop :=
  w.refused = none ∧ 12 ≤ p.length ∧ p.length + 4 < 2 ^ 32 ∧ ∃ rest, w.reply.data = frame p ++ rest

/-- no system call reports an error but "interrupted" and "try again" -/
def Calm (w : World) : Prop :=
  (∀ e, IoEv.fail e ∈ w.wsched → e = .EAGAIN ∨ e = .EINTR) ∧
  ∀ e, IoEv.fail e ∈ w.rsched.map Prod.fst → e = .EAGAIN ∨ e = .EINTR

/-- some system call on the socket reports `e` -/
def Reported (w : World) (e : Errno) : Prop :=
  w.refused = some e ∨ IoEv.fail e ∈ w.wsched ∨ IoEv.fail e ∈ w.rsched.map Prod.fst

/-- the environment has the numbers udev gives: of the event and of the device (as far as the client library accepts them, C54) -/
def Numbered (env : List Str) : Prop :=
  ∃ n M m, n < 2 ^ 64 ∧ M < 2 ^ 20 ∧ m < 2 ^ 12 ∧ valueOf env (txt "SEQNUM") = some (decimal n) ∧
    valueOf env (txt "MAJOR") = some (decimal M) ∧ valueOf env (txt "MINOR") = some (decimal m)

/-- the tool ends like this, or it still waits for the system calls -/
def Says (w : World) (tool : Plan) (out : Str) (ok : Bool) : Prop := tool.run w = .ended out ok ∨ tool.run w = .waiting

/-- the arguments with which `usid` tells the daemon about a device -/
def Telling (args : List Str) : Prop := args = [txt "scan"] ∨ ∃ name keys, args = txt "checkpoint" :: name :: keys

/-- the system calls that move at least a byte -/
def movesOut (l : List IoEv) : Nat := (l.filter fun ev => match ev with | .xfer k => decide (0 < k) | .fail _ => false).length

/-- the system calls that give bytes if there are any -/
def movesIn (l : List (IoEv × (Nat → UInt8))) : Nat := ((l.map Prod.fst).filter IoEv.moves).length

/-- the daemon passes a file with `q` in it (a database dump) -/
def Passes (w : World) (q : List UInt8) : Prop := q.length + 4 < 2 ^ 32 ∧ ∃ tail, w.file = .ok (frame q ++ tail)

/-- the number a format has in a request: table 0, JSON 1, environment 2 -/
def Format (f : Str) (n : Nat) : Prop :=
  (SameWord f (txt "table") ∧ n = 0) ∨ (SameWord f (txt "json") ∧ n = 1) ∨ (SameWord f (txt "env") ∧ n = 2)

/-- the format chosen by the options: each of them is one, the last one counts; without any it is the table -/
def Chosen (formats : List Str) (n : Nat) : Prop :=
  (∀ g ∈ formats, ∃ k, Format g k) ∧ ((formats = [] ∧ n = 0) ∨ ∃ f, formats.getLast? = some f ∧ Format f n)

/-- the commands of `sidctl` that only show what the daemon sends, with their numbers -/
def Shows (a : Str) (c : Nat) : Prop :=
  (a = txt "dbdump" ∧ c = 7) ∨ (a = txt "dbstats" ∧ c = 8) ∨ (a = txt "resources" ∧ c = 9) ∨ (a = txt "devices" ∧ c = 10)

end Sid.Spec.Tools
