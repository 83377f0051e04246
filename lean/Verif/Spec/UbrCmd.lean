import Verif.Model.UbrCmd
/-
What the life of a command is to look like, in terms of what can be seen of it (`Obs`, newest first).
-/
namespace Sid.Spec.Cmd
open Sid.Cmd

/-- how often something was seen -/
def times (x : Obs) (l : List Obs) : Nat := l.count x

/-- commands as they are registered: an export to the main process is an export; there are at most two stages -/
def RegOk (reg : Reg) : Prop := (reg.toMain = true → reg.exports = true) ∧ reg.stages ≤ 2

/-- The messages the main process sends to a command: one acknowledgement for each export it took, one answer for each question,
    and, to a command with two stages, one message that udev is done with the event, which is so only after udev got the
    response -/
def Expected (reg : Reg) (log : List Obs) : Msg → Prop
  | .ack => reg.toMain = true ∧ times .acked log < times .exported log
  | .answer => times .answered log < times .asked log
  | .nextStage => reg.stages = 2 ∧ times .replied log = 1 ∧ times .nextStage log = 0

/-- what happens to a command, in any order, with messages as expected -/
inductive Life (reg : Reg) : Cmd → Prop
  | start : Life reg (init reg)
  | run {c c'} (o : Outcome) : Life reg c → step reg c (.run o) = some c' → Life reg c'
  | message {c c'} (m : Msg) : Life reg c → Expected reg c.log m → step reg c (.message m) = some c' → Life reg c'
  | timeout {c c'} : Life reg c → step reg c .timeout = some c' → Life reg c'
  | stop {c c'} : Life reg c → step reg c .stop = some c' → Life reg c'

/-- the command is finished or failed -/
def Terminal (c : Cmd) : Prop := c.st = .fin ∨ c.st = .err

/-- whenever the response was sent, all exports before it had been acknowledged -/
def AckedBefore (log : List Obs) : Prop :=
  ∀ later earlier, log = later ++ .replied :: earlier → times .exported earlier = times .acked earlier

/-- nothing was executed after the worker was yielded -/
def NothingAfterYield (log : List Obs) : Prop := ∀ later earlier, log = later ++ .yielded :: earlier → .exec ∉ later

end Sid.Spec.Cmd
