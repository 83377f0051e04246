import Verif.Model.DevState
/-
The documented life of the two device states.
-/
namespace Sid.Spec.DevState
open Sid.DevState

/-- Permitted changes of the ready state -/
inductive ReadyMove : Ready → Ready → Prop
  | discovered : ReadyMove .undefined .unprocessed
  | unconfigured : ReadyMove .unprocessed .unconfigured
  | removed {s} : s ≠ .undefined → ReadyMove s .removed
  | uninitialized {s} : s ≠ .undefined → ReadyMove s .uninitialized
  | isPrivate {s} : s ≠ .undefined → ReadyMove s .isPrivate
  | flat {s} : s ≠ .undefined → ReadyMove s .flat
  | unavailable {s} : s ≠ .undefined → ReadyMove s .unavailable
  | isPublic {s} : s ≠ .undefined → ReadyMove s .isPublic

/-- Permitted changes of the reserved state -/
inductive ReservedMove : Reserved → Reserved → Prop
  | discovered : ReservedMove .undefined .unprocessed
  | reserved {s} : ReservedMove s .reserved
  | used {s} : ReservedMove s .used
  | free {s} : ReservedMove s .free

/-- Phases in which the ready state may be changed -/
def readyPhases : List Phase := [.aInit, .aPre, .aCurrent, .aExit, .removeInit, .bInit]

/-- Phases in which the reserved state may be changed -/
def reservedPhases : List Phase := [.aInit, .aNext, .aExit, .removeInit, .bInit]

/-- What a reader would be told now -/
def seen {α : Type} [DecidableEq α] (undef : α) (c : Ctx α) : α := (getState undef c).1

/-- The event respects the discipline the code silently relies on: a command reads the state of a known device before
    it changes it, and the key-value store does not deny the write after the check -/
def Disciplined {α : Type} (undef : α) (c : Ctx α) : Op α → Prop
  | .set _ kv => (c.cached ≠ undef ∨ c.stored = none) ∧ kv ≠ .deniedByStore
  | _ => True

/-- All events of a history do -/
def DisciplinedAll {α : Type} (undef : α) (st : Ctx α → Op α → Ctx α) : Ctx α → List (Op α) → Prop
  | _, [] => True
  | c, o :: os => Disciplined undef c o ∧ DisciplinedAll undef st (st c o) os

end Sid.Spec.DevState
