import Verif.Spec.Ifc
import Verif.Model.UbrEvent
/-
What an event described by udev variables is.
-/
namespace Sid.Spec.Event
open Sid.Event (Action DevType Ev)
open Sid.Spec.Client

/-- the value of the last variable of that name -/
def lastValue (vars : List (Str × Str)) (name : Str) : Option Str := ((vars.filter (·.1 == name)).getLast?).map (·.2)

/-- a capital letter of ASCII made small -/
def small (c : UInt8) : UInt8 := if 65 ≤ c.toNat ∧ c.toNat ≤ 90 then UInt8.ofNat (c.toNat + 32) else c

/-- the same word apart from small and capital letters -/
def SameWord (a b : Str) : Prop := a.map small = b.map small

/-- the word the kernel uses for an action -/
def actionWord : Action → Option String
  | .add => "add" | .change => "change" | .remove => "remove" | .move => "move" | .online => "online"
  | .offline => "offline" | .bind => "bind" | .unbind => "unbind" | .unknown => none

/-- the word the kernel uses for a type of block device -/
def typeWord : DevType → Option String
  | .disk => "disk" | .partition => "partition" | .unknown => none

/-- bytes of an ASCII text -/
def ascii (s : String) : Str := s.toList.map fun c => UInt8.ofNat c.toNat

/-- the value, if there is one, is the given word -/
def Says (v : Option Str) (word : Option String) : Prop := ∃ x w, v = some x ∧ word = some w ∧ SameWord x (ascii w)

/-- the number the variable gives: 0 without the variable (nothing is said about a value that is not a number) -/
def Numbered (v : Option Str) (n : Nat) : Prop := (v = none → n = 0) ∧ ∀ k, k < 2 ^ 64 → v = some (decimal k) → n = k

/-- The attributes are those the variables describe. -/
structure Describes (vars : List (Str × Str)) (ev : Ev) : Prop where
  action : ∀ a, ev.action = a ↔ Says (lastValue vars (ascii "ACTION")) (actionWord a) ∨
    (a = .unknown ∧ ∀ a', ¬ Says (lastValue vars (ascii "ACTION")) (actionWord a'))
  type : ∀ t, ev.type = t ↔ Says (lastValue vars (ascii "DEVTYPE")) (typeWord t) ∨
    (t = .unknown ∧ ∀ t', ¬ Says (lastValue vars (ascii "DEVTYPE")) (typeWord t'))
  path : ev.path = lastValue vars (ascii "DEVPATH")
  noName : ev.path = none → ev.name = none
  name : ∀ p, ev.path = some p → ∃ dir base, p = dir ++ ascii "/" ++ base ∧ 47 ∉ base ∧ ev.name = some base
  seqnum : Numbered (lastValue vars (ascii "SEQNUM")) ev.seqnum
  diskseq : Numbered (lastValue vars (ascii "DISKSEQ")) ev.diskseq
  partn : Numbered (lastValue vars (ascii "PARTN")) ev.partn
  synthUuid : ev.synthUuid = lastValue vars (ascii "SYNTH_UUID")

/-- a slash that is not the first character -/
def HasDir (path : Str) : Prop := 47 ∈ path.drop 1

end Sid.Spec.Event
