import Verif.Model.Dm
import Verif.Spec.Ifc
import Verif.Spec.DevState
/-
What is expected of the daemon for device-mapper devices: how the ready state follows the events, what udev is told, which
cookies are completed.
-/
namespace Sid.Spec.Dm
open Sid.DevState (Ready)
open Sid.Event (Action)
open Sid.Dm (Ev)
open Sid.Spec.Client (decimal)
open Sid.Ifc (txt)

/-- the cookie of an event: none, the number the kernel prints, or a text that is no cookie -/
inductive Cookie
  | absent
  | number (v : Nat)
  | refused

/-- an event: `readable` tells whether the properties of the device are found in sysfs, `suspended` is one of them -/
structure Event where
  cookie : Cookie
  action : Action
  synth : Bool
  readable : Bool
  suspended : Bool

/-- characters that occur in numbers -/
def numChar (c : UInt8) : Bool :=
  (48 ≤ c && c ≤ 57) || (97 ≤ c && c ≤ 102) || (65 ≤ c && c ≤ 70) || c == 120 || c == 88 || c == 43 || c == 45 || c == 32 ||
    (9 ≤ c && c ≤ 13)

/-- texts that are no cookies -/
def NoCookie (s : Str) : Prop := (∃ c ∈ s, numChar c = false) ∨ ∃ v, s = decimal v ∧ (v = 0 ∨ 2 ^ 32 ≤ v)

/-- the variable DM_COOKIE for a cookie -/
def CookieText (s : Option Str) : Cookie → Prop
  | .absent => s = none
  | .number v => 0 < v ∧ v < 2 ^ 32 ∧ s = some (decimal v)
  | .refused => ∃ t, s = some t ∧ NoCookie t

/-- `e` is how the module sees the event -/
structure Tells (e : Ev) (x : Event) : Prop where
  cookie : CookieText e.cookie x.cookie
  action : e.action = x.action
  synth : e.synth = x.synth
  readable : x.readable = true ↔ e.uuid.isSome ∧ (∃ n, e.name = some n ∧ n ≠ []) ∧ ∃ s, e.suspended = some s ∧ s ≠ []
  suspended : x.suspended = true ↔ e.suspended = some (txt "1")

/-- the state a cookie asks for: bit 19 is "disable other rules", bit 18 "disable disk rules" -/
def shown (v : Nat) : Ready := if v.testBit 19 then .isPrivate else if v.testBit 18 then .flat else .isPublic

/-- devices nobody decided about are public at the end of a scan -/
def orPublic (r : Ready) : Ready := if r = .unprocessed then .isPublic else r

/-- the ready state after an event, by the one before (`none`: the device is not known) -/
def after (old : Option Ready) (x : Event) : Ready :=
  let r := old.getD .unprocessed
  if x.action = .remove ∨ x.readable = false then r
  else
    match x.cookie with
    | .refused => orPublic r
    | .number v =>
      if x.synth = true ∨ x.action ≠ .change then orPublic r
      else if x.suspended then .unavailable
      else if r = .removed ∨ r = .uninitialized then r
      else shown v
    | .absent =>
      if x.suspended then .unavailable
      else if r = .unprocessed ∧ x.synth = false ∧ x.action = .add then .unconfigured
      else orPublic r

/-- the cookie to be completed after an event: the lower half of the number -/
def toComplete (x : Event) : Option Nat :=
  match x.cookie with
  | .number v => if x.action = .remove ∨ x.readable = true then some (v % 2 ^ 16) else none
  | _ => none

/-- states in which other rules of udev have to leave the device alone -/
def hidden (r : Ready) : Bool := r == .uninitialized || r == .isPrivate || r == .unavailable

/-- should flag number `i` be on, for cookie `v` and ready state `r` -/
def flagOn (v : Nat) (r : Ready) (i : Nat) : Bool :=
  v.testBit (16 + i) || (i == 3 && hidden r) || (i == 2 && (hidden r || r == .flat))

end Sid.Spec.Dm
