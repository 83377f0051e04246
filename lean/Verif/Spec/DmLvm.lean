import Verif.Spec.Dm
/-
What is expected of the daemon for logical volumes of LVM, which are device-mapper devices with composed names.
-/
namespace Sid.Spec.Dm
open Sid.DevState (Ready)
open Sid.Event (Action)
open Sid.Dm (Ev)
open Sid.Ifc (txt)

/-- a name with its hyphens doubled -/
def quote (s : Str) : Str := s.flatMap fun c => if c = 45 then [45, 45] else [c]

/-- the device-mapper name LVM gives to a volume of a group, or to a layer of it -/
def dmName (vg lv layer : Str) : Str := quote vg ++ [45] ++ quote lv ++ (if layer = [] then [] else [45] ++ quote layer)

/-- names LVM permits: not empty, and no volume or layer begins with a hyphen -/
structure Names (vg lv layer : Str) : Prop where
  group : vg ≠ []
  volume : lv ≠ []
  first : lv.head? ≠ some 45
  firstLayer : layer.head? ≠ some 45

/-- the identifier is one of LVM -/
def LvmUuid (u : Option Str) : Prop := ∃ t, u = some (txt "LVM-" ++ t)

/-- what the module sees is a volume of LVM with these names -/
structure IsLv (e : Ev) (vg lv layer : Str) : Prop where
  uuid : LvmUuid e.uuid
  name : e.name = some (dmName vg lv layer)
  names : Names vg lv layer

/-- a scan of the device the event is about is made -/
def scanned (x : Event) : Bool := x.action ≠ .remove && x.readable

/-- the events of a volume: the daemon sees it in use first, whenever it looks it finds the volume, which may get other names -/
structure LvHist (hist : List (Bool × Ev × Event)) : Prop where
  tells : ∀ t ∈ hist, Tells t.2.1 t.2.2
  first : ∀ t, hist.head? = some t → scanned t.2.2 = true
  isLv : ∀ t ∈ hist, scanned t.2.2 = true → ∃ vg lv layer, IsLv t.2.1 vg lv layer

/-- the cookie says that the volume is being initialised: bit 24 -/
def initialising (x : Event) : Bool := match x.cookie with | .number v => v.testBit 24 | _ => false

/-- the cookie is none, or it is one and came with the event the kernel sends on resume -/
def accepted (x : Event) : Bool :=
  match x.cookie with
  | .refused => false
  | .number _ => !x.synth && x.action == .change
  | .absent => true

/-- the event is taken -/
def taken (x : Event) : Bool := scanned x && accepted x

/-- the ready state after an event of a volume: that of device-mapper devices, but volumes being initialised are not to be used
    until an event that does not say so -/
def afterLvm (old : Option Ready) (x : Event) : Ready :=
  let r := after old x
  if taken x = false then r
  else if initialising x then (if r = .isPublic ∨ r = .isPrivate then .uninitialized else r)
  else if r = .uninitialized then .isPublic else r

end Sid.Spec.Dm
