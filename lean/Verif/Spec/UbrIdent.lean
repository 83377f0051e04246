import Verif.Model.UbrIdent
import Verif.Spec.UbrGroup
/-
Identifiers of devices: what the daemon has on record for a device number, what udev has, and what happens in a worker.
-/
namespace Sid.Spec.Ident
open Sid.Ubr Sid.Spec.Delta Sid.Spec.Sync Sid.Spec.Group
open Sid.Ifc (txt)

/-- the alias by which the daemon finds a device by its number -/
def devno (num : Str) : Ent := .grp (txt "ALS") .module (txt "/") (some (txt "devno")) num

/-- the daemon has the device number on record, for the device with this identifier only -/
def KnownAs (db : Db) (num uid : Str) : Prop := mem db ((devno num).key (txt "#GMB")) = [(Ent.dev uid).name]

/-- the daemon does not have the device number on record -/
def Unknown (db : Db) (num : Str) : Prop := db.recs (opKey ((devno num).key (txt "#GMB")) .set) = none

/-- the variable SID_DEV_ID of the device with this number in udev's environment -/
def udevKey (num : Str) : Str := opKey { ns := .udev, nsPart := some num, core := some (txt "SID_DEV_ID") } .set

/-- udev has this identifier for the device (`none`: it has none) -/
def UdevHas (db : Db) (num : Str) : Option Str → Prop
  | none => db.recs (udevKey num) = none
  | some v => ∃ r, db.recs (udevKey num) = some r ∧ r.val = .scalar (v ++ [0])

/-- an identifier is not empty, has no colon and no NUL, and is not longer than a UUID -/
def IsId (u : Str) : Prop := u ≠ [] ∧ u.length ≤ 36 ∧ 58 ∉ u ∧ 0 ∉ u

/-- every device number is unknown or known as one device -/
def Numbered (db : Db) : Prop := ∀ num, Unknown db num ∨ ∃ u, IsId u ∧ KnownAs db num u

/-- the caller is a module: not the core, and its name has no colon -/
def IsMod (owner : Str) : Prop := owner ≠ txt "/" ∧ 58 ∉ owner

/-- the call changing groups is one of a module, or the daemon's own update of what a device lies on -/
def ByMod : GCall → Prop
  | .create _ o _ _ _ _ => IsMod o
  | .add _ o _ _ _ => IsMod o
  | .del _ o _ _ _ => IsMod o
  | .destroy _ o _ _ _ _ => IsMod o
  | .aliasAdd _ o _ _ => IsMod o
  | .aliasRename _ o _ _ _ => IsMod o
  | .aliasDel _ o _ _ => IsMod o
  | .deps _ _ => True

/-- What a device got its identifier from: `u` is what the daemon has on record for its number; if that is unknown, what udev has,
    and if udev has none, the one generated. -/
def Chosen (db : Db) (num : Str) (udev : Option Str) (gen u : Str) : Prop :=
  KnownAs db num u ∨ (Unknown db num ∧ u = udev.getD gen)

/-- the daemon has the same on record for a device number -/
structure SameNum (db db' : Db) (num : Str) : Prop where
  none : Unknown db' num ↔ Unknown db num
  list : mem db' ((devno num).key (txt "#GMB")) = mem db ((devno num).key (txt "#GMB"))

/-- What happens in a worker whose store was `db0`: calls of modules, dependencies, exports at the end of a stage, and devices
    (whichever) getting their identifiers; what udev has for them, if anything, and what is generated, are identifiers.  The second
    store is that of the last export (that of the start if there was none). -/
inductive Worker (db0 : Db) : Db → Db → Prop
  | start : Worker db0 db0 db0
  | group {since db db' x rc} : Worker db0 since db → CallOk x → ByMod x → gcall db x = some (rc, db') → Worker db0 since db'
  | call {since db db' owner x rc} : Worker db0 since db → call true db owner x = some (rc, db') → Worker db0 since db'
  | «export» {since db keys o} : Worker db0 since db → Entries db keys → exportLoop { db := db } keys = some o →
      Worker db0 (endStage o) (endStage o)
  | device {since db db' c c' d gen udev rc} : Worker db0 since db → UdevHas db (orNull c.num) udev →
      (∀ v, udev = some v → IsId v) → IsId gen → setDevKvs db c d gen = some (rc, c', db') → Worker db0 since db'

/-- What happens in the main store `main0`: workers are forked, work with copies of the store (marks and differences aside), export,
    and the main store takes over what they send; any number of them at the same time. -/
inductive Run (main0 : Db) : Db → Prop
  | start : Run main0 main0
  | sync {forked main db0 since db keys o main'} : Run main0 forked → Run main0 main → (∀ n, SameNum forked db0 n) →
      Synced Rel db0 → Consistent db0 → Numbered db0 → Worker db0 since db → Entries db keys →
      exportLoop { db := db } keys = some o → (∀ s, Rel s → IsSet (main.recs (opKey s .set))) → Msg main o.recs →
      (∀ s, Rel s → NotReplaced o.recs s) → syncMain main o.recs = some main' → Run main0 main'

/-- nobody has reserved the records with the states of a device for all devices -/
def NoReservation (db : Db) : Prop :=
  ∀ key, key = txt "#RDY" ∨ key = txt "#RES" → db.recs (opKey { ns := .device, core := some key } .set) = none

end Sid.Spec.Ident
