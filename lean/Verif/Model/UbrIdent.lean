import Verif.Model.UbrGroup
/-
Model of how a device gets its identifier in /repo/src/resource/ubr.c (3713-3779, 4787-4857, 5221-5327, 7347-7432,
src/internal/util.c 246-269): the lookup of the device number among the aliases the daemon keeps, the choice between the
identifier on record, the one udev has and a new one, and the records of a new device.

Simplifications: memory allocation succeeds; the identifier a device gets if it needs a new one is an argument (it is made by
libuuid); the context of the command is a fresh one in a phase that may set the states of the device (Model/DevState), so the
states go from undefined to unprocessed; properties udev has of tagged devices are arguments of the import.
-/
namespace Sid.Ubr
open Sid.Ifc (txt)

/-- src/resource/ubr.c:102 DEV_ALIAS_DEVNO -/
def devnoCat : Str := txt "devno"
/-- src/resource/ubr.c:104 DEV_ALIAS_NAME -/
def nameCat : Str := txt "name"
/-- src/resource/ubr.c:49 KV_KEY_UDEV_SID_DEV_ID -/
def udevDevId : Str := txt "SID_DEV_ID"
/-- src/resource/ubr.c:47 KV_KEY_UDEV_SID_TAGS -/
def udevTags : Str := txt ".SID_TAGS"
/-- src/resource/ubr.c:46 UDEV_TAG_SID -/
def udevTagSid : Str := txt "sid"
/-- src/resource/ubr.c:85 KV_KEY_DEV_READY -/
def keyReady : Str := txt "#RDY"
/-- src/resource/ubr.c:86 KV_KEY_DEV_RESERVED -/
def keyReserved : Str := txt "#RES"
/-- src/include/internal/util.h:110: src/include/internal/util.h UTIL_UUID_STR_SIZE -/
def uuidSize : Nat := 37

/-- src/resource/ubr.c:789-802 `_copy_ns_part_from_key` with src/internal/util.c:246-269 `util_str_copy_len` into a buffer with
    `room` bytes: the part copied, or `none` -/
def copyNsPart (key : Str) (room : Nat) : Option Str :=
  (nsPartFromKey key).bind fun p => if p.length + 1 ≤ room then some p else none

/-- src/resource/ubr.c:3738-3748 the loop of `_dev_raw_alias_to_devid` with `room` bytes left: 0 or -ENOBUFS.  Behind each part
    copied the position goes on by the length of the whole item; when that is beyond the buffer, the next copy is written
    beyond it: undefined. -/
def copyParts : Nat → List Str → Option Int
  | _, [] => some 0
  | room, x :: l =>
    match copyNsPart x room with
    | none => some (-105)
    | some _ =>
      if x.length + 1 ≤ room then copyParts (room - (x.length + 1)) l
      else if l = [] then some 0
      else none

/-- src/resource/ubr.c:3713-3752 `_dev_raw_alias_to_devid` with a buffer of the size of an identifier: what the caller finds in
    the buffer or the error (-ENODATA, -ENOBUFS).  A record without members leaves the buffer as it was, a record that is no
    vector is read as one: undefined. -/
def rawAliasToDevid (db : Db) (key : Str) : Option (Except Int Str) :=
  match db.recs key with
  | none => some (.error (-61))
  | some r =>
    match r.val with
    | .scalar _ => none
    | .vector [] => none
    | .vector (x :: l) =>
      (copyParts uuidSize (x :: l)).map fun rc => if rc < 0 then .error rc else .ok ((copyNsPart x uuidSize).getD [])

/-- src/resource/ubr.c:3754-3779 `_dev_alias_to_devid` -/
def aliasToDevid (db : Db) (owner aliasKey aliasName : Str) : Option (Except Int Str) :=
  rawAliasToDevid db (opKey (groupSpec domAlias .module owner (some aliasKey) aliasName) .set)

/-- a string the code reads in the data of a record (2646-2651: no data is NULL); one without NUL is read beyond its end -/
def strOf : List UInt8 → Option (Option Str)
  | [] => some none
  | x :: d => if (0 : UInt8) ∈ x :: d then some (some ((x :: d).takeWhile (· ≠ 0))) else none

/-- src/resource/ubr.c:5236-5240 the identifier udev has of the device.  A vector there is no string: undefined. -/
def udevDevid (db : Db) (c : Ctx) : Option (Option Str) :=
  match doKvGet db c core none { ns := .udev, key := udevDevId } with
  | .error _ => some none
  | .ok r =>
    match r.val with
    | .scalar d => strOf d
    | .vector _ => none

/-- src/resource/ubr.c:3065-3067, 3194-3196 flags of the records with the states of a device -/
def stateFlags (isSync : Bool) : Flags :=
  (if isSync then 0 else flSync) ||| flAr ||| flFrgRd ||| flSubRd ||| flSupRd ||| flSubWr ||| flSupWr

/-- src/resource/ubr.c:3276-3356 `_handle_devs_for_group` with `is_sync` for the device of the command -/
def handleDevIn (isSync : Bool) (db : Db) (c : Ctx) (owner dom : Str) (ns : Ns) (cat : Option Str) (name : Str) (op : KvOp) :
    Option (Int × Db) :=
  (kvDeltaSet db isSync (groupSpec dom ns (nsPartOf c owner .module) cat name) (devInSpec c owner) op
    ⟨c.seqnum, flagsNoSync, c.gennum, core⟩ [composeKeyPrefix (devInSpec c owner)]).map fun r =>
  (if r.1 < 0 then -1 else 0, r.2)

/-- model only, for src/resource/ubr.c:5227-5327: the next call if this one did not fail -/
def andThen (x : Option (Int × Db)) (f : Db → Option (Int × Db)) : Option (Int × Db) :=
  x.bind fun r => if r.1 < 0 then some r else f r.2

/-- src/resource/ubr.c:4787-4857 `_set_new_dev_kvs`: the states of the device (SID_DEV_RDY_UNPROCESSED is 2,
    SID_DEV_RES_UNPROCESSED is 1), and the aliases by which it is found -/
def setNewDev (isSync : Bool) (db : Db) (c : Ctx) (dseq name : Str) : Option (Int × Db) :=
  andThen (doKvSet db c core none { ns := .device, key := keyReady, value := some [2, 0, 0, 0], flags := stateFlags isSync }) fun db =>
  andThen (doKvSet db c core none { ns := .device, key := keyReserved, value := some [1, 0, 0, 0], flags := stateFlags isSync }) fun db =>
  andThen (handleDevIn isSync db c core domAlias .module (some dseqCat) dseq .plus) fun db =>
  andThen (handleDevIn isSync db c core domAlias .module (some devnoCat) (orNull c.num) .plus) fun db =>
  handleDevIn isSync db c core domAlias .module (some nameCat) name .plus

/-- src/resource/ubr.c:5265-5286 the identifier to use: that on record, else that of udev, else a new one -/
def devidToUse (known udev : Option Str) (gen : Str) : Str :=
  match known, udev with
  | none, some v => v
  | some u, none => u
  | none, none => gen
  | some u, some _ => u

/-- src/resource/ubr.c:5300-5326 what `_set_dev_kvs` tells udev -/
def tellUdev (db : Db) (c : Ctx) (udev : Option Str) : Option (Int × Db) :=
  andThen (if udev.isSome then some (0, db)
    else doKvSet db c core none { ns := .udev, key := udevDevId, value := some (orNull c.uid ++ [0]), flags := flSync }) fun db =>
  doKvSet db c core none { ns := .udev, key := udevTags, value := some (udevTagSid ++ [0]), flags := flSync }

/-- src/resource/ubr.c:178-189: A device as the command knows it: its sequence number and its name (the number is in the context) -/
structure DevNames where
  dseq : Str
  name : Str
  deriving DecidableEq, Repr

/-- src/resource/ubr.c:5288-5326 the part of `_set_dev_kvs` behind the choice -/
def setDevChosen (db : Db) (c : Ctx) (d : DevNames) (known udev : Option Str) : Option (Int × Db) :=
  (andThen (if known.isSome then some (0, db) else setNewDev false db c d.dseq d.name) fun db => tellUdev db c udev).map fun r =>
  (if r.1 < 0 then -1 else 0, r.2)

/-- src/resource/ubr.c:5227-5327 `_set_dev_kvs` (with 5221-5225 `_dev_matches_udev`, which says yes): return code, the context
    with the identifier, the store.  `gen` is the identifier generated if need be. -/
def setDevKvs (db : Db) (c : Ctx) (d : DevNames) (gen : Str) : Option (Int × Ctx × Db) :=
  (udevDevid db c).bind fun udev =>
  (aliasToDevid db core devnoCat (orNull c.num)).bind fun r =>
  match r with
  | .ok u =>
    (setDevChosen db { c with uid := some (devidToUse (some u) udev gen) } d (some u) udev).map fun x =>
    (x.1, { c with uid := some (devidToUse (some u) udev gen) }, x.2)
  | .error e =>
    if e = -61 then
      (setDevChosen db { c with uid := some (devidToUse none udev gen) } d none udev).map fun x =>
      (x.1, { c with uid := some (devidToUse none udev gen) }, x.2)
    else some (-1, c, db)

/-- src/resource/ubr.c:7375-7428 one turn of the loop of `_ulink_import`: a device tagged in udev's database, with its identifier
    there, is recorded in the main store -/
def importDev (db : Db) (c : Ctx) (d : DevNames) : Option (Int × Db) := setNewDev true db c d.dseq d.name

end Sid.Ubr
