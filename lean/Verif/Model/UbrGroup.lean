import Verif.Model.UbrDelta
/-
Model of groups, aliases and device dependencies in /repo/src/resource/ubr.c (3276-3510, 3546-3711, 4924-5149): the calls by
which modules and the daemon change who is a member of what.

Simplifications: memory allocation succeeds; the sequence numbers of the disks below a device, which the code reads from sysfs,
are an argument; the calling module belongs to one of the two registries; a rename takes the list of devices by value, the code
keeps pointers into the old record.
-/
namespace Sid.Ubr
open Sid.Ifc (txt)

/-- src/resource/ubr.c:93 KV_KEY_GEN_GROUP_MEMBERS -/
def gmb : Str := txt "#GMB"
/-- src/resource/ubr.c:94 KV_KEY_GEN_GROUP_IN -/
def gin : Str := txt "#GIN"
/-- src/resource/ubr.c:103 DEV_ALIAS_DSEQ -/
def dseqCat : Str := txt "dseq"

/-- src/resource/ubr.c:107, 3367 `kv_flags_sync_no_reserved` -/
def flagsNoRs : Flags := flSyncP ||| flFrgRd ||| flSubRd ||| flSupRd

/-- src/resource/ubr.c:3302-3307, 3377-3382, 3569-3574 the key of the members of a group -/
def groupSpec (dom : Str) (ns : Ns) (nsPart : Str) (cat : Option Str) (name : Str) : KeySpec :=
  { dom := some dom, ns := ns, nsPart := some nsPart, idCat := cat, ident := some name, core := some gmb }

/-- src/resource/ubr.c:3309-3311 the key of the groups the device of the command is in -/
def devInSpec (c : Ctx) (owner : Str) : KeySpec :=
  { ns := .device, nsPart := some (nsPartOf c owner .device), core := some gin }

/-- src/resource/ubr.c:3276-3356 `_handle_devs_for_group` (in a worker, `is_sync` false): the devices given or, if none are, the
    device of the command enter (`plus`) or leave (`minus`) the group -/
def handleDevs (db : Db) (c : Ctx) (owner : Str) (vdevs : Option (List Str)) (dom : Str) (ns : Ns) (cat : Option Str) (name : Str)
    (op : KvOp) : Option (Int × Db) :=
  (kvDeltaSet db false (groupSpec dom ns (nsPartOf c owner .module) cat name) (devInSpec c owner) op
    ⟨c.seqnum, flagsNoSync, c.gennum, core⟩ (vdevs.getD [composeKeyPrefix (devInSpec c owner)])).map fun r =>
  (if r.1 < 0 then -1 else 0, r.2)

/-- src/resource/ubr.c:3392-3408 the part of `_do_sid_ucmd_group_destroy` behind the look at the record found -/
def destroyFound (db : Db) (c : Ctx) (s : KeySpec) (force : Bool) (items : List Str) : Option (Int × Db) :=
  if items ≠ [] ∧ force = false then some (-39, db)
  else kvDeltaSet db false s { ns := .device, core := some gin } .set ⟨c.seqnum, flagsNoRs, c.gennum, core⟩ []

/-- src/resource/ubr.c:3358-3417 `_do_sid_ucmd_group_destroy`.  A record that is not a vector has its size in bytes, which is
    not modelled: `none`. -/
def doDestroy (db : Db) (c : Ctx) (owner dom : Str) (ns : Ns) (cat : Option Str) (name : Str) (force : Bool) :
    Option (Int × Db) :=
  match db.recs (opKey (groupSpec dom ns (nsPartOf c owner ns) cat name) .set) with
  | none => some (-1, db)
  | some r =>
    match r.val with
    | .scalar _ => none
    | .vector items => destroyFound db c (groupSpec dom ns (nsPartOf c owner ns) cat name) force items

/-- src/resource/ubr.c:3419-3438 `sid_ucmd_dev_alias_add` -/
def aliasAdd (db : Db) (c : Ctx) (owner key name : Str) : Option (Int × Db) :=
  if key = [] ∨ name = [] then some (-22, db) else handleDevs db c owner none domAlias .module (some key) name .plus

/-- src/resource/ubr.c:3491-3510 `sid_ucmd_dev_alias_del` -/
def aliasDel (db : Db) (c : Ctx) (owner key name : Str) : Option (Int × Db) :=
  if key = [] ∨ name = [] then some (-22, db) else handleDevs db c owner none domAlias .module (some key) name .minus

/-- src/resource/ubr.c:3466-3489 what `sid_ucmd_dev_alias_rename` does with the devices found -/
def renameFound (db : Db) (c : Ctx) (owner key old new : Str) (vdevs : List Str) : Option (Int × Db) :=
  (handleDevs db c owner (some vdevs) domAlias .module (some key) new .plus).bind fun r =>
  if r.1 < 0 then some r else doDestroy r.2 c owner domAlias .module (some key) old true

/-- src/resource/ubr.c:3440-3489 `sid_ucmd_dev_alias_rename`; an alias without devices is left alone.  Reading a record that is
    not a vector as one is undefined. -/
def aliasRename (db : Db) (c : Ctx) (owner key old new : Str) : Option (Int × Db) :=
  if key = [] ∨ old = [] ∨ new = [] then some (-22, db)
  else
    match getRec db owner (composeKey (groupSpec domAlias .module (nsPartOf c owner .module) (some key) old)) with
    | .error e => some (e, db)
    | .ok r =>
      match r.val with
      | .scalar _ => none
      | .vector [] => some (0, db)
      | .vector (x :: l) => renameFound db c owner key old new (x :: l)

/-- src/resource/ubr.c:3576-3600 the record of a new group: a header without items, of the calling module -/
def newGroup (c : Ctx) (owner : Str) (flags : Flags) : Rec := ⟨c.seqnum, flags, c.gennum, owner, .vector []⟩

/-- src/resource/ubr.c:3554-3609 `_do_sid_ucmd_group_create` with `_kv_cb_write_new_only`: a group that is there is left alone -/
def doCreate (db : Db) (c : Ctx) (owner dom : Str) (ns : Ns) (flags : Flags) (cat : Option Str) (name : Str) : Int × Db :=
  if (db.recs (opKey (groupSpec dom ns (nsPartOf c owner ns) cat name) .set)).isSome then (0, db)
  else
    (0, manageIndex (db.put (opKey (groupSpec dom ns (nsPartOf c owner ns) cat name) .set) (some (newGroup c owner flags))) false
      (opKey (groupSpec dom ns (nsPartOf c owner ns) cat name) .set) none (some (newGroup c owner flags)))

/-- src/resource/ubr.c:3608-3633 `sid_ucmd_grp_create` -/
def grpCreate (db : Db) (c : Ctx) (owner : Str) (ns : Ns) (flags : Flags) (cat : Option Str) (name : Str) : Option (Int × Db) :=
  if ns = .undefined ∨ name = [] then some (-22, db)
  else some (doCreate db c owner domGroup ns (flags &&& ~~~flAlign) cat name)

/-- src/resource/ubr.c:3635-3661 `sid_ucmd_grp_add_current_dev` -/
def grpAdd (db : Db) (c : Ctx) (owner : Str) (ns : Ns) (cat name : Str) : Option (Int × Db) :=
  if ns = .undefined ∨ cat = [] ∨ name = [] then some (-22, db) else handleDevs db c owner none domGroup ns (some cat) name .plus

/-- src/resource/ubr.c:3663-3689 `sid_ucmd_grp_del_current_dev` -/
def grpDel (db : Db) (c : Ctx) (owner : Str) (ns : Ns) (cat name : Str) : Option (Int × Db) :=
  if ns = .undefined ∨ cat = [] ∨ name = [] then some (-22, db) else handleDevs db c owner none domGroup ns (some cat) name .minus

/-- src/resource/ubr.c:3691-3711 `sid_ucmd_grp_destroy` -/
def grpDestroy (db : Db) (c : Ctx) (owner : Str) (ns : Ns) (cat : Option Str) (name : Str) (force : Bool) : Option (Int × Db) :=
  if ns = .undefined ∨ name = [] then some (-22, db) else doDestroy db c owner domGroup ns cat name force

/-- src/resource/ubr.c:4945-4950, 5083-5088 the key of the devices that lie on the disk with a given sequence number -/
def dseqIn (dseq : Option Str) : KeySpec :=
  { dom := some domAlias, ns := .module, nsPart := some core, idCat := some dseqCat, ident := dseq, core := some gin }

/-- src/resource/ubr.c:4924-5075 `_update_disk_deps_from_sysfs` and 5077-5149 `_update_part_deps_from_sysfs` where they update
    the record, `dseqs` being the sequence numbers of the disks the device lies on (none when the device is removed); the result
    of the update is not looked at -/
def updateDeps (db : Db) (c : Ctx) (dseqs : List Str) : Option (Int × Db) :=
  (kvDeltaSet db false { ns := .device, nsPart := some (nsPartOf c core .device), core := some gmb } (dseqIn none) .set
    ⟨c.seqnum, flagsNoSync, c.gennum, core⟩ (sortStr (dseqs.map fun n => composeKeyPrefix (dseqIn (some n))))).map fun r =>
  (0, r.2)

/-- model only, for src/resource/ubr.c:3611-3711: the calls that change groups, with the module that makes them -/
inductive GCall
  | create (c : Ctx) (owner : Str) (ns : Ns) (flags : Flags) (cat : Option Str) (name : Str)
  | add (c : Ctx) (owner : Str) (ns : Ns) (cat name : Str)
  | del (c : Ctx) (owner : Str) (ns : Ns) (cat name : Str)
  | destroy (c : Ctx) (owner : Str) (ns : Ns) (cat : Option Str) (name : Str) (force : Bool)
  | aliasAdd (c : Ctx) (owner key name : Str)
  | aliasRename (c : Ctx) (owner key old new : Str)
  | aliasDel (c : Ctx) (owner key name : Str)
  | deps (c : Ctx) (dseqs : List Str)

/-- model only, for src/resource/ubr.c:3611-3711: one of these calls -/
def gcall (db : Db) : GCall → Option (Int × Db)
  | .create c o ns fl cat n => grpCreate db c o ns fl cat n
  | .add c o ns cat n => grpAdd db c o ns cat n
  | .del c o ns cat n => grpDel db c o ns cat n
  | .destroy c o ns cat n f => grpDestroy db c o ns cat n f
  | .aliasAdd c o k n => aliasAdd db c o k n
  | .aliasRename c o k a b => aliasRename db c o k a b
  | .aliasDel c o k n => aliasDel db c o k n
  | .deps c l => updateDeps db c l

end Sid.Ubr
