import Verif.Model.BaseUtil
import Verif.Model.UbrMod
/-
src/modules/ucmd/block/dm_mpath/dm_mpath.c: the module that claims the paths of multipath devices, on top of the database of
Model/UbrDb.  libmpathvalid is not modelled: what it answers is a part of the event; it is taken to set `*wwid` on every call
(the module reads the variable although it has not initialised it).  Log messages are not modelled.  The command line of the
kernel is read once and kept; the model has it with every event.
Also src/resource/ubr.c:4764-4785 `sid_ucmd_kv_get_disk_part`, which the module uses.
-/
namespace Sid.Mpath
open Sid.Ubr
open Sid.Ifc (txt)
open Sid.Event (DevType)

/-- dm_mpath.c:75, 121-150: the answers of `mpathvalid_is_path` (mpath_valid.h): MPATH_IS_ERROR, MPATH_IS_NOT_VALID, MPATH_IS_VALID,
    MPATH_IS_VALID_NO_CHECK, MPATH_IS_MAYBE_VALID -/
inductive Verdict
  | error | no | yes | sure | maybe
  deriving DecidableEq, Repr

/-- the digit printed by "%d" (dm_mpath.c:150) -/
def digit : Verdict → Str
  | .error => txt "-1"
  | .no => txt "0"
  | .yes => txt "1"
  | .sure => txt "2"
  | .maybe => txt "3"

/-- model only, for dm_mpath.c:55-168: what the module finds when it is called for a device: the command line of the kernel (`none`: not readable), the type of the
    device, the file `dev` of the disk a partition is on, whether the configuration could be loaded, the answer of the library
    and the name it gives to the device -/
structure Ev where
  cmdline : Option Str
  type : DevType
  wholeDev : Option (List UInt8) := none
  reload : Bool := true
  verdict : Verdict := .no
  wwid : Option Str := none
  deriving DecidableEq, Repr

/-- dm_mpath.c:17 -/
def keyPath : Str := txt "DM_MULTIPATH_DEVICE_PATH"
/-- dm_mpath.c:18 -/
def keyValid : Str := txt "VALID"
/-- dm_mpath.c:19 -/
def keyWwid : Str := txt "WWID"
/-- SID_KV_FL_RD (src/include/resource/ucmd-mod.h:153) -/
def flRd : Flags := 0xE0

/-- src/base/util.c:107-159 `sid_util_kernel_get_arg`: found, and the value stored if it was asked for -/
def getArg (arg : Str) (want : Bool) (cmdline : Option Str) : Bool × Option Str :=
  match cmdline with
  | none => (false, none)
  | some line =>
    match Util.getArgLoop arg want line with
    | .ok (some v) => (true, v)
    | _ => (false, none)

/-- dm_mpath.c:55-64 `_kernel_cmdline_allow`: `value` is NULL unless the second call was made and stored one -/
def allowed (cmdline : Option Str) : Bool :=
  if (getArg (txt "nompath") false cmdline).1 then false
  else
    let second := getArg (txt "nompath") true cmdline
    if second.1 then
      match second.2 with
      | none => false
      | some v => v ≠ txt "off"
    else true

/-- dm_mpath.c:81-84, 131-135: `strtol` in base 10 of a non-empty text that must be used up, assigned to an `int`; `none`:
    garbage -/
def number (s : Str) : Option (BitVec 32) :=
  let t := Util.takeSign (s.dropWhile Util.isSpace)
  let n := Util.digitsVal t.2
  if t.2 = [] ∨ t.2.any (fun c => !Util.isDigit c) then none
  else if t.1 then (if n > 2 ^ 63 then none else some (- BitVec.ofNat 32 n))
  else if n ≥ 2 ^ 63 then none
  else some (BitVec.ofNat 32 n)

/-- src/resource/ubr.c:4212-4223 `_canonicalize_kv_key` -/
def canonKey (s : Str) : Str := s.map fun c => if c = 58 then 95 else c

/-- src/resource/ubr.c:4771-4774, 4782 the key: always in the namespace of devices, under the number of the disk -/
def diskSpec (devno key : Str) : KeySpec :=
  { dom := some domUser, ns := .device, nsPart := some (canonKey devno), core := some key }

/-- src/resource/ubr.c:4764-4785 `sid_ucmd_kv_get_disk_part`: the record found.  (A file that is there but empty: the number
    read is empty as well, only logged at 4243-4244.) -/
def getDiskPart (db : Db) (owner : Str) (wholeDev : Option (List UInt8)) (key : Str) : Option Rec :=
  if key = [] ∨ key.head? = some sysChar then none
  else
    match Mod.sysfsGet 15 wholeDev with
    | none => none
    | some devno =>
      match getRec db owner (composeKey (diskSpec devno key)) with
      | .error _ => none
      | .ok r => some r

/-- dm_mpath.c:145-160: `sid_ucmd_kv_va_set` of a text; the result is not looked at -/
def setText (db : Db) (c : Ctx) (owner : Str) (ns : Ns) (key value : Str) (flags : Flags) : Option Db :=
  (kvSet db c owner ⟨ns, key, some (value ++ [0]), flags⟩).map Prod.snd

/-- dm_mpath.c:73-94 `_is_parent_multipathed` -/
def scanPart (db : Db) (c : Ctx) (owner : Str) (e : Ev) : Option (Int × Db) :=
  match (getDiskPart db owner e.wholeDev keyValid).bind Mod.valueText with
  | none => some (0, db)
  | some s =>
    if s = [] then some (0, db)
    else if number s = some 1 then (setText db c owner .udev keyPath (txt "1") flRd).map fun db => (0, db)
    else some (0, db)

/-- dm_mpath.c:129 what is stored about the device -/
def stored (db : Db) (c : Ctx) (owner : Str) : Option Str :=
  match kvGet db c owner { ns := .devmod, key := keyValid } with
  | .error _ => none
  | .ok r => Mod.valueText r

/-- dm_mpath.c:124-143 what the module makes of the answer -/
def settle (old : Option Str) : Verdict → Verdict
  | .yes =>
    match old with
    | none => .yes
    | some s => if s = [] ∨ number s = some 1 then .yes else .no
  | .sure => .yes
  | v => v

/-- dm_mpath.c:145-148 the variable told to udev -/
def setPath (db : Db) (c : Ctx) (owner : Str) : Verdict → Option Db
  | .yes => setText db c owner .udev keyPath (txt "1") flRd
  | .error => some db
  | _ => setText db c owner .udev keyPath (txt "0") flRd

/-- dm_mpath.c:150-156 the record about the device -/
def setValid (db : Db) (c : Ctx) (owner : Str) (r : Verdict) : Option Db :=
  if r ≠ .error ∧ (digit r).length < 2 then setText db c owner .devmod keyValid (digit r) (flRd ||| flSyncP) else some db

/-- dm_mpath.c:157-165 the record with the name -/
def setWwid (db : Db) (c : Ctx) (owner : Str) : Option Str → Option Db
  | none => some db
  | some w => setText db c owner .devmod keyWwid w (flRd ||| flSyncP)

/-- dm_mpath.c:115-166 the part of `_dm_mpath_scan_next` for disks; `none`: undefined -/
def scanDisk (db : Db) (c : Ctx) (owner : Str) (e : Ev) : Option (Int × Db) :=
  if e.reload = false then some (-1, db)
  else
    let r := settle (stored db c owner) e.verdict
    (setPath db c owner r).bind fun db =>
    (setValid db c owner r).bind fun db =>
    (setWwid db c owner e.wwid).map fun db => (if r ≠ .error then 0 else -1, db)

/-- dm_mpath.c:96-167 `_dm_mpath_scan_next` -/
def scanNext (db : Db) (c : Ctx) (owner : Str) (e : Ev) : Option (Int × Db) :=
  if allowed e.cmdline = false then some (0, db)
  else
    match e.type with
    | .disk => scanDisk db c owner e
    | .partition => scanPart db c owner e
    | .unknown => some (0, db)

/-- model only, for dm_mpath.c:96-168: the module called for a device, or another module setting or reserving something -/
inductive Op
  | scan (c : Ctx) (e : Ev)
  | call (owner : Str) (x : Call)

/-- model only, for dm_mpath.c:96-168: one after the other, in workers; `m` is the full name of the module -/
def step (m : Str) (db : Db) : Op → Option Db
  | .scan c e => (scanNext db c m e).map Prod.snd
  | .call owner x => (call true db owner x).map Prod.snd

/-- model only, for dm_mpath.c:96-168 -/
def run (m : Str) : Db → List Op → Option Db
  | db, [] => some db
  | db, o :: l => (step m db o).bind fun db => run m db l

end Sid.Mpath
