import Verif.Model.Ifc
import Verif.Model.Fmt
import Verif.Model.BaseUtil
import Verif.Model.UtilStr
/-
The event a scan request describes: src/resource/ubr.c:4104-4199 (what of the environment is kept in the request), the
conversions of src/internal/util.c:43-98, and the accessors modules use (src/resource/ubr.c:544-592).

The accessors that return strings return pointers into the records stored for the variables; here they are values.  A record
replaced by a module later in the scan is freed by the store; this use after free is not modelled.
-/
namespace Sid.Event
open Sid (Str)
open Sid.Ifc (txt)

/-- src/include/internal/common.h:30-40 `udev_action_t` -/
inductive Action
  | unknown | add | change | remove | move | online | offline | bind | unbind
  deriving DecidableEq, Repr

/-- src/include/internal/common.h:42-46 `udev_devtype_t` -/
inductive DevType
  | unknown | disk | partition
  deriving DecidableEq, Repr

/-- src/internal/util.c:43-51 `udev_action_str`, 75-78 `util_udev_action_to_str` -/
def actionStr : Action → Str
  | .add => txt "add"
  | .change => txt "change"
  | .remove => txt "remove"
  | .move => txt "move"
  | .online => txt "online"
  | .offline => txt "offline"
  | .bind => txt "bind"
  | .unbind => txt "unbind"
  | .unknown => txt "unknown"

/-- `strcasecmp(a, b) == 0` in the "C" locale (src/internal/util.c:55-69, 88-90) -/
def sameCase (a b : Str) : Bool := a.map UStr.lower == b.map UStr.lower

/-- src/internal/util.c:53-73 `util_udev_str_to_action` -/
def strToAction (s : Str) : Action :=
  if sameCase s (actionStr .add) then .add
  else if sameCase s (actionStr .change) then .change
  else if sameCase s (actionStr .remove) then .remove
  else if sameCase s (actionStr .move) then .move
  else if sameCase s (actionStr .online) then .online
  else if sameCase s (actionStr .offline) then .offline
  else if sameCase s (actionStr .bind) then .bind
  else if sameCase s (actionStr .unbind) then .unbind
  else .unknown

/-- src/internal/util.c:80-84 `udev_devtype_str`, 96-99 `util_udev_devtype_to_str`; src/include/internal/common.h:26-28 -/
def devTypeStr : DevType → Str
  | .disk => txt "disk"
  | .partition => txt "partition"
  | .unknown => txt "unknown"

/-- src/internal/util.c:86-94 `util_udev_str_to_devtyoe` -/
def strToDevType (s : Str) : DevType :=
  if sameCase s (devTypeStr .disk) then .disk
  else if sameCase s (devTypeStr .partition) then .partition
  else .unknown

/-- src/resource/ubr.c:178-189 `struct udevice`: zero or NULL unless set (6243 `mem_zalloc` of the context).  Without the device
    number, see `Ifc.parseEnv`. -/
structure Ev where
  action : Action := .unknown
  type : DevType := .unknown
  path : Option Str := none
  name : Option Str := none
  seqnum : Nat := 0
  diskseq : Nat := 0
  partn : Nat := 0
  synthUuid : Option Str := none
  deriving DecidableEq, Repr

/-- src/resource/ubr.c:4132-4134 the device path and what follows its last slash.  `none`: no slash was found, the name is NULL + 1 -/
def setPath (ev : Ev) (v : Str) : Option Ev :=
  (UStr.rstr v [47]).map fun p => { ev with path := some v, name := some (v.drop (p + 1)) }

/-- src/resource/ubr.c:4128-4145 `_device_add_field`: the variables that are also kept in the request -/
def setField (ev : Ev) (kv : Str × Str) : Option Ev :=
  if kv.1 = txt "ACTION" then some { ev with action := strToAction kv.2 }
  else if kv.1 = txt "DEVPATH" then setPath ev kv.2
  else if kv.1 = txt "DEVTYPE" then some { ev with type := strToDevType kv.2 }
  else if kv.1 = txt "SEQNUM" then some { ev with seqnum := (Util.strtoull kv.2).1 }
  else if kv.1 = txt "DISKSEQ" then some { ev with diskseq := (Util.strtoull kv.2).1 }
  else if kv.1 = txt "SYNTH_UUID" then some { ev with synthUuid := some kv.2 }
  else if kv.1 = txt "PARTN" then some { ev with partn := (Util.strtoull kv.2).1 }
  else some ev

/-- src/resource/ubr.c:4179-4182 one variable after the other -/
def setFields (ev : Ev) : List (Str × Str) → Option Ev
  | [] => some ev
  | kv :: l => (setField ev kv).bind fun ev' => setFields ev' l

/-- src/resource/ubr.c:4184-4196 the text that identifies the disk or partition until it is removed -/
def diskSeqText (ev : Ev) : Str :=
  if ev.type = .partition then Fmt.dec ev.diskseq ++ txt "-part" ++ Fmt.dec ev.partn else Fmt.dec ev.diskseq

/-- src/resource/ubr.c:4150-4199 the event in the data of a scan request: device number, attributes, text for the disk sequence.
    (The variables behind one that is refused are not looked at, the text is not made (NULL) and the request is processed
    none the less: ubr.c:4180-4181, 6293-6297.) -/
def eventOf (m : List UInt8) : Option (Except Errno (BitVec 32 × BitVec 32 × Ev × Option Str)) :=
  (Ifc.parseEnv m).bind fun
    | .error e => some (.error e)
    | .ok (ma, mi, all, vars) =>
      (setFields {} vars).map fun ev => .ok (ma, mi, ev, if all then some (diskSeqText ev) else none)

end Sid.Event
