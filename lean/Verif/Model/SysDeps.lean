import Verif.Model.UbrGroup
import Verif.Model.UbrMod
/-
Model of how the daemon learns from sysfs what a device lies on (src/resource/ubr.c:4859-5169).

Simplifications: memory allocation and the buffers succeed (their only use is to compose paths and the vector of keys).
-/
namespace Sid.Ubr
open Sid.Ifc (txt)

/-- the part of the file system read: contents of files and names in directories (with "." and ".."), `none` if it cannot be
    read (src/resource/ubr.c:4900, 4976) -/
structure Sysfs where
  file : Str → Option (List UInt8)
  dir : Str → Option (List Str)

/-- src/include/internal/common.h:11 SYSTEM_SYSFS_PATH -/
def sysRoot : Str := txt "/sys"

/-- src/resource/ubr.c:4961-4966 the directory with the devices below -/
def slavesPath (path : Str) : Str := sysRoot ++ path ++ [47] ++ txt "slaves"

/-- model only, for src/resource/ubr.c:4862-4919: without slashes at the end -/
def dropSlashes (s : Str) : Str := (s.reverse.dropWhile (· = 47)).reverse

/-- `dirname` of a path that starts with a single slash (src/resource/ubr.c:4890) -/
def dirname (p : Str) : Str :=
  let r := dropSlashes (((dropSlashes p).reverse.dropWhile (· ≠ 47)).reverse)
  if r = [] then [47] else r

/-- src/resource/ubr.c:4895-4903 the sequence number of the disk in this directory; the buffer has UTIL_UUID_STR_SIZE = 37 bytes -/
def readDseq (sys : Sysfs) (dep : Str) : Option Str := Mod.sysfsGet 36 (sys.file (dep ++ txt "/diskseq"))

/-- src/resource/ubr.c:5019-5024 one turn of the loop with 4862-4922 `_get_dep_dev_dseq` for a name in the directory: a name with
    a dot is passed over, and a device whose number cannot be read, too -/
def slaveDseq (sys : Sysfs) (path : Str) (name : Str) : Option Str :=
  if name.head? = some 46 then none else readDseq sys (slavesPath path ++ [47] ++ name)

/-- src/resource/ubr.c:4924-5075 `_update_disk_deps_from_sysfs`.  When the directory cannot be listed, the result is that of the
    call that composed its path, which is 0 then (4958, 4974-4986). -/
def updateDisk (sys : Sysfs) (db : Db) (c : Ctx) (remove : Bool) (path : Str) : Option (Int × Db) :=
  if remove then updateDeps db c []
  else
    match sys.dir (slavesPath path) with
    | none => some (0, db)
    | some names => updateDeps db c (names.filterMap (slaveDseq sys path))

/-- src/resource/ubr.c:5077-5149 `_update_part_deps_from_sysfs` with 4883-4922 `_get_dep_dev_dseq` without a name.  When the number
    cannot be read, the message logged has a name in memory already freed (4890, 4909-4915): undefined. -/
def updatePart (sys : Sysfs) (db : Db) (c : Ctx) (remove : Bool) (path : Str) : Option (Int × Db) :=
  if remove then updateDeps db c []
  else (readDseq sys (dirname (sysRoot ++ path))).bind fun n => updateDeps db c [n]

/-- src/resource/ubr.c:5151-5169 `_update_dev_deps_from_sysfs` -/
def updateFromSysfs (sys : Sysfs) (db : Db) (c : Ctx) (type : Event.DevType) (remove : Bool) (path : Str) : Option (Int × Db) :=
  match type with
  | .disk => (updateDisk sys db c remove path).map fun r => (if r.1 < 0 then -1 else 0, r.2)
  | .partition => (updatePart sys db c remove path).map fun r => (if r.1 < 0 then -1 else 0, r.2)
  | .unknown => some (0, db)

end Sid.Ubr
