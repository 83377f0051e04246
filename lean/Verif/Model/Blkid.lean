import Verif.Model.Mpath
/-
src/modules/ucmd/block/blkid/blkid.c: the module that looks at the contents of block devices with libblkid and says what it
found, on top of the database of Model/UbrDb.  libblkid is not modelled: what a probe finds is a part of the event, and the two
functions by which the library rewrites texts are parameters.  Log messages are not modelled.
-/
namespace Sid.Blkid
open Sid.Ubr
open Sid.Ifc (txt)
open Sid.Mpath (flRd)

/-- `blkid_safe_string` and `blkid_encode_string`: the text they leave in a buffer of 256 bytes -/
structure Lib where
  safe : Str → Str
  enc : Str → Str

/-- a value of the probe (blkid.c:342-347): name, value, and what is in the buffer behind the end of the text when the value was
    encoded (the buffer is on the stack and not initialised, 126-129) -/
structure Found where
  name : Str
  value : Str
  left : List UInt8 := []
  deriving DecidableEq, Repr

/-- src/modules/ucmd/block/blkid/blkid-type-mapper.gperf:20-98, blkid-type.h:12-24 the types of contents with the modules -/
def table : List (Str × Str) :=
  [(txt "linux_raid_member", txt "md"), (txt "ddf_raid_member", txt "md"), (txt "isw_raid_member", txt "md"),
   (txt "lsi_mega_raid_member", txt "md"), (txt "via_raid_member", txt "md"), (txt "silicon_medley_raid_member", txt "md"),
   (txt "nvidia_raid_member", txt "md"), (txt "promise_fasttrack_raid_member", txt "md"),
   (txt "hpt45x_raid_member", txt "md"), (txt "hpt37x_raid_member", txt "md"), (txt "adaptec_raid_member", txt "md"),
   (txt "jmicron_raid_member", txt "md"), (txt "bcache", txt "bcache"), (txt "bcachefs", txt "fs"),
   (txt "ceph_bluestore", txt "ceph"), (txt "drbd", txt "drbd"), (txt "drbdmanage_control_volume", txt "drbd"),
   (txt "drbdproxy_datalog", txt "drbd"), (txt "LVM2_member", txt "dm"), (txt "LVM1_member", txt "dm"),
   (txt "DM_snapshot_cow", txt "dm"), (txt "DM_verity_hash", txt "dm"), (txt "DM_integrity", txt "dm"),
   (txt "crypto_LUKS", txt "dm"), (txt "VMFS_volume_member", txt "fs"), (txt "ubi", txt "ubi"), (txt "vdo", txt "vdo"),
   (txt "stratis", txt "stratis"), (txt "BitLocker", txt "bitlocker"), (txt "cs_fvault2", txt "filevault"),
   (txt "vfat", txt "fs"), (txt "swsuspend", txt "fs"), (txt "swap", txt "fs"), (txt "xfs", txt "fs"),
   (txt "xfs_external_log", txt "fs"), (txt "exfs", txt "fs"), (txt "ext4dev", txt "fs"), (txt "ext4", txt "fs"),
   (txt "ext3", txt "fs"), (txt "ext2", txt "fs"), (txt "jbd", txt "fs"), (txt "reiserfs", txt "fs"),
   (txt "reiser4", txt "fs"), (txt "jfs", txt "fs"), (txt "udf", txt "fs"), (txt "iso9660", txt "fs"),
   (txt "zfs_member", txt "fs"), (txt "hfsplus", txt "fs"), (txt "hfs", txt "fs"), (txt "ufs", txt "fs"),
   (txt "hpfs", txt "fs"), (txt "sysv", txt "fs"), (txt "xenix", txt "fs"), (txt "ntfs", txt "fs"), (txt "ReFS", txt "fs"),
   (txt "cramfs", txt "fs"), (txt "romfs", txt "fs"), (txt "minix", txt "fs"), (txt "gfs", txt "fs"),
   (txt "gfs2", txt "fs"), (txt "ocfs", txt "fs"), (txt "ocfs2", txt "fs"), (txt "oracleasm", txt "fs"),
   (txt "vxfs", txt "fs"), (txt "squashfs", txt "fs"), (txt "squashfs3", txt "fs"), (txt "nss", txt "fs"),
   (txt "btrfs", txt "fs"), (txt "ubifs", txt "fs"), (txt "bfs", txt "fs"), (txt "VMFS", txt "fs"), (txt "befs", txt "fs"),
   (txt "nilfs2", txt "fs"), (txt "exfat", txt "fs"), (txt "f2fs", txt "fs"), (txt "mpool", txt "fs"),
   (txt "apfs", txt "fs"), (txt "zonefs", txt "fs"), (txt "erofs", txt "fs")]

/-- blkid.c:144 and blkid-type-mapper.gperf:1-99: `blkid_type_lookup(value, strlen(value))`, generated by gperf from the table: the entry of exactly this name -/
def typeMod (t : Str) : Option Str := (table.find? fun e => e.1 == t).map Prod.snd

/-- src/include/resource/ucmd-mod.h:163 `SID_UCMD_KEY_DEVICE_NEXT_MOD` -/
def keyNext : Str := txt "SID_NEXT_MOD"

/-- blkid.c:132-140: `sid_ucmd_kv_va_set` of a variable of udev with a text and the flags SID_KV_FL_RD -/
def udevSet (key value : Str) : SetArgs := ⟨.udev, key, some (value ++ [0]), flRd⟩

/-- blkid.c:175 the arguments `s, SID_KV_FL_RD` follow `.key` and so are `value` and `size`: 224 bytes of the buffer, no flags -/
def uuidEncSet (lib : Lib) (f : Found) : SetArgs :=
  ⟨.udev, txt "ID_FS_UUID_ENC", some ((lib.enc f.value ++ 0 :: f.left).take flRd.toNat), 0⟩

/-- blkid.c:132-151 -/
def typeSets (value : Str) : List SetArgs :=
  udevSet (txt "ID_FS_TYPE") value ::
    match typeMod value with
    | none => []
    | some m => [⟨.device, keyNext, some (m ++ [0]), flSyncP ||| flRd⟩]

/-- blkid.c:127-271 `_add_property`: the sets made for a value of the probe -/
def sets (lib : Lib) (f : Found) : List SetArgs :=
  let v := f.value
  if f.name = txt "TYPE" then typeSets v
  else if f.name = txt "USAGE" then [udevSet (txt "ID_FS_USAGE") v]
  else if f.name = txt "VERSION" then [udevSet (txt "ID_FS_VERSION") v]
  else if f.name = txt "UUID" then [udevSet (txt "ID_FS_UUID") v, uuidEncSet lib f]
  else if f.name = txt "UUID_SUB" then [udevSet (txt "ID_FS_UUID_SUB") v, udevSet (txt "ID_FS_UUID_SUB_ENC") (lib.enc v)]
  else if f.name = txt "LABEL" then [udevSet (txt "ID_FS_LABEL") (lib.safe v), udevSet (txt "ID_FS_LABEL_ENC") (lib.enc v)]
  else if f.name = txt "PTTYPE" then [udevSet (txt "ID_PART_TABLE_TYPE") v]
  else if f.name = txt "PTUUID" then [udevSet (txt "ID_PART_TABLE_UUID") v]
  else if f.name = txt "PART_ENTRY_NAME" then [udevSet (txt "ID_PART_ENTRY_NAME") (lib.enc v)]
  else if f.name = txt "PART_ENTRY_TYPE" then [udevSet (txt "ID_PART_ENTRY_TYPE") (lib.enc v)]
  else if (txt "PART_ENTRY_").isPrefixOf f.name then [udevSet ((txt "ID_" ++ f.name).take 255) v]
  else if f.name = txt "SYSTEM_ID" then [udevSet (txt "ID_FS_SYSTEM_ID") (lib.enc v)]
  else if f.name = txt "PUBLISHER_ID" then [udevSet (txt "ID_FS_PUBLISHER_ID") (lib.enc v)]
  else if f.name = txt "APPLICATION_ID" then [udevSet (txt "ID_FS_APPLICATION_ID") (lib.enc v)]
  else if f.name = txt "BOOT_SYSTEM_ID" then [udevSet (txt "ID_FS_BOOT_SYSTEM_ID") (lib.enc v)]
  else []

/-- model only, for blkid.c:127-271, 304-358: sets one after the other; the results are not looked at -/
def setAll (c : Ctx) (owner : Str) : Db → List SetArgs → Option Db
  | db, [] => some db
  | db, a :: l => (kvSet db c owner a).bind fun r => setAll c owner r.2 l

/-- blkid.c:305-359 `_blkid_scan_next`: `none` if the device could not be opened or probed (the code is then the one of the
    library; only its sign counts), else the values the probe found -/
def scanNext (lib : Lib) (db : Db) (c : Ctx) (owner : Str) (probe : Option (List Found)) : Option (Int × Db) :=
  match probe with
  | none => some (-1, db)
  | some l => (setAll c owner db (l.flatMap (sets lib))).map fun db => (0, db)

/-- src/resource/ubr.c:5452-5461 the name of the module that is called for the contents of the device, after the block modules
    have been called -/
def nextMod (db : Db) (c : Ctx) : Option Str :=
  match doKvGet db c core (some domUser) { ns := .device, key := keyNext } with
  | .error _ => none
  | .ok r => Mod.valueText r

/-- model only, for blkid.c:304-358: what happens in a history: the module is called in a scan, or another module makes a call -/
inductive Op
  | scan (c : Ctx) (probe : Option (List Found))
  | call (owner : Str) (x : Call)

/-- model only, for blkid.c:304-358 -/
def step (lib : Lib) (m : Str) (db : Db) : Op → Option Db
  | .scan c p => (scanNext lib db c m p).map Prod.snd
  | .call w x => (Ubr.call true db w x).map Prod.snd

/-- model only, for blkid.c:304-358 -/
def run (lib : Lib) (m : Str) : Db → List Op → Option Db
  | db, [] => some db
  | db, o :: l => (step lib m db o).bind fun db => run lib m db l

end Sid.Blkid
