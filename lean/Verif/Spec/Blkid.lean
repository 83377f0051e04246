import Verif.Spec.UbrReply
import Verif.Spec.Mpath
import Verif.Model.Blkid
/-
What is expected of the daemon when the contents of a device were looked at: udev gets the variables it would get from its own
tool, texts that were written by whoever made the contents are given in a form without special characters, and the module
for the next layer is chosen by the type of the contents.
-/
namespace Sid.Spec.Blkid
open Sid.Ubr Sid.Blkid Sid.Spec.UbrKey Sid.Spec.Mpath
open Sid.Ifc (txt)

/-- as it is, with special characters replaced, or with special characters written as \xHH -/
inductive Form
  | plain | safe | encoded
  deriving DecidableEq

def form (lib : Lib) : Form → Str → Str
  | .plain, v => v
  | .safe, v => lib.safe v
  | .encoded, v => lib.enc v

/-- the variables udev knows for a value of a probe -/
def named : List (Str × List (Str × Form)) :=
  [(txt "TYPE", [(txt "ID_FS_TYPE", .plain)]),
   (txt "USAGE", [(txt "ID_FS_USAGE", .plain)]),
   (txt "VERSION", [(txt "ID_FS_VERSION", .plain)]),
   (txt "UUID", [(txt "ID_FS_UUID", .safe), (txt "ID_FS_UUID_ENC", .encoded)]),
   (txt "UUID_SUB", [(txt "ID_FS_UUID_SUB", .safe), (txt "ID_FS_UUID_SUB_ENC", .encoded)]),
   (txt "LABEL", [(txt "ID_FS_LABEL", .safe), (txt "ID_FS_LABEL_ENC", .encoded)]),
   (txt "PTTYPE", [(txt "ID_PART_TABLE_TYPE", .plain)]),
   (txt "PTUUID", [(txt "ID_PART_TABLE_UUID", .plain)]),
   (txt "PART_ENTRY_NAME", [(txt "ID_PART_ENTRY_NAME", .encoded)]),
   (txt "PART_ENTRY_TYPE", [(txt "ID_PART_ENTRY_TYPE", .encoded)]),
   (txt "SYSTEM_ID", [(txt "ID_FS_SYSTEM_ID", .encoded)]),
   (txt "PUBLISHER_ID", [(txt "ID_FS_PUBLISHER_ID", .encoded)]),
   (txt "APPLICATION_ID", [(txt "ID_FS_APPLICATION_ID", .encoded)]),
   (txt "BOOT_SYSTEM_ID", [(txt "ID_FS_BOOT_SYSTEM_ID", .encoded)])]

/-- other values about the entry of the partition table keep their name; anything else is not told -/
def variables (name : Str) : List (Str × Form) :=
  match named.find? fun e => e.1 == name with
  | some e => e.2
  | none => if txt "PART_ENTRY_" <+: name then [(txt "ID_" ++ name, .plain)] else []

/-- what udev is to be told -/
def wanted (lib : Lib) (l : List Found) : List (Str × Option Str) :=
  l.flatMap fun f => (variables f.name).map fun x => (x.1, some (form lib x.2 f.value))

/-- the functions of the library give texts -/
def Texts (lib : Lib) : Prop := ∀ v, 0 ∉ v → 0 ∉ lib.safe v ∧ 0 ∉ lib.enc v

/-- a value that is a text, the name and the encoded identifier of a length there is room for -/
structure Fits (lib : Lib) (f : Found) : Prop where
  text : 0 ∉ f.value
  name : f.name.length ≤ 252
  uuid : f.name = txt "UUID" → (lib.enc f.value).length < 224

/-- identifiers have no characters that have to be replaced -/
def Tidy (lib : Lib) (f : Found) : Prop := f.name = txt "UUID" ∨ f.name = txt "UUID_SUB" → lib.safe f.value = f.value

/-- the types of contents each module is for -/
def handled : List (Str × List Str) :=
  [(txt "md", [txt "linux_raid_member", txt "ddf_raid_member", txt "isw_raid_member", txt "lsi_mega_raid_member",
      txt "via_raid_member", txt "silicon_medley_raid_member", txt "nvidia_raid_member", txt "promise_fasttrack_raid_member",
      txt "hpt45x_raid_member", txt "hpt37x_raid_member", txt "adaptec_raid_member", txt "jmicron_raid_member"]),
   (txt "dm", [txt "LVM1_member", txt "LVM2_member", txt "DM_snapshot_cow", txt "DM_verity_hash", txt "DM_integrity",
      txt "crypto_LUKS"]),
   (txt "drbd", [txt "drbd", txt "drbdmanage_control_volume", txt "drbdproxy_datalog"]),
   (txt "bcache", [txt "bcache"]), (txt "ceph", [txt "ceph_bluestore"]), (txt "ubi", [txt "ubi"]), (txt "vdo", [txt "vdo"]),
   (txt "stratis", [txt "stratis"]), (txt "bitlocker", [txt "BitLocker"]), (txt "filevault", [txt "cs_fvault2"]),
   (txt "fs", [txt "bcachefs", txt "VMFS_volume_member", txt "vfat", txt "swsuspend", txt "swap", txt "xfs",
      txt "xfs_external_log", txt "exfs", txt "ext4dev", txt "ext4", txt "ext3", txt "ext2", txt "jbd", txt "reiserfs",
      txt "reiser4", txt "jfs", txt "udf", txt "iso9660", txt "zfs_member", txt "hfsplus", txt "hfs", txt "ufs", txt "hpfs",
      txt "sysv", txt "xenix", txt "ntfs", txt "ReFS", txt "cramfs", txt "romfs", txt "minix", txt "gfs", txt "gfs2",
      txt "ocfs", txt "ocfs2", txt "oracleasm", txt "vxfs", txt "squashfs", txt "squashfs3", txt "nss", txt "btrfs",
      txt "ubifs", txt "bfs", txt "VMFS", txt "befs", txt "nilfs2", txt "exfat", txt "f2fs", txt "mpool", txt "apfs",
      txt "zonefs", txt "erofs"])]

/-- the module for a type of contents -/
def handler (t : Str) : Option Str := (handled.find? fun g => g.2.contains t).map Prod.fst

/-- the module for what a probe found (there is one type at most; if there were more, the last one with a module) -/
def forContents (l : List Found) : Option Str :=
  (l.filterMap fun f => if f.name = txt "TYPE" then handler f.value else none).getLast?

/-- the module for what was found on device `u` last, as long as nothing else with a module was found -/
inductive Last (u : Str) : List Op → Option Str → Prop
  | nil : Last u [] none
  | found {ops r c l t} : Last u ops r → c.uid = some u → forContents l = some t → Last u (ops ++ [.scan c (some l)]) (some t)
  | nothing {ops r c p} : Last u ops r → (c.uid = some u → ∀ l, p = some l → forContents l = none) → Last u (ops ++ [.scan c p]) r
  | call {ops r w x} : Last u ops r → Last u (ops ++ [.call w x]) r

/-- histories in which the other modules leave the name of the next module alone -/
structure Hist (ops : List Op) : Prop where
  scans : ∀ c p, .scan c p ∈ ops → PlainCtx c
  others : ∀ w x, .call w x ∈ ops → Plain w ∧ ∀ c a, x = .set c a → PlainCtx c ∧ (a.ns ≠ .device ∨ a.key ≠ txt "SID_NEXT_MOD")

end Sid.Spec.Blkid
