import Verif.Model.UbrDb
import Verif.Model.UbrEvent
/-
Which type module handles a device: src/resource/ubr.c:4201-4211, 4225-4413 (the table of drivers in /proc/devices) and
5328-5364 (remembering the result), with src/base/util.c:165-193.

Simplifications: the files read are lists of bytes without NUL that stay the same during a request; opening /proc/devices
succeeds; memory allocation succeeds; the result buffer has 80 bytes as in the only call (5368, 5380).
-/
namespace Sid.Mod
open Sid (Str)
open Sid.Ifc (txt)
open Sid.Util (isSpace isDigit digitsVal takeSign)
open Sid.Event (DevType)

/-- src/resource/ubr.c:4338: `fgets` with room for `n` bytes besides the NUL: the line (up to and including a newline) and what is left of the file -/
def fgets : Nat → List UInt8 → List UInt8 × List UInt8
  | 0, s => ([], s)
  | _ + 1, [] => ([], [])
  | n + 1, c :: s => if c = 10 then ([10], s) else let r := fgets n s; (c :: r.1, r.2)

/-- `fgets` does not add to the file -/
theorem fgets_le : ∀ (n : Nat) (s : List UInt8), (fgets n s).2.length ≤ s.length
  | 0, s => by simp [fgets]
  | _ + 1, [] => by simp [fgets]
  | n + 1, c :: s => by
    simp only [fgets]
    split
    · simp
    · have := fgets_le n s
      simp only [List.length_cons]
      omega

/-- src/resource/ubr.c:4385: `isprint` in the "C" locale -/
def isPrint (c : UInt8) : Bool := 32 ≤ c && c ≤ 126

/-- the value of a string of digits as an `int` the way glibc's `atoi` makes it: `strtol` and a conversion
    (src/resource/ubr.c:4287, 4365) -/
def toInt (neg : Bool) (ds : Str) : BitVec 32 :=
  if neg then BitVec.ofInt 32 (- (min (digitsVal ds) (2 ^ 63) : Nat)) else BitVec.ofNat 32 (min (digitsVal ds) (2 ^ 63 - 1))

/-- `atoi` (src/resource/ubr.c:4287) -/
def atoi (s : Str) : BitVec 32 :=
  let t := takeSign (s.dropWhile isSpace)
  toInt t.1 (t.2.takeWhile isDigit)

/-- model only, for src/resource/ubr.c:4338-4400: what one line says -/
inductive Line
  | skip
  | found (rest : Str)
  /-- the number is the end of the string: the name is taken from behind the string -/
  | beyond
  deriving DecidableEq, Repr

/-- src/resource/ubr.c:4349-4372 one line of the section of block devices (the digits are passed to `atoi`, which has neither
    blanks nor a sign to look at) -/
def blockLine (major : BitVec 32) (line : Str) : Line :=
  let p := line.dropWhile isSpace
  let ds := p.takeWhile isDigit
  if ds = [] then .skip
  else if toInt false ds = 0 then .skip
  else if toInt false ds = major then
    match p.dropWhile isDigit with
    | [] => .beyond
    | _ :: rest => .found rest
  else .skip

/-- src/resource/ubr.c:4338-4373 the loop over the lines of /proc/devices -/
def scanLines (major : BitVec 32) (inBlock : Bool) (file : List UInt8) : Line :=
  if h : file = [] then .skip
  else
    let r := fgets 79 file
    if inBlock then
      match blockLine major r.1 with
      | .skip => scanLines major true r.2
      | x => x
    else scanLines major (r.1.head? == some 66) r.2
termination_by file.length
decreasing_by
  all_goals
    obtain ⟨c, s, rfl⟩ := List.exists_cons_of_ne_nil h
    simp only [fgets, List.length_cons]
    split
    · simp
    · have := fgets_le 78 s
      simp only
      omega

/-- src/resource/ubr.c:4201-4211 `_canonicalize_module_name` -/
def canonMod (name : Str) : Str := name.map fun c => if c = 45 then 95 else c

/-- src/resource/ubr.c:97 MOD_NAME_BLKEXT -/
def blkext : Str := txt "blkext"
/-- src/resource/ubr.c:98, 100 MOD_NAME_NVME, DEV_NAME_PREFIX_NVME -/
def nvme : Str := txt "nvme"

/-- model only, for src/resource/ubr.c:4225-4340: What the daemon finds in the system: the text of /proc/devices, and of the file `dev` of the disk a partition belongs to
    (`none`: it cannot be opened). -/
structure Sys where
  procDevices : List UInt8
  wholeDev : Option (List UInt8)

/-- src/base/util.c:165-193 `sid_util_sysfs_get` with room for `n` bytes besides the NUL: the text or nothing -/
def sysfsGet (n : Nat) (file : Option (List UInt8)) : Option Str :=
  file.bind fun s =>
    if s = [] then none
    else
      let l := (fgets n s).1
      some (if l.getLast? = some 10 then l.dropLast else l)

/-- src/resource/ubr.c:4225-4247, 4281-4288 the major number of the whole disk -/
def wholeMajor (sys : Sys) : Option (BitVec 32) :=
  (sysfsGet 15 sys.wholeDev).bind fun s =>
    if 58 ∈ s then
      let m := atoi (s.takeWhile (· ≠ 58))
      if m = 0 then none else some m
    else none

/-- src/resource/ubr.c:4249-4257 `_dev_is_nvme`; without a name `strncmp` gets NULL: undefined -/
def isNvme (name : Option Str) : Option Bool := name.map fun n => n.take 4 == nvme

/-- src/resource/ubr.c:4292-4302 the module of the whole disk, which is dropped unless it is "blkext" -/
def unlessOther : Option Str → Option Str
  | none => none
  | some mod => if mod ≠ blkext then none else some mod

/-- src/resource/ubr.c:4316-4417 `_lookup_mod_name` and 4261-4314 `_owner_name_from_blkext`, which call each other, with a
    stack for `depth` pairs of calls.  `none`: undefined (or the stack is used up), `some none`: NULL.
    A name has at most 78 bytes, so the check at 4398 never fails.  ("nvme" and "blkext" have no '-' to be replaced.) -/
def lookup (sys : Sys) (name : Option Str) (type : DevType) : Nat → BitVec 32 → Option (Option Str)
  | 0, _ => none
  | depth + 1, major =>
    match scanLines major false sys.procDevices with
    | .skip => some none
    | .beyond => none
    | .found rest =>
      let found := rest.takeWhile isPrint
      if found = blkext then
        match type with
        | .partition =>
          (isNvme name).bind fun nv =>
          if nv then some (some nvme)
          else
            match wholeMajor sys with
            | none => some none
            | some m => (lookup sys name type depth m).map unlessOther
        | .disk => (isNvme name).map fun nv => if nv then some nvme else none
        | .unknown => some none
      else some (some (canonMod found))

/-! ### remembering the result -/

/-- src/resource/ubr.c:87 KV_KEY_DEV_MOD -/
def keyMod : Str := txt "#MOD"
/-- src/resource/ubr.c:107 DEFAULT_VALUE_FLAGS_CORE -/
def flagsCore : Ubr.Flags := Ubr.flSyncP ||| Ubr.flRs ||| Ubr.flFrgRd ||| Ubr.flSubRd ||| Ubr.flSupRd

/-- src/resource/ubr.c:2637-2653 the text in the value of a record; nothing if it is empty.  (A vector is not a text.) -/
def valueText (r : Ubr.Rec) : Option Str :=
  match r.val with
  | .scalar [] => none
  | .scalar d => some (d.takeWhile (· ≠ 0))
  | .vector _ => none

/-- src/resource/ubr.c:5333-5337 what is remembered of the device -/
def remembered (db : Ubr.Db) (c : Ubr.Ctx) : Option Str :=
  match Ubr.doKvGet db c Ubr.core none { ns := .device, key := keyMod } with
  | .error _ => none
  | .ok r => valueText r

/-- src/resource/ubr.c:5328-5364 `_get_base_mod_name`: the name of the module (NULL: `none`) and the database -/
def baseModName (db : Ubr.Db) (c : Ubr.Ctx) (sys : Sys) (name : Option Str) (type : DevType) (depth : Nat) (major : BitVec 32) :
    Option (Option Str × Ubr.Db) :=
  match remembered db c with
  | some m => some (some m, db)
  | none =>
    (lookup sys name type depth major).bind fun
      | none => some (none, db)
      | some m =>
        (Ubr.doKvSet db c Ubr.core none ⟨.device, keyMod, some (m ++ [0]), flagsCore⟩).map fun r =>
          (if r.1 < 0 then none else some m, r.2)

end Sid.Mod
