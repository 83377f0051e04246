import Verif.Model.UbrGen
/-
The boot identifier at a start of the daemon: src/resource/ubr.c:7307-7345, src/internal/util.c:557-591.

Simplifications: memory and the key-value store do not fail; the level of the log is such that the previous identifier is formatted.
-/
namespace Sid.Ubr
open Sid.Ifc (txt)

/-- src/resource/ubr.c:84, 7316: the key of the boot identifier (`KV_KEY_BOOT_ID` is "#BOOTID") as the store keeps it -/
def bootKey : Str := Kvs.canon (composeKey { ns := .global, core := some (txt "#BOOTID") })

/-- src/internal/util.c:572: what `fgets` takes from a file for at most `n` bytes: up to and with the first newline -/
def fgetsTake : Nat → List UInt8 → List UInt8
  | 0, _ => []
  | _, [] => []
  | n + 1, c :: s => if c = 10 then [c] else c :: fgetsTake n s

/-- src/internal/util.c:557-591 `util_uuid_get_boot_id` with a buffer of 37 bytes (`UUID_STR_LEN`) that contains `junk`: the buffer after
    it or an error.  `file`: the error of `fopen`, or what is in the file. -/
def getBootId (junk : List UInt8) (file : Except Int (List UInt8)) : Except Int (List UInt8) :=
  match file with
  | .error e => .error e
  | .ok [] => .error (-1)
  | .ok s => .ok (fgetsTake 36 s ++ [0] ++ junk.drop ((fgetsTake 36 s).length + 1))

/-- src/resource/ubr.c:7335-7336: the record of the boot identifier: all of the buffer -/
def bootRec (gen : Nat) (buf : List UInt8) : Rec := ⟨0, flagsNoSync, gen, core, .scalar buf⟩

/-- src/resource/ubr.c:7319-7330: can the previous identifier be read and logged as a string?  A vector, or bytes without an end, are read
    anyway. -/
def readable : Option Rec → Bool
  | none => true
  | some r =>
    match r.val with
    | .vector _ => false
    | .scalar d => d.contains 0

/-- src/resource/ubr.c:7307-7345 `_set_up_boot_id`: `none` is undefined behaviour -/
def setUpBoot (db : Db) (gen : Nat) (junk : List UInt8) (file : Except Int (List UInt8)) : Option (Int × Db) :=
  match getBootId junk file with
  | .error e => some (e, db)
  | .ok buf =>
    if readable (db.recs bootKey) then some (0, db.put bootKey (some (bootRec gen buf))) else none

/-- src/resource/ubr.c:7515-7519: the database at a start of the daemon: loaded, with generation number and boot identifier; `none` in `ok`
    if the daemon does not start -/
def startBoot (file : Option (List UInt8)) (junk : List UInt8) (boot : Except Int (List UInt8)) : Parsed (Option (Nat × Db)) :=
  (start file).bind fun x =>
    match setUpBoot x.2 x.1 junk boot with
    | none => .ub
    | some (r, db) => if r < 0 then .ok none else .ok (some (x.1, db))

end Sid.Ubr
