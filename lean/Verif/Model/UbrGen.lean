import Verif.Model.UbrCodec
/-
Model of the database over restarts of the daemon in /repo/src/resource/ubr.c: loading the database file (7144-7168), the
generation number (7274-7305) and writing the database file (1292-1575 with the flags of the internal command "s-dbdump",
5731-5735, which SIGUSR1 asks for, resource/sid.c:26-28).

Simplifications: memory allocation, buffers and the file system succeed; numbers are little endian; the file holds what was
written to it last (how it is written, and what a crash while it is written leaves, is in Model/Dump.lean).
-/
namespace Sid.Ubr
open Sid.Ifc (txt leBytes leNat)

/-- src/resource/ubr.c:83, 7281 the key of the generation number (`KV_KEY_DB_GENERATION` is "#DBGEN") as the store keeps it -/
def genKey : Str := Kvs.canon (composeKey { ns := .global, core := some (txt "#DBGEN") })

/-- src/resource/ubr.c:7277, 7294-7295 the record of the generation number -/
def genRec (n : Nat) : Rec := ⟨0, flagsNoSync ||| flAlign, n, core, .scalar (leBytes n 2)⟩

/-- src/resource/ubr.c:7284-7288 the generation number of this start from the record found: `gennum` is a `uint16_t`.  A vector
    or a record of less than two bytes is read anyway: undefined behaviour. -/
def nextGen : Option Rec → Option Nat
  | none => some 1
  | some r =>
    match r.val with
    | .vector _ => none
    | .scalar d => if d.length < 2 then none else some ((leNat (d.take 2) + 1) % 65536)

/-- src/resource/ubr.c:7274-7305 `_set_up_kv_store_generation`: generation number and store -/
def setUpGen (db : Db) : Option (Nat × Db) :=
  (nextGen (db.recs genKey)).map fun n => (n, db.put genKey (some (genRec n)))

/-- src/resource/ubr.c:7144-7168 `_load_kv_store` as called at 7515, where its result is not looked at: there is no file, or
    one that is refused and leaves nothing behind (the transaction is rolled back) -/
def loadFile : Option (List UInt8) → Parsed Db
  | none => .ok Db.empty
  | some b =>
    match syncBytes Db.empty b with
    | .ub => .ub
    | .bad => .ok Db.empty
    | .ok db => .ok db

/-- src/resource/ubr.c:7515-7517 the start of the daemon with a database file or without -/
def start (file : Option (List UInt8)) : Parsed (Nat × Db) :=
  (loadFile file).bind fun db =>
    match setUpGen db with
    | none => .ub
    | some x => .ok x

/-- src/resource/ubr.c:1381-1398 with CMD_KV_EXPORT_PERSISTENT: the records written -/
def savedRec (db : Db) (key : Str) : Option (Str × Rec) :=
  (db.recs key).bind fun r => if has r.flags flPersist then some (key, r) else none

/-- src/resource/ubr.c:1409-1420: a vector among the udev records ends the command without a file to be relied on -/
def udevVector (x : Str × Rec) : Bool :=
  nsFromKey x.1 = .udev &&
    match x.2.val with
    | .vector _ => true
    | .scalar _ => false

/-- src/resource/ubr.c:1292-1575 with the flags of "s-dbdump": the file written from a store with the keys `keys`, in the order
    of the iterator.  (The worker that writes it is a copy of the main process, so there is no index of records to be
    synchronised.) -/
def saveFile (db : Db) (keys : List Str) : Option (List UInt8) :=
  if (keys.filterMap (savedRec db)).any udevVector then none else some (message (keys.filterMap (savedRec db)))

end Sid.Ubr
