import Verif.Model.UbrDelta
/-
Model of the exchange of records between workers and the main process in /repo/src/resource/ubr.c: the export of the records
to be synchronised (1292-1605) and their import into the main store (6401-6737).

Simplifications: memory allocation and buffers succeed; the bytes of the message are in Model/UbrCodec.lean, here it is the
list of the records; the iterator over the index gives the keys of the index (that is what C17 proves of the B+ tree under
it).  Undefined behaviour is `none`.
-/
namespace Sid.Ubr
open Sid.Ifc (txt)

/-! ### export from a worker -/

/-- src/resource/ubr.c:1357, 1372 the flag SYNC cleared in place -/
def Rec.clear (r : Rec) : Rec := { r with flags := r.flags &&& ~~~flSync }

/-- src/resource/ubr.c:1385-1436 a udev record of the reply: `name=value`, if there is a value that is not the empty string
    (the value of a string ends with NUL) -/
def udevLine (key : Str) (data : List UInt8) : Option (Str × Str) :=
  if data.length > 1 ∧ data.head? ≠ some 0 then
    some ((getKeyPart key 6).getD [], data.takeWhile (· ≠ 0))
  else none

/-- src/resource/ubr.c:1292-1575: What `_build_cmd_kv_buffers` leaves: store, records for the main process, properties for udev, keys to be unset (records
    and index entries) -/
structure Out where
  db : Db
  recs : List (Str × Rec) := []
  udev : List (Str × Str) := []
  unset : List Str := []
  unindex : List Str := []

/-- src/resource/ubr.c:1346-1546 one round of the loop with the flags of the command "scan"
    (CMD_KV_EXPORT_UDEV_TO_RESBUF | CMD_KV_EXPORT_SID_TO_EXPBUF | CMD_KV_EXPBUF_TO_MAIN | CMD_KV_EXPORT_SYNC) for an index
    entry; `none`: the command fails.  The entry and the record share the value; the index has no entry without a record. -/
def exportOne (o : Out) (key : Str) : Option Out :=
  match o.db.recs key with
  | none => some o
  | some r =>
    if has r.flags flSync then
      let db := o.db.put key (some r.clear)
      if nsFromKey key = .udev then
        match r.val with
        | .vector _ => none
        | .scalar d => some ⟨db, o.recs, o.udev ++ (udevLine key d).toList, o.unset, o.unindex ++ [key]⟩
      else
        some ⟨db, o.recs ++ [(key, r.clear)], o.udev,
          (if opFromKey key = .set then o.unset else o.unset ++ [key]), o.unindex ++ [key]⟩
    else some o

/-- src/resource/ubr.c:1346-1546 the loop over the entries of the index -/
def exportLoop : Out → List Str → Option Out
  | o, [] => some o
  | o, k :: l => (exportOne o k).bind fun o => exportLoop o l

/-- src/resource/ubr.c:1577-1605 `_process_cmd_unsbuf`, called when the stage ends (6022-6023) -/
def endStage (o : Out) : Db where
  recs := fun k => if k ∈ o.unset then none else o.db.recs k
  idx := fun k => if k ∈ o.unindex then false else o.db.idx k

/-! ### import into the main store -/

/-- src/resource/ubr.c:6401-6435 `_kv_cb_main_unset`: may the record go? -/
def mainUnsetOk (old : Option Rec) (seqnum : Nat) (owner : Str) : Bool :=
  match old with
  | none => true
  | some o => (seqnum = 0 || o.seqnum ≤ seqnum) && !(wrAllowed (some o) owner < 0)

/-- src/resource/ubr.c:6437-6475 `_kv_cb_main_set`: may the record be written? -/
def mainSetOk (old : Option Rec) (new : Rec) : Bool :=
  match old with
  | none => true
  | some o => (new.seqnum = 0 || o.seqnum ≤ new.seqnum) && !(wrAllowed (some o) new.owner < 0)

/-- src/resource/ubr.c:6477-6490 `_compose_archive_key` -/
def archKey (key : Str) : Str := opArchive ++ key

/-- src/resource/kvs.c:797-846 `sid_kvs_unset` in a transaction with `_kv_cb_main_unset`, without archive -/
def mainUnset (t : Tx) (key : Str) (seqnum : Nat) (owner : Str) : Tx :=
  if mainUnsetOk (t.db.recs key) seqnum owner then { t with unsetRecs := key :: t.unsetRecs } else t

/-- src/resource/kvs.c:797-846 the same with an archive key: the old record is there at once -/
def mainUnsetAr (t : Tx) (key : Str) (seqnum : Nat) (owner : Str) : Tx :=
  if mainUnsetOk (t.db.recs key) seqnum owner then
    ⟨if (t.db.recs key).isSome then t.db.put (archKey key) (t.db.recs key) else t.db, key :: t.unsetRecs, t.unsetIdx⟩
  else t

/-- src/resource/kvs.c:534-607 `sid_kvs_set` with `_kv_cb_main_set`, with and without archive key -/
def mainSet (t : Tx) (key : Str) (r : Rec) (archive : Bool) : Tx :=
  if mainSetOk (t.db.recs key) r then
    let db := t.db.put key (some r)
    { t with db := if archive && (t.db.recs key).isSome then db.put (archKey key) (t.db.recs key) else db }
  else t

/-- src/resource/ubr.c:6571, 6622-6624: does the record ask for its key to be unset? -/
def wantsUnset (r : Rec) : Bool :=
  match r.val with
  | .vector l => !has r.flags flRs && l = []
  | .scalar d => r.flags ≠ flRs && d = []

/-- src/resource/ubr.c:6492-6737 `_sync_main_kv_store` inside the loop; `stale`: `update_arg.custom` no longer points to the
    description of the delta (6646, 6677, 6704) -/
structure Main where
  tx : Tx
  stale : Bool := false

/-- src/resource/ubr.c:6643-6664, a record that unsets its key -/
def importUnset (t : Tx) (key : Str) (r : Rec) : Tx :=
  if has r.flags flAr then mainUnsetAr t key r.seqnum r.owner
  else mainUnset (mainUnset t key r.seqnum r.owner) (archKey key) r.seqnum r.owner

/-- src/resource/ubr.c:6665-6686, a record that replaces the one of its key -/
def importSet (t : Tx) (key : Str) (r : Rec) : Tx :=
  if has r.flags flAr then mainSet t key r true
  else mainUnset (mainSet t key r false) (archKey key) r.seqnum r.owner

/-- src/resource/ubr.c:6687-6718, a record of items added or removed.  If the write is denied there is no final value. -/
def importDelta (m : Main) (key : Str) (op : KvOp) (r : Rec) (items : List Str) : Option Main :=
  if m.stale then none
  else
    (deltaStep m.tx true key op ⟨r.seqnum, r.flags, r.gennum, r.owner⟩ items).bind fun s =>
    if wrAllowed (m.tx.db.recs key) r.owner < 0 then none
    else if !has r.flags flRs && s.2.2.final = [] then some ⟨mainUnset s.2.1 key r.seqnum r.owner, true⟩
    else some ⟨s.2.1, false⟩

/-- src/resource/ubr.c:6584, 6636: what a record under a key does to the one in the main store -/
def recOp (key : Str) (r : Rec) : KvOp :=
  match r.val with
  | .vector _ => opFromKey key
  | .scalar _ => .set

/-- src/resource/ubr.c:6584-6593 the key of the record in the main store -/
def mainKey (key : Str) (op : KvOp) : Str := if op = .set then key else key.drop 1

/-- src/resource/ubr.c:6643-6719 the branches, with the operation and the key in the main store -/
def importAs (m : Main) (op : KvOp) (key : Str) (r : Rec) : Option Main :=
  if wantsUnset r then some ⟨importUnset m.tx key r, true⟩
  else if op = .set then some ⟨importSet m.tx key r, m.stale || !has r.flags flAr⟩
  else
    match r.val with
    | .vector l => importDelta m key op r l
    | .scalar _ => none

/-- src/resource/ubr.c:6535-6723 one round of the loop -/
def importRec (m : Main) (key : Str) (r : Rec) : Option Main :=
  importAs m (recOp key r) (mainKey key (recOp key r)) r

/-- src/resource/ubr.c:6534-6723 the loop -/
def importLoop : Main → List (Str × Rec) → Option Main
  | m, [] => some m
  | m, x :: l => (importRec m x.1 x.2).bind fun m => importLoop m l

/-- src/resource/ubr.c:6492-6737 `_sync_main_kv_store` of the records of a message -/
def syncMain (db : Db) (msg : List (Str × Rec)) : Option Db :=
  (importLoop ⟨⟨db, [], []⟩, false⟩ msg).map fun m => m.tx.done

/-- model only, for src/resource/ubr.c:6492-6737: messages one after the other -/
def syncAll : Db → List (List (Str × Rec)) → Option Db
  | db, [] => some db
  | db, msg :: l => (syncMain db msg).bind fun db => syncAll db l

end Sid.Ubr
