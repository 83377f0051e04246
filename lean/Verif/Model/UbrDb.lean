import Verif.Model.UbrKey
/-
Model of the records of the database in /repo/src/resource/ubr.c and of the calls by which modules write, read and reserve
them (950-1174, 1607-1662, 2485-2666, 2833-2989).

Simplifications: memory allocation succeeds; the store is a map from keys to records (that is what C19 and C21 prove of
kvs.c and C15 of the B+ tree under it), and the index of records to be synchronised, kept as aliases '>' ++ key of the records,
is a set of keys: key and alias share the record (C18).  Instead of the bytes of a record its header fields and data are
kept.  Calls that end in an assertion failure or dereference NULL are `none`.
-/
namespace Sid.Ubr
open Sid.Ifc (txt)

/-! ### records -/

/-- src/include/resource/ucmd-mod.h:160 `sid_kv_flags_t` -/
abbrev Flags := BitVec 64

/-- src/include/resource/ucmd-mod.h:140 -/
def flAlign : Flags := 0x1
/-- src/include/resource/ucmd-mod.h:142 -/
def flSync : Flags := 0x2
/-- src/include/resource/ucmd-mod.h:143 -/
def flPersist : Flags := 0x4
/-- src/include/resource/ucmd-mod.h:144 -/
def flSyncP : Flags := 0x6
/-- src/include/resource/ucmd-mod.h:146 -/
def flAr : Flags := 0x8
/-- src/include/resource/ucmd-mod.h:148 -/
def flRs : Flags := 0x10
/-- src/include/resource/ucmd-mod.h:150 -/
def flFrgRd : Flags := 0x20
/-- src/include/resource/ucmd-mod.h:151 -/
def flSubRd : Flags := 0x40
/-- src/include/resource/ucmd-mod.h:152 -/
def flSupRd : Flags := 0x80
/-- src/include/resource/ucmd-mod.h:155 -/
def flFrgWr : Flags := 0x100
/-- src/include/resource/ucmd-mod.h:156 -/
def flSubWr : Flags := 0x200
/-- src/include/resource/ucmd-mod.h:157 -/
def flSupWr : Flags := 0x400

/-- src/resource/ubr.c:1022-1111: `flags & bit` as a condition -/
def has (f bit : Flags) : Bool := f &&& bit != 0

/-- What a record holds: bytes, or a list of strings (src/resource/ubr.c:1292-1300 scalar and vector values) -/
inductive Value
  | scalar (data : List UInt8)
  | vector (items : List Str)
  deriving DecidableEq, Repr

/-- src/resource/ubr.c:319-349 header and data of a record -/
structure Rec where
  seqnum : Nat
  flags : Flags
  gennum : Nat
  owner : Str
  val : Value
  deriving DecidableEq, Repr

/-- The database: records by key (as the store keeps it, without leading blanks), and the keys that are in the index of
    records to be synchronised (src/resource/ubr.c:113-120 `kvs_res`) -/
structure Db where
  recs : Str → Option Rec
  idx : Str → Bool

/-- model only, for src/resource/ubr.c:119-126: an empty database -/
def Db.empty : Db := ⟨fun _ => none, fun _ => false⟩

/-- model only, for src/resource/ubr.c:2485-2574: a record replaced -/
def Db.put (db : Db) (key : Str) (r : Option Rec) : Db := { db with recs := fun k => if k = key then r else db.recs k }

/-- model only, for src/resource/ubr.c:969-989: an index entry replaced -/
def Db.mark (db : Db) (key : Str) (b : Bool) : Db := { db with idx := fun k => if k = key then b else db.idx k }

/-! ### who may write -/

/-- src/resource/ubr.c:385-391 `mod_match_t` -/
inductive Match
  | no | same | core | sub | sup
  deriving DecidableEq, Repr

/-- src/resource/ubr.c:1001-1019 `_mod_match` behind the loop: `i` equal characters, then the rests of both names -/
def matchRest (i : Nat) (r1 r2 : Str) : Match :=
  if r1 = [] ∧ r2 = [] then .same
  else if i ≠ 0 ∧ r2 ≠ [] then
    if i = 1 ∨ r2.head? = some 47 then .sub else .no
  else if i ≠ 0 ∧ r1 ≠ [] then
    if i = 1 ∨ r1.head? = some 47 then .sup else .no
  else .no

/-- src/resource/ubr.c:998-999 the loop of `_mod_match` -/
def matchFrom : Nat → Str → Str → Match
  | i, a :: r1, b :: r2 => if a = b then matchFrom (i + 1) r1 r2 else matchRest i (a :: r1) (b :: r2)
  | i, r1, r2 => matchRest i r1 r2

/-- src/resource/ubr.c:991-1020 `_mod_match` -/
def modMatch (mod1 mod2 : Str) : Match :=
  if mod2 = core then .core else matchFrom 0 mod1 mod2

/-- src/resource/ubr.c:1047-1059, 1064-1077, 1080-1093 one case of `_check_kv_wr_allowed`: -EBUSY for reserved, -EPERM for
    read-only, -EACCES for private records -/
def wrCase (flags wr rd : Flags) : Int :=
  if has flags wr then 1
  else if has flags flRs then -16
  else if has flags rd then -1
  else -13

/-- src/resource/ubr.c:1022-1111 `_check_kv_wr_allowed` -/
def wrAllowed (old : Option Rec) (newOwner : Str) : Int :=
  match old with
  | none => 0
  | some o =>
    match modMatch o.owner newOwner with
    | .no => wrCase o.flags flFrgWr flFrgRd
    | .same => 1
    | .core => 1
    | .sub => wrCase o.flags flSubWr flSubRd
    | .sup => wrCase o.flags flSupWr flSupRd

/-- src/resource/ubr.c:950-967 `_check_kv_index_needed` and 969-989 `_manage_kv_index`: the index entry of the key follows the
    change of the flag (in the main process, `isSync`, it does not) -/
def manageIndex (db : Db) (isSync : Bool) (key : Str) (old new : Option Rec) : Db :=
  if isSync then db
  else
    match (old.any fun r => has r.flags flSync), (new.any fun r => has r.flags flSync) with
    | true, false => db.mark key false
    | false, true => db.mark key true
    | _, _ => db

/-! ### set -/

/-- src/include/resource/ucmd-mod.h:165-172 `struct sid_ucmd_kv_set_args`: namespace, name, the bytes of the value
    (of a string including its NUL; `none`: NULL or SID_UCMD_KV_UNSET) and flags -/
structure SetArgs where
  ns : Ns
  key : Str
  value : Option (List UInt8)
  flags : Flags := 0
  deriving DecidableEq, Repr

/-- src/resource/ubr.c:1634-1635, 865-867 reading a record with room for an unaligned one only: an aligned one that is no
    vector fails an assertion -/
def alignClash (r : Rec) : Bool :=
  match r.val with
  | .scalar _ => has r.flags flAlign
  | .vector _ => false

/-- src/resource/ubr.c:1641-1653 what `_check_global_kv_rs_for_wr` returns for a reserved record; nonzero means yes -/
def rsAllows (flags : Flags) : Match → Int
  | .no => (flags &&& flFrgWr).toNat
  | .same => 1
  | .core => 1
  | .sub => (flags &&& flSubWr).toNat
  | .sup => (flags &&& flSupWr).toNat

/-- src/resource/ubr.c:1607-1662 `_check_global_kv_rs_for_wr` -/
def globalRs (db : Db) (owner : Str) (dom : Option Str) (ns : Ns) (key : Str) : Option Int :=
  if ns ≠ .udev ∧ ns ≠ .device then some 1
  else
    match db.recs (Kvs.canon (composeKey (rsvSpec dom ns key))) with
    | none => some 1
    | some r =>
      if alignClash r then none
      else if has r.flags flRs then some (rsAllows r.flags (modMatch r.owner owner))
      else some 1

/-- src/resource/ubr.c:2533-2545 the record of a set -/
def setRec (c : Ctx) (owner : Str) (a : SetArgs) : Rec :=
  ⟨c.seqnum, if a.ns = .udev then a.flags ||| flSyncP else a.flags, c.gennum, owner, .scalar (a.value.getD [])⟩

/-- src/resource/ubr.c:2547-2566 the store after an accepted set: record, archive of the old one, index.  The archive is the
    key with its blank replaced by '~'. -/
def writeRec (db : Db) (key : Str) (r : Rec) : Db :=
  let db1 := db.put key (some r)
  let db2 := if has r.flags flAr && (db.recs key).isSome then db1.put (opArchive ++ key) (db.recs key) else db1
  manageIndex db2 false key (db.recs key) (some r)

/-- src/resource/ubr.c:2485-2574 `_do_sid_ucmd_kv_set`: return code and database.  A denied set of a value dereferences the
    value that is not there. -/
def doKvSet (db : Db) (c : Ctx) (owner : Str) (dom : Option Str) (a : SetArgs) : Option (Int × Db) :=
  (if a.ns = .udev ∧ owner = core then some 0 else globalRs db owner dom a.ns a.key).bind fun g =>
  if g < 0 then some (g, db)
  else
    let key := (composeKey (setSpec c owner dom a.ns a.key)).drop 1
    if wrAllowed (db.recs key) owner < 0 then
      if a.value.isSome then none else some (0, db)
    else some (0, writeRec db key (setRec c owner a))

/-- src/resource/ubr.c:2576-2591 `sid_ucmd_kv_set` of a module of one of the two registries (-EINVAL for bad arguments) -/
def kvSet (db : Db) (c : Ctx) (owner : Str) (a : SetArgs) : Option (Int × Db) :=
  if argsOk a.ns a.key then doKvSet db c owner (domOf a.ns) a else some (-22, db)

/-! ### get -/

/-- src/resource/ubr.c:2615-2638 may the owner read the record? -/
def rdAllowed (r : Rec) (reader : Str) : Bool :=
  match modMatch r.owner reader with
  | .no => has r.flags flFrgRd
  | .same => true
  | .core => true
  | .sub => has r.flags flSubRd
  | .sup => has r.flags flSupRd

/-- src/resource/ubr.c:2593-2666 `_cmd_get_key_value`: the record found or the error (-ENOENT, -EPERM) -/
def getRec (db : Db) (owner key : Str) : Except Int Rec :=
  match db.recs (Kvs.canon key) with
  | none => .error (-2)
  | some r => if rdAllowed r owner then .ok r else .error (-1)

/-- src/include/resource/ucmd-mod.h:178-187 `struct sid_ucmd_kv_get_args` -/
structure GetArgs where
  ns : Ns
  key : Str
  fmod : Option Str := none
  fdev : Option Str := none
  archive : Nat := 0
  deriving DecidableEq, Repr

/-- src/resource/ubr.c:2833-2858 `_do_sid_ucmd_get_kv` -/
def doKvGet (db : Db) (c : Ctx) (owner : Str) (dom : Option Str) (a : GetArgs) : Except Int Rec :=
  getRec db owner (composeKey (getSpec c owner dom a.ns a.key a.fmod a.fdev a.archive))

/-- src/resource/ubr.c:2860-2890 `sid_ucmd_kv_get` of a module of one of the two registries -/
def kvGet (db : Db) (c : Ctx) (owner : Str) (a : GetArgs) : Except Int Rec :=
  if argsOk a.ns a.key then doKvGet db c owner (domOf a.ns) a else .error (-22)

/-! ### reservations -/

/-- src/resource/ubr.c:1130-1174 `_kv_cb_reserve`: only the module of the old record, or the core -/
def rsvAllowed (old : Option Rec) (owner : Str) : Bool :=
  match old with
  | none => true
  | some o => modMatch o.owner owner == .same || modMatch o.owner owner == .core

/-- src/resource/ubr.c:2926-2927, 2938 the record of a reservation: header only -/
def rsvRec (c : Ctx) (owner : Str) (flags : Flags) (unset : Bool) : Rec :=
  ⟨0, if unset then flags else flags ||| flRs ||| flSyncP, c.gennum, owner, .scalar []⟩

/-- src/resource/ubr.c:2892-2956 `_do_sid_ucmd_mod_reserve_kv`; the result of a denied set is not looked at.  The header of an
    aligned record does not fit (assertion in `_vvalue_header_prep`, 828-829). -/
def doReserve (db : Db) (c : Ctx) (isWorker : Bool) (owner : Str) (dom : Option Str) (ns : Ns) (name : Str) (flags : Flags)
    (unset : Bool) : Option (Int × Db) :=
  let key := Kvs.canon (composeKey (rsvSpec dom ns name))
  if unset && !isWorker then
    if rsvAllowed (db.recs key) owner then some (0, db.put key none) else some (-1, db)
  else if has flags flAlign then none
  else if rsvAllowed (db.recs key) owner then
    some (0, manageIndex (db.put key (some (rsvRec c owner flags unset))) (!isWorker) key (db.recs key)
      (some (rsvRec c owner flags unset)))
  else some (0, db)

/-- src/resource/ubr.c:2958-2974 `sid_ucmd_kv_reserve` -/
def kvReserve (db : Db) (c : Ctx) (isWorker : Bool) (owner : Str) (ns : Ns) (name : Str) (flags : Flags) :
    Option (Int × Db) :=
  if name != [] && name.head? != some sysChar then doReserve db c isWorker owner (domOf ns) ns name flags false
  else some (-22, db)

/-- src/resource/ubr.c:2976-2989 `sid_ucmd_kv_unreserve` -/
def kvUnreserve (db : Db) (c : Ctx) (isWorker : Bool) (owner : Str) (ns : Ns) (name : Str) : Option (Int × Db) :=
  if name != [] && name.head? != some sysChar then doReserve db c isWorker owner (domOf ns) ns name 0 true
  else some (-22, db)

/-! ### sequences of calls -/

/-- model only, for src/resource/ubr.c:2576-2591, 2957-2989: a call of a module that writes -/
inductive Call
  | set (c : Ctx) (a : SetArgs)
  | reserve (c : Ctx) (ns : Ns) (name : Str) (flags : Flags)
  | unreserve (c : Ctx) (ns : Ns) (name : Str)

/-- model only, for src/resource/ubr.c:2576-2591, 2957-2989: a call of a module in a worker or in the main process -/
def call (isWorker : Bool) (db : Db) (owner : Str) : Call → Option (Int × Db)
  | .set c a => kvSet db c owner a
  | .reserve c ns name flags => kvReserve db c isWorker owner ns name flags
  | .unreserve c ns name => kvUnreserve db c isWorker owner ns name

/-- model only, for src/resource/ubr.c:2576-2591, 2957-2989: calls of modules one after the other -/
def calls (isWorker : Bool) : Db → List (Str × Call) → Option Db
  | db, [] => some db
  | db, (owner, x) :: l => (call isWorker db owner x).bind fun r => calls isWorker r.2 l

end Sid.Ubr
