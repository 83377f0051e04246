import Verif.Model.UbrDb
import Verif.Model.BpTree
/-
Model of the database of /repo/src/resource/ubr.c on the store it really uses: the values in memory, the B+ tree of
/repo/src/internal/bptree.c that leads from keys to values (order 4, ubr.c:7483), and the index of records to be synchronised as
aliases '>' ++ key in that tree (ubr.c:950-989).  Model/UbrDb.lean has a map and a set instead.

Simplifications: memory allocation succeeds; no transaction is open (the calls modelled here open none; changes of
groups do, ubr.c:2472); a value in memory is a record of
Model/UbrDb.lean, known by its address; the sizes kept in the tree are not looked at and are 0.  Freeing what is not there and
reading what is not there any more is `none`.
-/
namespace Sid.UbrIdx
open Sid.Ubr

/-- src/resource/kvs.c:25-34 `struct kv_store`: the tree, the values in memory by address, and the next address that is free -/
structure St where
  tree : Bpt.Bpt
  vals : Nat → Option Rec
  next : Nat

/-- src/resource/kvs.c:1316-1348, src/resource/ubr.c:7483: an empty store; address 0 is NULL -/
def init (order : Nat) : Option St := (Bpt.create order).map fun t => ⟨t, fun _ => none, 1⟩

/-- src/resource/kvs.c:213-330 `_create_kv_store_value`: the value at address `s.next` -/
def alloc (s : St) (r : Rec) : St := { s with vals := fun i => if i = s.next then some r else s.vals i, next := s.next + 1 }

/-- src/resource/kvs.c:118-162 `_destroy_kv_store_value` -/
def release (s : St) (a : Nat) : Option St :=
  (s.vals a).map fun _ => { s with vals := fun i => if i = a then none else s.vals i }

/-- src/resource/kvs.c:118-124 `_destroy_kv_store_value` of NULL does nothing -/
def release? (s : St) : Option Nat → Option St
  | none => some s
  | some a => release s a

/-- src/internal/bptree.c:882-938, src/resource/kvs.c:470-487: the address of the value at a key -/
def addrOf (s : St) (key : Str) : Option (Option Nat) := (Bpt.lookup s.tree key).map fun o => o.map (·.data)

/-- src/resource/kvs.c:635-678 `sid_kvs_get` -/
def fetch (s : St) (key : Str) : Option (Option Rec) :=
  (addrOf s (Kvs.canon key)).bind fun o =>
    match o with
    | none => some none
    | some a => (s.vals a).map some

/-- src/resource/kvs.c:500-533 `_set_value` with an update that is accepted: the tree leads to the value at `a` -/
def point (s : St) (key : Str) (a : Nat) : Option St :=
  (Bpt.update s.tree key fun _ => .write a 0).map fun t => { s with tree := t }

/-- src/resource/kvs.c:411-446, 583-609: what becomes of the old value: it moves to the archive and the value there is destroyed, or it
    is destroyed itself (in the code before the tree is changed) -/
def retire (s : St) (arch : Option Str) (old : Option Nat) : Option St :=
  match arch, old with
  | none, old => release? s old
  | some _, none => some s
  | some ak, some a =>
    (addrOf s (Kvs.canon ak)).bind fun oa => (point s (Kvs.canon ak) a).bind fun s => release? s oa

/-- src/resource/kvs.c:537-613 `sid_kvs_set` with a callback that says yes or no to the old value; also the old value and whether the
    new one is stored.  A refused value is destroyed. -/
def kvsSet (s : St) (key : Str) (arch : Option Str) (ok : Option Rec → Bool) (r : Rec) : Option (Option Rec × Bool × St) :=
  (fetch s key).bind fun old =>
  (addrOf s (Kvs.canon key)).bind fun oa =>
  if ok old then
    (point (alloc s r) (Kvs.canon key) s.next).bind fun s1 => (retire s1 arch oa).map fun s2 => (old, true, s2)
  else (release (alloc s r) s.next).map fun s1 => (old, false, s1)

/-- src/resource/kvs.c:680-735 `_unset_fn` accepted: the value is destroyed with its last name -/
def lastName (x : Bpt.Rec) : Option Nat := if x.refs = 1 then some x.data else none

/-- src/resource/kvs.c:797-846 `sid_kvs_unset` without archive and with a callback that says yes or no to the old value -/
def kvsUnset (s : St) (key : Str) (ok : Option Rec → Bool) : Option (Bool × St) :=
  (fetch s key).bind fun old =>
  (Bpt.lookup s.tree (Kvs.canon key)).bind fun x =>
  if ok old then
    (release? s (x.bind lastName)).bind fun s1 =>
      (Bpt.update s1.tree (Kvs.canon key) fun _ => .remove).map fun t => (true, { s1 with tree := t })
  else some (false, s)

/-- src/resource/kvs.c:615-633 `sid_kvs_add_alias` -/
def addAlias (s : St) (key alias : Str) : Option St :=
  (Bpt.addAlias s.tree (Kvs.canon key) (Kvs.canon alias) false).map fun x => { s with tree := x.2 }

/-- src/resource/ubr.c:950-967 `_check_kv_index_needed`: does the record carry the flag? -/
def synced (r : Option Rec) : Bool := r.any fun r => has r.flags flSync

/-- src/resource/ubr.c:950-967 `_check_kv_index_needed` and 969-989 `_manage_kv_index`; `key` is the key without the blank
    it begins with.  Failures are not looked at. -/
def manageIndex (s : St) (isSync : Bool) (key : Str) (old new : Option Rec) : Option St :=
  if isSync then some s
  else
    match synced old, synced new with
    | true, false => (kvsUnset s (opSync ++ key) fun _ => true).map (·.2)
    | false, true => addAlias s key (opSync ++ key)
    | _, _ => some s

/-- model only, for src/resource/ubr.c:1630-1635, 2595-2600: what a lookup found, as a database -/
def found (o : Option Rec) : Db := ⟨fun _ => o, fun _ => false⟩

/-- src/resource/ubr.c:1607-1662 `_check_global_kv_rs_for_wr` -/
def globalRs (s : St) (owner : Str) (dom : Option Str) (ns : Ns) (key : Str) : Option Int :=
  (fetch s (composeKey (rsvSpec dom ns key))).bind fun o => Ubr.globalRs (found o) owner dom ns key

/-- src/resource/ubr.c:2547-2566 set, archive and index of a record -/
def writeRec (s : St) (key : Str) (owner : Str) (r : Rec) : Option (Bool × St) :=
  (kvsSet s key (if has r.flags flAr then some (opArchive ++ key) else none) (fun old => decide (0 ≤ wrAllowed old owner)) r).bind
    fun x => if x.2.1 then (manageIndex x.2.2 false key x.1 (some r)).map fun s => (true, s) else some (false, x.2.2)

/-- src/resource/ubr.c:2485-2574 `_do_sid_ucmd_kv_set`: return code and store.  A denied set of a value dereferences the
    value that is not there. -/
def doKvSet (s : St) (c : Ctx) (owner : Str) (dom : Option Str) (a : SetArgs) : Option (Int × St) :=
  (if a.ns = .udev ∧ owner = core then some 0 else globalRs s owner dom a.ns a.key).bind fun g =>
  if g < 0 then some (g, s)
  else
    (writeRec s ((composeKey (setSpec c owner dom a.ns a.key)).drop 1) owner (setRec c owner a)).bind fun x =>
      if a.value.isSome ∧ x.1 = false then none else some (0, x.2)

/-- src/resource/ubr.c:2576-2591 `sid_ucmd_kv_set` -/
def kvSet (s : St) (c : Ctx) (owner : Str) (a : SetArgs) : Option (Int × St) :=
  if argsOk a.ns a.key then doKvSet s c owner (domOf a.ns) a else some (-22, s)

/-- src/resource/ubr.c:2593-2666, 2833-2858, 2860-2890 `sid_ucmd_kv_get` -/
def kvGet (s : St) (c : Ctx) (owner : Str) (a : GetArgs) : Option (Except Int Rec) :=
  if argsOk a.ns a.key then
    (fetch s (composeKey (getSpec c owner (domOf a.ns) a.ns a.key a.fmod a.fdev a.archive))).map fun o =>
      doKvGet (found o) c owner (domOf a.ns) a
  else some (.error (-22))

/-- src/resource/ubr.c:2936-2950 the record of a reservation stored, and the index; the answer of the callback is not looked at -/
def reserveRec (s : St) (isWorker : Bool) (key : Str) (owner : Str) (r : Rec) : Option (Int × St) :=
  (kvsSet s key none (fun old => rsvAllowed old owner) r).bind fun x =>
    if x.2.1 then (manageIndex x.2.2 (!isWorker) (key.drop 1) x.1 (some r)).map fun s => (0, s) else some (0, x.2.2)

/-- src/resource/ubr.c:2892-2956 `_do_sid_ucmd_mod_reserve_kv` -/
def doReserve (s : St) (c : Ctx) (isWorker : Bool) (owner : Str) (dom : Option Str) (ns : Ns) (name : Str) (flags : Flags)
    (unset : Bool) : Option (Int × St) :=
  if unset && !isWorker then
    (kvsUnset s (composeKey (rsvSpec dom ns name)) fun old => rsvAllowed old owner).map fun x => (if x.1 then 0 else -1, x.2)
  else if has flags flAlign then none
  else reserveRec s isWorker (composeKey (rsvSpec dom ns name)) owner (rsvRec c owner flags unset)

/-- src/resource/ubr.c:2958-2989 `sid_ucmd_kv_reserve` and `sid_ucmd_kv_unreserve` -/
def kvReserve (s : St) (c : Ctx) (isWorker : Bool) (owner : Str) (ns : Ns) (name : Str) (flags : Flags) (unset : Bool) :
    Option (Int × St) :=
  if name != [] && name.head? != some sysChar then doReserve s c isWorker owner (domOf ns) ns name flags unset
  else some (-22, s)

/-- model only, for src/resource/ubr.c:2576-2591, 2957-2989: a call of a module -/
def call (isWorker : Bool) (s : St) (owner : Str) : Call → Option (Int × St)
  | .set c a => kvSet s c owner a
  | .reserve c ns name flags => kvReserve s c isWorker owner ns name flags false
  | .unreserve c ns name => kvReserve s c isWorker owner ns name 0 true

/-- model only, for src/resource/ubr.c:2576-2591, 2957-2989: calls of modules one after the other -/
def calls (isWorker : Bool) : St → List (Str × Call) → Option St
  | s, [] => some s
  | s, (owner, x) :: l => (call isWorker s owner x).bind fun r => calls isWorker r.2 l

/-- src/resource/kvs.c:1055-1133, 1211-1231, src/resource/ubr.c:1325-1330, 1394-1404: the walk over the index: the records under the prefix
    '>', each with its key without the prefix -/
def walkIndex (s : St) (fuel : Nat) : Option (List (Str × Rec)) :=
  (Bpt.iterAll s.tree fuel ⟨true, some opSync, none, none, 0⟩).bind fun l =>
    l.mapM fun x => (s.vals x.2.data).map fun r => (x.1.drop 1, r)

end Sid.UbrIdx
