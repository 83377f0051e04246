import Verif.Model.Kvs
/-
Iterators of the key-value store, src/resource/kvs.c:1055-1314, and the statistics of the database,
src/resource/ubr.c:917-948.
-/
namespace Sid.Kvs

variable {σ ι : Type}

/-- src/resource/kvs.c:83-95, 1211-1231: the iterator of a backend: one step, giving the key and the address of the value reached (inner
    `none`: the end) -/
structure Walker (σ ι : Type) where
  next : σ → ι → Option (Option (Str × Nat) × ι)

/-- src/resource/kvs.c:1221-1223, 1115-1117, 1204-1205 the B+ tree's iterator -/
def bptWalker : Walker Bpt.Bpt Bpt.Iter where
  next b it := (Bpt.iterNext b it).map fun r => (r.1.map fun x => (x.1, x.2.data), r.2)

/-- src/resource/kvs.c:1066-1069, 1217-1219, 1111-1113, 1201-1202 the node of the hash table last seen.  The key of a node ends with the NUL
    it was stored with (512), which is no part of the string. -/
def hashWalker : Walker Hash.Table (Option Hash.Cursor) where
  next t it :=
    let c := match it with
      | none => some (Hash.getFirst t)
      | some c => ((Hash.chain t c.1)[c.2]?).map fun n => Hash.getNext t c n
    match c with
    | none => none
    | some none => some (none, none)
    | some (some c) => ((Hash.chain t c.1)[c.2]?).map fun n => (some (n.key.dropLast, n.data), some c)

/-- src/resource/kvs.c:1055-1097, 1257-1260 `sid_kvs_iter_create`, `sid_kvs_iter_reset` over a B+ tree -/
def bptIter (start stop : Option Str) : Bpt.Iter := ⟨false, start, stop, none, 0⟩

/-- src/resource/kvs.c:1099-1102, 1262-1265 `sid_kvs_iter_create_prefix`, `sid_kvs_iter_reset_prefix` over a B+ tree -/
def bptPrefix (p : Str) : Bpt.Iter := ⟨true, some p, none, none, 0⟩

/-- src/resource/kvs.c:1066-1069, 1240-1243 the same four over a hash table: start, end and prefix are not looked at -/
def hashIter (_start _stop : Option Str) : Option Hash.Cursor := none

/-- src/resource/kvs.c:1099-1102, 1262-1265 as above -/
def hashPrefix (_p : Str) : Option Hash.Cursor := none

/-- src/resource/kvs.c:110-116, 1132 is the pointer `sid_kvs_iter_next` returns NULL, although there is a value -/
def nullData (v : Val) : Bool := v.ref && v.payload.ptr == 0

/-- src/resource/kvs.c:1211-1231 `sid_kvs_iter_next`: key and value (inner `none`: NULL is returned); a value that is gone is undefined
    behaviour -/
def iterNext (W : Walker σ ι) (s : Store σ) (it : ι) : Option (Option (Str × Val) × ι) :=
  match W.next s.back it with
  | none => none
  | some (none, it') => some (none, it')
  | some (some (k, id), it') =>
    match s.vals id with
    | none => none
    | some v => some (if nullData v then none else some (k, v), it')

/-- src/resource/ubr.c:929-937, 1369, 4691 the loop of the users: `while (sid_kvs_iter_next(iter, ...))`; `none` if it is not over
    after `fuel` rounds -/
def iterLoop (W : Walker σ ι) (s : Store σ) : (fuel : Nat) → ι → Option (List (Str × Val))
  | 0, _ => none
  | fuel + 1, it =>
    match iterNext W s it with
    | none => none
    | some (none, _) => some []
    | some (some x, it') => (iterLoop W s fuel it').map (x :: ·)

/-- src/resource/kvs.c:1104-1133 what such a loop gets to see: keys, data, sizes and flags -/
def iterSeen (W : Walker σ ι) (s : Store σ) (fuel : Nat) (it : ι) : Option (List (Str × Got)) :=
  (iterLoop W s fuel it).map fun l => l.map fun x => (x.1, x.2.got)

/-! ### sizes -/

/-- src/resource/kvs.c:1135-1139 the four sizes of a value -/
structure Sizes where
  int : Nat
  intData : Nat
  ext : Nat
  extData : Nat
  deriving DecidableEq, Repr

/-- src/resource/kvs.c:1164-1167 the items of a vector; `mem`: what the caller's memory holds by now.  (A merged iovec has the lengths it
    had.) -/
def itemsOf (mem : Nat → List Bytes) : Payload → List Bytes
  | .copied items => items
  | .refd p => mem p
  | .merged _ items => items

/-- src/resource/kvs.c:1160-1174 data size, iovec size -/
def dataSizes (mem : Nat → List Bytes) (v : Val) : Nat × Nat :=
  if v.vec then ((((itemsOf mem v.payload).take v.size).map List.length).sum, v.size * 16) else (v.size, 0)

/-- src/resource/kvs.c:1135-1190 `sid_kvs_iter_current_size`.  (header 16, pointer 8, iovec 16 bytes) -/
def currentSize (mem : Nat → List Bytes) (v : Val) : Sizes :=
  let d := dataSizes mem v
  let base : Sizes := if v.alloc then ⟨d.1, d.1, 0, 0⟩ else ⟨0, 0, d.1, d.1⟩
  if v.ref then { base with int := base.int + (16 + 8), ext := base.ext + d.2 }
  else { base with int := base.int + 16 + d.2 }

/-- src/resource/ubr.c:456-464 `struct sid_dbstats` without `meta_size` -/
structure DbStats where
  pairs : Nat := 0
  keySize : Nat := 0
  int : Nat := 0
  intData : Nat := 0
  ext : Nat := 0
  extData : Nat := 0
  deriving DecidableEq, Repr

/-- src/resource/ubr.c:929-937 one round -/
def addStats (mem : Nat → List Bytes) (st : DbStats) (x : Str × Val) : DbStats :=
  let z := currentSize mem x.2
  ⟨st.pairs + 1, st.keySize + (x.1.length + 1), st.int + z.int, st.intData + z.intData, st.ext + z.ext, st.extData + z.extData⟩

/-- src/resource/ubr.c:917-948 `_write_kv_store_stats` for the daemon's store, a B+ tree: the statistics, and whether the message "kv-store size
    mismatch" is logged.  (Sums of 64 bits do not wrap: what is added up is in memory.) -/
def writeStats (mem : Nat → List Bytes) (s : Store Bpt.Bpt) (fuel : Nat) : Option (DbStats × Bool) :=
  (iterLoop bptWalker s fuel (bptIter none none)).map fun l =>
    let st := l.foldl (addStats mem) {}
    (st, st.int != s.back.dataSize)

end Sid.Kvs
