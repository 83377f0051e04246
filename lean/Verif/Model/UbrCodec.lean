import Verif.Model.UbrSync
/-
Model of the bytes exchanged between workers and the main process and kept in the database file:
/repo/src/resource/ubr.c 1463-1515 (writing) and 6492-6643 (reading).

Simplifications: numbers are little endian; `size_t` has 8 bytes; memory allocation and `mmap` succeed.  Reading behind the
end of the message is undefined.
-/
namespace Sid.Ubr
open Sid.Ifc (leBytes leNat)

/-! ### writing -/

/-- src/include/internal/mem.h:22 `MEM_ALIGN_UP_PAD(n, 8)` -/
def padSize (n : Nat) : Nat := (8 - n % 8) % 8

/-- src/resource/ubr.c:318-323 `kv_scalar_t` and its header -/
def headBytes (r : Rec) : List UInt8 := leBytes r.seqnum 8 ++ leBytes r.flags.toNat 8 ++ leBytes r.gennum 2

/-- src/resource/ubr.c:816-840, 341 the padding between owner and data of an aligned record -/
def padding (flags : Flags) (ownerSize : Nat) : Nat := if has flags flAlign then padSize (18 + ownerSize) else 0

/-- src/resource/ubr.c:816-851 the bytes of a record with one value, as the store merges them (kvs.c, C20) -/
def scalarBytes (r : Rec) (data : List UInt8) : List UInt8 :=
  headBytes r ++ r.owner ++ [0] ++ List.replicate (padding r.flags (r.owner.length + 1)) 0 ++ data

/-- src/resource/ubr.c:816-840, 327-334 the parts of a record with many values: header and items (all strings with NUL); such
    records are never aligned -/
def vectorItems (r : Rec) (items : List Str) : List (List UInt8) :=
  [leBytes r.seqnum 8, leBytes r.flags.toNat 8, leBytes r.gennum 2, r.owner ++ [0]] ++ items.map fun x => x ++ [0]

/-- src/resource/ubr.c:1496-1505 one part: size and bytes -/
def itemBytes (x : List UInt8) : List UInt8 := leBytes x.length 8 ++ x

/-- src/resource/ubr.c:1485-1515 the bytes of one record: flags of the store's value (SID_KVS_VAL_FL_VECTOR = 1), size of the
    key, size or count of the data, key, data -/
def recBytes (x : Str × Rec) : List UInt8 :=
  match x.2.val with
  | .scalar d =>
    leBytes 0 4 ++ leBytes (x.1.length + 1) 8 ++ leBytes (scalarBytes x.2 d).length 8 ++ (x.1 ++ [0]) ++ scalarBytes x.2 d
  | .vector l =>
    leBytes 1 4 ++ leBytes (x.1.length + 1) 8 ++ leBytes (vectorItems x.2 l).length 8 ++ (x.1 ++ [0]) ++
      (vectorItems x.2 l).flatMap itemBytes

/-- src/resource/ubr.c:1463-1515 and src/base/buf.c (size prefix): the message -/
def message (l : List (Str × Rec)) : List UInt8 :=
  leBytes (4 + (l.flatMap recBytes).length) 4 ++ l.flatMap recBytes

/-! ### reading -/

/-- model only, for src/resource/ubr.c:6492-6737: what reading gives: undefined behaviour, an error, a result -/
inductive Parsed (α : Type)
  | ub
  | bad
  | ok (a : α)
  deriving DecidableEq, Repr

/-- model only, for src/resource/ubr.c:6492-6737: go on with a result -/
def Parsed.bind {α β : Type} : Parsed α → (α → Parsed β) → Parsed β
  | .ub, _ => .ub
  | .bad, _ => .bad
  | .ok a, f => f a

/-- model only, for src/resource/ubr.c:6492-6737: `memcpy` of `n` bytes and the rest -/
def takeB (n : Nat) (p : List UInt8) : Parsed (List UInt8 × List UInt8) :=
  if n ≤ p.length then .ok (p.take n, p.drop n) else .ub

/-- model only, for src/resource/ubr.c:6492-6737: a string at `p` -/
def cstrAt (p : List UInt8) : Parsed Str := if 0 ∈ p then .ok (p.takeWhile (· ≠ 0)) else .ub

/-- src/resource/ubr.c:6567-6571 the parts of a vector: for each its size and what is in memory from its start -/
def readItems : Nat → List UInt8 → Parsed (List (Nat × List UInt8) × List UInt8)
  | 0, p => .ok ([], p)
  | n + 1, p =>
    (takeB 8 p).bind fun a =>
    (takeB (leNat a.1) a.2).bind fun b =>
    (readItems n b.2).bind fun c => .ok ((leNat a.1, a.2) :: c.1, c.2)

/-- src/resource/ubr.c:6572-6589: an item as a string: up to its NUL (simplified: a part without NUL is taken as a whole) -/
def itemStr (x : Nat × List UInt8) : Str := (x.2.take x.1).takeWhile (· ≠ 0)

/-- src/resource/ubr.c:6572-6589 the record of a vector's parts -/
def vectorRec : List (Nat × List UInt8) → Parsed Rec
  | s :: f :: g :: o :: items =>
    (takeB 8 s.2).bind fun s => (takeB 8 f.2).bind fun f => (takeB 2 g.2).bind fun g => (cstrAt o.2).bind fun o =>
    .ok ⟨leNat s.1, BitVec.ofNat 64 (leNat f.1), leNat g.1, o, .vector (items.map itemStr)⟩
  | _ => .bad

/-- src/resource/ubr.c:6557-6589 a vector of `n` parts -/
def readVector (n : Nat) (p : List UInt8) : Parsed (Rec × List UInt8) :=
  if n < 4 then .bad
  else (readItems n p).bind fun x => (vectorRec x.1).bind fun r => .ok (r, x.2)

/-- src/resource/ubr.c:6624-6643, 1181-1189 the record of a scalar's bytes -/
def scalarRec (b : List UInt8) : Parsed Rec :=
  (cstrAt (b.drop 18)).bind fun owner =>
  let flags : Flags := BitVec.ofNat 64 (leNat ((b.drop 8).take 8))
  let off := 18 + (owner.length + 1) + padding flags (owner.length + 1)
  if b.length < off then .ub
  else .ok ⟨leNat (b.take 8), flags, leNat ((b.drop 16).take 2), owner, .scalar (b.drop off)⟩

/-- src/resource/ubr.c:6610-6643 a scalar of `n` bytes -/
def readScalar (n : Nat) (p : List UInt8) : Parsed (Rec × List UInt8) :=
  if n ≤ 18 then .bad
  else (takeB n p).bind fun a => (scalarRec a.1).bind fun r => .ok (r, a.2)

/-- src/resource/ubr.c:6535-6643 one record (SID_KVS_VAL_FL_VECTOR is the lowest bit of the flags) -/
def readRec (p : List UInt8) : Parsed ((Str × Rec) × List UInt8) :=
  (takeB 4 p).bind fun f => (takeB 8 f.2).bind fun ks => (takeB 8 ks.2).bind fun vs =>
  (cstrAt vs.2).bind fun key => (takeB (leNat ks.1) vs.2).bind fun k =>
  (if leNat f.1 % 2 = 1 then readVector (leNat vs.1) k.2 else readScalar (leNat vs.1) k.2).bind fun x => .ok ((key, x.1), x.2)

/-- src/resource/ubr.c:6534 `while (p < end)`; `fuel`: at least the number of bytes left -/
def readLoop : Nat → List UInt8 → Parsed (List (Str × Rec))
  | 0, p => if p = [] then .ok [] else .ub
  | fuel + 1, p =>
    if p = [] then .ok []
    else (readRec p).bind fun x => (readLoop fuel x.2).bind fun l => .ok (x.1 :: l)

/-- src/resource/ubr.c:6510-6532 the message in shared memory or in the database file.  The records are collected; in the code
    each is imported before the next is read, what makes no difference as an error ends with the rollback of all. -/
def readMsg (b : List UInt8) : Parsed (List (Str × Rec)) :=
  if b.length < 4 then .bad
  else
    let size := leNat (b.take 4)
    if size ≤ 4 then .ok []
    else if size > 0x4000000 then .bad
    else if size > b.length then .ub
    else readLoop size ((b.take size).drop 4)

/-- src/resource/ubr.c:6492-6737 `_sync_main_kv_store` from the bytes; also `_load_kv_store` 7144-7168 -/
def syncBytes (db : Db) (b : List UInt8) : Parsed Db :=
  (readMsg b).bind fun l =>
    match syncMain db l with
    | none => .ub
    | some db => .ok db

end Sid.Ubr
