import Verif.Model.BpTree
import Verif.Model.Hash
import Verif.Spec.BpTree
/-
src/resource/kvs.c: the key-value store over one of its two backends.

Values are objects with an identity (their address); a destroyed value is gone, and touching it again is undefined
behaviour (`none`).  Memory allocation does not fail.  Aliases are not modelled here (see the B+ tree, C18).
-/
namespace Sid.Kvs
open Sid.Spec

/-- model only, for src/resource/kvs.c:36-41: the bytes of a value -/
abbrev Bytes := List UInt8

/-! ### values -/

/-- What the caller passes: pointer and current contents (one item unless it is a vector), flags and the merge operation
    flag; src/include/resource/kvs.h:26-34, 116-127 -/
structure Input where
  vec : Bool := false
  ref : Bool := false
  auto : Bool := false
  merge : Bool := false
  ptr : Nat
  items : List Bytes
  deriving DecidableEq, Repr

/-- src/resource/kvs.c:36-41, 110-116: What the data pointer of a value leads to: a copy made by the store (one item, or the items of an iovec copy), the
    caller's memory as it is, or the caller's iovec whose items were redirected to a copy made by the store -/
inductive Payload
  | copied (items : List Bytes)
  | refd (ptr : Nat)
  | merged (ptr : Nat) (items : List Bytes)
  deriving DecidableEq, Repr

/-- src/resource/kvs.c:36-41 `struct kv_store_value` -/
structure Val where
  size : Nat
  alloc : Bool
  vec : Bool
  ref : Bool
  auto : Bool
  payload : Payload
  deriving DecidableEq, Repr

/-- src/resource/kvs.c:635-678: What `sid_kvs_get` and the callbacks get to see of a value: data, size and flags -/
structure Got where
  data : Payload
  size : Nat
  vec : Bool
  ref : Bool
  auto : Bool
  deriving DecidableEq, Repr

/-- src/resource/kvs.c:110-116 `_get_data`, with the size and flags of the value -/
def Val.got (v : Val) : Got := ⟨v.payload, v.size, v.vec, v.ref, v.auto⟩

/-- the single item of a value that is no vector (src/resource/kvs.c:566-571) -/
def Input.bytes (i : Input) : Bytes := i.items.headD []

/-- src/resource/kvs.c:213-330 `_create_kv_store_value`; letters as in the table of the source -/
def createVal (i : Input) : Val :=
  if i.vec then
    if i.ref then
      if i.merge then ⟨i.items.length, true, true, true, i.auto, .merged i.ptr i.items⟩ -- H
      else ⟨i.items.length, false, true, true, i.auto, .refd i.ptr⟩ -- G
    else
      if i.merge then ⟨i.items.flatten.length, true, false, false, i.auto, .copied [i.items.flatten]⟩ -- F
      else ⟨i.items.length, true, true, false, i.auto, .copied i.items⟩ -- E
  else
    if i.ref then ⟨i.bytes.length, false, false, true, i.auto, .refd i.ptr⟩ -- C, D
    else ⟨i.bytes.length, true, false, false, i.auto, .copied [i.bytes]⟩ -- A, B

/-- src/resource/kvs.c:225, 269, 284, 306, 314 size of the allocated structure (header 16, pointer 8, iovec 16 bytes) -/
def valSize (i : Input) : Nat :=
  if i.ref then 16 + 8
  else if i.vec then
    if i.merge then 16 + i.items.flatten.length else 16 + i.items.length * 16 + i.items.flatten.length
  else 16 + i.bytes.length

/-- src/resource/kvs.c:118-161: Memory of the caller that the store frees: the buffers the items of the iovec pointed to, or the memory itself -/
inductive Freed
  | items (ptr : Nat)
  | cell (ptr : Nat)
  deriving DecidableEq, Repr

/-- src/resource/kvs.c:97-116: the pointer stored -/
def Payload.ptr : Payload → Nat
  | .copied _ => 0
  | .refd p => p
  | .merged p _ => p

/-- src/resource/kvs.c:252-253 the caller's memory freed on creation (H with AUTOFREE) -/
def freedByCreate (i : Input) : List Freed :=
  if i.vec && i.ref && i.merge && i.auto then [.items i.ptr] else []

/-- src/resource/kvs.c:118-161 `_destroy_kv_store_value`: the caller's memory freed with the value.  (H without AUTOFREE
    clears the caller's iovec, which is not modelled.) -/
def freedBy (v : Val) : List Freed :=
  if v.ref && v.auto then
    if v.vec then
      if v.alloc then [.cell v.payload.ptr] else [.items v.payload.ptr, .cell v.payload.ptr]
    else [.cell v.payload.ptr]
  else []

/-! ### the backend -/

/-- src/resource/kvs.c:500-535: The two operations the store uses of its backend: lookup and update with a callback -/
structure Backend (σ : Type) where
  look : σ → Str → Option (Option (Nat × Nat))
  update : σ → Str → (Option (Nat × Nat) → StrMap.Act) → Option σ

/-- src/resource/kvs.c:519-526, 786-788, 660-662 the B+ tree as backend -/
def bptBackend : Backend Bpt.Bpt where
  look b k := (Bpt.lookup b k).map fun o => o.map fun x => (x.data, x.size)
  update b k f := Bpt.update b k fun o =>
    match f (o.map fun x => (x.data, x.size)) with
    | .skip => .skip
    | .write d n => .write d n
    | .remove => .remove

/-- src/internal/hash.c:380-398: data and size as the hash table reports them; NULL means that there is none -/
def ofNull (v : Nat × Nat) : Option (Nat × Nat) := if v.1 = 0 then none else some v

/-- src/resource/kvs.c:509-517, 782-784, 656-658 the hash table as backend: the key includes its NUL -/
def hashBackend : Backend Hash.Table where
  look t k := some (ofNull (Hash.lookup t (k ++ [0])))
  update t k f := some (Hash.update t (k ++ [0]) fun v =>
    (match f (ofNull v) with
     | .skip => .skip
     | .write d n => .write d n
     | .remove => .remove, []))

/-! ### the store -/

/-- src/resource/kvs.c:51-54 `struct kv_unset_arg` -/
structure UnsetArg where
  key : Str
  hasArch : Bool
  deriving DecidableEq, Repr

/-- src/resource/kvs.c:43-49 `struct kv_rollback_arg` -/
structure RbArg where
  key : Str
  val : Option (Nat × Nat)
  hasArch : Bool
  isArch : Bool
  deriving DecidableEq, Repr

/-- The two trackers of a transaction, src/resource/kvs.c:27-28 -/
structure Trans where
  unsets : List UnsetArg := []
  rollbacks : List RbArg := []
  deriving DecidableEq, Repr

/-- src/resource/kvs.c:25-34 `struct kv_store`, and the values in memory -/
structure Store (σ : Type) where
  back : σ
  vals : Nat → Option Val
  next : Nat
  freed : List Freed
  trans : Option Trans

/-- src/include/resource/kvs.h:41-69 `sid_kvs_update_cb_fn_t`: What a set callback leaves behind: its return value and, if it changed the new data, their size, flags or set an
    operation flag, what it put there -/
abbrev SetFn := Option Got → Got → Int × Option Input

/-- src/include/resource/kvs.h:41-69 `sid_kvs_update_cb_fn_t`: The unset callback -/
abbrev UnsetFn := Option Got → Int

variable {σ : Type}

/-- src/resource/kvs.c:213-330: allocation of a value: its address is new -/
def alloc (s : Store σ) (v : Val) : Store σ :=
  { s with vals := fun i => if i = s.next then some v else s.vals i, next := s.next + 1 }

/-- src/resource/kvs.c:213-330 `_create_kv_store_value` on the store -/
def create (s : Store σ) (i : Input) : Store σ :=
  { alloc s (createVal i) with freed := s.freed ++ freedByCreate i }

/-- src/resource/kvs.c:118-161 `_destroy_kv_store_value` (a second time: undefined) -/
def destroy (s : Store σ) (id : Nat) : Option (Store σ) :=
  match s.vals id with
  | none => none
  | some v => some { s with vals := fun i => if i = id then none else s.vals i, freed := s.freed ++ freedBy v }

/-- src/resource/kvs.c:118-161: the same for a pointer that may be NULL -/
def destroy? (s : Store σ) : Option Nat → Option (Store σ)
  | none => some s
  | some id => destroy s id

/-- src/resource/kvs.c:332-372: a value looked at by a callback; the pointer may be NULL, a destroyed value is undefined behaviour -/
def seen (s : Store σ) : Option Nat → Option (Option Got)
  | none => some none
  | some id => (s.vals id).map fun v => some v.got

/-- src/resource/kvs.c:375-384 flags and size unchanged, a reference, no operation flags: only the pointer is rewritten -/
def inPlace (v : Val) (i : Input) : Bool :=
  (v.vec == i.vec && v.ref == i.ref && v.auto == i.auto) && i.ref &&
    ((if i.vec then i.items.length else i.bytes.length) == v.size) && !i.merge

/-- src/resource/kvs.c:373-409 the value after the callback changed it -/
def edit (s : Store σ) (id size : Nat) (v : Val) (i : Input) : Option (Store σ × Nat × Nat) :=
  if inPlace v i then
    some ({ s with vals := fun j => if j = id then some { v with payload := .refd i.ptr } else s.vals j }, id, size)
  else
    (destroy (create s i) id).map fun s' => (s', s.next, valSize i)

/-- src/resource/kvs.c:357-371 call of the callback: its return value and the value that is to be stored -/
def callSet (s : Store σ) (fn : Option SetFn) (old : Option Nat) (id size : Nat) : Option (Store σ × Int × Nat × Nat) :=
  match fn with
  | none => some (s, 1, id, size)
  | some f =>
    match seen s old, s.vals id with
    | some o, some v =>
      match f o v.got with
      | (r, some i) =>
        if r > 0 then (edit s id size v i).map fun x => (x.1, r, x.2.1, x.2.2) else some (s, r, id, size)
      | (r, none) => some (s, r, id, size)
    | _, _ => none

/-- src/resource/kvs.c:413-441 what becomes of the old value when the new one is stored: tracked for a rollback, kept for
    the archive, or destroyed -/
def dropOld (s : Store σ) (key : Str) (old : Option (Nat × Nat)) (hasArch isArch useRb : Bool) : Option (Store σ) :=
  match s.trans, useRb with
  | some t, true => some { s with trans := some { t with rollbacks := t.rollbacks ++ [⟨key, old, hasArch, isArch⟩] } }
  | _, _ => if hasArch then some s else destroy? s (old.map (·.1))

/-- model only, for src/resource/kvs.c:500-535: replace the backend -/
def withBack (s : Store σ) (b : σ) : Store σ := { s with back := b }

/-- src/resource/kvs.c:332-449 `_update_fn`, 500-533 `_set_value`: store, value now under the key (NULL if refused) and old
    value if it is to be archived -/
def setValue (B : Backend σ) (s : Store σ) (key : Str) (id size : Nat) (fn : Option SetFn) (hasArch isArch useRb : Bool) :
    Option (Store σ × Option Nat × Option (Nat × Nat)) :=
  (B.look s.back key).bind fun old =>
  (callSet s fn (old.map (·.1)) id size).bind fun c =>
  if c.2.1 = 0 then
    (destroy c.1 c.2.2.1).bind fun s2 =>
    (B.update s2.back key fun _ => .skip).map fun b => (withBack s2 b, none, none)
  else
    (dropOld c.1 key old hasArch isArch useRb).bind fun s2 =>
    (B.update s2.back key fun _ => .write c.2.2.1 c.2.2.2).map fun b =>
      (withBack s2 b, some c.2.2.1, if hasArch then old else none)

/-- src/resource/kvs.c:494: `isspace` in the C locale -/
def isSpace (c : UInt8) : Bool := c == 32 || (9 ≤ c && c ≤ 13)

/-- src/resource/kvs.c:489-498 `_canonicalize_key` -/
def canon (key : Str) : Str := key.dropWhile isSpace

/-- src/resource/kvs.c:587-607, 823-843 the old value stored under the archive key -/
def archive (B : Backend σ) (s : Store σ) (arch : Option Str) (old : Option (Nat × Nat)) (useRb : Bool) : Option (Store σ) :=
  match arch, old with
  | some a, some (id, size) => (setValue B s a id size none false true useRb).map (·.1)
  | _, _ => some s

/-- src/resource/kvs.c:537-613 `sid_kvs_set`: return code and store -/
def kvsSet (B : Backend σ) (s : Store σ) (key : Str) (arch : Option Str) (fn : Option SetFn) (i : Input) :
    Option (Int × Store σ) :=
  if key = [] then some (-22, s)
  else
    (setValue B (create s i) (canon key) s.next (valSize i) fn arch.isSome false true).bind fun c =>
    (archive B c.1 (arch.map canon) c.2.2 true).map fun s' => (0, s')

/-- src/resource/kvs.c:635-678 `sid_kvs_get` (NULL and an error code if there is none) -/
def kvsGet (B : Backend σ) (s : Store σ) (key : Str) : Option (Option Got) :=
  if key = [] then some none
  else (B.look s.back (canon key)).bind fun old => seen s (old.map (·.1))

/-- src/resource/kvs.c:692-713 the callback's decision on an unset -/
def callUnset (s : Store σ) (fn : Option UnsetFn) (old : Option Nat) : Option Int :=
  match fn with
  | none => some 1
  | some f => (seen s old).map f

/-- src/resource/kvs.c:680-735 `_unset_fn`, 777-795 `_unset_value`: store and old value if it is to be archived -/
def unsetValue (B : Backend σ) (s : Store σ) (key : Str) (fn : Option UnsetFn) (hasArch useBuf : Bool) :
    Option (Store σ × Option (Nat × Nat)) :=
  (B.look s.back key).bind fun old =>
  (callUnset s fn (old.map (·.1))).bind fun r =>
  if r = 1 then
    match s.trans, useBuf with
    | some t, true =>
      (B.update s.back key fun _ => .skip).map fun b =>
        (withBack { s with trans := some { t with unsets := t.unsets ++ [⟨key, hasArch⟩] } } b,
         if hasArch then old else none)
    | _, _ =>
      (if hasArch then some s else destroy? s (old.map (·.1))).bind fun s2 =>
      (B.update s2.back key fun _ => .remove).map fun b => (withBack s2 b, if hasArch then old else none)
  else if r = 0 then
    (B.update s.back key fun _ => .skip).map fun b => (withBack s b, none)
  else
    (B.update s.back key fun _ => .remove).map fun b => (withBack s b, none)

/-- src/resource/kvs.c:797-846 `sid_kvs_unset` (the archive is written without being tracked for a rollback) -/
def kvsUnset (B : Backend σ) (s : Store σ) (key : Str) (arch : Option Str) (fn : Option UnsetFn) : Option (Int × Store σ) :=
  if key = [] then some (-22, s)
  else
    (unsetValue B s (canon key) fn arch.isSome true).bind fun c =>
    (archive B c.1 (arch.map canon) c.2 false).map fun s' => (0, s')

/-! ### transactions -/

/-- src/resource/kvs.c:974-1001 `sid_kvs_transaction_begin` -/
def transBegin (s : Store σ) : Int × Store σ :=
  match s.trans with
  | some _ => (-16, s)
  | none => (0, { s with trans := some {} })

/-- src/resource/kvs.c:848-875 `_rollback_fn`: action -/
def rbAct (curr rb : Option (Nat × Nat)) : StrMap.Act :=
  match curr, rb with
  | none, _ => .skip
  | some _, none => .remove
  | some c, some r => if c.1 = r.1 then .skip else .write r.1 r.2

/-- src/resource/kvs.c:848-875 `_rollback_fn`: value destroyed -/
def rbDrop (curr rb : Option (Nat × Nat)) (isArch : Bool) : Option Nat :=
  match curr, rb with
  | none, r => r.map (·.1)
  | some c, none => if isArch then none else some c.1
  | some c, some r => if c.1 = r.1 || isArch then none else some c.1

/-- src/resource/kvs.c:923-950 `_kv_store_trans_rollback_value` -/
def rollbackValue (B : Backend σ) (s : Store σ) (a : RbArg) : Option (Store σ) :=
  (B.look s.back a.key).bind fun curr =>
  (destroy? s (rbDrop curr a.val a.isArch)).bind fun s2 =>
  (B.update s2.back a.key fun _ => rbAct curr a.val).map fun b => withBack s2 b

/-- src/resource/kvs.c:1026-1031 the loop over the unset tracker (of a transaction that is not rolled back); the tracker
    is not consulted by these unsets (952-960) -/
def commitUnsets (B : Backend σ) (s : Store σ) : List UnsetArg → Option (Store σ)
  | [] => some s
  | a :: l => (unsetValue B s a.key none a.hasArch false).bind fun c => commitUnsets B c.1 l

/-- src/resource/kvs.c:1042-1049 the loop over the rollback tracker, rolling back -/
def rollbackAll (B : Backend σ) (s : Store σ) : List RbArg → Option (Store σ)
  | [] => some s
  | a :: l => (rollbackValue B s a).bind fun s' => rollbackAll B s' l

/-- src/resource/kvs.c:1042-1049 the same loop without rollback -/
def commitAll (s : Store σ) : List RbArg → Option (Store σ)
  | [] => some s
  | a :: l => (if a.hasArch then some s else destroy? s (a.val.map (·.1))).bind fun s' => commitAll s' l

/-- src/resource/kvs.c:1003-1053 `sid_kvs_transaction_end` -/
def transEnd (B : Backend σ) (s : Store σ) (rollback : Bool) : Option (Store σ) :=
  match s.trans with
  | none => some s
  | some t =>
    (if rollback then rollbackAll B s t.rollbacks
     else (commitUnsets B s t.unsets).bind fun s' => commitAll s' t.rollbacks).map fun s' => { s' with trans := none }

/-! ### runs -/

/-- model only, for src/resource/kvs.c:537-613, 797-846, 974-1053: Calls that change the store -/
inductive Op
  | set (key : Str) (arch : Option Str) (fn : Option SetFn) (val : Input)
  | unset (key : Str) (arch : Option Str) (fn : Option UnsetFn)

/-- src/resource/kvs.c:537-613, 797-846 one call -/
def step (B : Backend σ) (s : Store σ) : Op → Option (Store σ)
  | .set k a f i => (kvsSet B s k a f i).map (·.2)
  | .unset k a f => (kvsUnset B s k a f).map (·.2)

/-- model only, for src/resource/kvs.c:537-613, 797-846, 974-1053: a sequence of calls -/
def run (B : Backend σ) (s : Store σ) : List Op → Option (Store σ)
  | [] => some s
  | op :: ops => (step B s op).bind fun s' => run B s' ops

/-- src/resource/kvs.c:1316-1348 `_init_kv_store`: an empty store (addresses are not NULL) -/
def init (back : σ) : Store σ := ⟨back, fun _ => none, 1, [], none⟩

end Sid.Kvs
