/-
Model of the hash table: src/internal/hash.c.
Keys are byte strings; the (pointer, 32-bit length) pair of the C interface is the byte string itself.
Stored data are opaque addresses (0 is NULL) with a length; the bytes behind an address are consulted only by the
`_with_data` calls, which here take the memory as a parameter.  Memory allocation is assumed to succeed.
num_nodes is an `unsigned` in the code and a natural number here (no table holds 2^32 nodes of more than 32 bytes on
the supported machines).
-/
namespace Sid.Hash

/-- src/internal/hash.c:31-43 `_nums` -/
def nums : List Nat :=
  [
   1, 14, 110, 25, 97, 174, 132, 119, 138, 170, 125, 118, 27, 233, 140, 51, 87, 197, 177, 107, 234, 169, 56, 68,
   30, 7, 173, 73, 188, 40, 36, 65, 49, 213, 104, 190, 57, 211, 148, 223, 48, 115, 15, 2, 67, 186, 210, 28,
   12, 181, 103, 70, 22, 58, 75, 78, 183, 167, 238, 157, 124, 147, 172, 144, 176, 161, 141, 86, 60, 66, 128, 83,
   156, 241, 79, 46, 168, 198, 41, 254, 178, 85, 253, 237, 250, 154, 133, 88, 35, 206, 95, 116, 252, 192, 54, 221,
   102, 218, 255, 240, 82, 106, 158, 201, 61, 3, 89, 9, 42, 155, 159, 93, 166, 80, 50, 34, 175, 195, 100, 99,
   26, 150, 16, 145, 4, 33, 8, 189, 121, 64, 77, 72, 208, 245, 130, 122, 143, 55, 105, 134, 29, 164, 185, 194,
   193, 239, 101, 242, 5, 171, 126, 11, 74, 59, 137, 228, 108, 191, 232, 139, 6, 24, 81, 20, 127, 17, 91, 92,
   251, 151, 225, 207, 21, 98, 113, 112, 84, 226, 18, 214, 199, 187, 13, 32, 94, 220, 224, 212, 247, 204, 196, 43,
   249, 236, 45, 244, 111, 182, 153, 136, 129, 90, 217, 202, 19, 165, 231, 71, 230, 142, 96, 227, 62, 179, 246, 114,
   162, 53, 160, 215, 205, 180, 47, 109, 44, 38, 31, 149, 135, 0, 216, 52, 63, 23, 37, 69, 39, 117, 146, 184,
   163, 200, 222, 235, 248, 243, 219, 10, 152, 131, 123, 229, 203, 76, 120, 209]

/-- src/internal/hash.c:17-23 `struct hash_node` (the `next` link is the position in the slot's list) -/
structure Node where
  key : List UInt8
  data : Nat
  len : Nat
  deriving DecidableEq, Repr

/-- src/internal/hash.c:25-29 `struct hash_table` (num_slots is the length of `slots`) -/
structure Table where
  numNodes : Nat
  slots : List (List Node)
  deriving DecidableEq, Repr

/-- src/internal/hash.c:65-71 body of the loop in `_hash` -/
def hashByte (h : BitVec 64) (c : UInt8) : BitVec 64 :=
  let h := h <<< 4
  let h := h + BitVec.ofNat 64 (nums.getD c.toNat 0)
  let g := h &&& (BitVec.ofNat 64 0xf <<< 16)
  if g ≠ 0 then
    let h := h ^^^ (g >>> 16)
    h ^^^ (g >>> 5)
  else h

/-- src/internal/hash.c:59-75 `_hash` -/
def hash (key : List UInt8) : BitVec 64 := key.foldl hashByte 0

/-- src/internal/hash.c:87-88 the rounding loop of `hash_create`: `none` is a loop that never ends (the 32-bit value has
    been shifted out to 0 and stays there) -/
def roundSize : (fuel : Nat) → (newSize hint : Nat) → Option Nat
  | 0, _, _ => none
  | fuel + 1, newSize, hint =>
    if newSize < hint then roundSize fuel (newSize * 2 % 2 ^ 32) hint else some newSize

/-- src/internal/hash.c:77-100 `hash_create`; after 28 doublings 16 becomes 0, so 29 rounds decide -/
def create (hint : Nat) : Option Table :=
  (roundSize 29 16 hint).map fun n => { numNodes := 0, slots := List.replicate n [] }

/-- src/internal/hash.c:123, 206, 231, 293, 375 `_hash(...) & (t->num_slots - 1)` -/
def slotOf (t : Table) (key : List UInt8) : Nat :=
  (hash key &&& BitVec.ofNat 64 (t.slots.length - 1)).toNat

/-- src/internal/hash.c:25-30: the chain hanging off a slot -/
def chain (t : Table) (s : Nat) : List Node := t.slots.getD s []

/-- src/internal/hash.c:126-132 the loop of `_find`: position of the first node of the chain with that key -/
def findIn (c : List Node) (key : List UInt8) : Option Nat := c.findIdx? fun n => n.key == key

/-- src/internal/hash.c:121-135 `_find`: the slot and, if present, the position in its chain -/
def find (t : Table) (key : List UInt8) : Nat × Option Nat :=
  (slotOf t key, findIn (chain t (slotOf t key)) key)

/-- src/internal/hash.c:25-30: replace the chain of one slot -/
def setChain (t : Table) (s : Nat) (c : List Node) : Table := { t with slots := t.slots.set s c }

/-- src/internal/hash.c:17-23: the node a position denotes -/
def nodeAt (t : Table) (s : Nat) (i : Option Nat) : Option Node := i.bind fun i => (chain t s)[i]?

/-- src/internal/hash.c:141-149 data and data length of a node, NULL and 0 if there is none -/
def report : Option Node → Nat × Nat
  | some n => (n.data, n.len)
  | none => (0, 0)

/-- src/internal/hash.c:137-150 `hash_lookup` -/
def lookup (t : Table) (key : List UInt8) : Nat × Nat := report (nodeAt t (find t key).1 (find t key).2)

/-- src/internal/hash.c:152-169 `_do_hash_insert`: appends at the end of the chain -/
def doInsert (t : Table) (s : Nat) (n : Node) : Table :=
  { setChain t s (chain t s ++ [n]) with numNodes := t.numNodes + 1 }

/-- src/internal/hash.c:171-181 `hash_add`: an existing node gets the new data but keeps its old data_len -/
def add (t : Table) (key : List UInt8) (data len : Nat) : Table :=
  match (find t key).2 with
  | some i => setChain t (find t key).1 ((chain t (find t key).1).modify i fun n => { n with data := data })
  | none => doInsert t (find t key).1 ⟨key, data, len⟩

/-- src/internal/hash.c:183-190 `_do_hash_del` -/
def doDel (t : Table) (s i : Nat) : Table :=
  { setChain t s ((chain t s).eraseIdx i) with numNodes := t.numNodes - 1 }

/-- src/internal/hash.c:192-198 `hash_del` -/
def del (t : Table) (key : List UInt8) : Table :=
  match (find t key).2 with
  | some i => doDel t (find t key).1 i
  | none => t

/-- src/include/internal/hash.h:96-100: src/include/internal/hash.h `hash_update_action_t`, with the data and data_len the call ends up with -/
inductive Action
  | write (data len : Nat)
  | remove
  | skip
  deriving DecidableEq, Repr

/-- The update callback: given the old data and data length it chooses an action and may, meanwhile, call `hash_add`
    on the same table (the code says so, src/internal/hash.c:160). -/
abbrev UpdateFn := Nat × Nat → Action × List (List UInt8 × Nat × Nat)

/-- src/internal/hash.c:380-425: `hash_add` calls made by a callback -/
def addMany (t : Table) (l : List (List UInt8 × Nat × Nat)) : Table :=
  l.foldl (fun t x => add t x.1 x.2.1 x.2.2) t

/-- src/internal/hash.c:394-398 what the callback sees as the old value: `lookup` of the key -/
def oldValue (t : Table) (key : List UInt8) : Nat × Nat := lookup t key

/-- src/internal/hash.c:380-395: The place `c` that `_find` handed to `hash_update` before the callback ran: the found node's position, or the end of
    the chain as it was then -/
def cursor (t : Table) (key : List UInt8) : Nat :=
  match (find t key).2 with
  | some i => i
  | none => (chain t (find t key).1).length

/-- src/internal/hash.c:406-422 the action part of `hash_update`, `*c` being looked at again after the callback -/
def applyAction (t : Table) (key : List UInt8) (s i : Nat) : Action → Table
  | .write data len =>
    if i < (chain t s).length then
      setChain t s ((chain t s).modify i fun n => { n with data := data, len := len })
    else doInsert t s ⟨key, data, len⟩
  | .remove => if i < (chain t s).length then doDel t s i else t
  | .skip => t

/-- src/internal/hash.c:380-425 `hash_update` with a callback -/
def update (t : Table) (key : List UInt8) (fn : UpdateFn) : Table :=
  applyAction (addMany t (fn (oldValue t key)).2) key (slotOf t key) (cursor t key) (fn (oldValue t key)).1

/-- src/internal/hash.c:399-404 the callback-less `hash_update`: WRITE if data are given, else REMOVE -/
def plainFn (data : Option (Nat × Nat)) : UpdateFn := fun _ =>
  match data with
  | some (d, l) => (.write d l, [])
  | none => (.remove, [])

/-- src/internal/hash.c:317-320 `hash_get_entry_count` -/
def entryCount (t : Table) : Nat := t.numNodes

/-- src/internal/hash.c:334-339 `hash_wipe` -/
def wipe (t : Table) : Table := { numNodes := 0, slots := t.slots.map fun _ => [] }

/-- src/internal/hash.c:322-332 `hash_iter`: the nodes in the order the callback gets them -/
def iter (t : Table) : List Node := t.slots.flatten

/-- src/internal/hash.c:368-378: A `struct hash_node *` held by an iterating caller: slot and position -/
abbrev Cursor := Nat × Nat

/-- src/internal/hash.c:357-366 `_next_slot`: first node of the first non-empty slot from `s` on -/
def nextSlot (t : Table) (s : Nat) : Option Cursor :=
  if h : s < t.slots.length then
    if (chain t s).isEmpty then nextSlot t (s + 1) else some (s, 0)
  else none
termination_by t.slots.length - s

/-- src/internal/hash.c:368-371 `hash_get_first` -/
def getFirst (t : Table) : Option Cursor := nextSlot t 0

/-- src/internal/hash.c:373-378 `hash_get_next`: the slot is recomputed from the node's key -/
def getNext (t : Table) (c : Cursor) (n : Node) : Option Cursor :=
  if c.2 + 1 < (chain t c.1).length then some (c.1, c.2 + 1) else nextSlot t (slotOf t n.key + 1)

/-- model only, for src/internal/hash.c:368-378: A loop `for (n = hash_get_first(t); n; n = hash_get_next(t, n))`: the nodes seen; `none` if it is not over after
    `fuel` rounds or would follow a dangling pointer -/
def walk (t : Table) : (fuel : Nat) → Option Cursor → Option (List Node)
  | _, none => some []
  | 0, some _ => none
  | fuel + 1, some c =>
    match (chain t c.1)[c.2]? with
    | some n => (walk t fuel (getNext t c n)).map (n :: ·)
    | none => none

/-- src/internal/hash.c:221-243 `hash_add_allow_multiple`: a new node at the head of the chain -/
def addMultiple (t : Table) (key : List UInt8) (data len : Nat) : Table :=
  { setChain t (slotOf t key) (⟨key, data, len⟩ :: chain t (slotOf t key)) with numNodes := t.numNodes + 1 }

/-- model only, for src/internal/hash.c:200-282: Memory as the `_with_data` calls see it: the bytes at an address.  A stored node with data at address `a` and length
    `l` has the contents `mem a l`. -/
abbrev Mem := Nat → Nat → List UInt8

/-- src/internal/hash.c:209-215 the node test of `_find_with_data` -/
def matchesData (mem : Mem) (key : List UInt8) (contents : List UInt8) (n : Node) : Bool :=
  n.key == key && n.data != 0 && n.len == contents.length && mem n.data n.len == contents

/-- src/internal/hash.c:200-219 `_find_with_data` -/
def findWithData (mem : Mem) (t : Table) (key contents : List UInt8) : Option Nat :=
  (chain t (slotOf t key)).findIdx? (matchesData mem key contents)

/-- src/internal/hash.c:249-256 `hash_lookup_with_data` -/
def lookupWithData (mem : Mem) (t : Table) (key contents : List UInt8) : Nat :=
  match nodeAt t (slotOf t key) (findWithData mem t key contents) with
  | some n => n.data
  | none => 0

/-- src/internal/hash.c:262-270 `hash_del_with_data` -/
def delWithData (mem : Mem) (t : Table) (key contents : List UInt8) : Table :=
  match findWithData mem t key contents with
  | some i => doDel t (slotOf t key) i
  | none => t

/-- src/internal/hash.c:284-315 `hash_lookup_with_count`: the key is a C string (given here without its NUL), key_len is
    ignored: data, data length and number of nodes with that key -/
def lookupWithCount (t : Table) (str : List UInt8) : Nat × Nat × Nat :=
  let ms := (chain t (slotOf t (str ++ [0]))).filter fun n => n.key == str ++ [0]
  match ms with
  | n :: _ => (n.data, n.len, ms.length)
  | [] => (0, 0, 0)

/-- src/internal/hash.c:427-445 `hash_get_size`: meta size (`hdr` and `nodeHdr` are the structure sizes) and data size -/
def getSize (hdr ptr nodeHdr : Nat) (t : Table) : Nat × Nat :=
  (hdr + ptr * t.slots.length + (t.slots.flatten.map fun n => nodeHdr + n.key.length).sum,
   (t.slots.flatten.map (·.len)).sum)

/-- model only, for src/internal/hash.c:171-425: Calls a user makes -/
inductive Op
  | add (key : List UInt8) (data len : Nat)
  | update (key : List UInt8) (fn : UpdateFn)
  | del (key : List UInt8)
  | wipe
  | addMultiple (key : List UInt8) (data len : Nat)
  | delWithData (mem : Mem) (key contents : List UInt8)

/-- model only, for src/internal/hash.c:171-425: one call -/
def step (t : Table) : Op → Table
  | .add k d l => add t k d l
  | .update k fn => update t k fn
  | .del k => del t k
  | .wipe => wipe t
  | .addMultiple k d l => addMultiple t k d l
  | .delWithData mem k c => delWithData mem t k c

/-- model only, for src/internal/hash.c:171-425: a sequence of calls -/
def run (t : Table) (ops : List Op) : Table := ops.foldl step t

end Sid.Hash
