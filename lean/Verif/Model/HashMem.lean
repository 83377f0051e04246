import Verif.Model.Hash
/-
Memory of the hash table: src/internal/hash.c.  Every allocation is answered by a list of answers, so calls can fail for lack of memory at
any place; blocks and bytes in use are counted.  What a call does to the table is in Model/Hash.lean.
-/
namespace Sid.Hash

/-- src/internal/hash.c:17-29: sizeof of a node, of the table, and of a pointer -/
structure Sizes where
  node : Nat
  table : Nat
  ptr : Nat

/-- model only, for src/internal/hash.c:44-119: memory: the answers to allocations to come (once there are none left they succeed), the
    blocks and the bytes in use -/
structure Heap where
  answers : List Bool
  blocks : Int
  bytes : Int
  deriving DecidableEq, Repr

/-- model only, for src/internal/hash.c:46, 81, 92: `malloc` and `mem_zalloc`: is there memory? -/
def malloc (size : Nat) (m : Heap) : Bool × Heap :=
  match m.answers with
  | [] => (true, { m with blocks := m.blocks + 1, bytes := m.bytes + size })
  | true :: as => (true, { answers := as, blocks := m.blocks + 1, bytes := m.bytes + size })
  | false :: as => (false, { m with answers := as })

/-- model only, for src/internal/hash.c:98, 110, 188: `free` of a block of this size -/
def free (size : Nat) (m : Heap) : Heap := { m with blocks := m.blocks - 1, bytes := m.bytes - size }

/-- src/internal/hash.c:46: size of a node -/
def nodeSize (z : Sizes) (n : Node) : Nat := z.node + n.key.length

/-- src/internal/hash.c:77-100 `hash_create`: the table or NULL; `none` if it never returns.  `free(hc->slots)` at `bad` frees NULL. -/
def createMem (z : Sizes) (hint : Nat) (m : Heap) : Option (Option Table × Heap) :=
  match malloc z.table m with
  | (false, m) => some (none, m)
  | (true, m) =>
    match create hint with
    | none => none
    | some t =>
      match malloc (z.ptr * t.slots.length) m with
      | (false, m) => some (none, free z.table m)
      | (true, m) => some (some t, m)

/-- src/internal/hash.c:102-112 `_free_nodes` -/
def freeNodes (z : Sizes) (t : Table) (m : Heap) : Heap := t.slots.flatten.foldl (fun m n => free (nodeSize z n) m) m

/-- src/internal/hash.c:114-119 `hash_destroy` -/
def destroyMem (z : Sizes) (t : Table) (m : Heap) : Heap := free z.table (free (z.ptr * t.slots.length) (freeNodes z t m))

/-- src/internal/hash.c:152-169 `_do_hash_insert` -/
def doInsertMem (z : Sizes) (t : Table) (s : Nat) (n : Node) (m : Heap) : Int × Table × Heap :=
  match malloc (nodeSize z n) m with
  | (false, m) => (-1, t, m)
  | (true, m) => (0, doInsert t s n, m)

/-- src/internal/hash.c:171-181 `hash_add` -/
def addMem (z : Sizes) (t : Table) (key : List UInt8) (data len : Nat) (m : Heap) : Int × Table × Heap :=
  match (find t key).2 with
  | some _ => (0, add t key data len, m)
  | none => doInsertMem z t (find t key).1 ⟨key, data, len⟩ m

/-- src/internal/hash.c:183-190 `_do_hash_del`; undefined if there is no node there -/
def doDelMem (z : Sizes) (t : Table) (s i : Nat) (m : Heap) : Option (Int × Table × Heap) :=
  match (chain t s)[i]? with
  | none => none
  | some n => some (0, doDel t s i, free (nodeSize z n) m)

/-- src/internal/hash.c:192-198 `hash_del` -/
def delMem (z : Sizes) (t : Table) (key : List UInt8) (m : Heap) : Option (Int × Table × Heap) :=
  match (find t key).2 with
  | some i => doDelMem z t (find t key).1 i m
  | none => some (0, t, m)

/-- src/internal/hash.c:380-425: `hash_add` calls made by a callback; whether they succeed does not matter to the update -/
def addManyMem (z : Sizes) (t : Table) (l : List (List UInt8 × Nat × Nat)) (m : Heap) : Table × Heap :=
  l.foldl (fun s x => (addMem z s.1 x.1 x.2.1 x.2.2 s.2).2) (t, m)

/-- src/internal/hash.c:406-422 the action part of `hash_update` -/
def applyMem (z : Sizes) (t : Table) (key : List UInt8) (s i : Nat) (m : Heap) : Action → Option (Int × Table × Heap)
  | .write data len =>
    if i < (chain t s).length then some (0, applyAction t key s i (.write data len), m)
    else some (doInsertMem z t s ⟨key, data, len⟩ m)
  | .remove => if i < (chain t s).length then doDelMem z t s i m else some (0, t, m)
  | .skip => some (0, t, m)

/-- src/internal/hash.c:380-425 `hash_update` with a callback -/
def updateMem (z : Sizes) (t : Table) (key : List UInt8) (fn : UpdateFn) (m : Heap) : Option (Int × Table × Heap) :=
  let x := addManyMem z t (fn (oldValue t key)).2 m
  applyMem z x.1 key (slotOf t key) (cursor t key) x.2 (fn (oldValue t key)).1

/-- src/internal/hash.c:334-339 `hash_wipe` -/
def wipeMem (z : Sizes) (t : Table) (m : Heap) : Table × Heap := (wipe t, freeNodes z t m)

/-- src/internal/hash.c:221-243 `hash_add_allow_multiple` -/
def addMultipleMem (z : Sizes) (t : Table) (key : List UInt8) (data len : Nat) (m : Heap) : Int × Table × Heap :=
  match malloc (nodeSize z ⟨key, data, len⟩) m with
  | (false, m) => (-1, t, m)
  | (true, m) => (0, addMultiple t key data len, m)

/-- src/internal/hash.c:262-270 `hash_del_with_data` -/
def delWithDataMem (z : Sizes) (mem : Mem) (t : Table) (key contents : List UInt8) (m : Heap) : Option (Int × Table × Heap) :=
  match findWithData mem t key contents with
  | some i => doDelMem z t (slotOf t key) i m
  | none => some (0, t, m)

/-- model only, for src/internal/hash.c:171-425: one call, its result (0 for calls without one), the table and memory after it -/
def stepMem (z : Sizes) (t : Table) (m : Heap) : Op → Option (Int × Table × Heap)
  | .add k d l => some (addMem z t k d l m)
  | .update k fn => updateMem z t k fn m
  | .del k => delMem z t k m
  | .wipe => some (0, wipeMem z t m)
  | .addMultiple k d l => some (addMultipleMem z t k d l m)
  | .delWithData mem k c => delWithDataMem z mem t k c m

/-- model only, for src/internal/hash.c:171-425: a sequence of calls, with their results -/
def runMem (z : Sizes) (t : Table) (m : Heap) : List Op → Option (List Int × Table × Heap)
  | [] => some ([], t, m)
  | op :: ops =>
    match stepMem z t m op with
    | none => none
    | some (r, t, m) => (runMem z t m ops).map fun x => (r :: x.1, x.2)

end Sid.Hash
