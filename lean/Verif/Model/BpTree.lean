import Verif.Model.Str
/-
Model of the B+ tree: src/internal/bptree.c.

Objects with identity keep one: every `bptree_key_t` and every leaf has a number (`id`), records are numbers into a
record heap, so pointer comparisons in the code are comparisons of these.  Internal nodes are not shared and are
compared in the code only to find a node's position under its parent; here the position on the path is used.  Parent
pointers are not stored: code that climbs them is the way back up of a recursion over the path.
malloc and strdup are assumed to succeed here; failures, key reference counts and the meta_size statistics are in
Model/BpMem.lean.
`none` as the result of a function is undefined behaviour (use of a pointer slot that holds nothing).
-/
namespace Sid.Bpt

/-- src/internal/bptree.c:46-49 `bptree_key_t` -/
structure K where
  id : Nat
  str : Str
  deriving DecidableEq, Repr

/-- src/internal/bptree.c:77-83 `bptree_node_t` with is_leaf: keys and record pointers (num_keys is the number of keys),
    `next` is pointers[order - 1] -/
structure Leaf where
  id : Nat
  keys : List K
  ptrs : List Nat
  next : Option Nat
  deriving DecidableEq, Repr

/-- src/internal/bptree.c:77-83 `bptree_node_t` -/
inductive Tree where
  | leaf (l : Leaf)
  | node (keys : List K) (kids : List Tree)
  deriving Repr

/-- src/internal/bptree.c:40-44 `bptree_record_t` -/
structure Rec where
  data : Nat
  size : Nat
  refs : Nat
  deriving DecidableEq, Repr

/-- src/internal/bptree.c:110-116 `bptree_t`.  `recs` is the heap of records (none: not allocated), `nextRec` and
    `nextId` supply unused numbers. -/
structure Bpt where
  order : Nat
  root : Option Tree
  recs : Nat → Option Rec
  nextRec : Nat
  nextId : Nat
  dataSize : Nat
  numEntries : Nat

/-- src/internal/bptree.c:128-145 `bptree_create` -/
def create (order : Nat) : Option Bpt :=
  if order ≤ 3 then none
  else some { order, root := none, recs := fun _ => none, nextRec := 0, nextId := 0, dataSize := 0, numEntries := 0 }

/-- src/internal/bptree.c:77-83: num_keys of a node -/
def numKeys : Tree → Nat
  | .leaf l => l.keys.length
  | .node ks _ => ks.length

/-- src/internal/bptree.c:151-165 the loop of `bptree_get_height` (`none`: an internal node without children) -/
def height : Tree → Option Nat
  | .leaf _ => some 0
  | .node _ [] => none
  | .node _ (c :: _) => (height c).map (· + 1)

/-- src/internal/bptree.c:200-205 the inner loop of `_find_leaf`: how many keys `key` is greater than -/
def childIdx : List K → Str → Nat
  | [], _ => 0
  | k :: ks, s => if strLt k.str s then childIdx ks s + 1 else 0

/-- src/internal/bptree.c:187-211 `_find_leaf`: the child positions taken, and the leaf -/
def findLeaf : Tree → Str → Option (List Nat × Leaf)
  | .leaf l, _ => some ([], l)
  | .node ks kids, s =>
    match _h : kids[childIdx ks s]? with
    | none => none
    | some c => (findLeaf c s).map fun r => (childIdx ks s :: r.1, r.2)
termination_by t => t
decreasing_by
  have := List.sizeOf_lt_of_mem (List.mem_of_getElem? (by assumption))
  simp; omega

/-- src/internal/bptree.c:246-254 the search loop of `_find`: position of the first key that is equal, or begins with `s` -/
def searchLeaf (keys : List K) (s : Str) (pfx : Bool) : Option Nat :=
  keys.findIdx? fun k => if pfx then strPrefix s k.str else k.str == s

/-- src/internal/bptree.c:216-275: What `_find` reports: the leaf (with the way to it), the position, the key object and the record -/
structure Found where
  path : List Nat
  leaf : Leaf
  idx : Nat
  key : K
  rc : Nat
  deriving DecidableEq, Repr

/-- src/internal/bptree.c:216-272 `_find` with LOOKUP_EXACT: outer `none` is undefined behaviour, inner `none` not found -/
def find (b : Bpt) (s : Str) : Option (Option Found) :=
  match b.root with
  | none => some none
  | some t =>
    match findLeaf t s with
    | none => none
    | some (path, l) =>
      match searchLeaf l.keys s false with
      | none => some none
      | some i =>
        match l.keys[i]?, l.ptrs[i]? with
        | some k, some r => some (some ⟨path, l, i, k, r⟩)
        | _, _ => none

/-- src/internal/bptree.c:277-290 `bptree_lookup`: data, size and reference count -/
def lookup (b : Bpt) (s : Str) : Option (Option Rec) :=
  match find b s with
  | none => none
  | some none => some none
  | some (some f) => (b.recs f.rc).map some

/-- src/internal/bptree.c:295-298 `_cut` -/
def cut (n : Nat) : Nat := (n + 1) / 2

/-! ### insertion -/

/-- src/internal/bptree.c:495-497, 529-530 insertion point: number of leading keys not greater than the new one -/
def insPoint : List K → Str → Nat
  | [], _ => 0
  | k :: ks, s => if strLt s k.str then 0 else insPoint ks s + 1

/-- src/internal/bptree.c:491-509 `_insert_into_leaf` (the shifting loop is list insertion) -/
def insertIntoLeaf (l : Leaf) (bk : K) (r : Nat) : Leaf :=
  { l with keys := l.keys.insertIdx (insPoint l.keys bk.str) bk, ptrs := l.ptrs.insertIdx (insPoint l.keys bk.str) r }

/-- src/internal/bptree.c:537-546 the loop filling the new leaf, for one of the two arrays: `n` slots from `j` on, the
    old array being read at `i` -/
def copyLeaf {α : Type} (old : List α) (x : α) (split ins : Nat) : (n j i : Nat) → Option (List α)
  | 0, _, _ => some []
  | n + 1, j, i =>
    if split + j = ins then (copyLeaf old x split ins n (j + 1) i).map (x :: ·)
    else
      match old[i]? with
      | none => none
      | some a => (copyLeaf old x split ins n (j + 1) (i + 1)).map (a :: ·)

/-- src/internal/bptree.c:549-552 the loop `for (; i > ins; i--) a[i] = a[i - 1]` -/
def shiftUp {α : Type} (ins : Nat) : (i : Nat) → List α → List α
  | 0, a => a
  | i + 1, a =>
    if i + 1 > ins then
      match a[i]? with
      | none => shiftUp ins i a
      | some v => shiftUp ins i (a.set (i + 1) v)
    else a

/-- src/internal/bptree.c:532-555 one array of the old leaf and of the new leaf after the split -/
def splitArray {α : Type} (order : Nat) (old : List α) (x : α) (ins : Nat) : Option (List α × List α) :=
  let split := cut (order - 1)
  match copyLeaf old x split ins (order - split) 0 (if ins < split then split - 1 else split) with
  | none => none
  | some new => some ((if ins < split then (shiftUp ins (split - 1) old).set ins x else old).take split, new)

/-- src/internal/bptree.c:515-569 `_insert_into_leaf_after_splitting` without the call at its end: old leaf, key for the
    parent, new leaf -/
def splitLeaf (order newId : Nat) (l : Leaf) (bk : K) (r : Nat) : Option (Leaf × K × Leaf) :=
  let ins := insPoint (l.keys.take (order - 1)) bk.str
  match splitArray order l.keys bk ins, splitArray order l.ptrs r ins with
  | some (k1, k2), some (p1, p2) =>
    match k1[cut (order - 1) - 1]? with
    | none => none
    | some up => some ({ l with keys := k1, ptrs := p1, next := some newId }, up, ⟨newId, k2, p2, l.next⟩)
  | _, _ => none

/-- src/internal/bptree.c:620-639 the loop filling the new internal node: keys and pointers, `n` keys from `i` on, the old
    pointers being read at `j` and the old keys at `k`; the last pointer follows -/
def copyNode (ks : List K) (kids : List Tree) (bk : K) (right : Tree) (split li : Nat) :
    (n i j k : Nat) → Option (List K × List Tree)
  | 0, i, j, _ =>
    if split + i = li + 1 then some ([], [right]) else (kids[j]?).map fun p => ([], [p])
  | n + 1, i, j, k =>
    if split + i = li then
      match kids[j]? with
      | none => none
      | some p => (copyNode ks kids bk right split li n (i + 1) (j + 1) k).map fun r => (bk :: r.1, p :: r.2)
    else if split + i = li + 1 then
      match ks[k]? with
      | none => none
      | some q => (copyNode ks kids bk right split li n (i + 1) j (k + 1)).map fun r => (q :: r.1, right :: r.2)
    else
      match kids[j]?, ks[k]? with
      | some p, some q =>
        (copyNode ks kids bk right split li n (i + 1) (j + 1) (k + 1)).map fun r => (q :: r.1, p :: r.2)
      | _, _ => none

/-- src/internal/bptree.c:643-646 the loop adjusting the old node's pointers:
    `for (; i > li; i--) p[i] = i > li + 1 ? p[i - 1] : right` -/
def shiftKids (li : Nat) (right : Tree) : (i : Nat) → List Tree → List Tree
  | 0, a => a
  | i + 1, a =>
    if i + 1 > li then
      if i + 1 > li + 1 then
        match a[i]? with
        | none => shiftKids li right i a
        | some v => shiftKids li right i (a.set (i + 1) v)
      else shiftKids li right i (a.set (i + 1) right)
    else a

/-- src/internal/bptree.c:597-672 `_insert_into_node_after_splitting` without the call at its end: left node, key for the
    parent, right node -/
def splitNode (order : Nat) (ks : List K) (kids : List Tree) (li : Nat) (bk : K) (right : Tree) :
    Option (Tree × K × Tree) :=
  let split := cut order
  match copyNode ks kids bk right split li (order - split) 0 (if li + 1 < split then split - 1 else split)
      (if li < split then split - 1 else split) with
  | none => none
  | some (k2, p2) =>
    let p1 := if li < split then shiftKids li right (split - 1) kids else kids
    let k1 := if li < split then (shiftUp li (split - 1) ks).set li bk else ks
    match k1[split - 1]? with
    | none => none
    | some up => some (.node (k1.take (split - 1)) (p1.take split), up, .node k2 p2)

/-- src/internal/bptree.c:491-787: Result of inserting below a node: the node has changed, or has been split in two -/
inductive Ins where
  | fits (t : Tree)
  | split (l : Tree) (k : K) (r : Tree)

/-- src/internal/bptree.c:706-736 `_insert_into_parent` for a parent that exists: position `li` of the changed child, `r` a
    new child to its right with key `k` between them; 576-591 `_insert_into_node` -/
def insertIntoParent (order : Nat) (ks : List K) (kids : List Tree) (li : Nat) (k : K) (r : Tree) : Option Ins :=
  if ks.length < order - 1 then some (.fits (.node (ks.insertIdx li k) (kids.insertIdx (li + 1) r)))
  else (splitNode order ks kids li k r).map fun x => .split x.1 x.2.1 x.2.2

/-- src/internal/bptree.c:759-782 `_insert` along the path to the leaf -/
def insertAt (order newId : Nat) (bk : K) (r : Nat) : List Nat → Tree → Option Ins
  | [], .leaf l =>
    if l.keys.length = order - 1 then
      (splitLeaf order newId l bk r).map fun x => .split (.leaf x.1) x.2.1 (.leaf x.2.2)
    else some (.fits (.leaf (insertIntoLeaf l bk r)))
  | i :: path, .node ks kids =>
    match kids[i]? with
    | none => none
    | some c =>
      match insertAt order newId bk r path c with
      | none => none
      | some (.fits c') => some (.fits (.node ks (kids.set i c')))
      | some (.split l k right) => insertIntoParent order ks (kids.set i l) i k right
  | _, _ => none

/-- src/internal/bptree.c:682-700 `_insert_into_new_root` -/
def growRoot : Ins → Tree
  | .fits t => t
  | .split l k r => .node [k] [l, r]

/-- src/internal/bptree.c:741-757 `_create_root`, 759-782 `_insert`: a new key object with the given string, referring to
    record `r`; the new leaf, if any, takes the next number -/
def insert (b : Bpt) (s : Str) (r : Nat) : Option Bpt :=
  let bk : K := ⟨b.nextId, s⟩
  let newId := b.nextId + 1
  match b.root with
  | none => some { b with root := some (.leaf ⟨newId, [bk], [r], none⟩), nextId := b.nextId + 2 }
  | some t =>
    match findLeaf t s with
    | none => none
    | some (path, _) =>
      (insertAt b.order newId bk r path t).map fun x => { b with root := some (growRoot x), nextId := b.nextId + 2 }

/-- src/internal/bptree.c:300-339, 40-44: assignment in the record heap -/
def setRec (b : Bpt) (r : Nat) (x : Option Rec) : Bpt := { b with recs := fun i => if i = r then x else b.recs i }

/-- src/internal/bptree.c:795-798, 918-921 new data for a record -/
def writeRec (b : Bpt) (r : Nat) (data size : Nat) : Option Bpt :=
  (b.recs r).map fun x =>
    { setRec b r (some { x with data := data, size := size }) with dataSize := b.dataSize - x.size + size }

/-- src/internal/bptree.c:327-331 `_ref_record` -/
def refRec (b : Bpt) (r : Nat) : Option Bpt := (b.recs r).map fun x => setRec b r (some { x with refs := x.refs + 1 })

/-- src/internal/bptree.c:333-339 `_unref_record`, 318-325 `_destroy_record` -/
def unrefRec (b : Bpt) (r : Nat) : Option Bpt :=
  (b.recs r).map fun x =>
    if x.refs - 1 > 0 then setRec b r (some { x with refs := x.refs - 1 })
    else { setRec b r none with dataSize := b.dataSize - x.size, numEntries := b.numEntries - 1 }

/-- src/internal/bptree.c:300-316 `_make_record` -/
def makeRec (b : Bpt) (data size : Nat) : Bpt × Nat :=
  ({ setRec b b.nextRec (some ⟨data, size, 0⟩) with
      nextRec := b.nextRec + 1, dataSize := b.dataSize + size, numEntries := b.numEntries + 1 }, b.nextRec)

/-- insertion of a key for an existing record, which is referenced once more (src/internal/bptree.c:505, 539, 553, 751) -/
def insertRef (b : Bpt) (s : Str) (r : Nat) : Option Bpt :=
  match refRec b r with
  | none => none
  | some b => insert b s r

/-- src/internal/bptree.c:789-839 `bptree_add` -/
def add (b : Bpt) (s : Str) (data size : Nat) : Option Bpt :=
  match find b s with
  | none => none
  | some (some f) => writeRec b f.rc data size
  | some none => insertRef (makeRec b data size).1 s (makeRec b data size).2

/-- src/internal/bptree.c:841-944: replacing the record pointer of one leaf slot -/
def setPtr (i r : Nat) : List Nat → Tree → Option Tree
  | [], .leaf l => some (.leaf { l with ptrs := l.ptrs.set i r })
  | j :: path, .node ks kids =>
    match kids[j]? with
    | none => none
    | some c => (setPtr i r path c).map fun c' => .node ks (kids.set j c')
  | _, _ => none

/-- src/internal/bptree.c:857-858 redirecting an existing alias -/
def redirect (b : Bpt) (f : Found) (r : Nat) : Option Bpt :=
  match b.root, refRec b r with
  | some t, some b' =>
    match setPtr f.idx r f.path t with
    | none => none
    | some t' => unrefRec { b' with root := some t' } f.rc
  | _, _ => none

/-- src/internal/bptree.c:841-880 `bptree_add_alias`: result code and tree -/
def addAlias (b : Bpt) (key alias : Str) (force : Bool) : Option (Int × Bpt) :=
  match find b key with
  | none => none
  | some none => some (-1, b)
  | some (some f) =>
    match find b alias with
    | none => none
    | some (some g) =>
      if f.rc = g.rc then some (0, b)
      else if !force then some (-1, b)
      else (redirect b g f.rc).map fun b' => (0, b')
    | some none => (insertRef b alias f.rc).map fun b' => (0, b')

/-! ### deletion -/

/-- src/internal/bptree.c:963-1008 `_remove_entry_from_node` for a leaf: the key is found by identity of the key object,
    the pointer by identity of the record.  Also the key that replaces the removed one in the internal nodes, if the last
    key of a leaf with a parent went away. -/
def removeFromLeaf (l : Leaf) (bk : K) (r : Nat) (hasParent : Bool) : Option (Leaf × Option K) :=
  match l.keys.idxOf? bk, l.ptrs.idxOf? r with
  | some i, some j =>
    let l' := { l with keys := l.keys.eraseIdx i, ptrs := l.ptrs.eraseIdx j }
    if hasParent ∧ i = l.keys.length - 1 then
      match i with
      | 0 => none
      | i + 1 => (l.keys[i]?).map fun k => (l', some k)
    else some (l', none)
  | _, _ => none

/-- src/internal/bptree.c:1010-1032 one round of the climb that replaces the removed key in the internal nodes: the keys of
    this node, and the replacement still to be made further up -/
def swapKey (ks : List K) (bk : K) : Option K → List K × Option K
  | none => (ks, none)
  | some nk =>
    match ks.idxOf? bk with
    | none => (ks, some nk)
    | some i => (ks.set i nk, none)

/-- src/internal/bptree.c:1269 the fewest keys a node below the root may keep -/
def minKeys (order : Nat) : Tree → Nat
  | .leaf _ => cut (order - 1)
  | .node _ _ => cut order - 1

/-- src/internal/bptree.c:1294 -/
def capacity (order : Nat) : Tree → Nat
  | .leaf _ => order
  | .node _ _ => order - 1

/-- src/internal/bptree.c:1073-1146 `_coalesce_nodes` up to the deletion in the parent: `l` is the left one of the two
    nodes, `r` the right one, whichever of them is too small -/
def mergeNodes (l : Tree) (k : K) (r : Tree) : Option Tree :=
  match l, r with
  | .leaf a, .leaf b => some (.leaf { a with keys := a.keys ++ b.keys, ptrs := a.ptrs ++ b.ptrs, next := b.next })
  | .node ka ca, .node kb cb => some (.node (ka ++ k :: kb) (ca ++ cb))
  | _, _ => none

/-- src/internal/bptree.c:1173-1195, 1230-1231 `_redistribute_nodes`, case of a left neighbour `l`: the two nodes and the key between
    them -/
def moveRight (l : Tree) (k : K) (n : Tree) : Option (Tree × K × Tree) :=
  match l, n with
  | .leaf a, .leaf b =>
    match a.keys[a.keys.length - 1]?, a.ptrs[a.keys.length - 1]?, a.keys[a.keys.length - 2]? with
    | some x, some p, some y =>
      if a.keys.length < 2 then none else
      some (.leaf { a with keys := a.keys.take (a.keys.length - 1), ptrs := a.ptrs.take (a.keys.length - 1) }, y,
            .leaf { b with keys := x :: b.keys, ptrs := p :: b.ptrs })
    | _, _, _ => none
  | .node ka ca, .node kb cb =>
    match ka[ka.length - 1]?, ca[ka.length]? with
    | some y, some c => some (.node (ka.take (ka.length - 1)) (ca.take ka.length), y, .node (k :: kb) (c :: cb))
    | _, _ => none
  | _, _ => none

/-- src/internal/bptree.c:1203-1231 `_redistribute_nodes`, case of a right neighbour `r` -/
def moveLeft (n : Tree) (k : K) (r : Tree) : Option (Tree × K × Tree) :=
  match n, r with
  | .leaf b, .leaf a =>
    match a.keys, a.ptrs with
    | x :: ks, p :: ps =>
      some (.leaf { b with keys := b.keys ++ [x], ptrs := b.ptrs ++ [p] }, x, .leaf { a with keys := ks, ptrs := ps })
    | _, _ => none
  | .node kb cb, .node ka ca =>
    match ka, ca with
    | y :: ks, c :: cs => some (.node (kb ++ [k]) (cb ++ [c]), y, .node ks cs)
    | _, _ => none
  | _, _ => none

/-- src/internal/bptree.c:1289-1304 a child at position `i` that is too small is merged with its neighbour, which takes a
    key and a pointer out of this node (found by identity; `true`: this node got smaller), or gets an entry from it -/
def rebalance (order : Nat) (ks : List K) (kids : List Tree) (i : Nat) : Option (Tree × Bool) :=
  let li := if i = 0 then 0 else i - 1
  match kids[li]?, ks[li]?, kids[li + 1]? with
  | some l, some k, some r =>
    if numKeys l + numKeys r < capacity order l then
      match mergeNodes l k r, ks.idxOf? k with
      | some m, some j => some (.node (ks.eraseIdx j) ((kids.set li m).eraseIdx (li + 1)), true)
      | _, _ => none
    else
      match (if i = 0 then moveLeft l k r else moveRight l k r) with
      | some (l', k', r') => some (.node (ks.set li k') ((kids.set li l').set (li + 1) r'), false)
      | none => none
  | _, _, _ => none

/-- src/internal/bptree.c:1241-1305 `_delete_entry` along the path.  Result: the node, the key replacement still to be made
    in nodes further up (the code has made it already when it starts to merge; nothing that happens below looks at the
    keys above), and whether the node lost an entry. -/
def deleteAt (order : Nat) (bk : K) (r : Nat) (hasParent : Bool) : List Nat → Tree → Option (Tree × Option K × Bool)
  | [], .leaf l => (removeFromLeaf l bk r hasParent).map fun x => (.leaf x.1, x.2, true)
  | i :: path, .node ks kids =>
    match kids[i]? with
    | none => none
    | some c =>
      match deleteAt order bk r true path c with
      | none => none
      | some (c', sw, shrunk) =>
        let s := swapKey ks bk sw
        if shrunk ∧ numKeys c' < minKeys order c' then
          (rebalance order s.1 (kids.set i c') i).map fun x => (x.1, s.2, x.2)
        else some (.node s.1 (kids.set i c'), s.2, false)
  | _, _ => none

/-- src/internal/bptree.c:1037-1066 `_adjust_root` -/
def adjustRoot : Tree → Option (Option Tree)
  | .leaf l => some (if l.keys.length > 0 then some (.leaf l) else none)
  | .node ks kids => if ks.length > 0 then some (some (.node ks kids)) else (kids[0]?).map some

/-- src/internal/bptree.c:1241-1305 `_delete_entry` from the root on, 1320-1323 -/
def deleteEntry (b : Bpt) (f : Found) : Option Bpt :=
  match b.root with
  | none => none
  | some t =>
    match deleteAt b.order f.key f.rc false f.path t with
    | none => none
    | some (t', _, shrunk) =>
      match (if shrunk then adjustRoot t' else some (some t')) with
      | none => none
      | some root => unrefRec { b with root := root } f.rc

/-- src/internal/bptree.c:1310-1326 `bptree_del` -/
def del (b : Bpt) (s : Str) : Option Bpt :=
  match find b s with
  | none => none
  | some none => some b
  | some (some f) => deleteEntry b f

/-- src/include/internal/bptree.h:20-24 `bptree_update_action_t`, with the data and size the call ends up with -/
inductive Action
  | skip
  | write (data size : Nat)
  | remove
  deriving DecidableEq, Repr

/-- src/internal/bptree.c:882-938 `bptree_update` with a callback (which sees the old record and does not call back into
    the tree); without a callback it is the constant function: write if data are given, else remove -/
def update (b : Bpt) (s : Str) (fn : Option Rec → Action) : Option Bpt :=
  match find b s with
  | none => none
  | some none =>
    match fn none with
    | .write d n => add b s d n
    | _ => some b
  | some (some f) =>
    match b.recs f.rc with
    | none => none
    | some x =>
      match fn (some x) with
      | .skip => some b
      | .write d n => writeRec b f.rc d n
      | .remove => deleteEntry b f

/-! ### iteration -/

/-- model only, for src/internal/bptree.c:1369-1380: the leaves from left to right (no code of its own; used to follow leaf pointers) -/
def leaves : Tree → List Leaf
  | .leaf l => [l]
  | .node _ kids => kids.attach.flatMap fun c => leaves c.1
termination_by t => t
decreasing_by
  have := List.sizeOf_lt_of_mem c.2
  simp; omega

/-- src/internal/bptree.c:90-98 `bptree_iter_t`; `pfx` is LOOKUP_PREFIX, `c` the number of the current leaf -/
structure Iter where
  pfx : Bool
  start : Option Str
  stop : Option Str
  c : Option Nat
  i : Nat
  deriving DecidableEq, Repr

/-- src/internal/bptree.c:90-108: the leaf an iterator's pointer refers to -/
def leafById (t : Tree) (id : Nat) : Option Leaf := (leaves t).find? fun l => l.id == id

/-- src/internal/bptree.c:1369-1380 `_get_first_leaf_node` -/
def firstLeaf : Tree → Option Leaf
  | .leaf l => some l
  | .node _ [] => none
  | .node _ (c :: _) => firstLeaf c

/-- src/internal/bptree.c:1448-1462 where `bptree_iter_next` goes before looking at the end condition -/
def iterMove (b : Bpt) (it : Iter) : Option (Option (Leaf × Nat)) :=
  match it.c, b.root with
  | some _, none => none
  | none, none => some none
  | some id, some t =>
    match leafById t id with
    | none => none
    | some l =>
      if it.i < l.keys.length - 1 then some (some (l, it.i + 1))
      else
        match l.next with
        | none => some none
        | some n => (leafById t n).map fun l' => some (l', 0)
  | none, some t =>
    match it.start with
    | none => (firstLeaf t).map fun l => some (l, 0)
    | some s => (findLeaf t s).map fun x => some (x.2, (searchLeaf x.2.keys s it.pfx).getD 0)

/-- src/internal/bptree.c:1464-1483 the end condition -/
def iterStops (it : Iter) (k : K) : Bool :=
  if it.pfx then
    match it.start with
    | some p => !strPrefix p k.str
    | none => false
  else
    match it.stop with
    | some e => strLt e k.str
    | none => false

/-- src/internal/bptree.c:1446-1486 `bptree_iter_next` with 1411-1436 `bptree_iter_current`: the key and record reported
    (inner `none`: the end) and the iterator -/
def iterNext (b : Bpt) (it : Iter) : Option (Option (Str × Rec) × Iter) :=
  match iterMove b it with
  | none => none
  | some none => some (none, { it with c := none, i := 0 })
  | some (some (l, i)) =>
    match l.keys[i]? with
    | none => none
    | some k =>
      if iterStops it k then some (none, { it with c := none, i := 0 })
      else
        match (l.ptrs[i]?).bind b.recs with
        | none => none
        | some x => some (some (k.str, x), { it with c := some l.id, i := i })

/-- src/internal/bptree.c:1515-1522 the loop of `bptree_iter` (and of every user of `bptree_iter_next`): what is seen until
    the end is reported; `none` if that takes more than `fuel` rounds -/
def iterAll (b : Bpt) : (fuel : Nat) → Iter → Option (List (Str × Rec))
  | 0, _ => none
  | fuel + 1, it =>
    match iterNext b it with
    | none => none
    | some (none, _) => some []
    | some (some x, it') => (iterAll b fuel it').map (x :: ·)

/-- model only, for src/internal/bptree.c:789-1326: Calls -/
inductive Op where
  | add (key : Str) (data size : Nat)
  | alias (key alias : Str) (force : Bool)
  | update (key : Str) (fn : Option Rec → Action)
  | del (key : Str)

/-- model only, for src/internal/bptree.c:789-1326: one call; `none`: undefined behaviour -/
def step (b : Bpt) : Op → Option Bpt
  | .add s d n => add b s d n
  | .alias k a f => (addAlias b k a f).map (·.2)
  | .update s fn => update b s fn
  | .del s => del b s

/-- model only, for src/internal/bptree.c:789-1326: a sequence of calls -/
def run (b : Bpt) : List Op → Option Bpt
  | [] => some b
  | o :: os =>
    match step b o with
    | none => none
    | some b' => run b' os

end Sid.Bpt
