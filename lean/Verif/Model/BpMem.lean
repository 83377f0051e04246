import Verif.Model.BpTree
/-
Model of the memory of the B+ tree: src/internal/bptree.c.  Every malloc is answered by a list of answers, so calls can fail for lack
of memory at any place.  Keys are counted references, nodes are made in advance of an insertion, `meta_size` is kept along.

Simplifications: free is counted, not the addresses (a block is freed by the function that owns it, keys by their object: a key that
is referred to again or given up again after that is undefined, `none`); sizes and numbers are integers that do not wrap; the numbers
of nodes and records allocated are kept beside what the code keeps.  What happens to the tree is in Model/BpTree.lean; here are the
calls of `_ref_bkey`, `_unref_bkey`, `_get_node_from_list` and `_destroy_node` made on the way, in their order.
-/
namespace Sid.Bpt

/-- src/internal/bptree.c:40-116: sizeof of the structures, and of a pointer -/
structure Sizes where
  key : Nat
  node : Nat
  rcd : Nat
  tree : Nat
  ptr : Nat

/-- src/internal/bptree.c:390-412 -/
def nodeSize (z : Sizes) (order : Nat) : Nat := z.node + order * z.ptr + (order - 1) * z.ptr

/-- src/internal/bptree.c:355, 362 -/
def keySize (z : Sizes) (k : K) : Nat := z.key + k.str.length + 1

/-- memory: the answers of malloc to come (once there are none left it always succeeds), the number of blocks allocated, the key
    objects allocated with their ref_count (46-49), the length of node_list (767-776), meta_size (113), and the numbers of nodes and
    records allocated (src/internal/bptree.c:300-426) -/
structure Mem where
  answers : List Bool
  blocks : Int
  keys : K → Option Nat
  pool : Nat
  metaSize : Int
  nodes : Int
  recs : Int

/-- malloc, strdup (as in src/internal/bptree.c:345): is there memory? -/
def malloc (m : Mem) : Bool × Mem :=
  match m.answers with
  | [] => (true, { m with blocks := m.blocks + 1 })
  | true :: as => (true, { m with answers := as, blocks := m.blocks + 1 })
  | false :: as => (false, { m with answers := as })

/-- free (as in src/internal/bptree.c:364-365) of `n` blocks -/
def freeN (n : Nat) (m : Mem) : Mem := { m with blocks := m.blocks - n }

/-- src/internal/bptree.c:46-49: assignment to the key objects -/
def setKey (m : Mem) (k : K) (x : Option Nat) : Mem := { m with keys := fun j => if j = k then x else m.keys j }

/-- src/internal/bptree.c:341-358 `_make_bkey` -/
def makeKey (z : Sizes) (k : K) (m : Mem) : Bool × Mem :=
  match malloc m with
  | (false, m) => (false, m)
  | (true, m) =>
    match malloc m with
    | (false, m) => (false, freeN 1 m)
    | (true, m) => (true, { setKey m k (some 0) with metaSize := m.metaSize + keySize z k })

/-- src/internal/bptree.c:360-366 `_destroy_bkey` -/
def destroyKey (z : Sizes) (k : K) (m : Mem) : Mem := freeN 2 { setKey m k none with metaSize := m.metaSize - keySize z k }

/-- src/internal/bptree.c:368-372 `_ref_bkey` -/
def refKey (k : K) (m : Mem) : Option Mem := (m.keys k).map fun n => setKey m k (some (n + 1))

/-- src/internal/bptree.c:374-382 `_unref_bkey`; giving up a key nothing refers to is undefined here -/
def unrefKey (z : Sizes) (k : K) (m : Mem) : Option Mem :=
  match m.keys k with
  | none => none
  | some 0 => none
  | some (n + 1) => if n = 0 then some (destroyKey z k m) else some (setKey m k (some n))

/-- src/internal/bptree.c:388-416 `_make_node` -/
def makeNode (z : Sizes) (order : Nat) (m : Mem) : Bool × Mem :=
  match malloc m with
  | (false, m) => (false, m)
  | (true, m) =>
    match malloc m with
    | (false, m) => (false, freeN 1 m)
    | (true, m) =>
      match malloc m with
      | (false, m) => (false, freeN 1 (freeN 1 m))
      | (true, m) => (true, { m with metaSize := m.metaSize + nodeSize z order, nodes := m.nodes + 1 })

/-- src/internal/bptree.c:418-426 `_destroy_node` -/
def destroyNode (z : Sizes) (order : Nat) (m : Mem) : Mem :=
  freeN 3 { m with metaSize := m.metaSize - nodeSize z order, nodes := m.nodes - 1 }

/-- src/internal/bptree.c:441-447 the nodes made before one could not be made -/
def destroyNodes (z : Sizes) (order : Nat) : Nat → Mem → Mem
  | 0, m => m
  | n + 1, m => destroyNodes z order n (destroyNode z order m)

/-- src/internal/bptree.c:428-448 `_make_node_list`: how many are still to be made, how many have been -/
def makeNodes (z : Sizes) (order : Nat) : (todo made : Nat) → Mem → Bool × Mem
  | 0, made, m => (true, { m with pool := made })
  | n + 1, made, m =>
    match makeNode z order m with
    | (false, m) => (false, destroyNodes z order made m)
    | (true, m) => makeNodes z order n (made + 1) m

/-- src/internal/bptree.c:300-316 `_make_record`, what it does to memory -/
def mallocRec (z : Sizes) (m : Mem) : Bool × Mem :=
  match malloc m with
  | (false, m) => (false, m)
  | (true, m) => (true, { m with metaSize := m.metaSize + z.rcd, recs := m.recs + 1 })

/-- src/internal/bptree.c:318-325 `_destroy_record`, what it does to memory -/
def freeRec (z : Sizes) (m : Mem) : Mem := freeN 1 { m with metaSize := m.metaSize - z.rcd, recs := m.recs - 1 }

/-- src/internal/bptree.c:341-458: what the functions that change the tree do to memory -/
inductive Ev
  | ref (k : K)
  | unref (k : K)
  | take
  | rm
  deriving DecidableEq, Repr

/-- src/internal/bptree.c:368-382, 418-426, 450-458; taking a node from an empty list fails the assertion (454) -/
def exec (z : Sizes) (order : Nat) (m : Mem) : Ev → Option Mem
  | .ref k => refKey k m
  | .unref k => unrefKey z k m
  | .take => if m.pool = 0 then none else some { m with pool := m.pool - 1 }
  | .rm => some (destroyNode z order m)

/-- src/internal/bptree.c:341-458 one after the other -/
def execs (z : Sizes) (order : Nat) : List Ev → Mem → Option Mem
  | [], m => some m
  | e :: es, m =>
    match exec z order m e with
    | none => none
    | some m => execs z order es m

/-! ### insertion -/

/-- src/internal/bptree.c:464-467 the loop of `_number_of_nodes_needed`: the full nodes met from the leaf on, and whether the node
    reached is full too (so the loop goes on to its parent) -/
def neededUp (order : Nat) : List Nat → Tree → Nat × Bool
  | i :: path, .node ks kids =>
    match kids[i]? with
    | none => (0, false)
    | some c =>
      let x := neededUp order path c
      if x.2 ∧ ks.length = order - 1 then (x.1 + 1, true) else (x.1, false)
  | _, t => if numKeys t = order - 1 then (1, true) else (0, false)

/-- src/internal/bptree.c:460-471 `_number_of_nodes_needed` -/
def needed (order : Nat) (path : List Nat) (t : Tree) : Nat :=
  let x := neededUp order path t
  if x.2 then x.1 + 1 else x.1

/-- src/internal/bptree.c:706-736 `_insert_into_parent` for a parent that exists: 586 the key is referred to, or 613, 622-652, 669 the
    node is split, the key moved up is given up at the end.  First what happens before the parent's parent is changed, then what after. -/
def parentEv (order : Nat) (ks : List K) (kids : List Tree) (li : Nat) (k : K) (r : Tree) (e : List Ev × List Ev) : List Ev × List Ev :=
  if ks.length < order - 1 then (e.1 ++ [.ref k], e.2)
  else
    match splitNode order ks kids li k r with
    | none => e
    | some x => (e.1 ++ [.take, .ref k], .unref x.2.1 :: e.2)

/-- src/internal/bptree.c:491-736 along the path: 504 in a leaf with room, 526, 538, 553 in a leaf that is split -/
def insEv (order newId : Nat) (bk : K) (r : Nat) : List Nat → Tree → List Ev × List Ev
  | i :: path, .node ks kids =>
    match kids[i]? with
    | none => ([], [])
    | some c =>
      match insertAt order newId bk r path c with
      | some (.split l k right) => parentEv order ks (kids.set i l) i k right (insEv order newId bk r path c)
      | _ => insEv order newId bk r path c
  | _, t => if numKeys t = order - 1 then ([.take, .ref bk], []) else ([.ref bk], [])

/-- src/internal/bptree.c:682-700 `_insert_into_new_root` -/
def rootEv : Option Ins → List Ev
  | some (.split _ k _) => [.take, .ref k]
  | _ => []

/-- src/internal/bptree.c:759-782 `_insert`, what it does to keys and nodes made in advance -/
def insEvs (order newId : Nat) (bk : K) (r : Nat) (path : List Nat) (t : Tree) : List Ev :=
  (insEv order newId bk r path t).1 ++ rootEv (insertAt order newId bk r path t) ++ (insEv order newId bk r path t).2

/-- src/internal/bptree.c:741-782 `_create_root`, `_insert`: is there memory for the nodes?  With `none` for undefined behaviour and
    assertions that fail (777). -/
def insertMem (z : Sizes) (b : Bpt) (s : Str) (r : Nat) (m : Mem) : Option (Bool × Mem) :=
  match b.root with
  | none =>
    match makeNode z b.order m with
    | (false, m) => some (false, m)
    | (true, m) => (refKey ⟨b.nextId, s⟩ m).map fun m => (true, m)
  | some t =>
    match findLeaf t s with
    | none => none
    | some (path, _) =>
      match makeNodes z b.order (needed b.order path t) 0 m with
      | (false, m) => some (false, m)
      | (true, m) =>
        match execs z b.order (insEvs b.order (b.nextId + 1) ⟨b.nextId, s⟩ r path t) m with
        | none => none
        | some m => if m.pool = 0 then some (true, m) else none

/-- src/internal/bptree.c:300-325 a record made and destroyed again: what is left of it in the statistics -/
def unmakeRec (b : Bpt) (data size : Nat) : Bpt :=
  let x := makeRec b data size
  { setRec x.1 x.2 none with dataSize := x.1.dataSize - size, numEntries := x.1.numEntries - 1, nextRec := b.nextRec }

/-- src/internal/bptree.c:789-839 `bptree_add`: result, tree and memory -/
def addMem (z : Sizes) (b : Bpt) (m : Mem) (s : Str) (data size : Nat) : Option (Int × Bpt × Mem) :=
  match find b s with
  | none => none
  | some (some f) => (writeRec b f.rc data size).map fun b => (0, b, m)
  | some none =>
    match makeKey z ⟨b.nextId, s⟩ m with
    | (false, m) => some (-1, b, m)
    | (true, m) =>
      match mallocRec z m with
      | (false, m) => some (-1, b, destroyKey z ⟨b.nextId, s⟩ m)
      | (true, m) =>
        match insertMem z b s b.nextRec m with
        | none => none
        | some (false, m) => some (-1, unmakeRec b data size, freeRec z (destroyKey z ⟨b.nextId, s⟩ m))
        | some (true, m) => (insertRef (makeRec b data size).1 s (makeRec b data size).2).map fun b => (0, b, m)

/-- src/internal/bptree.c:333-339 `_unref_record`, 318-325 `_destroy_record` -/
def unrefRecMem (z : Sizes) (b : Bpt) (r : Nat) (m : Mem) : Option Mem :=
  (b.recs r).map fun x => if x.refs - 1 > 0 then m else freeRec z m

/-- src/internal/bptree.c:841-880 `bptree_add_alias` -/
def aliasMem (z : Sizes) (b : Bpt) (m : Mem) (key alias : Str) (force : Bool) : Option (Int × Bpt × Mem) :=
  match find b key with
  | none => none
  | some none => some (-1, b, m)
  | some (some f) =>
    match find b alias with
    | none => none
    | some (some g) =>
      if f.rc = g.rc then some (0, b, m)
      else if !force then some (-1, b, m)
      else
        match redirect b g f.rc, unrefRecMem z b g.rc m with
        | some b', some m => some (0, b', m)
        | _, _ => none
    | some none =>
      match makeKey z ⟨b.nextId, alias⟩ m with
      | (false, m) => some (-1, b, m)
      | (true, m) =>
        match insertMem z b alias f.rc m with
        | none => none
        | some (false, m) => some (-1, b, destroyKey z ⟨b.nextId, alias⟩ m)
        | some (true, m) => (insertRef b alias f.rc).map fun b => (0, b, m)

/-! ### deletion -/

/-- src/internal/bptree.c:1010-1032 the key that takes the place of the one removed in an internal node -/
def swapEv (ks : List K) (bk : K) : Option K → List Ev
  | none => []
  | some nk => if bk ∈ ks then [.unref bk, .ref nk] else []

/-- src/internal/bptree.c:1073-1146, 963-1008 `_coalesce_nodes`: 1109 the key between is referred to by the node it is added to, 976
    given up by the parent; 1144 the node is destroyed at the very end (second list) -/
def mergeEv (l : Tree) (k : K) : List Ev × List Ev :=
  match l with
  | .leaf _ => ([.unref k], [.rm])
  | .node _ _ => ([.ref k, .unref k], [.rm])

/-- src/internal/bptree.c:1152-1235 `_redistribute_nodes`: 1188-1189, 1213-1214 for leaves -/
def moveEv (l : Tree) (k k' : K) : List Ev :=
  match l with
  | .leaf _ => [.ref k', .unref k]
  | .node _ _ => []

/-- src/internal/bptree.c:1289-1304 -/
def rebEv (order : Nat) (ks : List K) (kids : List Tree) (i : Nat) : List Ev × List Ev :=
  let li := if i = 0 then 0 else i - 1
  match kids[li]?, ks[li]?, kids[li + 1]? with
  | some l, some k, some r =>
    if numKeys l + numKeys r < capacity order l then mergeEv l k
    else
      match (if i = 0 then moveLeft l k r else moveRight l k r) with
      | some (_, k', _) => (moveEv l k k', [])
      | none => ([], [])
  | _, _, _ => ([], [])

/-- src/internal/bptree.c:1241-1305 `_delete_entry` along the path: what happens while the key is removed (976, 1024-1026), while nodes
    are merged, and after that -/
def delEv (order : Nat) (bk : K) (r : Nat) : List Nat → Tree → List Ev × List Ev × List Ev
  | i :: path, .node ks kids =>
    match kids[i]? with
    | none => ([], [], [])
    | some c =>
      match deleteAt order bk r true path c with
      | none => ([], [], [])
      | some (c', sw, shrunk) =>
        let e := delEv order bk r path c
        let s := swapKey ks bk sw
        if shrunk ∧ numKeys c' < minKeys order c' then
          let x := rebEv order s.1 (kids.set i c') i
          (e.1 ++ swapEv ks bk sw, e.2.1 ++ x.1, x.2 ++ e.2.2)
        else (e.1 ++ swapEv ks bk sw, e.2.1, e.2.2)
  | _, _ => ([.unref bk], [], [])

/-- src/internal/bptree.c:1037-1066 `_adjust_root` -/
def adjustEv (t : Tree) : List Ev := if numKeys t > 0 then [] else [.rm]

/-- src/internal/bptree.c:1241-1305 `_delete_entry` from the root on -/
def delEvs (order : Nat) (bk : K) (r : Nat) (path : List Nat) (t : Tree) : List Ev :=
  let e := delEv order bk r path t
  match deleteAt order bk r false path t with
  | some (t', _, true) => e.1 ++ e.2.1 ++ adjustEv t' ++ e.2.2
  | _ => e.1 ++ e.2.1 ++ e.2.2

/-- src/internal/bptree.c:1320-1323 -/
def deleteMem (z : Sizes) (b : Bpt) (f : Found) (m : Mem) : Option (Bpt × Mem) :=
  match b.root with
  | none => none
  | some t =>
    match execs z b.order (delEvs b.order f.key f.rc f.path t) m with
    | none => none
    | some m =>
      match deleteEntry b f, unrefRecMem z b f.rc m with
      | some b, some m => some (b, m)
      | _, _ => none

/-- src/internal/bptree.c:1310-1326 `bptree_del` -/
def delMem (z : Sizes) (b : Bpt) (m : Mem) (s : Str) : Option (Int × Bpt × Mem) :=
  match find b s with
  | none => none
  | some none => some (0, b, m)
  | some (some f) => (deleteMem z b f m).map fun x => (0, x.1, x.2)

/-- src/internal/bptree.c:882-938 `bptree_update` -/
def updateMem (z : Sizes) (b : Bpt) (m : Mem) (s : Str) (fn : Option Rec → Action) : Option (Int × Bpt × Mem) :=
  match find b s with
  | none => none
  | some none =>
    match fn none with
    | .write d n => addMem z b m s d n
    | _ => some (0, b, m)
  | some (some f) =>
    match b.recs f.rc with
    | none => none
    | some x =>
      match fn (some x) with
      | .skip => some (0, b, m)
      | .write d n => (writeRec b f.rc d n).map fun b => (0, b, m)
      | .remove => (deleteMem z b f m).map fun x => (0, x.1, x.2)

/-- model only, for src/internal/bptree.c:789-1326: one call -/
def stepMem (z : Sizes) (b : Bpt) (m : Mem) : Op → Option (Int × Bpt × Mem)
  | .add s d n => addMem z b m s d n
  | .alias k a f => aliasMem z b m k a f
  | .update s fn => updateMem z b m s fn
  | .del s => delMem z b m s

/-- model only, for src/internal/bptree.c:789-1326: a sequence of calls with their results -/
def runMem (z : Sizes) : Bpt → Mem → List Op → Option (List Int × Bpt × Mem)
  | b, m, [] => some ([], b, m)
  | b, m, o :: os =>
    match stepMem z b m o with
    | none => none
    | some (r, b, m) => (runMem z b m os).map fun x => (r :: x.1, x.2)

/-- src/internal/bptree.c:128-145 `bptree_create`: the tree and what it takes, given the answers of malloc to come -/
def createMem (z : Sizes) (order : Nat) (answers : List Bool) : Option (Bpt × Mem) :=
  (create order).bind fun b =>
    match malloc ⟨answers, 0, fun _ => none, 0, 0, 0, 0⟩ with
    | (false, _) => none
    | (true, m) => some (b, { m with metaSize := z.tree })

/-! ### destruction -/

/-- src/internal/bptree.c:1328-1351: what `_destroy_tree_nodes` does one after the other; `inl`: to keys and nodes, `inr`: the call of
    `fn` for a key and giving up its record -/
abbrev DEv := Ev ⊕ (Str × Nat)

/-- src/internal/bptree.c:1334-1341 one leaf; `fn` is called before the key is given up, which has no effect on records, so it is kept
    with the record -/
def leafDtor : List K → List Nat → List DEv
  | k :: ks, p :: ps => .inl (.unref k) :: .inr (k.str, p) :: leafDtor ks ps
  | _, _ => []

/-- src/internal/bptree.c:1343-1347 the loop over the children, given what is done for each -/
def weave : List (List DEv) → List K → List DEv
  | [], _ => []
  | d :: ds, [] => d ++ weave ds []
  | d :: ds, k :: ks => d ++ .inl (.unref k) :: weave ds ks

/-- src/internal/bptree.c:1328-1351 `_destroy_tree_nodes` -/
def dtor : Tree → List DEv
  | .leaf l => leafDtor l.keys l.ptrs ++ [.inl .rm]
  | .node ks kids => weave (kids.attach.map fun c => dtor c.1) ks ++ [.inl .rm]
termination_by t => t
decreasing_by
  have := List.sizeOf_lt_of_mem c.2
  simp; omega

/-- src/internal/bptree.c:1328-1351: the calls of `fn` with key and record, and memory.  What `fn` does with the data is not modelled. -/
def execD (z : Sizes) : List DEv → Bpt → Mem → Option (List (Str × Rec) × Bpt × Mem)
  | [], b, m => some ([], b, m)
  | .inl e :: es, b, m =>
    match exec z b.order m e with
    | none => none
    | some m => execD z es b m
  | .inr (s, r) :: es, b, m =>
    match b.recs r, unrefRec b r, unrefRecMem z b r m with
    | some x, some b, some m => (execD z es b m).map fun y => ((s, x) :: y.1, y.2)
    | _, _, _ => none

/-- src/internal/bptree.c:1361-1367 `bptree_destroy_with_fn`, 1353-1359 `bptree_destroy` (which makes no calls): calls, and memory
    afterwards -/
def destroyMem (z : Sizes) (b : Bpt) (m : Mem) : Option (List (Str × Rec) × Mem) :=
  match b.root with
  | none => some ([], freeN 1 m)
  | some t => (execD z (dtor t) b m).map fun x => (x.1, freeN 1 x.2.2)

end Sid.Bpt
