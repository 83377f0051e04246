import Verif.Model.UbrDb
/-
Model of set-valued records (group members, groups a device is in, device dependencies, aliases) in
/repo/src/resource/ubr.c (1706-2481): the difference a step makes, the differences accumulated since the last
synchronisation, and the counterpart records of the items.

Simplifications: memory allocation and buffers succeed (Model/VectorBuf has the buffers); the two bitmaps of
`_delta_cross_bitmap_calc` are the lists of the items whose bits are left set (Model/Bitmap has the bitmaps); the items of
a vector are strings; the flags of a header are passed by value, while the code sets and clears the flag SYNC in a variable
shared by headers.  A record that is not a vector is read as one by the code: undefined behaviour, `none`.
-/
namespace Sid.Ubr
open Sid.Ifc (txt)

/-! ### the difference of a step -/

/-- src/resource/ubr.c:393-401, 1781-1959: What `_delta_step_calc` leaves in `delta->final`, `delta->plus` and `delta->minus` behind the header -/
structure Step where
  final : List Str
  plus : List Str
  minus : List Str
  deriving DecidableEq, Repr

/-- an item only the old vector has: src/resource/ubr.c:1804-1828 and 1903-1927 -/
def oldOnly (op : KvOp) (x : Str) (s : Step) : Step :=
  match op with
  | .set => { s with minus := x :: s.minus }
  | .plus => { s with final := x :: s.final }
  | .minus => { s with final := x :: s.final }

/-- an item only the new vector has: src/resource/ubr.c:1829-1852 and 1877-1901 -/
def newOnly (op : KvOp) (x : Str) (s : Step) : Step :=
  match op with
  | .set => { s with plus := x :: s.plus, final := x :: s.final }
  | .plus => { s with plus := x :: s.plus, final := x :: s.final }
  | .minus => s

/-- an item both vectors have: src/resource/ubr.c:1853-1884 -/
def inBoth (op : KvOp) (x : Str) (s : Step) : Step :=
  match op with
  | .set => { s with final := x :: s.final }
  | .plus => { s with final := x :: s.final }
  | .minus => { s with minus := x :: s.minus }

/-- src/resource/ubr.c:1780-1944 `_delta_step_calc` on the items behind the headers -/
def stepCalc (op : KvOp) : List Str → List Str → Step
  | [], [] => ⟨[], [], []⟩
  | [], n :: ns => newOnly op n (stepCalc op [] ns)
  | o :: os, [] => oldOnly op o (stepCalc op os [])
  | o :: os, n :: ns =>
    if strLt o n then oldOnly op o (stepCalc op os (n :: ns))
    else if strLt n o then newOnly op n (stepCalc op (o :: os) ns)
    else inBoth op n (stepCalc op os ns)
termination_by a b => a.length + b.length

/-! ### the accumulated difference -/

/-- src/resource/ubr.c:1961-2000 `_delta_cross_bitmap_calc`: the items of both vectors that are left when those in both are
    dropped -/
def crossCalc : List Str → List Str → List Str × List Str
  | [], ns => ([], ns)
  | os, [] => (os, [])
  | o :: os, n :: ns =>
    if strLt o n then let r := crossCalc os (n :: ns); (o :: r.1, r.2)
    else if strLt n o then let r := crossCalc (o :: os) ns; (r.1, n :: r.2)
    else crossCalc os ns
termination_by a b => a.length + b.length

/-- model only, for src/resource/ubr.c:2002-2008: insertion into a sorted list (for `qsort` below) -/
def insertStr (x : Str) : List Str → List Str
  | [] => [x]
  | y :: l => if strLt y x then y :: insertStr x l else x :: y :: l

/-- src/resource/ubr.c:2146-2154 `qsort` with `_vvalue_str_cmp` (2002-2008): the sorted items -/
def sortStr : List Str → List Str
  | [] => []
  | x :: l => insertStr x (sortStr l)

/-- src/resource/ubr.c:2010-2172 `_delta_abs_calc`: from the accumulated differences stored (`none`: no such record) and those
    of the step the new accumulated ones (`none`: no buffer is made, as neither source is there) -/
def absCalc (oldP oldM : Option (List Str)) (plus minus : List Str) : Option (List Str) × Option (List Str) :=
  if plus = [] ∧ minus = [] then (none, none)
  else
    let c1 := crossCalc (oldP.getD []) minus
    let c2 := crossCalc (oldM.getD []) plus
    (if oldP.isSome ∨ plus ≠ [] then some (sortStr (c1.1 ++ c2.2)) else none,
     if oldM.isSome ∨ minus ≠ [] then some (sortStr (c1.2 ++ c2.1)) else none)

/-! ### the update of a record -/

/-- src/resource/ubr.c:819-840 the header of a vector -/
structure Hdr where
  seqnum : Nat
  flags : Flags
  gennum : Nat
  owner : Str
  deriving DecidableEq, Repr

/-- src/resource/ubr.c:819-850: a vector record: header and items -/
def Hdr.vec (h : Hdr) (items : List Str) : Rec := ⟨h.seqnum, h.flags, h.gennum, h.owner, .vector items⟩

/-- src/resource/ubr.c:2175-2181 `_value_vector_mark_sync` -/
def Hdr.sync (h : Hdr) : Hdr := { h with flags := h.flags ||| flSync }

/-- src/resource/ubr.c:1781-1800: the items of a record read as a vector; `none` for one that is not (undefined behaviour) -/
def vecItems : Option Rec → Option (List Str)
  | none => some []
  | some r =>
    match r.val with
    | .vector l => some l
    | .scalar _ => none

/-- A store inside a transaction: unsets of keys (records or index entries) wait for its end
    (src/resource/kvs.c:715-724, 1003-1053) -/
structure Tx where
  db : Db
  unsetRecs : List Str := []
  unsetIdx : List Str := []

/-- src/resource/kvs.c:1003-1053 `sid_kvs_transaction_end` without rollback -/
def Tx.done (t : Tx) : Db where
  recs := fun k => if k ∈ t.unsetRecs then none else t.db.recs k
  idx := fun k => if k ∈ t.unsetIdx then false else t.db.idx k

/-- src/resource/ubr.c:610-659, src/resource/kvs.c:489-498: the key of a record as the store keeps it, for an operation -/
def opKey (s : KeySpec) (op : KvOp) : Str := Kvs.canon (composeKey { s with op := op })

/-- src/resource/ubr.c:2343-2384 `_kv_cb_delta_step` as callback of the store for key `key`: `update_arg.ret_code`, the store
    and the difference (empty ones have no buffer).  Reading an old record that is no vector as one is undefined. -/
def deltaStep (t : Tx) (isSync : Bool) (key : Str) (op : KvOp) (h : Hdr) (new : List Str) : Option (Int × Tx × Step) :=
  (vecItems (t.db.recs key)).bind fun old =>
  if wrAllowed (t.db.recs key) h.owner < 0 then
    some (if isSync then 0 else wrAllowed (t.db.recs key) h.owner, t, ⟨[], [], []⟩)
  else
    some (0, { t with db := t.db.put key (some (h.vec (stepCalc op old new).final)) }, stepCalc op old new)

/-- src/resource/ubr.c:2228-2262 `_delta_update`, what it does with the accumulated difference of one direction: stored and
    marked to be synchronised, or unset if there is nothing left -/
def storeAbs (t : Tx) (key : Str) (h : Hdr) : Option (List Str) → Tx
  | none => t
  | some items =>
    if wrAllowed (t.db.recs key) h.owner < 0 then t
    else if items ≠ [] then
      ⟨manageIndex (t.db.put key (some (h.sync.vec items))) false key (t.db.recs key) (some (h.sync.vec items)), t.unsetRecs,
        t.unsetIdx⟩
    else
      { t with
        unsetRecs := key :: t.unsetRecs
        unsetIdx := if (t.db.recs key).any (fun r => has r.flags flSync) then key :: t.unsetIdx else t.unsetIdx }

/-- src/resource/ubr.c:2024-2038 the accumulated differences as `_delta_abs_calc` finds them in the store -/
def storedAbs (t : Tx) (s : KeySpec) : Option (Option (List Str) × Option (List Str)) :=
  match t.db.recs (opKey s .plus), t.db.recs (opKey s .minus) with
  | p, m =>
    match vecItems p, vecItems m with
    | some ps, some ms => some (p.map fun _ => ps, m.map fun _ => ms)
    | _, _ => none

/-- src/resource/ubr.c:2386-2466 `_do_kv_delta_set` with DELTA_WITH_DIFF and without DELTA_WITH_REL -/
def deltaSet0 (t : Tx) (isSync : Bool) (s : KeySpec) (op : KvOp) (h : Hdr) (new : List Str) : Option Tx :=
  (deltaStep t isSync (opKey s .set) op h new).bind fun r =>
  if r.1 < 0 then some r.2.1
  else if isSync then some r.2.1
  else
    (storedAbs r.2.1 s).bind fun old =>
    let abs := absCalc old.1 old.2 r.2.2.plus r.2.2.minus
    some (storeAbs (storeAbs r.2.1 (opKey s .plus) h abs.1) (opKey s .minus) h abs.2)

/-! ### the records of the items -/

/-- src/resource/ubr.c:2296-2315 the key of the record of an item: of the device or the group the item names -/
def relSpec (rel : KeySpec) (item : Str) : Option KeySpec :=
  match rel.ns with
  | .device => (nsPartFromKey item).map fun p => { rel with nsPart := some p }
  | .module => (idFromKey item).map fun p => { rel with ident := some p }
  | _ => none

/-- src/resource/ubr.c:107, 537 `value_flags_no_sync`: DEFAULT_VALUE_FLAGS_CORE without SID_KV_FL_SYNC -/
def flagsNoSync : Flags := flPersist ||| flRs ||| flFrgRd ||| flSubRd ||| flSupRd

/-- src/resource/ubr.c:2286-2292 the header of the record of an item -/
def relHdr (h : Hdr) : Hdr := { h with flags := flagsNoSync }

/-- src/resource/ubr.c:2296-2331 the loop of `_delta_update` over the items added or removed: the record of each item gets or
    loses the key prefix of this one.  `false`: it stopped at an item it found no key in. -/
def relLoop (isSync : Bool) (s rel : KeySpec) (op : KvOp) (h : Hdr) : Tx → List Str → Option (Bool × Tx)
  | t, [] => some (true, t)
  | t, x :: l =>
    match relSpec rel x with
    | none => some (false, t)
    | some rs => (deltaSet0 t isSync rs op (relHdr h) [composeKeyPrefix s]).bind fun t => relLoop isSync s rel op h t l

/-- src/resource/ubr.c:2386-2466 `_do_kv_delta_set` with DELTA_WITH_DIFF and DELTA_WITH_REL: own record and accumulated
    differences, records of the items added, of the items removed -/
def deltaSet (t : Tx) (isSync : Bool) (s rel : KeySpec) (op : KvOp) (h : Hdr) (new : List Str) : Option (Bool × Tx) :=
  (deltaStep t isSync (opKey s .set) op h new).bind fun r =>
  if r.1 < 0 then some (false, r.2.1)
  else
    (if isSync then some (none, none)
     else (storedAbs r.2.1 s).map fun old => absCalc old.1 old.2 r.2.2.plus r.2.2.minus).bind fun abs =>
    (relLoop isSync s rel .plus h (storeAbs r.2.1 (opKey s .plus) h abs.1) r.2.2.plus).bind fun a =>
    if a.1 then relLoop isSync s rel .minus h (storeAbs a.2 (opKey s .minus) h abs.2) r.2.2.minus
    else some a

/-- src/resource/ubr.c:2468-2481 `_kv_delta_set`: return code (0 or -1) and store -/
def kvDeltaSet (db : Db) (isSync : Bool) (s rel : KeySpec) (op : KvOp) (h : Hdr) (new : List Str) : Option (Int × Db) :=
  (deltaSet ⟨db, [], []⟩ isSync s rel op h new).map fun r => (if r.1 then 0 else -1, r.2.done)

end Sid.Ubr
