import Verif.Model.Kvs
/-
What a key-value store is to its user: for every key the data, size and flags a get reports.
-/
namespace Sid.Spec.KvStore
open Sid.Kvs

/-- what is stored under each key (keys without leading white space) -/
abbrev Content := Str → Option Got

def nothing : Content := fun _ => none

def put (c : Content) (k : Str) (v : Option Got) : Content := fun k' => if k' = k then v else c k'

/-- leading white space of a key does not count -/
def trim (k : Str) : Str := k.dropWhile fun c => c ∈ ([9, 10, 11, 12, 13, 32] : List UInt8)

/-- What is reported for a value: a reference is reported as it was given (with the items merged if asked for), otherwise
    a copy; a vector that is not merged keeps its items, a merged one is the concatenation of the items.  The size is the
    number of items if the value is reported as vector, else the number of bytes. -/
def valueOf (i : Input) : Got where
  data :=
    if i.ref then
      if i.vec && i.merge then .merged i.ptr i.items else .refd i.ptr
    else if i.vec then
      if i.merge then .copied [i.items.flatten] else .copied i.items
    else .copied [i.items.headD []]
  size :=
    if i.vec then
      if i.merge && !i.ref then i.items.flatten.length else i.items.length
    else (i.items.headD []).length
  vec := i.vec && !(i.merge && !i.ref)
  ref := i.ref
  auto := i.auto

/-- The callback's answer on seeing the stored value and the new one, and the value it leaves in place.  (Without a
    callback the new value is accepted.) -/
def verdict (fn : Option SetFn) (old : Option Got) (new : Got) : Int × Got :=
  match fn with
  | none => (1, new)
  | some f =>
    match f old new with
    | (r, some i) => (r, if r > 0 then valueOf i else new)
    | (r, none) => (r, new)

def unsetVerdict (fn : Option UnsetFn) (old : Option Got) : Int :=
  match fn with
  | none => 1
  | some f => f old

/-- keep the old value, if there was one, under the archive key, if there is one -/
def keep (c : Content) (arch : Option Str) (old : Option Got) : Content :=
  match arch, old with
  | some a, some o => put c (trim a) (some o)
  | _, _ => c

/-- set and unset outside of transactions -/
def step (c : Content) : Op → Content
  | .set k a f i =>
    if k = [] then c
    else if (verdict f (c (trim k)) (valueOf i)).1 = 0 then c
    else keep (put c (trim k) (some (verdict f (c (trim k)) (valueOf i)).2)) a (c (trim k))
  | .unset k a f =>
    if k = [] then c
    else if unsetVerdict f (c (trim k)) = 0 then c
    else if unsetVerdict f (c (trim k)) = 1 then keep (put c (trim k) none) a (c (trim k))
    else put c (trim k) none

def after (ops : List Op) : Content := ops.foldl step nothing

/-! ### calls within a transaction -/

/-- the keys a call may read or change -/
def touches : Op → List Str
  | .set k a _ _ => trim k :: (a.map trim).toList
  | .unset k a _ => trim k :: (a.map trim).toList

/-- a key that is unset is not used again: neither as archive of the call itself nor in later calls -/
def UnsetLast : List Op → Prop
  | [] => True
  | .set .. :: ops => UnsetLast ops
  | .unset k a _ :: ops => a.map trim ≠ some (trim k) ∧ (∀ op ∈ ops, trim k ∉ touches op) ∧ UnsetLast ops

/-- the keys a call may write -/
def writes : Op → List Str
  | .set k a _ _ => trim k :: (a.map trim).toList
  | .unset .. => []

/-- an unset without archive whose callback answers yes or no -/
def PlainUnset : Op → Prop
  | .set .. => True
  | .unset _ a f => a = none ∧ ∀ old, unsetVerdict f old = 0 ∨ unsetVerdict f old = 1

/-- no key is written twice, unsets are plain -/
def WriteOnce (ops : List Op) : Prop := (ops.flatMap writes).Nodup ∧ ∀ op ∈ ops, PlainUnset op

/-! ### memory handed over -/

/-- the values a call hands over to the store: passed by reference and to be freed by it -/
def handedBy : Op → List Input
  | .set k _ _ i => if k ≠ [] ∧ i.ref = true ∧ i.auto = true then [i] else []
  | .unset .. => []

def handed (ops : List Op) : List Input := ops.flatMap handedBy

/-- the callbacks of sets answer, but do not change the value that is to be stored -/
def OnlyAnswer (ops : List Op) : Prop := ∀ k a f i, Op.set k a (some f) i ∈ ops → ∀ old new, (f old new).2 = none

/-- what a key holds is the memory at `p`, by reference and to be freed by the store -/
def Owned (c : Content) (p : Nat) : Prop := ∃ k g, c k = some g ∧ g.ref = true ∧ g.auto = true ∧ g.data.ptr = p

/-- The memory of everything handed over was freed once if no key holds it (with an iovec also the buffers of its items), and
    not freed if a key holds it, apart from the buffers of the items of an iovec that were merged; other memory was not
    freed. -/
structure FreedOnce (c : Content) (given : List Input) (freed : List Freed) : Prop where
  gone : ∀ i ∈ given, ¬ Owned c i.ptr → freed.count (.cell i.ptr) = 1 ∧ freed.count (.items i.ptr) = if i.vec then 1 else 0
  held : ∀ i ∈ given, Owned c i.ptr →
    Freed.cell i.ptr ∉ freed ∧ freed.count (.items i.ptr) = if i.vec && i.merge then 1 else 0
  other : ∀ p, p ∉ given.map (·.ptr) → Freed.cell p ∉ freed ∧ Freed.items p ∉ freed

/-! ### backends -/

/-- `b` is an empty store that behaves as a map: lookups and updates agree with those of a map, whatever is done -/
def EmptyMap {σ : Type} (B : Backend σ) (b : σ) : Prop :=
  ∃ R : σ → StrMap.Map → Prop, R b (fun _ => none) ∧
    ∀ b m, R b m → ∀ k, B.look b k = some (m k) ∧
      ∀ f, (∀ o d n, f o = .write d n → d ≠ 0) →
        ∃ b', B.update b k f = some b' ∧ R b' (StrMap.step m (.update k f))

end Sid.Spec.KvStore
