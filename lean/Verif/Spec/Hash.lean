import Verif.Model.Hash
/-
What a hash table is to its user.
-/
namespace Sid.Spec.HashMap

/-! ### one value per key: a finite map from byte strings to (data, data length) -/

abbrev Key := List UInt8
abbrev Val := Nat × Nat
abbrev Map := Key → Option Val

def empty : Map := fun _ => none

def put (m : Map) (k : Key) (v : Val) : Map := fun k' => if k' = k then some v else m k'

def erase (m : Map) (k : Key) : Map := fun k' => if k' = k then none else m k'

/-- What a lookup reports: data and length, or NULL and 0 -/
def get (m : Map) (k : Key) : Val := (m k).getD (0, 0)

/-- `n` distinct keys are present -/
def HasSize (m : Map) (n : Nat) : Prop :=
  ∃ keys : List Key, keys.Nodup ∧ keys.length = n ∧ ∀ k, k ∈ keys ↔ (m k).isSome

/-- `l` lists every entry of the map exactly once -/
def Lists (m : Map) (l : List (Key × Val)) : Prop :=
  (l.map (·.1)).Nodup ∧ ∀ k v, (k, v) ∈ l ↔ m k = some v

/-- The calls that keep one value per key.  An update is given by what its callback decides on seeing the old value:
    store these data, remove the key, or leave it alone. -/
inductive Call
  | add (k : Key) (v : Val)
  | update (k : Key) (decide : Val → Hash.Action)
  | del (k : Key)
  | wipe

/-- Their meaning -/
def step (m : Map) : Call → Map
  | .add k v => put m k v
  | .update k f =>
    match f (get m k) with
    | .write d l => put m k (d, l)
    | .remove => erase m k
    | .skip => m
  | .del k => erase m k
  | .wipe => empty

/-- the map after a history -/
def after (calls : List Call) : Map := calls.foldl step empty

/-- An add is harmless for the length if the key is new or was stored with the same length -/
def SafeAdd (m : Map) : Call → Prop
  | .add k v => m k = none ∨ (get m k).2 = v.2
  | _ => True

/-- all adds of a history are harmless -/
def Safe : Map → List Call → Prop
  | _, [] => True
  | m, c :: cs => SafeAdd m c ∧ Safe (step m c) cs

/-- the call as made on the table -/
def Call.toOp : Call → Hash.Op
  | .add k v => .add k v.1 v.2
  | .update k f => .update k fun old => (f old, [])
  | .del k => .del k
  | .wipe => .wipe

/-! ### several values per key -/

/-- for each key its values, newest first -/
abbrev Multi := Key → List Val

def setKey (m : Multi) (k : Key) (vs : List Val) : Multi := fun k' => if k' = k then vs else m k'

/-- The stored value has these bytes as contents (a NULL never matches) -/
def holds (mem : Hash.Mem) (contents : List UInt8) (v : Val) : Bool :=
  v.1 != 0 && v.2 == contents.length && mem v.1 v.2 == contents

/-- Calls that keep several values per key -/
inductive MCall
  | addMultiple (k : Key) (v : Val)
  | delWithData (mem : Hash.Mem) (k : Key) (contents : List UInt8)
  | del (k : Key)
  | wipe

def mstep (m : Multi) : MCall → Multi
  | .addMultiple k v => setKey m k (v :: m k)
  | .delWithData mem k c => setKey m k ((m k).eraseP (holds mem c))
  | .del k => setKey m k (m k).tail
  | .wipe => fun _ => []

def mafter (calls : List MCall) : Multi := calls.foldl mstep fun _ => []

def MCall.toOp : MCall → Hash.Op
  | .addMultiple k v => .addMultiple k v.1 v.2
  | .delWithData mem k c => .delWithData mem k c
  | .del k => .del k
  | .wipe => .wipe

end Sid.Spec.HashMap
