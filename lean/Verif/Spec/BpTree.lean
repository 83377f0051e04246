import Verif.Model.Str
/-
Specification of a store whose values may have several names, and of a plain map, independent of the tree.
-/
namespace Sid.Spec

/-! ### a map from strings to data -/
namespace StrMap

/-- data and their size under each key -/
abbrev Map := Str → Option (Nat × Nat)

/-- decision of an update callback -/
inductive Act
  | skip
  | write (data size : Nat)
  | remove

inductive Call
  | add (key : Str) (data size : Nat)
  | update (key : Str) (fn : Option (Nat × Nat) → Act)
  | del (key : Str)

def put (m : Map) (k : Str) (v : Option (Nat × Nat)) : Map := fun k' => if k' = k then v else m k'

def step (m : Map) : Call → Map
  | .add k d n => put m k (some (d, n))
  | .update k fn =>
    match fn (m k) with
    | .skip => m
    | .write d n => put m k (some (d, n))
    | .remove => put m k none
  | .del k => put m k none

end StrMap

/-! ### values with several names -/
namespace Aliased

/-- `names`: every name with the value it denotes; `val`: data and size of the values; `next`: number of the next value -/
structure Store where
  names : List (Str × Nat)
  val : Nat → Nat × Nat
  next : Nat

def empty : Store := ⟨[], fun _ => (0, 0), 0⟩

/-- the value a name denotes -/
def denotes (S : Store) (s : Str) : Option Nat := (S.names.find? fun p => p.1 == s).map (·.2)

/-- number of names of a value -/
def nameCount (S : Store) (r : Nat) : Nat := (S.names.filter fun p => p.2 == r).length

/-- data, size and number of names of what a name denotes -/
def look (S : Store) (s : Str) : Option (Nat × Nat × Nat) :=
  (denotes S s).map fun r => ((S.val r).1, (S.val r).2, nameCount S r)

inductive Call
  | add (key : Str) (data size : Nat)
  | alias (key alias : Str) (force : Bool)
  | update (key : Str) (fn : Option (Nat × Nat × Nat) → StrMap.Act)
  | del (key : Str)

def setVal (S : Store) (r : Nat) (v : Nat × Nat) : Store := { S with val := fun q => if q = r then v else S.val q }

/-- store through a name; a new name gets a new value -/
def add (S : Store) (s : Str) (d n : Nat) : Store :=
  match denotes S s with
  | some r => setVal S r (d, n)
  | none => { setVal S S.next (d, n) with names := (s, S.next) :: S.names, next := S.next + 1 }

def del (S : Store) (s : Str) : Store := { S with names := S.names.filter fun p => p.1 != s }

/-- let `a` denote the value `k` denotes; a name that denotes something else is redirected only if forced -/
def alias (S : Store) (k a : Str) (force : Bool) : Int × Store :=
  match denotes S k with
  | none => (-1, S)
  | some r =>
    match denotes S a with
    | none => (0, { S with names := (a, r) :: S.names })
    | some q =>
      if q = r then (0, S)
      else if force then (0, { S with names := S.names.map fun p => if p.1 = a then (a, r) else p })
      else (-1, S)

def step (S : Store) : Call → Store
  | .add s d n => add S s d n
  | .alias k a f => (alias S k a f).2
  | .update s fn =>
    match fn (look S s) with
    | .skip => S
    | .write d n => add S s d n
    | .remove => del S s
  | .del s => del S s

/-- `s` is the least of the names of its value -/
def LeastName (S : Store) (s : Str) : Prop :=
  ∀ r s', denotes S s = some r → denotes S s' = some r → strLt s' s = false

/-- if the call removes a name, it is the least name of its value -/
def SafeCall (S : Store) : Call → Prop
  | .add _ _ _ => True
  | .alias _ _ _ => True
  | .update s fn =>
    match fn (look S s) with
    | .remove => LeastName S s
    | _ => True
  | .del s => LeastName S s

def Safe (S : Store) : List Call → Prop
  | [] => True
  | c :: cs => SafeCall S c ∧ Safe (step S c) cs

end Aliased
end Sid.Spec
