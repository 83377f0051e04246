import Verif.Model.UbrStack
import Verif.Spec.UbrIdent
/-
Device stacks: devices lie on disks, and disks are devices themselves.
-/
namespace Sid.Spec.Stack
open Sid.Ubr Sid.Spec.Delta Sid.Spec.Group Sid.Spec.Ident
open Relation (TransGen)
open Sid.Ifc (txt)

/-- the device with identifier `u` (which has no colon) lies directly on the disk with sequence number `n` -/
def LiesOn (db : Db) (u n : Str) : Prop := 58 ∉ u ∧ Lists db (.dev u) (disk n)

/-- The disk with sequence number `n` is the device with identifier `u`: the daemon knows the disk as this device only, and the device
    as this disk only (other aliases aside). -/
structure Is (db : Db) (n u : Str) : Prop where
  ident : IsId u
  num : n ≠ [] ∧ n.length ≤ 36 ∧ 58 ∉ n
  device : mem db ((disk n).key (txt "#GMB")) = [(Ent.dev u).name]
  disk : (mem db ((Ent.dev u).key (txt "#GIN"))).filter (fun x => (txt ":ALS:M:/:dseq:").isPrefixOf x) = [(disk n).name]

/-- the device `v` is directly below the device `u` in the stack: `u` depends on it -/
def Below (db : Db) (v u : Str) : Prop := ∃ n, LiesOn db u n ∧ Is db n v

/-- over one or more steps -/
def Under (db : Db) : Str → Str → Prop := TransGen (Below db)

/-- no device is below itself -/
def Acyclic (db : Db) : Prop := ∀ v, ¬ Under db v v

/-- the module may read the lists with members, and they are lists -/
def Readable (db : Db) (owner : Str) : Prop :=
  ∀ s, Rel s → ∀ r, db.recs (opKey s .set) = some r → rdAllowed r owner = true ∧ ∃ l, r.val = .vector l

/-- every disk on which the device or one below it lies is a device the daemon knows -/
def KnownBelow (db : Db) (u : Str) : Prop := ∀ v, v = u ∨ Under db v u → ∀ n, LiesOn db v n → ∃ w, Is db n w

/-- every device that lies on the device or on one above it is a disk the daemon knows -/
def KnownAbove (db : Db) (u : Str) : Prop :=
  ∀ v, v = u ∨ Under db u v → ∀ n, Is db n v → ∀ w, LiesOn db w n → ∃ m, Is db m w

/-- What a search downwards starts with: no key and the device of the command, or the key of a disk -/
def StartsDown (db : Db) (c : Ctx) (key : Option Str) (u : Str) : Prop :=
  (key = none ∧ c.uid = some u ∧ 58 ∉ u) ∨ ∃ n, key = some (disk n).name ∧ Is db n u

/-- What a search upwards starts with: no key and the disk of the command, or the key of a device -/
def StartsUp (db : Db) (dseq : Str) (key : Option Str) (u : Str) : Prop :=
  (key = none ∧ Is db dseq u) ∨ (key = some (Ent.dev u).name ∧ ∃ n, Is db n u)

/-- The search comes to an end (however much it may call itself, from some number on) with these keys -/
def Finds (f : Nat → Option (Except Int (Option (List Str)))) (P : Str → Prop) : Prop :=
  ∃ r k, (∀ fuel, k ≤ fuel → f fuel = some (.ok r)) ∧ ∀ x, x ∈ r.getD [] ↔ P x

end Sid.Spec.Stack
