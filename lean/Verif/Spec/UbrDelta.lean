import Verif.Model.UbrDelta
/-
Sets of strings kept as ascending lists, what the operations on them mean, and histories of updates of such records in a
worker.
-/
namespace Sid.Spec.Delta
open Sid.Ubr

/-- ascending (in the order of `strcmp`), so without duplicates -/
def Asc (l : List Str) : Prop := l.Pairwise fun a b => strLt a b = true

instance (l : List Str) : Decidable (Asc l) := inferInstanceAs (Decidable (l.Pairwise fun a b => strLt a b = true))

/-- what is in the set afterwards -/
def Result (op : KvOp) (old new : List Str) (x : Str) : Prop :=
  match op with
  | .set => x ∈ new
  | .plus => x ∈ old ∨ x ∈ new
  | .minus => x ∈ old ∧ x ∉ new

/-- the items of a set-valued record -/
def members (r : Option Rec) : List Str :=
  match r with
  | some ⟨_, _, _, _, .vector l⟩ => l
  | _ => []

/-- the record, if there is one, is a set -/
def IsSet (r : Option Rec) : Prop := ∀ x, r = some x → ∃ l, x.val = .vector l ∧ Asc l

/-- An update of a set-valued record: the record, the kind of record of its items (the "relatives"), operation, header, items -/
structure Update where
  spec : KeySpec
  rel : KeySpec
  op : KvOp
  hdr : Hdr
  new : List Str

/-- the members of the record of `s` -/
def mem (db : Db) (s : KeySpec) : List Str := members (db.recs (opKey s .set))

/-- The update is one the daemon makes: in the name of the core; the items are given in order; the record and those of the
    items belong to the set-valued ones `S`; different items have different records, other than the one updated. -/
structure Fits (S : KeySpec → Prop) (db : Db) (u : Update) : Prop where
  rel : u.rel.extraOp = none
  owner : u.hdr.owner = core
  sorted : Asc u.new
  own : S u.spec
  named : ∀ x ∈ mem db u.spec ++ u.new, ∃ r, relSpec u.rel x = some r ∧ S r ∧ opKey r .set ≠ opKey u.spec .set
  distinct : ∀ x ∈ mem db u.spec ++ u.new, ∀ y ∈ mem db u.spec ++ u.new, ∀ r r', relSpec u.rel x = some r →
    relSpec u.rel y = some r' → opKey r .set = opKey r' .set → x = y

/-- Right after a synchronisation: set-valued records hold sets and nothing is accumulated. -/
structure Synced (S : KeySpec → Prop) (db : Db) : Prop where
  unmarked : ∀ s, S s → s.extraOp = none
  set : ∀ s, S s → IsSet (db.recs (opKey s .set))
  none : ∀ s, S s → ∀ op, op = .plus ∨ op = .minus → db.recs (opKey s op) = none ∧ db.idx (opKey s op) = false

/-- `db` comes from `db0` by updates (each done in a transaction of its own) -/
inductive Hist (S : KeySpec → Prop) (db0 : Db) : Db → Prop
  | start : Hist S db0 db0
  | step {db db' u rc} : Hist S db0 db → Fits S db u →
      kvDeltaSet db false u.spec u.rel u.op u.hdr u.new = some (rc, db') → Hist S db0 db'

end Sid.Spec.Delta
