import Verif.Model.UbrCodec
/-
Records as they can be in the database.
-/
namespace Sid.Spec.Codec
open Sid.Ubr

/-- no NUL inside a string -/
def NoNul (s : Str) : Prop := 0 ∉ s

/-- A record as it can be in the database: numbers within their types, strings without NUL inside -/
structure WfRec (x : Str × Rec) : Prop where
  key : NoNul x.1
  owner : NoNul x.2.owner
  seqnum : x.2.seqnum < 2 ^ 64
  gennum : x.2.gennum < 2 ^ 16
  items : ∀ l, x.2.val = .vector l → ∀ i ∈ l, NoNul i

/-- A record that asks for the removal of its key when it is read: without data and not (only) reserved.  Stated by what is
    in the record. -/
def Empty (r : Rec) : Prop :=
  (∃ l, r.val = .vector l ∧ has r.flags flRs = false ∧ l = []) ∨ (r.val = .scalar [] ∧ r.flags ≠ flRs)

/-- `x`, one of the records `l`, is kept when they are loaded: it does not ask for removal, it is under a key as modules and
    the core write it (`:...`), or it is the archived copy of a record that is not among `l` or still wants copies -/
def Loadable (l : List (Str × Rec)) (x : Str × Rec) : Prop :=
  ¬ Empty x.2 ∧
  (x.1.head? = some 58 ∨ ∃ k, k.head? = some 58 ∧ x.1 = archKey k ∧ ∀ r, (k, r) ∈ l → has r.flags flAr = true)

/-- the database holds the records `l` and nothing else -/
def Contents (db : Db) (l : List (Str × Rec)) : Prop :=
  (∀ x ∈ l, db.recs x.1 = some x.2) ∧ ∀ K, (∀ x ∈ l, x.1 ≠ K) → db.recs K = none

end Sid.Spec.Codec
