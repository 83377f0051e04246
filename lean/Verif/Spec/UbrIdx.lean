import Verif.Model.UbrIdx
/-
What modules may expect of the database: a map from keys to records, and a set of keys to be synchronised.  `Db`, `Ubr.calls`
and `Ubr.kvGet` (Model/UbrDb.lean) are exactly that; here is what is said about histories.
-/
namespace Sid.Spec.UbrIdx
open Sid.Ubr

/-- only reservations, as modules make them when they are loaded into the main process -/
def OnlyReserves (l : List (Str × Call)) : Prop := ∀ x ∈ l, ∀ c a, x.2 ≠ .set c a

/-- no call takes a key out of the set of keys to be synchronised: none overwrites a record that is marked for
    synchronisation by one that is not -/
def NeverUnmarked : Db → List (Str × Call) → Prop
  | _, [] => True
  | db, (owner, x) :: l => ∀ r, call true db owner x = some r → (∀ k, db.idx k = true → r.2.idx k = true) ∧ NeverUnmarked r.2 l

/-- the list has exactly the marked keys, each once and with its record, in ascending order -/
def ListsMarked (db : Db) (out : List (Str × Rec)) : Prop :=
  out.Pairwise (fun x y => strLt x.1 y.1 = true) ∧ ∀ k r, (k, r) ∈ out ↔ db.idx k = true ∧ db.recs k = some r

end Sid.Spec.UbrIdx
