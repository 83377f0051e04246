import Verif.Spec.UbrDelta
import Verif.Model.UbrSync
/-
What the exchange of records between workers and the main process is to achieve.
-/
namespace Sid.Spec.Sync
open Sid.Ubr Sid.Spec.Delta

/-- the records sent under a key, in the order of their arrival -/
def arrived (k : Str) (msgs : List (List (Str × Rec))) : List Rec :=
  (msgs.flatten.filter fun x => x.1 = k).map fun x => x.2

/-- `r` is the record with the highest sequence number, of those with the same the one that came last -/
def Newest (l : List Rec) (r : Rec) : Prop :=
  ∃ before after, l = before ++ r :: after ∧ (∀ x ∈ before, x.seqnum ≤ r.seqnum) ∧ ∀ x ∈ after, x.seqnum < r.seqnum

/-- a record of items added to or removed from a set -/
structure DeltaRec (x : Str × Rec) (s : KeySpec) (op : KvOp) : Prop where
  direction : op = .plus ∨ op = .minus
  unmarked : s.extraOp = none
  key : x.1 = opKey s op
  owner : x.2.owner = core
  items : ∃ l, x.2.val = .vector l ∧ Asc l ∧ l ≠ []

/-- a record that replaces the one under its key, or unsets it -/
structure PlainRec (x : Str × Rec) (s : KeySpec) : Prop where
  unmarked : s.extraOp = none
  key : x.1 = opKey s .set

/-- A message as workers send it, for a main store `main`: the records come in the order of their keys; sets changed are sets
    in the main store.  Records of items carry the flag RS (the groups they belong to are not to be destroyed), apart from
    at most one, the last. -/
structure Msg (main : Db) (msg : List (Str × Rec)) : Prop where
  sorted : (msg.map fun x => x.1).Pairwise fun a b => strLt a b = true
  kinds : ∀ x ∈ msg, (∃ s op, DeltaRec x s op ∧ IsSet (main.recs (opKey s .set))) ∨ ∃ s, PlainRec x s
  reserved : ∀ pre x post, msg = pre ++ x :: post → (∃ s op, DeltaRec x s op) → has x.2.flags flRs = false →
    ∀ y ∈ post, ∃ s, PlainRec y s

/-- `x` is among the items a message adds to (removes from) the record of `s` -/
def Sends (msg : List (Str × Rec)) (s : KeySpec) (op : KvOp) (x : Str) : Prop :=
  ∃ r, (opKey s op, r) ∈ msg ∧ x ∈ members (some r)

/-- the message does not replace the record of `s` as a whole -/
def NotReplaced (msg : List (Str × Rec)) (s : KeySpec) : Prop := ∀ x ∈ msg, x.1 ≠ opKey s .set

/-- the record is marked to be synchronised -/
def flagged (r : Option Rec) : Bool := r.any fun r => has r.flags flSync

/-- the record under `k` is in the index if and only if it is marked to be synchronised -/
def Indexed (db : Db) (k : Str) : Prop := db.idx k = flagged (db.recs k)

/-- `keys` are the entries of the index, once each -/
def Entries (db : Db) (keys : List Str) : Prop := keys.Nodup ∧ ∀ k, k ∈ keys ↔ db.idx k = true

/-- `db` comes from `db0` by what happens in a worker: calls of modules (which do not write set-valued records `S`: C29),
    updates of set-valued records, exports at the end of a stage -/
inductive Work (S : KeySpec → Prop) (db0 : Db) : Db → Prop
  | start : Work S db0 db0
  | call {db db' owner x rc} : Work S db0 db → call true db owner x = some (rc, db') →
      (∀ s, S s → ∀ op, db'.recs (opKey s op) = db.recs (opKey s op) ∧ db'.idx (opKey s op) = db.idx (opKey s op)) →
      Work S db0 db'
  | update {db db' u rc} : Work S db0 db → Fits S db u →
      kvDeltaSet db false u.spec u.rel u.op u.hdr u.new = some (rc, db') → Work S db0 db'
  | «export» {db keys o} : Work S db0 db → Entries db keys → exportLoop { db := db } keys = some o → Work S db0 (endStage o)

end Sid.Spec.Sync
