import Verif.Model.UbrGen
import Verif.Spec.UbrCodec
import Verif.Spec.UbrSync
/-
The generation number of the database over the lives of the daemon.
-/
namespace Sid.Spec.Gen
open Sid.Ubr Sid.Spec.Codec
open Sid.Ifc (txt)

/-- the generation number is kept in the global namespace, by the core, under "#DBGEN" -/
def genName : Str := txt "::G::::#DBGEN"

/-- two bytes, lower one first -/
def twoBytes (g : Nat) : List UInt8 := [UInt8.ofNat (g % 256), UInt8.ofNat (g / 256)]

/-- a record that holds the generation number `g` and goes to the database file, but not to other processes -/
def IsGen (g : Nat) (r : Rec) : Prop :=
  r.val = .scalar (twoBytes g) ∧ r.owner = txt "/" ∧ r.gennum = g ∧ r.seqnum = 0 ∧
  has r.flags flPersist = true ∧ has r.flags flSync = false

/-- the store holds the generation number `g` -/
def Holds (db : Db) (g : Nat) : Prop := ∃ r, db.recs genName = some r ∧ IsGen g r

/-- a message with no record about the generation number: neither its record nor additions to it or removals from it -/
def Silent (msg : List (Str × Rec)) : Prop :=
  ∀ x ∈ msg, x.1 ≠ genName ∧ x.1 ≠ txt "+" ++ genName ∧ x.1 ≠ txt "-" ++ genName

/-- What can happen to the store of the main process from `db`: messages of workers that are silent about the generation
    number -/
inductive Runs : Db → Db → Prop
  | same (db : Db) : Runs db db
  | sync {db db1 db2 : Db} (msg : List (Str × Rec)) : Runs db db1 → Silent msg → syncMain db1 msg = some db2 → Runs db db2

/-- keys of records: `:...`, or an archived copy `~:...` -/
def PlainKey (k : Str) : Prop := k.head? = some 58 ∨ ∃ k', k'.head? = some 58 ∧ k = txt "~" ++ k'

/-- `b` is a file written from the store: `keys` are all its keys, each once, records within their types, not more than the
    64 MiB the daemon reads again -/
structure Saved (db : Db) (b : List UInt8) : Prop where
  written : ∃ keys, keys.Nodup ∧ (∀ k, k ∈ keys ↔ db.recs k ≠ none) ∧
    (∀ k ∈ keys, PlainKey k ∧ ∀ r, db.recs k = some r → WfRec (k, r)) ∧ saveFile db keys = some b
  size : b.length ≤ 0x4000000

/-- One life of the daemon, with the file before and after it: it starts with the generation `g`, its store changes, the
    database is saved any number of times, and it ends at any moment -/
inductive Life (file : Option (List UInt8)) (g : Nat) : Db → Option (List UInt8) → Bool → Prop
  | start {db} : start file = .ok (g, db) → Life file g db file false
  | runs {db db' f s} : Life file g db f s → Runs db db' → Life file g db' f s
  | save {db f s b} : Life file g db f s → Saved db b → Life file g db (some b) true

/-- Lives one after the other, the first without a file: for each its generation number and if it saved the database -/
inductive Lives : List (Nat × Bool) → Option (List UInt8) → Prop
  | first : Lives [] none
  | next {l f g db f' s} : Lives l f → Life f g db f' s → Lives (l ++ [(g, s)]) f'

end Sid.Spec.Gen
