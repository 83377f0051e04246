import Verif.Model.UbrGroup
import Verif.Spec.UbrSync
/-
Who is a member of what: groups, aliases and devices, each with a list of its members and a list of what it is in.
-/
namespace Sid.Spec.Group
open Sid.Ubr Sid.Spec.Delta Sid.Spec.Sync
open Sid.Ifc (txt)

/-- A group or alias (domain, namespace, namespace part, category, name), or a device -/
inductive Ent
  | grp (dom : Str) (ns : Ns) (part : Str) (cat : Option Str) (name : Str)
  | dev (uid : Str)
  deriving DecidableEq, Repr

/-- domains are those of groups and aliases; identifiers of devices have no colon -/
def Ent.Valid : Ent → Prop
  | .grp dom _ _ _ _ => dom = txt "ALS" ∨ dom = txt "GRP"
  | .dev uid => 58 ∉ uid

/-- the alias by which the daemon knows the disk with a sequence number -/
def disk (dseq : Str) : Ent := .grp (txt "ALS") .module (txt "/") (some (txt "dseq")) dseq

/-- the records of a group or device are kept under its name and a suffix -/
def Ent.key : Ent → Str → KeySpec
  | .grp dom ns part cat name, c => { dom := some dom, ns := ns, nsPart := some part, idCat := cat, ident := some name, core := some c }
  | .dev uid, c => { ns := .device, nsPart := some uid, core := some c }

/-- by which it is known in the lists of others -/
def Ent.name (e : Ent) : Str := composeKeyPrefix (e.key [])

/-- `b` is in the list of the members of `a` -/
def Lists (db : Db) (a b : Ent) : Prop := b.name ∈ mem db (a.key (txt "#GMB"))

/-- `a` is in the list of what `b` is in -/
def IsIn (db : Db) (b a : Ent) : Prop := a.name ∈ mem db (b.key (txt "#GIN"))

/-- the records with the lists -/
def Rel (s : KeySpec) : Prop := ∃ e : Ent, e.Valid ∧ (s = e.key (txt "#GMB") ∨ s = e.key (txt "#GIN"))

/-- Both lists say the same, groups have devices as members, devices lie on disks, and what something is in is a group or a
    device. -/
structure Consistent (db : Db) : Prop where
  both : ∀ a b : Ent, a.Valid → b.Valid → (Lists db a b ↔ IsIn db b a)
  ofGroup : ∀ dom ns part cat name, (Ent.grp dom ns part cat name).Valid →
    ∀ x ∈ mem db ((Ent.grp dom ns part cat name).key (txt "#GMB")), ∃ uid, 58 ∉ uid ∧ x = (Ent.dev uid).name
  ofDev : ∀ uid, 58 ∉ uid → ∀ x ∈ mem db ((Ent.dev uid).key (txt "#GMB")), ∃ n, 58 ∉ n ∧ x = (disk n).name
  inOf : ∀ b : Ent, b.Valid → ∀ x ∈ mem db (b.key (txt "#GIN")), ∃ a : Ent, a.Valid ∧ x = a.name

/-- the device of the command has an identifier without colon (it is a UUID) -/
def DevOk (c : Ctx) : Prop := ∀ u, c.uid = some u → 58 ∉ u

/-- what calls rely on: identifier of the device; sequence numbers of the disks a device lies on, all different, without colon -/
def CallOk : GCall → Prop
  | .create c _ _ _ _ _ => DevOk c
  | .add c _ _ _ _ => DevOk c
  | .del c _ _ _ _ => DevOk c
  | .destroy c _ _ _ _ _ => DevOk c
  | .aliasAdd c _ _ _ => DevOk c
  | .aliasRename c _ _ _ _ => DevOk c
  | .aliasDel c _ _ _ => DevOk c
  | .deps c l => DevOk c ∧ l.Nodup ∧ ∀ n ∈ l, 58 ∉ n

/-- `db` comes from `db0` in a worker: calls that change groups, other calls of modules, exports at the end of a stage -/
inductive Life (db0 : Db) : Db → Prop
  | start : Life db0 db0
  | group {db db' x rc} : Life db0 db → CallOk x → gcall db x = some (rc, db') → Life db0 db'
  | call {db db' owner x rc} : Life db0 db → call true db owner x = some (rc, db') → Life db0 db'
  | «export» {db keys o} : Life db0 db → Entries db keys → exportLoop { db := db } keys = some o → Life db0 (endStage o)

/-- The main store takes what workers export, each of which started with a consistent store of its own; `Msg` is what C35 asks of
    messages, and no group is replaced as a whole (by a worker that only created it). -/
inductive MainLife (main0 : Db) : Db → Prop
  | start : MainLife main0 main0
  | sync {main db0 db keys o main'} : MainLife main0 main → Synced Rel db0 → Consistent db0 → Life db0 db → Entries db keys →
      exportLoop { db := db } keys = some o → Msg main o.recs → (∀ s, Rel s → NotReplaced o.recs s) →
      syncMain main o.recs = some main' → MainLife main0 main'

end Sid.Spec.Group
