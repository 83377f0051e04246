import Verif.Model.UbrBoot
import Verif.Spec.UbrGen
/-
What is expected of the boot identifier in the database (C107).
-/
namespace Sid.Spec.Boot
open Sid.Ubr
open Sid.Ifc (txt)

/-- the name of the record -/
def bootName : Str := txt "::G::::#BOOTID"

/-- the database says that this is the boot identifier: a string, terminated and nothing more -/
def BootIs (db : Db) (id : List UInt8) : Prop := ∃ r, db.recs bootName = some r ∧ r.val = .scalar (id ++ [0])

/-- the kernel's file: an identifier of 36 characters, and whatever follows -/
def FileHas (boot : Except Int (List UInt8)) (id : List UInt8) : Prop :=
  ∃ rest, boot = .ok (id ++ rest) ∧ id.length = 36 ∧ (10 : UInt8) ∉ id

/-- the record found, if any, is a terminated string -/
def OldOk (db : Db) : Prop := ∀ r, db.recs bootName = some r → ∃ d, r.val = .scalar d ∧ (0 : UInt8) ∈ d

end Sid.Spec.Boot
