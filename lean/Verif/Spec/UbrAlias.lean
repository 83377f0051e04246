import Verif.Model.UbrAlias
import Verif.Spec.UbrStack
/-
The aliases of a device: an alias belongs to a module and has a category and a name.
-/
namespace Sid.Spec.Alias
open Sid.Ubr Sid.Spec.Group
open Sid.Ifc (txt)

/-- the alias `name` of category `cat` of the module `mod` -/
def als (mod cat name : Str) : Ent := .grp (txt "ALS") .module mod (some cat) name

/-- what is asked for, if anything, is this -/
def Asks (f : Option Str) (x : Str) : Prop := ∀ y, f = some y → x = y

/-- no group and no alias the device is in has a colon in the name of the module, the category or its own name -/
def NoColons (db : Db) (u : Str) : Prop :=
  ∀ dom ns part cat name, (Ent.grp dom ns part cat name).Valid → IsIn db (.dev u) (.grp dom ns part cat name) →
    58 ∉ part ∧ 58 ∉ cat.getD [] ∧ 58 ∉ name

/-- the module may read what the device is in -/
def MayRead (db : Db) (owner u : Str) : Prop :=
  ∀ r, db.recs (opKey ((Ent.dev u).key (txt "#GIN")) .set) = some r → rdAllowed r owner = true

/-- the device is in some group or has some alias -/
def InSomething (db : Db) (u : Str) : Prop := ∃ a : Ent, a.Valid ∧ IsIn db (.dev u) a

/-- the device has the alias, and it is one that is asked for -/
def Wanted (db : Db) (u : Str) (a : AliasArgs) (x : Str) : Prop :=
  ∃ mod cat name, IsIn db (.dev u) (als mod cat name) ∧ Asks a.modName mod ∧ Asks a.aliasKey cat ∧ x = (als mod cat name).name

end Sid.Spec.Alias
