import Verif.Model.UbrStack
/-
Model of the question for the aliases of a device in /repo/src/resource/ubr.c (3511-3552), with what is read of the record (2593-2689)
and what is taken from it (2690-2764).

Simplifications: as in Model/UbrStack.lean; the arguments `count` and `ret_code` are not NULL.
-/
namespace Sid.Ubr

/-- src/include/resource/ucmd-mod.h:264-270 `struct sid_ucmd_dev_alias_get_args`, what is asked for; `none` is NULL -/
structure AliasArgs where
  devId : Option Str := none
  modName : Option Str := none
  aliasKey : Option Str := none
  deriving DecidableEq, Repr

/-- src/include/resource/ucmd-mod.h:264-272 what comes back: the array (NULL: `none`), `count` (`none`: not written), `ret_code` -/
structure AliasOut where
  strv : Option (List Str)
  count : Option Nat
  code : Int
  deriving DecidableEq, Repr

/-- src/resource/ubr.c:3530-3533 the record with what the device is in -/
def aliasSpec (c : Ctx) (owner : Str) (a : AliasArgs) : KeySpec :=
  { ns := .device, nsPart := some (a.devId.getD (nsPartOf c owner .device)), core := some gin }

/-- src/resource/ubr.c:3542-3547 which of the keys are returned -/
def aliasFilter (a : AliasArgs) : KeySpec := { dom := some domAlias, ns := .module, nsPart := a.modName, idCat := a.aliasKey }

/-- src/resource/ubr.c:3539-3552, 2709-2764: the array and its size; 2646-2650: of a record without items nothing is returned, and
    what comes back is NULL, as if there was no record -/
def aliasFound (a : AliasArgs) : List Str → AliasOut
  | [] => ⟨none, none, 0⟩
  | x :: l => ⟨filterKeys (some (x :: l)) (aliasFilter a), (filterKeys (some (x :: l)) (aliasFilter a)).map List.length, 0⟩

/-- src/resource/ubr.c:3511-3552 `sid_ucmd_dev_alias_get`; `known`: the calling module is one of the daemon's.  The error code of the
    lookup (3537) is overwritten (3550).  A record that is no vector is read as one: undefined. -/
def aliasGet (db : Db) (c : Ctx) (known : Bool) (owner : Str) (a : AliasArgs) : Option AliasOut :=
  if known then
    match getRec db owner (composeKey (aliasSpec c owner a)) with
    | .error _ => some ⟨none, none, 0⟩
    | .ok r =>
      match r.val with
      | .scalar _ => none
      | .vector l => some (aliasFound a l)
  else some ⟨none, none, -22⟩

end Sid.Ubr
