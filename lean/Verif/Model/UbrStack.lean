import Verif.Model.UbrIdent
/-
Model of the search of device stacks in /repo/src/resource/ubr.c (2690-2820, 3781-4102): which disks a device lies on and which
devices lie on a disk, directly or over other devices.

Simplifications: memory allocation succeeds; the search, which is not bounded in the code, has a number of calls in depth it may
make (`none` when it needs more); arrays of strings are lists, NULL is `none`.
-/
namespace Sid.Ubr
open Sid.Ifc (txt)

/-- src/resource/ubr.c:694-703 `_key_spec_to_parts`; a part that is NULL is not compared -/
def specParts (s : KeySpec) : List (Option Str) :=
  [some (opPrefix s.op), s.dom, some (nsPrefix s.ns), s.nsPart, s.idCat, s.ident, s.core]

/-- src/resource/ubr.c:2699-2702 one part of the loop -/
def partMatches (p : Str) : Option Str → Bool
  | none => true
  | some q => p == q

/-- src/resource/ubr.c:2690-2706 `_key_parts_match`: all but the last part filled in -/
def partsMatch : List Str → List (Option Str) → Bool
  | p :: p' :: ps, f :: fs => partMatches p f && partsMatch (p' :: ps) fs
  | _, _ => true

/-- src/resource/ubr.c:2708-2764 `_get_key_strv_from_vvalue` -/
def filterKeys (v : Option (List Str)) (filter : KeySpec) : Option (List Str) :=
  match v with
  | none => none
  | some [] => none
  | some l => some (l.filter fun x => partsMatch (decomposeKey x) (specParts filter))

/-- src/resource/ubr.c:3795-3801, 3833-3836 `strncpy` into a buffer of the size of an identifier: a string that fills it has no
    end there, so reading it is undefined -/
def plainKey (key : Str) : Option (Except Int Str) := if key.length < uuidSize - 1 then some (.ok key) else none

/-- src/resource/ubr.c:3781-3817 `_dev_key_to_devid` -/
def devKeyToDevid (db : Db) (key : Str) : Option (Except Int Str) :=
  if (decomposeKey key).length = 1 then plainKey key
  else if (decomposeKey key).length ≠ 7 then some (.error (-126))
  else rawAliasToDevid db (Kvs.canon (key ++ gmb))

/-- src/resource/ubr.c:3856-3860, 3939-3943 the records by which disks are known -/
def dseqFilter : KeySpec := { dom := some domAlias, ns := .module, nsPart := some core, idCat := some dseqCat }

/-- src/resource/ubr.c:3864-3872 the number of the disk in the only key found: -EMLINK, -ENOBUFS -/
def dsqOf : Option (List Str) → Except Int Str
  | some [x] =>
    match idFromKey x with
    | some n => if n.length + 1 ≤ uuidSize then .ok n else .error (-105)
    | none => .error (-105)
  | _ => .error (-31)

/-- src/resource/ubr.c:3819-3879 `_dev_key_to_dsq`; a record that is no vector is read as one: undefined -/
def devKeyToDsq (db : Db) (key : Str) : Option (Except Int Str) :=
  if (decomposeKey key).length = 1 then plainKey key
  else if (decomposeKey key).length ≠ 7 then some (.error (-126))
  else
    match db.recs (Kvs.canon (key ++ gin)) with
    | none => some (.error (-61))
    | some r =>
      match r.val with
      | .scalar _ => none
      | .vector l => some (dsqOf (filterKeys (some l) dseqFilter))

/-- src/include/resource/ucmd-mod.h:304-311 sid_dev_search_t -/
inductive Search
  | immAnc | anc | base | immDesc | desc | top
  deriving DecidableEq, Repr

/-- towards the disks a device lies on? (the cases of 3895-3898) -/
def Search.down : Search → Bool
  | .immAnc => true
  | .anc => true
  | .base => true
  | _ => false

/-- src/resource/ubr.c:2593-2666 read by the module, where -ENOENT is no error (3933-3934, 3958-3959) and the value is NULL then;
    a record that is no vector is read as one: undefined -/
def depRec (db : Db) (owner : Str) (s : KeySpec) (filter : KeySpec) : Option (Except Int (Option (List Str))) :=
  match getRec db owner (composeKey s) with
  | .error e => some (if e = -2 then .ok (filterKeys none filter) else .error e)
  | .ok r =>
    match r.val with
    | .scalar _ => none
    | .vector l => some (.ok (filterKeys (some l) filter))

/-- src/resource/ubr.c:3900-3907, 3947-3953 what the key given stands for, empty if there is none -/
def startOf (f : Str → Option (Except Int Str)) : Option Str → Option (Except Int Str)
  | none => some (.ok [])
  | some key => f key

/-- src/resource/ubr.c:3881-3968 `_get_dev_imm_deps`; `dseq` is `req_env.dev.dsq_s` -/
def immDeps (db : Db) (c : Ctx) (dseq owner : Str) (key : Option Str) (m : Search) : Option (Except Int (Option (List Str))) :=
  if m.down then
    (startOf (devKeyToDevid db) key).bind fun
      | .error e => some (.error e)
      | .ok buf => depRec db owner
          { ns := .device, nsPart := some (if buf = [] then nsPartOf c owner .device else buf), core := some gmb } dseqFilter
  else
    (startOf (devKeyToDsq db) key).bind fun
      | .error e => some (.error e)
      | .ok buf => depRec db owner
          { dseqFilter with ident := some (if buf = [] then dseq else buf), core := some gin } { ns := .device }

/-- src/resource/ubr.c:4000-4019 the loop over what was found, for all devices; `again` is the search from a device found.
    `_strv_add_strv` (2767-2796) of an empty array fails, -ENOMEM then. -/
def allLoop (again : Str → Option (Except Int (Option (List Str)))) : List Str → List Str → Option (Except Int (Option (List Str)))
  | acc, [] => some (.ok (some acc))
  | acc, x :: l =>
    (again x).bind fun
      | .error e => some (.error e)
      | .ok none => allLoop again acc l
      | .ok (some []) => some (.error (-12))
      | .ok (some r) => allLoop again (acc ++ r) l

/-- src/resource/ubr.c:4035-4072 the loop for those that end the search; `none` is the NULL array at the start.  Adding to an array
    that is empty reads before its start (2809): undefined. -/
def endLoop (again : Str → Option (Except Int (Option (List Str)))) : Option (List Str) → List Str →
    Option (Except Int (Option (List Str)))
  | acc, [] => some (.ok acc)
  | acc, x :: l =>
    (again x).bind fun
      | .error e => some (.error e)
      | .ok none =>
        match acc with
        | some [] => none
        | acc => endLoop again (some (acc.getD [] ++ [x])) l
      | .ok (some r) =>
        match acc with
        | none => endLoop again (some r) l
        | some a => if a = [] ∨ r = [] then some (.error (-12)) else endLoop again (some (a ++ r)) l

/-- src/resource/ubr.c:3986-4077 the switch over what to search for -/
def searchOn (again : Str → Option (Except Int (Option (List Str)))) (m : Search) (found : Option (List Str)) :
    Option (Except Int (Option (List Str))) :=
  if found.getD [] = [] then some (.ok found)
  else
    match m with
    | .immAnc => some (.ok found)
    | .immDesc => some (.ok found)
    | .anc => allLoop again (found.getD []) (found.getD [])
    | .desc => allLoop again (found.getD []) (found.getD [])
    | .base => endLoop again none (found.getD [])
    | .top => endLoop again none (found.getD [])

/-- src/resource/ubr.c:3970-4090 `_do_sid_ucmd_dev_stack_get`, 4092-4102 `sid_ucmd_dev_stack_get`: the array of keys (NULL: `none`)
    or the error; `none` if it is not through after `fuel` calls in depth (or undefined) -/
def stackGet (db : Db) (c : Ctx) (dseq owner : Str) (m : Search) : Nat → Option Str → Option (Except Int (Option (List Str)))
  | 0, _ => none
  | fuel + 1, key =>
    (immDeps db c dseq owner key m).bind fun
      | .error e => some (.error e)
      | .ok found => searchOn (fun x => stackGet db c dseq owner m fuel (some x)) m found

end Sid.Ubr
