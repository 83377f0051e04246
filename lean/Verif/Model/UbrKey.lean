import Verif.Model.Kvs
import Verif.Model.Ifc
/-
Model of the database keys in /repo/src/resource/ubr.c (60-104, 415-437, 610-817, 1664-1706, 2524-2531, 2833-2860):
how a key is put together from its parts, how parts are read back, and which key a module's call addresses.

Simplifications: strings have no NUL inside; adding to the generic buffer and asprintf succeed (LinearBuf has the buffer);
a key is the string itself, not a pointer.
-/
namespace Sid.Ubr
open Sid.Ifc (txt)

/-- src/include/resource/kvs.h:18 SID_KVS_KEY_JOIN -/
def join : UInt8 := 58

/-- src/resource/ubr.c:393-397 `kv_op_t` -/
inductive KvOp
  | set | plus | minus
  deriving DecidableEq, Repr

/-- src/include/resource/ucmd-mod.h:128-137 `sid_kv_namespace_t` -/
inductive Ns
  | undefined | udev | device | module | devmod | global
  deriving DecidableEq, Repr

/-- src/resource/ubr.c:70-72, 428-429 `op_to_key_prefix_map` -/
def opPrefix : KvOp → Str
  | .set => []
  | .plus => txt "+"
  | .minus => txt "-"

/-- src/resource/ubr.c:74-79, 431-436 `ns_to_key_prefix_map` -/
def nsPrefix : Ns → Str
  | .undefined => []
  | .udev => txt "U"
  | .device => txt "D"
  | .module => txt "M"
  | .devmod => txt "X"
  | .global => txt "G"

/-- src/resource/ubr.c:67 KV_PREFIX_OP_SYNC_C -/
def opSync : Str := txt ">"
/-- src/resource/ubr.c:68 KV_PREFIX_OP_ARCHIVE_C -/
def opArchive : Str := txt "~"
/-- src/resource/ubr.c:69 KV_PREFIX_OP_BLANK_C -/
def opBlank : Str := txt " "
/-- src/resource/ubr.c:81 KV_PREFIX_KEY_SYS_C -/
def sysChar : UInt8 := 35
/-- src/resource/ubr.c:89 KV_KEY_DOM_ALIAS -/
def domAlias : Str := txt "ALS"
/-- src/resource/ubr.c:90 KV_KEY_DOM_GROUP -/
def domGroup : Str := txt "GRP"
/-- src/resource/ubr.c:91 KV_KEY_DOM_USER -/
def domUser : Str := txt "USR"
/-- src/resource/ubr.c:96, 107 MOD_NAME_CORE, OWNER_CORE -/
def core : Str := txt "/"

/-- src/resource/ubr.c:415-424 `struct kv_key_spec`; `none` is NULL -/
structure KeySpec where
  extraOp : Option Str := none
  op : KvOp := .set
  dom : Option Str := none
  ns : Ns := .undefined
  nsPart : Option Str := none
  idCat : Option Str := none
  ident : Option Str := none
  core : Option Str := none
  deriving DecidableEq, Repr

/-- `x ?: ID_NULL` (src/resource/ubr.c:60) -/
def orNull (x : Option Str) : Str := x.getD []

/-- src/resource/ubr.c:610-653 `_do_compose_key` with `prefix_only` -/
def doComposeKey (s : KeySpec) (prefixOnly : Bool) : Str :=
  (if prefixOnly then [] else s.extraOp.getD opBlank) ++
  opPrefix s.op ++ [join] ++
  orNull s.dom ++ [join] ++
  nsPrefix s.ns ++ [join] ++
  orNull s.nsPart ++ [join] ++
  orNull s.idCat ++ [join] ++
  orNull s.ident ++ [join] ++
  (if prefixOnly then [] else orNull s.core)

/-- src/resource/ubr.c:655-659 `_compose_key` -/
def composeKey (s : KeySpec) : Str := doComposeKey s false

/-- src/resource/ubr.c:661-665 `_compose_key_prefix` -/
def composeKeyPrefix (s : KeySpec) : Str := doComposeKey s true

/-- src/resource/ubr.c:674, 722-731: `strstr(s, SID_KVS_KEY_JOIN)`: what precedes and what follows the first separator -/
def cut : Str → Option (Str × Str)
  | [] => none
  | c :: s => if c = join then some ([], s) else (cut s).map fun x => (c :: x.1, x.2)

/-- src/resource/ubr.c:673-687 the loop of `_decompose_key` with `left` parts left after this one; the number of parts
    filled in is the returned part + 1 -/
def decomposeFrom : Nat → Str → List Str
  | 0, s => [s]
  | left + 1, s =>
    match cut s with
    | none => [s]
    | some (a, b) => a :: decomposeFrom left b

/-- src/resource/ubr.c:667-690 `_decompose_key`: the parts filled in (`_KEY_PART_COUNT` is 7) -/
def decomposeKey (key : Str) : List Str := decomposeFrom 6 key

/-- src/resource/ubr.c:721-725 the string from part `n` on -/
def skipParts : Nat → Str → Option Str
  | 0, s => some s
  | n + 1, s => (cut s).bind fun x => skipParts n x.2

/-- src/resource/ubr.c:716-738 `_get_key_part` asked for the length of the part; the core part is the last one -/
def getKeyPart (key : Str) (part : Nat) : Option Str :=
  (skipParts part key).bind fun s => if part = 6 then some s else (cut s).map (·.1)

/-- src/resource/ubr.c:740-761 `_get_op_from_key` -/
def opFromKey (key : Str) : KvOp :=
  match getKeyPart key 0 with
  | none => .set
  | some p =>
    if p.length > 1 then .set
    else if p = [] then .set
    else if p = txt "+" then .plus
    else if p = txt "-" then .minus
    else .set

/-- src/resource/ubr.c:763-787 `_get_ns_from_key` (an empty part is followed by the separator, which is no namespace) -/
def nsFromKey (key : Str) : Ns :=
  match getKeyPart key 2 with
  | none => .undefined
  | some p =>
    if p.length > 1 then .undefined
    else if p = txt "U" then .udev
    else if p = txt "D" then .device
    else if p = txt "M" then .module
    else if p = txt "X" then .devmod
    else if p = txt "G" then .global
    else .undefined

/-- src/resource/ubr.c:789-802 `_copy_ns_part_from_key` (the copy succeeds) -/
def nsPartFromKey (key : Str) : Option Str := getKeyPart key 3

/-- src/resource/ubr.c:804-817 `_copy_id_from_key` -/
def idFromKey (key : Str) : Option Str := getKeyPart key 5

/-! ### the key a module's call addresses -/

/-- The parts of the command context that go into keys: `req_env.dev.num_s`, `req_env.dev.uid_s` (NULL if there is no
    device), and into records: the sequence number of the event and the generation of the store
    (src/resource/ubr.c:229-263, 113-120) -/
structure Ctx where
  num : Option Str := none
  uid : Option Str := none
  seqnum : Nat := 0
  gennum : Nat := 0
  deriving DecidableEq, Repr

/-- src/resource/ubr.c:1664-1680 `_get_ns_part` -/
def nsPartOf (c : Ctx) (owner : Str) : Ns → Str
  | .udev => orNull c.num
  | .device => orNull c.uid
  | .devmod => orNull c.uid
  | .module => owner
  | .global => []
  | .undefined => []

/-- src/resource/ubr.c:1682-1702 `_get_foreign_ns_part` -/
def foreignNsPartOf (c : Ctx) (owner : Str) (fmod fdev : Option Str) : Ns → Str
  | .udev => orNull c.num
  | .device => fdev.getD (orNull c.uid)
  | .devmod => fdev.getD (orNull c.uid)
  | .module => fmod.getD owner
  | .global => []
  | .undefined => []

/-- src/resource/ubr.c:2524-2531 the key of a set -/
def setSpec (c : Ctx) (owner : Str) (dom : Option Str) (ns : Ns) (key : Str) : KeySpec where
  dom := dom
  ns := ns
  nsPart := some (nsPartOf c owner ns)
  idCat := some (if ns = .devmod then nsPrefix .module else [])
  ident := some (if ns = .devmod then nsPartOf c owner .module else [])
  core := some key

/-- src/resource/ubr.c:2833-2857 the key of a get -/
def getSpec (c : Ctx) (owner : Str) (dom : Option Str) (ns : Ns) (key : Str) (fmod fdev : Option Str) (archive : Nat) :
    KeySpec where
  extraOp := some (if archive = 1 then opArchive else opBlank)
  dom := dom
  ns := ns
  nsPart := some (if fmod.isSome || fdev.isSome then foreignNsPartOf c owner fmod fdev ns else nsPartOf c owner ns)
  idCat := some (if ns = .devmod then nsPrefix .module else [])
  ident := if ns = .devmod then (if fmod.isSome || fdev.isSome then fmod else some (nsPartOf c owner .module)) else some []
  core := some key

/-- src/resource/ubr.c:1618, 2906 the key of a reservation -/
def rsvSpec (dom : Option Str) (ns : Ns) (key : Str) : KeySpec where
  dom := dom
  ns := ns
  core := some key

/-- src/resource/ubr.c:2588, 2880-2883, 2971 the domain of a module's records -/
def domOf (ns : Ns) : Option Str := if ns = .udev then none else some domUser

/-- src/resource/ubr.c:2580-2582, 2868-2872 the checks of `sid_ucmd_kv_set` and `sid_ucmd_kv_get` on their arguments -/
def argsOk (ns : Ns) (key : Str) : Bool := ns != .undefined && key != [] && key.head? != some sysChar

/-- src/resource/ubr.c:2485-2554, 2576-2591 the key under which the store keeps what a module sets (the blank before the
    key is passed over by the call), `none` if the arguments are refused -/
def setKey (c : Ctx) (owner : Str) (ns : Ns) (key : Str) : Option Str :=
  if argsOk ns key then some ((composeKey (setSpec c owner (domOf ns) ns key)).drop 1) else none

/-- src/resource/ubr.c:2860-2890 the key at which the store looks for what a module gets (the store skips white space,
    src/resource/kvs.c:489-498) -/
def getKey (c : Ctx) (owner : Str) (ns : Ns) (key : Str) (fmod fdev : Option Str) (archive : Nat) : Option Str :=
  if argsOk ns key then some (Kvs.canon (composeKey (getSpec c owner (domOf ns) ns key fmod fdev archive))) else none

/-- src/resource/ubr.c:2892-2989 the key of a module's reservation -/
def rsvKey (ns : Ns) (key : Str) : Option Str :=
  if key != [] && key.head? != some sysChar then some (Kvs.canon (composeKey (rsvSpec (domOf ns) ns key))) else none

end Sid.Ubr
