import Verif.Model.Fmt
import Verif.Model.UbrKey
import Verif.Model.UtilStr
/-
Model of the listings made by commands: which output calls they consist of, in which order, with which commas.

Simplifications: adding to buffers succeeds; the NUL added after each listing by `fmt_null_byte` (not printed by the client) is left out.
-/
namespace Sid.Listing
open Sid (Str)
open Sid.Fmt (Call)
open Sid.Ifc (txt)

/-- resource/ubr.c:4518-4537 `_cmd_exec_version` -/
def version (protocol major minor release : Nat) : List Call :=
  [.docStart 0, .fldUint 1 (txt "SID_IFC_PROTOCOL") protocol false, .fldUint 1 (txt "SID_MAJOR") major true,
   .fldUint 1 (txt "SID_MINOR") minor true, .fldUint 1 (txt "SID_RELEASE") release true, .docEnd 0]

/-- tools/sidctl/sidctl.c:58-92 `_sid_cmd_version`: the tool's own version, then what the daemon sent (`none`: the request failed) -/
def ctlVersion (protocol major minor release : Nat) (daemon : Option (List Call)) : List Call :=
  [.docStart 0, .elmName 0 (txt "SIDCTL_VERSION") false, .elmStart 0 false, .fldUint 1 (txt "SIDCTL_PROTOCOL") protocol false,
   .fldUint 1 (txt "SIDCTL_MAJOR") major true, .fldUint 1 (txt "SIDCTL_MINOR") minor true, .fldUint 1 (txt "SIDCTL_RELEASE") release true,
   .elmEnd 0, .elmName 0 (txt "SID_VERSION") true] ++ daemon.getD [.docStart 0, .docEnd 0] ++ [.docEnd 0]

/-- resource/ubr.c:456-464: `struct sid_dbstats` -/
structure Stats where
  keySize : Nat
  intSize : Nat
  intDataSize : Nat
  extSize : Nat
  extDataSize : Nat
  metaSize : Nat
  pairs : Nat

/-- resource/ubr.c:4734-4762 `_cmd_exec_dbstats` -/
def dbstats (s : Stats) : List Call :=
  [.docStart 0, .fldUint 1 (txt "KEYS_SIZE") s.keySize false, .fldUint 1 (txt "VALUES_INTERNAL_SIZE") s.intSize true,
   .fldUint 1 (txt "VALUES_INTERNAL_DATA_SIZE") s.intDataSize true, .fldUint 1 (txt "VALUES_EXTERNAL_SIZE") s.extSize true,
   .fldUint 1 (txt "VALUES_EXTERNAL_DATA_SIZE") s.extDataSize true, .fldUint 1 (txt "METADATA_SIZE") s.metaSize true,
   .fldUint 1 (txt "NR_KEY_VALUE_PAIRS") s.pairs true, .docEnd 0]

/-- resource/res.c:103-113: an event source: what is listed of it -/
structure Ev where
  name : Str
  max : Nat
  fired : Nat

/-- resource/res.c:42-71: a resource: what is listed of it (event sources in the order of the list, which is listed backwards) -/
inductive Node where
  | mk (ident : Str) (type : Option Str) (evs : List Ev) (pid flags : Nat) (prio : Int) (refs : Nat) (children : List Node)

/-- resource/res.c:1419-1424 `_write_event_source_elem_fields`, with the element around it (res.c:1437-1440) -/
def evCalls (level : Int) (e : Ev) (comma : Bool) : List Call :=
  [.elmStart (level + 1) comma, .fldStr (level + 2) (txt "name") e.name false, .fldUint (level + 2) (txt "events_max") e.max true,
   .fldUint (level + 2) (txt "events_fired") e.fired true, .elmEnd (level + 1)]

/-- resource/res.c:1433-1443 the array of event sources -/
def evArr (level : Int) (evs : List Ev) : List Call :=
  if evs.length ≠ 0 then
    [.arrStart level (txt "event-sources") true] ++ (evs.reverse.mapIdx fun i e => evCalls level e (decide (i + 1 > 1))).flatten ++ [.arrEnd level]
  else []

/-- resource/res.c:1426-1448 `_write_res_eleme_fields` -/
def resFields (level : Int) (ident : Str) (type : Option Str) (evs : List Ev) (pid flags : Nat) (prio : Int) (refs : Nat) : List Call :=
  [.fldStr level (txt "ID") ident false] ++
  (match type with
   | none => []
   | some t => [.fldStr level (txt "type") t true]) ++
  evArr level evs ++
  [.fldUint level (txt "pid-created") pid true, .fldUint level (txt "flags") flags true, .fldInt level (txt "prio") prio true,
   .fldUint level (txt "ref-count") refs true]

mutual
/-- resource/res.c:1450-1473 `sid_res_tree_write` -/
def treeWrite (level : Int) (comma : Bool) : Node → List Call
  | .mk ident type evs pid flags prio refs children =>
    [.elmStart level comma] ++ resFields (level + 1) ident type evs pid flags prio refs ++
    (if children.length > 0 then
      [.arrStart (level + 1) (txt "children") true] ++ kidsWrite (level + 2) 0 children ++ [.arrEnd (level + 1)]
     else []) ++
    [.elmEnd level]
/-- resource/res.c:1461-1464 the loop over the children -/
def kidsWrite (level : Int) (item : Nat) : List Node → List Call
  | [] => []
  | r :: l => treeWrite level (decide (item > 0)) r ++ kidsWrite level (item + 1) l
end

/-- resource/ubr.c:4600-4637 `_cmd_exec_resources` with the tree of the main process (6776-6782) between -/
def resources (main worker : Node) : List Call :=
  [.elmStart 0 false, .arrStart 1 (txt "sidresources") false] ++ treeWrite 2 false main ++ (treeWrite 2 true worker ++ [.arrEnd 1, .elmEnd 0])

/-- resource/ubr.c:1198: `isprint` in the C locale -/
def isPrint (c : UInt8) : Bool := 32 ≤ c && c ≤ 126

/-- resource/ubr.c:1191-1202 `_is_string_data`, for a value that is not empty -/
def isStringData (v : List UInt8) : Bool := v.getLast? == some 0 && v.dropLast.all isPrint

/-- resource/ubr.c:1217-1230 item `k` of the values (`i = start_idx + k`); `start_idx` is never 0, so neither is `i + start_idx` -/
def itemCall (level : Int) (k : Nat) (v : List UInt8) : Call :=
  if v.length ≠ 0 then
    if isStringData v then .arrStr (level + 1) v.dropLast (decide (k > 0)) else .arrBin (level + 1) v true
  else .arrStr (level + 1) [] false

/-- resource/ubr.c:1203-1238: a value as given to `_print_vvalue`, without header and padding: a vector of values or one value -/
inductive Val where
  | vec (vals : List (List UInt8))
  | one (v : List UInt8)

/-- resource/ubr.c:1204-1238 `_print_vvalue` -/
def printVal (level : Int) (name : Str) : Val → List Call
  | .vec vals => [.arrStart level name true] ++ vals.mapIdx (itemCall level) ++ [.arrEnd level]
  | .one v =>
    if v.length ≠ 0 then
      if isStringData v then [.fldStr level name v.dropLast true] else [.fldBin level name v true]
    else [.fldStr level name [] true]

/-- resource/ubr.c:1242-1257 `fl_tab` (bits: include/resource/ucmd-mod.h:140-157) -/
def flTab : List (Nat × Str) :=
  [(0x1, txt "AL"), (0x2, txt "SC"), (0x4, txt "PS"), (0x8, txt "AR"), (0x10, txt "RS"), (0x20, txt "FR_RD"), (0x40, txt "SB_RD"),
   (0x80, txt "SP_RD"), (0x100, txt "FR_WR"), (0x200, txt "SB_WR"), (0x400, txt "SP_WR")]

/-- resource/ubr.c:1264-1273 the loop over the table -/
def flagCalls (level : Int) (flags : Nat) : Bool → List (Nat × Str) → List Call
  | _, [] => []
  | comma, (bit, name) :: l =>
    if flags &&& bit ≠ 0 then .arrStr level name comma :: flagCalls level flags true l else flagCalls level flags comma l

/-- resource/ubr.c:1240-1277 `_print_flags` -/
def printFlags (level : Int) (flags : Nat) : List Call :=
  [.arrStart level (txt "flags") true] ++ flagCalls (level + 1) flags false flTab ++ [.arrEnd level]

/-- resource/ubr.c:4540-4644: a record: what is listed of it -/
structure Rec where
  key : Str
  gennum : Nat
  seqnum : Nat
  flags : Nat
  owner : Str
  val : Val

/-- resource/ubr.c:1517-1528 one record of the dump, number `n` (`needs_comma` is set after the first one) -/
def recCalls (n : Nat) (r : Rec) : List Call :=
  [.elmStart 2 (decide (n > 0)), .fldUint 3 (txt "RECORD") n false, .fldStr 3 (txt "key") r.key true,
   .fldUint 3 (txt "gennum") r.gennum true, .fldUint 3 (txt "seqnum") r.seqnum true] ++
  printFlags 3 r.flags ++ [.fldStr 3 (txt "owner") r.owner true] ++
  printVal 3 (match r.val with | .vec _ => txt "values" | .one _ => txt "value") r.val ++ [.elmEnd 2]

/-- resource/ubr.c:1363-1367, 1517-1528, 1555-1558 `_build_cmd_kv_buffers` in a format, for the records it exports -/
def dump (recs : List Rec) : List Call :=
  [.docStart 0, .arrStart 1 (txt "siddb") false] ++ (recs.mapIdx recCalls).flatten ++ [.arrEnd 1, .docEnd 0]

/-- resource/ubr.c:236-246 `dev_ready_str` in the order of include/resource/ucmd-mod.h:221-238 -/
def readyNames : List Str :=
  [txt "RDY_UNDEFINED", txt "RDY_REMOVED", txt "RDY_UNPROCESSED", txt "RDY_UNCONFIGURED", txt "RDY_UNINITIALIZED", txt "RDY_PRIVATE",
   txt "RDY_FLAT", txt "RDY_UNAVAILABLE", txt "RDY_PUBLIC"]

/-- resource/ubr.c:248-254 `dev_reserved_str` in the order of include/resource/ucmd-mod.h:240-246 -/
def reservedNames : List Str :=
  [txt "RES_UNDEFINED", txt "RES_UNPROCESSED", txt "RES_RESERVED", txt "RES_USED", txt "RES_FREE"]

/-- resource/ubr.c:4646-4660 `_sval_to_dev_ready_str`, `_sval_to_dev_reserved_str`; `none` where the C code reads outside the value or
    the table -/
def stateName (names : List Str) : Val → Option Str
  | .vec _ => none
  | .one v => if v.length < 4 then none else names[Ifc.leNat (v.take 4)]?

/-- resource/ubr.c:4701-4708 the field made from a record -/
def devField (core : Str) (v : Val) (comma : Bool) : Option (List Call) :=
  if core = txt "#GIN" ∨ core = txt "#GMB" then some (printVal 3 core v)
  else if core = txt "#RDY" then (stateName readyNames v).map fun s => [.fldStr 3 (txt "#RDY") s comma]
  else if core = txt "#RES" then (stateName reservedNames v).map fun s => [.fldStr 3 (txt "#RES") s comma]
  else some []

/-- resource/ubr.c:4688-4692 device identifier (37 bytes with NUL) and name of a record; `none`: it is skipped -/
def usable (key : Str) : Option (Str × Str) :=
  (Ubr.getKeyPart key 3).bind fun d =>
    (UStr.copyLen d d.length (some 37)).bind fun devid => (Ubr.getKeyPart key 6).map fun core => (devid, core)

/-- resource/ubr.c:4687-4715 the loop of `_cmd_exec_devices` -/
def devLoop : (prev : Str) → (comma : Bool) → List (Str × Val) → Option (List Call)
  | prev, _, [] => some (if prev ≠ [] then [.elmEnd 2] else [])
  | prev, comma, (key, v) :: l =>
    match usable key with
    | none => devLoop prev comma l
    | some (devid, core) =>
      (devField core v comma).bind fun f =>
        (devLoop devid true l).map fun rest =>
          (if prev ≠ devid then
            (if prev ≠ [] then [.elmEnd 2] else []) ++ [.elmStart 2 comma, .fldStr 3 (txt "DEVID") devid false]
           else []) ++ f ++ rest

/-- resource/ubr.c:4662-4732 `_cmd_exec_devices` for the records with prefix `::D:` -/
def devices (recs : List (Str × Val)) : Option (List Call) :=
  (devLoop [] false recs).map fun l => [.docStart 0, .arrStart 1 (txt "siddevices") false] ++ l ++ [.arrEnd 1, .docEnd 0]

end Sid.Listing
