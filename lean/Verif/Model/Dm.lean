import Verif.Model.Scan
import Verif.Model.UbrEvent
/-
Model of the device-mapper module, /repo/src/modules/ucmd/type/dm/dm.c: the cookie of an event (252-312), the properties in
sysfs (332-414), the ready state (672-840), the variables for udev (877-960), the completion of the cookie (1002-1050); and of
a device whose commands are served with this module (src/resource/ubr.c:4787-4857, 5366-5587 by way of Model/Scan.lean).

The only submodule is the one for LVM, /repo/src/modules/ucmd/type/dm/lvm/lvm.c, if it is installed: names (22-116) and the
ready state (275-316).

Simplifications: no module for all block devices takes part; calls that store values succeed, except for the ready state in
`scanPre`; aliases are not part of this model; semaphore operations succeed; the phases for the next layer (`pvscan`) are in
Model/LvmNext.lean.
-/
namespace Sid.Dm
open Sid (Str)
open Sid.DevState Sid.Event
open Sid.Util (isSpace takeSign)
open Sid.Ifc (txt)

/-! ### the cookie -/

/-- value of a character as a digit for `strtoul` (dm.c:273); 36 if it is none (letters from 'g' on are not needed here) -/
def digitVal (c : UInt8) : Nat :=
  if 48 ≤ c ∧ c ≤ 57 then c.toNat - 48
  else if 97 ≤ c ∧ c ≤ 102 then c.toNat - 87
  else if 65 ≤ c ∧ c ≤ 70 then c.toNat - 55
  else 36

/-- is it a digit of that base (dm.c:273, `strtoul`) -/
def isDig (base : Nat) (c : UInt8) : Bool := digitVal c < base

/-- value of digits (dm.c:273, `strtoul`) -/
def numVal (base : Nat) (l : Str) : Nat := l.foldl (fun a c => a * base + digitVal c) 0

/-- the base taken from the text with base 0 (dm.c:273, `strtoul`), and the text behind the prefix "0x", of which it is one
    only in front of a digit.  The prefix "0b" of newer C libraries is left out. -/
def basePrefix : Str → Nat × Str
  | 48 :: x :: d :: t => if (x = 120 ∨ x = 88) ∧ isDig 16 d then (16, d :: t) else (8, 48 :: x :: d :: t)
  | 48 :: t => (8, 48 :: t)
  | t => (10, t)

/-- `strtoul(s, &p, 0)` (dm.c:273) with `long` of 64 bits: the result, whether errno was set, and the text at `p` -/
def strtoul0 (s : Str) : Nat × Bool × Str :=
  let t := takeSign (s.dropWhile isSpace)
  let p := basePrefix t.2
  let ds := p.2.takeWhile (isDig p.1)
  if ds = [] then (0, false, s)
  else if numVal p.1 ds ≥ 2 ^ 64 then (2 ^ 64 - 1, true, p.2.dropWhile (isDig p.1))
  else (if t.1 then (2 ^ 64 - numVal p.1 ds) % 2 ^ 64 else numVal p.1 ds, false, p.2.dropWhile (isDig p.1))

/-- dm.c:272-280 base and flags of a cookie, `none` if the text is refused -/
def parseCookie (s : Str) : Option (Nat × Nat) :=
  let r := strtoul0 s
  if r.2.1 = true ∨ r.1 = 0 ∨ r.2.2 ≠ [] ∨ r.1 > 2 ^ 32 - 1 then none
  else some (r.1 % 2 ^ 16, r.1 >>> 16 % 2 ^ 16)

/-! ### the device and an event -/

/-- dm.c:252-312, 332-414, 688-697: what the module reads about an event: the variable DM_COOKIE, the action, whether it has SYNTH_UUID, and the files
    dm/uuid, dm/name, dm/suspended in sysfs as `sid_util_sysfs_get` gives them (`none`: not readable) -/
structure Ev where
  cookie : Option Str
  action : Action
  synth : Bool
  uuid : Option Str
  name : Option Str
  suspended : Option Str
  deriving DecidableEq, Repr

/-- what the daemon has about the device: ready and reserved state, the records cookie_base and cookie_flags (dm.c:109, dm.h),
    the variable .DM_SUSPENDED, the records name and uuid (dm.h), the record of the submodule that claimed it (`claim`: is it the
    one for LVM; dm.c:535-561), the submodule remembered in the process (`current`, dm.c:69-74 `submod_res_current`); the
    variables for udev that were set in this stage, and the cookies completed -/
structure World where
  ready : Ctx Ready
  reserved : Ctx Reserved
  base : Option Nat
  flags : Option Nat
  suspended : Option Str
  name : Option Str
  uuid : Option Str
  claim : Option Bool
  current : Bool
  sets : List (Str × Option Str)
  completed : List Nat
  deriving Repr

/-- dm.c:894-901, 912-926: a variable for udev is set (`none`: unset) -/
def World.put (w : World) (n : Str) (v : Option Str) : World := { w with sets := w.sets ++ [(n, v)] }

/-- dm.c:252-312 `_get_cookie_props`: result (with the flags if it is 1) -/
def cookieProps (e : Ev) (w : World) : Int × Nat × World :=
  match e.cookie with
  | none => (0, 0, { w with flags := none })
  | some s =>
    match parseCookie s with
    | none => (-1, 0, w)
    | some (b, f) => (1, f, { w with base := some b, flags := some f })

/-- dm.c:332-414 `_get_sysfs_props` -/
def aInit (e : Ev) (w : World) : Int × World :=
  match e.uuid, e.name, e.suspended with
  | some u, some n, some s =>
    if n = [] ∨ s = [] then (-1, w)
    else
      let w := if u = [] then w else w.put (txt "DM_UUID") (some u)
      let w := w.put (txt "DM_NAME") (some n)
      (0, { w.put (txt ".DM_SUSPENDED") (some s) with suspended := some s, name := some n, uuid := some u })
  | _, _, _ => (-1, w)

/-! ### the submodule for LVM -/

/-- lvm.c:23-47 `_unquote`: the first component, and the text behind the hyphen that ends it -/
def unquote : Str → Str × Str
  | [] => ([], [])
  | [c] => ([c], [])
  | c :: d :: t =>
    if c = 45 then if d = 45 then ((45 : UInt8) :: (unquote t).1, (unquote t).2) else ([], d :: t)
    else (c :: (unquote (d :: t)).1, (unquote (d :: t)).2)

/-- lvm.c:65 the three components -/
def components (s : Str) : Str × Str × Str :=
  let vg := unquote s
  let lv := unquote vg.2
  (vg.1, lv.1, (unquote lv.2).1)

/-- lvm.c:49-116 `_store_component_names`, 264-272 `_lvm_scan_a_init` (the copies for modules are left out) -/
def lvmInit (w : World) : Int × World :=
  match w.name with
  | none => (-1, w)
  | some s =>
    let k := components s
    if k.1 = [] ∨ k.2.1 = [] then (-1, w)
    else
      let w := (w.put (txt "DM_VG_NAME") (some k.1)).put (txt "DM_LV_NAME") (some k.2.1)
      (0, if k.2.2 = [] then w else w.put (txt "DM_LV_LAYER") (some k.2.2))

/-- lvm.c:238-248 `_lvm_subsys_match_current` -/
def lvmMatch (w : World) : Bool := (w.uuid.getD []).take 4 == txt "LVM-"

/-- dm.c:535-564 the submodule for the device; `lvm`: is the submodule for LVM installed.  With the record saying that there is
    none, and if none claims the device, the one remembered from an earlier device is taken. -/
def whichSub (lvm : Bool) (w : World) : Bool :=
  match w.claim with
  | some true => lvm
  | some false => lvm && w.current
  | none => lvm && (lvmMatch w || w.current)

/-- dm.c:529-569 `_dm_submod_common_scan_init` -/
def subInit (lvm : Bool) (w : World) : Int × World :=
  let cur := whichSub lvm w
  let w := { w with current := cur, claim := some (w.claim.getD cur) }
  if cur then lvmInit w else (0, w)

/-! ### the ready state -/

/-- dm.c:791-796, 826-831 the state according to the flags of the cookie (dm.h:27-32) -/
def byFlags (f : Nat) : Ready :=
  if f &&& 8 ≠ 0 then .isPrivate else if f &&& 4 ≠ 0 then .flat else .isPublic

/-- src/resource/ubr.c:3089-3099 `sid_ucmd_dev_set_ready`; `kv` is what storing that state comes to -/
def setReady (kv : Ready → KvOutcome) (c : Ctx Ready) (new : Ready) : Int × Ctx Ready :=
  setState capReady readyOk c new (kv new)

/-- dm.c:777-808 `handle_unconfigured`: the case of an unconfigured device -/
def unconfigured (kv : Ready → KvOutcome) (hasCookie : Bool) (f : Nat) (c : Ctx Ready) : Int × Ctx Ready :=
  if hasCookie then setReady kv c (byFlags f) else (0, c)

/-- dm.c:727-775 the case of a device seen for the first time -/
def unprocessed (kv : Ready → KvOutcome) (e : Ev) (hasCookie : Bool) (f : Nat) (c : Ctx Ready) : Int × Ctx Ready :=
  if hasCookie then
    let r := setReady kv c .unconfigured
    if r.1 < 0 then r else unconfigured kv hasCookie f r.2
  else if e.synth then setReady kv c .isPublic
  else if e.action = .add then setReady kv c .unconfigured
  else (0, c)

/-- dm.c:718-834 the switch -/
def readySwitch (kv : Ready → KvOutcome) (e : Ev) (ready : Ready) (hasCookie : Bool) (f : Nat) (c : Ctx Ready) :
    Int × Ctx Ready :=
  match ready with
  | .undefined => (-1, c)
  | .removed => (0, c)
  | .unprocessed => unprocessed kv e hasCookie f c
  | .unconfigured => unconfigured kv hasCookie f c
  | .uninitialized => (0, c)
  | .isPrivate | .flat | .unavailable | .isPublic => if hasCookie then setReady kv c (byFlags f) else (0, c)

/-- dm.c:693-834 from reading the state on -/
def preState (kv : Ready → KvOutcome) (e : Ev) (s : Str) (hasCookie : Bool) (f : Nat) (c : Ctx Ready) : Int × Ctx Ready :=
  let g := getState .undefined c
  if hasCookie = true ∧ (e.synth = true ∨ e.action ≠ .change) then (-1, g.2)
  else if s = txt "1" then setReady kv g.2 .unavailable
  else readySwitch kv e g.1 hasCookie f g.2

/-- dm.c:672-840 `_dm_scan_pre` -/
def scanPre (kv : Ready → KvOutcome) (e : Ev) (w : World) : Int × World :=
  let k := cookieProps e w
  let w := k.2.2
  if k.1 < 0 then (-1, w)
  else
    match w.suspended with
    | none => (-1, w)
    | some s =>
      let r := preState kv e s (k.1 == 1) k.2.1 w.ready
      (if r.1 < 0 then -1 else 0, { w with ready := r.2 })

/-- lvm.c:295-313 the switch of `_lvm_scan_pre` -/
def lvmSwitch (kv : Ready → KvOutcome) (f : Option Nat) (ready : Ready) (c : Ctx Ready) : Int × Ctx Ready :=
  match ready with
  | .isPublic | .isPrivate => if f.any fun f => f &&& 0x100 ≠ 0 then setReady kv c .uninitialized else (0, c)
  | .uninitialized => if f.any fun f => f &&& 0x100 ≠ 0 then (0, c) else setReady kv c .isPublic
  | _ => (0, c)

/-- lvm.c:275-316 `_lvm_scan_pre` -/
def lvmPre (kv : Ready → KvOutcome) (w : World) : Int × World :=
  let g := getState .undefined w.ready
  let r := lvmSwitch kv w.flags g.1 g.2
  (if r.1 < 0 then -1 else 0, { w with ready := r.2 })

/-! ### the variables for udev -/

/-- dm.c:82-98 `_udev_cookie_flag_names` -/
def flagNames : List Str :=
  [txt "DM_UDEV_DISABLE_DM_RULES_FLAG", txt "DM_UDEV_DISABLE_SUBSYSTEM_RULES_FLAG", txt "DM_UDEV_DISABLE_DISK_RULES_FLAG",
    txt "DM_UDEV_DISABLE_OTHER_RULES_FLAG", txt "DM_UDEV_LOW_PRIORITY_FLAG", txt "DM_UDEV_DISABLE_LIBRARY_FALLBACK_FLAG",
    txt "DM_UDEV_PRIMARY_SOURCE_FLAG", txt "DM_UDEV_FLAG7", txt "DM_SUBSYSTEM_UDEV_FLAG0", txt "DM_SUBSYSTEM_UDEV_FLAG1",
    txt "DM_SUBSYSTEM_UDEV_FLAG2", txt "DM_SUBSYSTEM_UDEV_FLAG3", txt "DM_SUBSYSTEM_UDEV_FLAG4", txt "DM_SUBSYSTEM_UDEV_FLAG5",
    txt "DM_SUBSYSTEM_UDEV_FLAG6", txt "DM_SUBSYSTEM_UDEV_FLAG7"]

/-- dm.c:909: the name of the flag with that number -/
def flagName (i : Nat) : Str := flagNames.getD i []

/-- dm.c:908-927 the loop over the flags: what is set for them -/
def flagSets (f : Nat) : List (Str × Option Str) :=
  (List.range 16).map fun i => (flagName i, if 1 <<< i &&& f ≠ 0 then some (txt "1") else none)

/-- dm.c:930-954 what is set according to the ready state, falling through -/
def stateSets : Ready → List (Str × Option Str)
  | .uninitialized | .isPrivate | .unavailable => [(flagName 3, some (txt "1")), (flagName 2, some (txt "1"))]
  | .flat => [(flagName 2, some (txt "1"))]
  | _ => []

/-- src/include/resource/ucmd-mod.h:221-238 `ready >= _SID_DEV_RDY` -/
def isReady : Ready → Bool
  | .undefined | .removed | .unprocessed | .unconfigured => false
  | _ => true

/-- dm.c:877-960 `_dm_scan_a_exit` -/
def aExit (w : World) : Int × World :=
  let g := getState .undefined w.ready
  let w := { w with ready := g.2 }
  let w := if isReady g.1 then w.put (txt "DM_UDEV_RULES_VSN") (some (txt "3")) else w
  match w.flags with
  | none => (0, w)
  | some f => (0, { w with sets := w.sets ++ flagSets f ++ stateSets g.1 })

/-! ### completion and the whole module -/

/-- dm.c:1002-1035 `_udevcomplete` and 1037-1050 `_dm_scan_action_current` -/
def actionCurrent (w : World) : Int × World :=
  match w.base with
  | none => (0, w)
  | some b => (0, { w with completed := w.completed ++ [b] })

/-- model only, for dm.c:672-840 and 529-569: one function after the other, the second one if the first one did not fail -/
def andThen (f g : World → Int × World) (w : World) : Int × World :=
  let r := f w
  if r.1 < 0 then (-1, r.2) else g r.2

/-- the functions of the module by phase (dm.c:571-1073 `SID_UCMD_SCAN_...`) and those of the submodule for LVM called by them;
    phases in which neither does anything are left out.  571-579 `_dm_scan_a_init`, 963-974 `_dm_scan_remove_init`. -/
def fn (lvm : Bool) (e : Ev) : Phase → World → Int × World
  | .aInit => andThen (aInit e) (subInit lvm)
  | .aPre => andThen (fun w => scanPre (fun _ => .stored) e { w with ready := { w.ready with phase := .aPre } }) fun w =>
      if w.current then lvmPre (fun _ => .stored) w else (0, w)
  | .aExit => aExit
  | .removeInit => andThen (fun w => ((if (cookieProps e w).1 < 0 then -1 else 0), (cookieProps e w).2.2)) (subInit lvm)
  | .bActionCurrent => actionCurrent
  | _ => fun w => (0, w)

/-- src/resource/ubr.c:5234-5320 `_set_dev_kvs` and 4787-4857 `_set_new_dev_kvs`, of it the states of a device not known yet -/
def newDev (w : World) : World :=
  if w.ready.stored = none then
    { w with
      ready := (setState capReady readyOk { w.ready with phase := .aInit } .unprocessed .stored).2
      reserved := (setState capReserved reservedOk { w.reserved with phase := .aInit } .unprocessed .stored).2 }
  else w

/-- the environment of the scan of a device-mapper device (Model/Scan.lean): the core reads and sets the states (it sets them
    in phases that permit it, src/resource/ubr.c:5427, 5499-5504), the module is this one, there is none for the next layer -/
def env (lvm : Bool) (e : Ev) : Scan.Env World Unit where
  getReady w := ((getState .undefined w.ready).1, { w with ready := (getState .undefined w.ready).2 })
  setReady r w :=
    let x := setState capReady readyOk { w.ready with phase := .aExit } r .stored
    (x.1, { w with ready := x.2 })
  getReserved w := ((getState .undefined w.reserved).1, { w with reserved := (getState .undefined w.reserved).2 })
  setReserved r w :=
    let x := setState capReserved reservedOk { w.reserved with phase := .aExit } r .stored
    (x.1, { w with reserved := x.2 })
  setDevKvs w := (0, newDev w)
  baseMod w := (some (some ()), w)
  updateDeps w := (0, w)
  nextMod w := (none, w)
  blockMods := []
  fns _ := some fun ph => some (fn lvm e ph)
  isRemove := e.action = .remove

/-- src/resource/ubr.c:6243 a new command: its context is empty.  In a worker process of its own (`newWorker`) there is only
    what was synchronised: cookie_base is not (dm.c:287-296), it has no SID_KV_FL_SYNC; and no submodule is remembered.  (.DM_SUSPENDED of an earlier command is
    of no effect, since it is set again before it is read.) -/
def begin (newWorker : Bool) (w : World) : World :=
  { w with
    ready := { w.ready with cached := .undefined }
    reserved := { w.reserved with cached := .undefined }
    base := if newWorker then none else w.base
    suspended := none
    current := if newWorker then false else w.current
    sets := [] }

/-- src/resource/ubr.c:5623-5708 one stage of the scan: result and the device afterwards -/
def stage (lvm : Bool) (n : Nat) (e : Ev) (w : World) : Int × World :=
  match Scan.cmdExecScan (Scan.handler (env lvm e)) n (e.action = .remove) ⟨w, some (), none, []⟩ with
  | none => (-1, w)
  | some r => (r.1, r.2.1.s)

/-- src/resource/ubr.c:5589-5605: the first stage of a scan -/
def scanA (lvm newWorker : Bool) (e : Ev) (w : World) : Int × World := stage lvm 1 e (begin newWorker w)

/-- both stages: the second one is run if the first one succeeded (src/resource/ubr.c:5895-6020) -/
def scan (lvm newWorker : Bool) (e : Ev) (w : World) : Int × World :=
  let r := scanA lvm newWorker e w
  if r.1 < 0 then r else stage lvm 2 e r.2

/-- model only, for src/resource/ubr.c:4787-4857: a device the daemon does not know -/
def unknown : World := ⟨fresh .undefined .aInit, fresh .undefined .aInit, none, none, none, none, none, none, false, [], []⟩

end Sid.Dm
