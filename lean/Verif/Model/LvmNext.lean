import Verif.Model.UtilStr
import Verif.Model.Ifc
/-
Model of the `next` phases of the module for LVM, /repo/src/modules/ucmd/type/dm/lvm/lvm.c 117-170, 251-261 and 319-390, and of how
/repo/src/modules/ucmd/type/dm/dm.c (197-219, 237-241, 850-858, 1053-1057) chooses a submodule for them; with it the external worker
as the module uses it, /repo/src/resource/wrk-ctl.c.

Simplifications: the records of the module are a function from the key to the text stored; whether storing or removing a record
succeeds is an input. What a program writes to its standard output until it ends (or is killed) is an input, `none` if no worker could
be made (the event loop that waits for it does not fail; wrk-ctl.c:1082-1114 `sid_wrk_ctl_run_new_worker` returns only after the program has ended and all it wrote has been read). The
output is a C string: it ends at its first NUL. Messages to the log are left out, memory allocation does not fail.
-/
namespace Sid.LvmNext
open Sid (Str)
open Sid.Ifc (txt)
open Sid.UStr

/-- limits.h `LINE_MAX` (`_POSIX2_LINE_MAX`) -/
def lineMax : Nat := 2048

/-- lvm.c:20 `LVM_VG_NAME_COMPLETE` -/
def completeKey : Str := txt "LVM_VG_NAME_COMPLETE"

/-- the records of the module in the namespace DEVMOD: src/modules/ucmd/type/dm/lvm/lvm.c:148-153 -/
abbrev Records := Str → Option Str

/-- lvm.c:148-153 the record stored by `sid_ucmd_kv_va_set` -/
def store (rs : Records) (k : Str) (v : Option Str) : Records := fun x => if x = k then v else rs x

/-- model only, for lvm.c:126-157: what happened to one line -/
inductive Line where
  | next (rs : Records)
  | stop (rs : Records)

/-- lvm.c:143-156 `_process_out_line`, what is done with the result of `util_str_get_kv` (`r` is the result of the comparison, that is
    1, for a line that is no key with a value: the caller goes on) -/
def storeKv (canSet : Str → Str → Bool) (rs : Records) : Kv → Line
  | .pair k v => if canSet k v then .next (store rs k (some v)) else .stop rs
  | .nodata => .next rs
  | .inval => .next rs

/-- lvm.c:126-157 `_process_out_line`; `none`: undefined behaviour -/
def outLine (storeOn : Bool) (canSet : Str → Str → Bool) (rs : Records) (line : Str) : Option Line :=
  if !storeOn then some (.next rs)
  else if line.length > lineMax - 1 then some (.stop rs)
  else (getKv (some line)).map (storeKv canSet rs)

/-- src/internal/util.c:294-318 the loop of `util_str_iterate_tokens` with the function above: it ends when a call gives a negative
    number -/
def outLines (storeOn : Bool) (canSet : Str → Str → Bool) : Records → List Str → Option Records
  | rs, [] => some rs
  | rs, l :: ls =>
    match outLine storeOn canSet rs l with
    | none => none
    | some (.stop rs') => some rs'
    | some (.next rs') => outLines storeOn canSet rs' ls

/-- lvm.c:167-170 `_runner_stdout_recv_fn`; wrk-ctl.c:399-402: a failure is a warning -/
def stdoutRecv (storeOn : Bool) (canSet : Str → Str → Bool) (rs : Records) (out : Str) : Option Records :=
  outLines storeOn canSet rs ((iterTokens (some out) (some [10]) none).1.map Prod.fst)

/-- wrk-ctl.c:872-877 the arguments (the first is the program) of an external worker; `none`: the process ends without running
    anything -/
def argv (bin args : Str) : Option (List Str) :=
  (combToStrv none (some bin) (some args) none (some defDelims) (some defQuotes)).bind Strv.strings

/-- model only, for lvm.c:343, 375: what the module has run: the vector of arguments -/
abbrev Ran := List (Option (List Str))

/-- the state: the records, which submodule has been chosen for the `next` phases (dm.c:72 `submod_res_next`), what has been run -/
structure St where
  recs : Records
  chosen : Option Nat := none
  ran : Ran := []

/-- lvm.c:330-331 the text before the name of the device -/
def pvscanArgs : Str :=
  txt "pvscan --cache --listvg --checkcomplete --vgonline --autoactivation event --udevoutput --journal=output /dev/"

/-- lvm.c:366 the text before the name of the volume group -/
def vgchangeArgs : Str := txt "vgchange -aay --autoactivation event "

/-- lvm.c:335-341, 369-375: the world outside: what is written by the program, whether records can be stored and removed -/
structure World where
  /-- lvm.c:19 `LVM_EXEC_BIN_PATH` -/
  bin : Str
  /-- standard output of `pvscan` -/
  pvscanOut : Option Str
  /-- standard output of `vgchange` -/
  vgchangeOut : Option Str
  /-- a record can be stored -/
  canSet : Str → Str → Bool
  /-- a record can be removed -/
  canUnset : Bool

/-- lvm.c:319-349 `_lvm_scan_next` -/
def scanNext (w : World) (dev : Str) (s : St) : Option (Int × St) :=
  match combToStr none none (some pvscanArgs) (some dev) with
  | none => some (-1, s)
  | some args =>
    match w.pvscanOut with
    | none => some (-1, s)
    | some out => (stdoutRecv true w.canSet s.recs out).map fun rs => (0, { s with recs := rs, ran := s.ran ++ [argv w.bin args] })

/-- lvm.c:352-390 `_lvm_scan_action_next`; a failure to run gives some negative number, here -1; a failure to remove the record gives
    what running gave, which is not negative -/
def actionNext (w : World) (s : St) : Option (Int × St) :=
  match s.recs completeKey with
  | none => some (0, s)
  | some vg =>
    match combToStr none none (some vgchangeArgs) (some vg) with
    | none => some (-1, s)
    | some args =>
      match w.vgchangeOut with
      | none => some (-1, s)
      | some out =>
        (stdoutRecv false w.canSet s.recs out).map fun rs =>
          (0, { s with recs := if w.canUnset then store rs completeKey none else rs, ran := s.ran ++ [argv w.bin args] })

/-- lvm.c:251-261 `_lvm_subsys_match_next`: the variable `ID_FS_TYPE` of the event -/
def lvmMatchNext (fsType : Option Str) : Bool :=
  match fsType with
  | none => false
  | some t => t = txt "LVM2_member"

/-- dm.c:197-219 `_exec_dm_submod` in the phase `DM_SUBMOD_SCAN_PHASE_SUBSYS_MATCH_NEXT`: `claims` are the answers of the submodules in
    order, `none` for one without the function or without symbols; the search does not end at the first that claims the device -/
def matchNext (claims : List (Option Bool)) (chosen : Option Nat) : Option Nat :=
  (claims.zipIdx).foldl (fun c x => if x.1 = some true then some x.2 else c) chosen

/-- dm.c:850-858 `_dm_scan_next`, 237-241 the phase on the submodule chosen; `lvm` is the place of the submodule for LVM -/
def dmScanNext (w : World) (claims : List (Option Bool)) (lvm : Nat) (dev : Str) (s : St) : Option (Int × St) :=
  let c := matchNext claims s.chosen
  if c = some lvm then scanNext w dev { s with chosen := c } else some (0, { s with chosen := c })

/-- dm.c:1053-1057 `_dm_scan_action_next`, 237-241 -/
def dmActionNext (w : World) (lvm : Nat) (s : St) : Option (Int × St) :=
  if s.chosen = some lvm then actionNext w s else some (0, s)

end Sid.LvmNext
