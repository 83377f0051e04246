import Verif.Spec.UbrReply
import Verif.Spec.UbrKey
import Verif.Spec.Ifc
import Verif.Model.Mpath
/-
What is expected of the daemon for disks that may be paths of multipath devices, and for partitions.

Before a disk is used by itself, multipath is asked about it.  A disk once left to others may be in use, so that it is not taken
back unless multipath is sure that it is one of its paths.
-/
namespace Sid.Spec.Mpath
open Sid.Ubr Sid.Mpath Sid.Spec.UbrKey
open Sid.Ifc (txt)
open Sid.Spec.Client (words)

/-- multipath is turned off: a word of the command line is `nompath`, alone or with a value -/
def Off (cmdline : Option Str) : Prop :=
  ∃ line, cmdline = some line ∧ ∃ w ∈ words line, w = txt "nompath" ∨ ∃ v, w = txt "nompath=" ++ v

/-- multipath is asked: it is not turned off, its configuration can be loaded, and the device is a disk -/
def Asked (e : Ev) : Prop := ¬ Off e.cmdline ∧ e.type = .disk ∧ e.reload = true

/-- at some time the disk was left to others, and multipath was not sure since -/
def Released (past : List Verdict) : Prop :=
  ∃ before v since, past = before ++ v :: since ∧ (v = .no ∨ v = .maybe) ∧ Verdict.sure ∉ since

/-- the disk is claimed for multipath -/
def Claimed (past : List Verdict) (now : Verdict) : Prop := now = .sure ∨ now = .yes ∧ ¬ Released past

/-- the answers for device `u` in a history -/
inductive Past (u : Str) : List Op → List Verdict → Prop
  | nil : Past u [] []
  | asked {ops l c e} : Past u ops l → c.uid = some u → Asked e → Past u (ops ++ [.scan c e]) (l ++ [e.verdict])
  | notAsked {ops l c e} : Past u ops l → ¬ (c.uid = some u ∧ Asked e) → Past u (ops ++ [.scan c e]) l
  | call {ops l owner x} : Past u ops l → Past u (ops ++ [.call owner x]) l

/-- names and numbers of devices have no separators -/
def PlainCtx (c : Ctx) : Prop := PlainOpt c.num ∧ PlainOpt c.uid

/-- histories in which other modules, but not the core and not `m`, make calls besides `m` -/
structure Hist (m : Str) (ops : List Op) : Prop where
  scans : ∀ c e, .scan c e ∈ ops → PlainCtx c
  others : ∀ w x, .call w x ∈ ops → w ≠ m ∧ w ≠ txt "/" ∧ Plain w ∧ ∀ c a, x = .set c a → PlainCtx c

/-- the variable told to udev -/
def path : Str := txt "DM_MULTIPATH_DEVICE_PATH"

/-- the text of a device number as udev and the daemon write it: major, underscore, minor -/
def withUnderscore (major minor : Str) : Str := major ++ [95] ++ minor

/-- the contents of the file `dev` of a disk in /sys -/
def devFile (major minor : Str) : List UInt8 := major ++ [58] ++ minor ++ [10]

/-- the text of a number as it is found in /sys: digits, of a length the daemon has room for -/
structure Number (ma mi : Str) : Prop where
  major : ∀ c ∈ ma, 48 ≤ c ∧ c ≤ 57
  minor : ∀ c ∈ mi, 48 ≤ c ∧ c ≤ 57
  room : ma.length + mi.length ≤ 13

end Sid.Spec.Mpath
