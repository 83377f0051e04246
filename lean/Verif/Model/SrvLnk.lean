import Verif.Model.List
import Verif.Model.Ifc
/-
Model of service links and their groups in /repo/src/iface/srv-lnk.c (all of it) and of how resources get them
(/repo/src/resource/res.c 184-220, 1167-1191).

A link is known by the address of its `list` member (its first one), a group by the address of its `members` member.  Memory
is the heap of Model/List with the other members of links and groups beside it.

Simplifications: memory allocation, buffers and formatting succeed; new links and groups are put at addresses given as
arguments; values handed to systemd are shorter than 2 GiB (their size is passed as the precision of "%.*s").  The argument
list of a format can be gone through once; a second time is undefined behaviour.  What the logger does with a line is not
modelled, nor `sd_notify`: its results are given.  Undefined behaviour, and loops that do not end, are `none`.
-/
namespace Sid.Srv
open Sid.Lst (Heap)
open Sid.Ifc (txt)

/-- src/include/iface/srv-lnk.h:18-22 `sid_srv_lnk_type_t` -/
inductive Kind
  | none | systemd | logger
  deriving DecidableEq, Repr

/-- src/include/iface/srv-lnk.h:45 `sid_srv_lnk_notif_t` -/
abbrev Notif := BitVec 64

/-- src/include/iface/srv-lnk.h:27 -/
def nUnset : Notif := 0x1
/-- src/include/iface/srv-lnk.h:29 -/
def nStatus : Notif := 0x2
/-- src/include/iface/srv-lnk.h:31 -/
def nErrno : Notif := 0x4
/-- src/include/iface/srv-lnk.h:33 -/
def nReady : Notif := 0x8
/-- src/include/iface/srv-lnk.h:35 -/
def nReloading : Notif := 0x10
/-- src/include/iface/srv-lnk.h:37 -/
def nStopping : Notif := 0x20
/-- src/include/iface/srv-lnk.h:39 -/
def nWdRefresh : Notif := 0x40
/-- src/include/iface/srv-lnk.h:41 -/
def nWdTrigger : Notif := 0x80
/-- src/include/iface/srv-lnk.h:43 -/
def nMessage : Notif := 0x100
/-- src/include/iface/srv-lnk.h:48 SID_SRV_LNK_FL_CLONEABLE -/
def flCloneable : BitVec 64 := 0x1

/-- src/iface/srv-lnk.c:241-409: `a & b` as a condition -/
def hit (a b : BitVec 64) : Bool := a &&& b != 0

/-- src/iface/srv-lnk.c:23-31 `struct sid_srv_lnk` without its list member; `group` is NULL or the address of a group -/
structure Link where
  name : Str
  kind : Kind
  notif : Notif := 0
  flags : BitVec 64 := 0
  data : Nat := 0
  group : Option Nat := none
  deriving DecidableEq, Repr

/-- model only, for src/iface/srv-lnk.c:23-36: memory: the links of lists, the links and the names of groups by address -/
structure World where
  heap : Heap
  links : Nat → Option Link
  groups : Nat → Option Str

/-- model only, for src/iface/srv-lnk.c:23-31: a link replaced -/
def World.putLink (w : World) (a : Nat) (l : Option Link) : World := { w with links := fun x => if x = a then l else w.links x }

/-- model only, for src/iface/srv-lnk.c:33-36: a group replaced -/
def World.putGroup (w : World) (a : Nat) (l : Option Str) : World := { w with groups := fun x => if x = a then l else w.groups x }

/-- model only, for src/iface/srv-lnk.c:94-112: members of a link changed; `none` if there is no link at the address -/
def World.change (w : World) (a : Nat) (f : Link → Link) : Option World := (w.links a).map fun l => w.putLink a (some (f l))

/-! ### links -/

/-- src/iface/srv-lnk.c:38-58 `sid_srv_lnk_create` -/
def create (w : World) (a : Nat) (kind : Kind) (name : Str) : World :=
  { w.putLink a (some { name := name, kind := kind }) with heap := Lst.init w.heap a }

/-- src/iface/srv-lnk.c:60-83 `sid_srv_lnk_clone` of the link at `src` -/
def clone (w : World) (src a : Nat) (name : Option Str) : Option World :=
  (w.links src).map fun l =>
    { w.putLink a (some { name := name.getD l.name, kind := l.kind, notif := l.notif, flags := l.flags, data := l.data }) with
      heap := Lst.init w.heap a }

/-- src/iface/srv-lnk.c:94-97 `sid_srv_lnk_set_flags` -/
def setFlags (w : World) (a : Nat) (flags : BitVec 64) : Option World := w.change a fun l => { l with flags := flags }

/-- src/iface/srv-lnk.c:99-102 `sid_srv_lnk_set_data` -/
def setData (w : World) (a : Nat) (data : Nat) : Option World := w.change a fun l => { l with data := data }

/-- src/iface/srv-lnk.c:104-107 `sid_srv_lnk_notif_add` -/
def notifAdd (w : World) (a : Nat) (n : Notif) : Option World := w.change a fun l => { l with notif := l.notif ||| n }

/-- src/iface/srv-lnk.c:109-112 `sid_srv_lnk_notif_del` -/
def notifDel (w : World) (a : Nat) (n : Notif) : Option World := w.change a fun l => { l with notif := l.notif &&& ~~~n }

/-! ### groups -/

/-- src/iface/srv-lnk.c:114-129 `sid_srv_lnk_grp_create` -/
def grpCreate (w : World) (g : Nat) (name : Str) : World := { w.putGroup g (some name) with heap := Lst.init w.heap g }

/-- src/iface/srv-lnk.c:199-203 `sid_srv_lnk_grp_add` -/
def grpAdd (w : World) (g a : Nat) : Option World :=
  (w.groups g).bind fun _ => { w with heap := Lst.add w.heap g a }.change a fun l => { l with group := some g }

/-- src/iface/srv-lnk.c:205-214 `sid_srv_lnk_grp_del` (-EINVAL if it is not in this group) -/
def grpDel (w : World) (g a : Nat) : Option (Int × World) :=
  (w.links a).bind fun l =>
    if l.group = some g then
      ({ w with heap := Lst.del w.heap a }.change a fun l => { l with group := none }).map fun w => (0, w)
    else some (-22, w)

/-- src/iface/srv-lnk.c:85-92 `sid_srv_lnk_destroy` -/
def destroy (w : World) (a : Nat) : Option World :=
  (w.links a).bind fun l =>
    match l.group with
    | none => some (w.putLink a none)
    | some g => (grpDel w g a).map fun r => r.2.putLink a none

/-- src/iface/srv-lnk.c:179-182 the loop of `sid_srv_lnk_grp_destroy`, at `v` with `t` read before.  The member `group` of the
    link at `v` is written: if there is none, that is memory of something else. -/
def unlinkLoop (head : Nat) : Nat → World → Nat → Nat → Option World
  | 0, w, v, _ => if v = head then some w else none
  | fuel + 1, w, v, t =>
    if v = head then some w
    else
      ({ w with heap := Lst.del w.heap v }.change v fun l => { l with group := none }).bind fun w =>
        unlinkLoop head fuel w t (w.heap.n t)

/-- src/iface/srv-lnk.c:175-186 `sid_srv_lnk_grp_destroy` -/
def grpDestroy (fuel : Nat) (w : World) (g : Nat) : Option World :=
  (w.groups g).bind fun _ =>
  (unlinkLoop g fuel w (w.heap.n g) (w.heap.n (w.heap.n g))).map fun w => w.putGroup g none

/-- src/iface/srv-lnk.c:192-193 the loop of `sid_srv_lnk_grp_destroy_with_members` -/
def destroyLoop (head : Nat) : Nat → World → Nat → Nat → Option World
  | 0, w, v, _ => if v = head then some w else none
  | fuel + 1, w, v, t =>
    if v = head then some w else (destroy w v).bind fun w => destroyLoop head fuel w t (w.heap.n t)

/-- src/iface/srv-lnk.c:188-197 `sid_srv_lnk_grp_destroy_with_members` -/
def grpDestroyAll (fuel : Nat) (w : World) (g : Nat) : Option World :=
  (w.groups g).bind fun _ =>
  (destroyLoop g fuel w (w.heap.n g) (w.heap.n (w.heap.n g))).map fun w => w.putGroup g none

/-- src/iface/srv-lnk.c:145-153 the loop of `sid_srv_lnk_grp_clone`; the clones are put at the addresses `new` -/
def cloneLoop (head dest : Nat) : Nat → World → Nat → List Nat → Option World
  | 0, w, v, _ => if v = head then some w else none
  | fuel + 1, w, v, new =>
    if v = head then some w
    else
      (w.links v).bind fun l =>
        if hit l.flags flCloneable then
          match new with
          | [] => none
          | a :: new => (clone w v a none).bind fun w => (grpAdd w dest a).bind fun w => cloneLoop head dest fuel w (w.heap.n v) new
        else cloneLoop head dest fuel w (w.heap.n v) new

/-- src/iface/srv-lnk.c:131-159 `sid_srv_lnk_grp_clone` of the group at `g` to the address `dest` -/
def grpClone (fuel : Nat) (w : World) (g dest : Nat) (name : Option Str) (new : List Nat) : Option World :=
  (w.groups g).bind fun own =>
  cloneLoop g dest fuel (grpCreate w dest (name.getD own)) ((grpCreate w dest (name.getD own)).heap.n g) new

/-- src/iface/srv-lnk.c:168-169 the loop of `sid_srv_lnk_grp_merge` -/
def mergeLoop (dest head : Nat) : Nat → World → Nat → Nat → Option World
  | 0, w, v, _ => if v = head then some w else none
  | fuel + 1, w, v, t => if v = head then some w else (grpAdd w dest v).bind fun w => mergeLoop dest head fuel w t (w.heap.n t)

/-- src/iface/srv-lnk.c:161-173 `sid_srv_lnk_grp_merge` of two groups -/
def grpMerge (fuel : Nat) (w : World) (dest src : Nat) : Option World :=
  (w.groups src).bind fun _ =>
  (mergeLoop dest src fuel w (w.heap.n src) (w.heap.n (w.heap.n src))).bind fun w => grpDestroy fuel w src

/-! ### notifications -/

/-- model only, for src/iface/srv-lnk.c:241-363: The format of a notification with its arguments: the text it gives (`none`: NULL), and if there are arguments -/
structure Msg where
  text : Option Str
  args : Bool := false
  deriving DecidableEq, Repr

/-- model only, for src/iface/srv-lnk.c:216-363: formatting, with the argument list gone through before or not -/
def Msg.format (m : Msg) (gone : Bool) : Option Str := if m.args && gone then none else m.text

/-- src/iface/srv-lnk.c:216-239 `_get_arg_value`, the loop; `fuel`: at least the length of `str` -/
def argFrom (key : Str) : Nat → Str → Option Str
  | 0, _ => none
  | fuel + 1, str =>
    if str = [] then none
    else if key.isPrefixOf str then some ((str.takeWhile (· ≠ 10)).drop key.length)
    else argFrom key fuel (str.drop ((str.takeWhile (· ≠ 10)).length + 1))

/-- src/iface/srv-lnk.c:216-239 `_get_arg_value` -/
def argValue (key : Str) : Option Str → Option Str
  | none => none
  | some str => argFrom key (str.length + 1) str

/-- src/iface/srv-lnk.c:268-286 a line with a value, if there is one -/
def valueLine (key : Str) (arg : Option Str) : Str :=
  match argValue key arg with
  | none => []
  | some v => key ++ v ++ [10]

/-- src/iface/srv-lnk.c:265-317 the string for `sd_notify` -/
def systemdText (n : Notif) (arg : Option Str) : Str :=
  (if hit n nStatus then valueLine (txt "STATUS=") arg else []) ++
  (if hit n nErrno then valueLine (txt "ERRNO=") arg else []) ++
  (if hit n nReady then txt "READY=1\n" else []) ++
  (if hit n nReloading then txt "RELOADING=1\n" else []) ++
  (if hit n nStopping then txt "STOPPING=1\n" else []) ++
  (if hit n nWdRefresh then txt "WATCHDOG=1\n" else []) ++
  (if hit n nWdTrigger then txt "WATCHDOG=trigger\n" else [])

/-- model only, for src/iface/srv-lnk.c:241-363: what becomes visible outside -/
inductive Effect
  | sdNotify (unset : Bool) (text : Str)
  | log (data : Nat) (text : Str)
  deriving DecidableEq, Repr

/-- src/iface/srv-lnk.c:256-263 what `_notify_systemd` does with the format: nothing if it is NULL or empty -/
def systemdArg (m : Msg) (gone : Bool) : Option (Option Str × Bool) :=
  if m.text = none ∨ (m.text = some [] ∧ m.args = false) then some (none, gone)
  else (m.format gone).map fun t => (some t, true)

/-- src/iface/srv-lnk.c:241-331 `_notify_systemd`: effects, and if the argument list has been gone through -/
def notifySystemd (n : Notif) (m : Msg) (gone : Bool) : Option (List Effect × Bool) :=
  (systemdArg m gone).map fun a => ([.sdNotify (hit n nUnset) (systemdText n a.1)], a.2)

/-- src/iface/srv-lnk.c:339-343 the text of the notification given to the logger -/
def logMsg (data : Nat) (m : Msg) (wanted gone : Bool) : Option (List Effect × Bool) :=
  if wanted then (m.format gone).map fun t => ([.log data t], true) else some ([], gone)

/-- src/iface/srv-lnk.c:347-360 the lines for states -/
def logStates (data : Nat) (n : Notif) : List Effect :=
  (if hit n nReady then [.log data (txt "| READY |")] else []) ++
  (if hit n nReloading then [.log data (txt "| RELOADING |")] else []) ++
  (if hit n nStopping then [.log data (txt "| STOPPING |")] else []) ++
  (if hit n nWdRefresh then [.log data (txt "| WATCHDOG_REFRESH |")] else []) ++
  (if hit n nWdTrigger then [.log data (txt "| WATCHDOG_TRIGGER |")] else [])

/-- src/iface/srv-lnk.c:333-363 `_notify_logger` -/
def notifyLogger (l : Link) (n : Notif) (m : Msg) (gone : Bool) : Option (List Effect × Bool) :=
  (logMsg l.data m (hit n nMessage) gone).bind fun a =>
  (logMsg l.data m (hit n nStatus) a.2).map fun b => (a.1 ++ b.1 ++ logStates l.data n, b.2)

/-- src/iface/srv-lnk.c:376-385, 392-401 the link does its part, by its type; the result of `sd_notify` is `rc` -/
def deliver (rc : Int) (l : Link) (n : Notif) (m : Msg) (gone : Bool) (last : Int) : Option (List Effect × Bool × Int) :=
  match l.kind with
  | .systemd => (notifySystemd n m gone).map fun a => (a.1, a.2, rc)
  | .logger => (notifyLogger l n m gone).map fun a => (a.1, a.2, 0)
  | .none => some ([], gone, last)

/-- src/iface/srv-lnk.c:365-385, 411-430 `sid_srv_lnk_notify`, `sid_srv_lnk_vnotify` (no link: nothing): effects and result -/
def notify (rc : Int) (w : World) (a : Nat) (n : Notif) (m : Msg) : Option (List Effect × Int) :=
  (w.links a).bind fun l =>
    if hit l.notif n then (deliver rc l n m false 0).map fun r => (r.1, r.2.2) else some ([], 0)

/-- src/iface/srv-lnk.c:441-455: where a notification of a group stands: links reached with their effects, argument list gone through, `iter_r`, `r` -/
structure Tour where
  reached : List (Nat × List Effect) := []
  gone : Bool := false
  last : Int := 0
  result : Int := 0

/-- src/iface/srv-lnk.c:389-404 one round of the loop, for the link at `v` -/
def tourStep (sd : Nat → Int) (n : Notif) (m : Msg) (w : World) (v : Nat) (t : Tour) : Option Tour :=
  (w.links v).bind fun l =>
    if hit l.notif n then
      (deliver (sd v) l n m t.gone t.last).map fun r =>
        ⟨t.reached ++ [(v, r.1)], r.2.1, r.2.2, if r.2.2 < 0 then r.2.2 else t.result⟩
    else some t

/-- src/iface/srv-lnk.c:388-405 the loop over the members -/
def tour (sd : Nat → Int) (n : Notif) (m : Msg) (w : World) (head : Nat) : Nat → Nat → Tour → Option Tour
  | 0, v, t => if v = head then some t else none
  | fuel + 1, v, t =>
    if v = head then some t else (tourStep sd n m w v t).bind fun t => tour sd n m w head fuel (w.heap.n v) t

/-- src/iface/srv-lnk.c:387-409, 432-455 `sid_srv_lnk_grp_notify`, `sid_srv_lnk_grp_vnotify` -/
def grpNotify (sd : Nat → Int) (fuel : Nat) (w : World) (g : Nat) (n : Notif) (m : Msg) : Option Tour :=
  (w.groups g).bind fun _ => tour sd n m w g fuel (w.heap.n g) {}

/-! ### the links of a resource -/

/-- src/include/resource/res.h:59-65 `sid_res_srv_lnk_def_t` -/
structure Def where
  name : Str
  kind : Kind
  notif : Notif
  flags : BitVec 64
  data : Nat
  deriving DecidableEq, Repr

/-- src/resource/res.c:201-209 the link of a definition -/
def fromDef (w : World) (g a : Nat) (d : Def) : Option World :=
  (setFlags (create w a d.kind d.name) a d.flags).bind fun w => (setData w a d.data).bind fun w =>
  (notifAdd w a d.notif).bind fun w => grpAdd w g a

/-- src/resource/res.c:200-210 the loop over the definitions, the end of which is one of type none -/
def fromDefs (g : Nat) : World → List Nat → List Def → Option World
  | w, _, [] => some w
  | w, new, d :: l =>
    if d.kind = .none then some w
    else
      match new with
      | [] => none
      | a :: new => (fromDef w g a d).bind fun w => fromDefs g w new l

/-- src/resource/res.c:184-220 `_create_service_link_group` for a resource with identifier `name`, parent's group `parent`
    (`none`: no parent or it has none) and definitions (`none`: NULL): the group and memory -/
def resLinks (fuel : Nat) (w : World) (parent : Option Nat) (g : Nat) (name : Str) (defs : Option (List Def))
    (clones new : List Nat) : Option (Option Nat × World) :=
  match parent, defs with
  | none, none => some (none, w)
  | none, some l => (fromDefs g (grpCreate w g name) new l).map fun w => (some g, w)
  | some p, none => (grpClone fuel w p g (some name) clones).map fun w => (some g, w)
  | some p, some l =>
    (grpClone fuel w p g (some name) clones).bind fun w => (fromDefs g w new l).map fun w => (some g, w)

end Sid.Srv
