import Verif.Model.SrvLnk
/-
What a program using service links sees: links with their settings, groups with their members in order.
-/
namespace Sid.Spec.SrvLnk
open Sid.Srv
open Sid.Ifc (txt)

/-- the settings of a link -/
structure Info where
  name : Str
  kind : Kind
  notif : Notif := 0
  flags : BitVec 64 := 0
  data : Nat := 0
  deriving DecidableEq, Repr

/-- groups with their members, oldest member first, and the settings of all links -/
structure State where
  groups : List (Nat × List Nat)
  info : Nat → Option Info

/-- the address is taken -/
def State.Used (s : State) (a : Nat) : Prop := s.info a ≠ none ∨ ∃ l ∈ s.groups, a = l.1 ∨ a ∈ l.2

/-- the link is a member of some group -/
def State.Member (s : State) (a : Nat) : Prop := ∃ l ∈ s.groups, a ∈ l.2

/-- settings of one link replaced -/
def State.set (s : State) (a : Nat) (i : Option Info) : State := { s with info := fun x => if x = a then i else s.info x }

/-- a link taken out of the group it is in -/
def State.out (s : State) (a : Nat) : State := { s with groups := s.groups.map fun l => (l.1, l.2.filter (· ≠ a)) }

/-- calls; `new` are the addresses of the links made -/
inductive Op
  | create (a : Nat) (kind : Kind) (name : Str)
  | clone (src a : Nat) (name : Option Str)
  | setFlags (a : Nat) (flags : BitVec 64)
  | setData (a : Nat) (data : Nat)
  | notifAdd (a : Nat) (n : Notif)
  | notifDel (a : Nat) (n : Notif)
  | destroy (a : Nat)
  | grpCreate (g : Nat) (name : Str)
  | grpAdd (g a : Nat)
  | grpDel (g a : Nat)
  | grpDestroy (g : Nat)
  | grpDestroyAll (g : Nat)
  | grpClone (g dest : Nat) (name : Option Str) (new : List Nat)

/-- the call as the library does it -/
def exec (fuel : Nat) (w : World) : Op → Option World
  | .create a kind name => some (Srv.create w a kind name)
  | .clone src a name => Srv.clone w src a name
  | .setFlags a f => Srv.setFlags w a f
  | .setData a d => Srv.setData w a d
  | .notifAdd a n => Srv.notifAdd w a n
  | .notifDel a n => Srv.notifDel w a n
  | .destroy a => Srv.destroy w a
  | .grpCreate g name => some (Srv.grpCreate w g name)
  | .grpAdd g a => Srv.grpAdd w g a
  | .grpDel g a => (Srv.grpDel w g a).map fun r => r.2
  | .grpDestroy g => Srv.grpDestroy fuel w g
  | .grpDestroyAll g => Srv.grpDestroyAll fuel w g
  | .grpClone g dest name new => Srv.grpClone fuel w g dest name new

/-- the members of a list that may be cloned -/
def cloneable (s : State) (xs : List Nat) : List Nat := xs.filter fun x => (s.info x).any fun i => i.flags.getLsbD 0

/-- What a correct call does.  New links and groups are at addresses not taken; links and groups named exist; a link is added
    to a group only if it is in none. -/
inductive Step : State → Op → State → Prop
  | create {s a kind name} : ¬ s.Used a → Step s (.create a kind name) (s.set a (some { name := name, kind := kind }))
  | clone {s src a name i} : ¬ s.Used a → s.info src = some i →
      Step s (.clone src a name) (s.set a (some { i with name := name.getD i.name }))
  | setFlags {s a f i} : s.info a = some i → Step s (.setFlags a f) (s.set a (some { i with flags := f }))
  | setData {s a d i} : s.info a = some i → Step s (.setData a d) (s.set a (some { i with data := d }))
  | notifAdd {s a n i} : s.info a = some i → Step s (.notifAdd a n) (s.set a (some { i with notif := i.notif ||| n }))
  | notifDel {s a n i} : s.info a = some i → Step s (.notifDel a n) (s.set a (some { i with notif := i.notif &&& ~~~n }))
  | destroy {s a} : s.info a ≠ none → Step s (.destroy a) ((s.out a).set a none)
  | grpCreate {s g name} : ¬ s.Used g → Step s (.grpCreate g name) { s with groups := (g, []) :: s.groups }
  | grpAdd {s1 s2 info g xs a} : info a ≠ none → ¬ (State.mk (s1 ++ (g, xs) :: s2) info).Member a →
      Step ⟨s1 ++ (g, xs) :: s2, info⟩ (.grpAdd g a) ⟨s1 ++ (g, xs ++ [a]) :: s2, info⟩
  | grpDel {s g xs a} : (g, xs) ∈ s.groups → s.info a ≠ none → Step s (.grpDel g a) (if a ∈ xs then s.out a else s)
  | grpDestroy {s1 s2 info g xs} : Step ⟨s1 ++ (g, xs) :: s2, info⟩ (.grpDestroy g) ⟨s1 ++ s2, info⟩
  | grpDestroyAll {s1 s2 info g xs} :
      Step ⟨s1 ++ (g, xs) :: s2, info⟩ (.grpDestroyAll g) ⟨s1 ++ s2, fun x => if x ∈ xs then none else info x⟩
  | grpClone {s g dest name new xs} : (g, xs) ∈ s.groups → (dest :: new).Nodup → (∀ a ∈ dest :: new, ¬ s.Used a) →
      new.length = (cloneable s xs).length →
      Step s (.grpClone g dest name new)
        ⟨(dest, new) :: s.groups, fun x => ((new.zip (cloneable s xs)).lookup x).elim (s.info x) s.info⟩

/-- histories of correct calls -/
inductive Hist (w0 : World) : World → State → Prop
  | start : (∀ a, w0.links a = none) → (∀ g, w0.groups g = none) → Hist w0 w0 ⟨[], fun _ => none⟩
  | call {w s op s' fuel w'} : Hist w0 w s → Step s op s' → exec fuel w op = some w' → Hist w0 w' s'

/-! ### notifications -/

/-- the lines of a text; a last one need not be ended -/
def linesOf : Str → List Str
  | [] => []
  | c :: s => if c = 10 then [] :: linesOf s else (c :: (linesOf s).headD []) :: (linesOf s).tail

/-- the value of a key in lines `KEY=value`: of the first line that begins with `KEY=` -/
def valueOf (key : Str) (lines : List Str) : Option Str := (lines.find? fun l => key.isPrefixOf l).map fun l => l.drop key.length

/-- the lines systemd is to get: bits are UNSET 0, STATUS 1, ERRNO 2, READY 3, RELOADING 4, STOPPING 5, WATCHDOG_REFRESH 6,
    WATCHDOG_TRIGGER 7, MESSAGE 8 -/
def sdLines (n : Notif) (text : Str) : List Str :=
  (if n.getLsbD 1 then ((valueOf (txt "STATUS=") (linesOf text)).map fun v => txt "STATUS=" ++ v).toList else []) ++
  (if n.getLsbD 2 then ((valueOf (txt "ERRNO=") (linesOf text)).map fun v => txt "ERRNO=" ++ v).toList else []) ++
  (if n.getLsbD 3 then [txt "READY=1"] else []) ++
  (if n.getLsbD 4 then [txt "RELOADING=1"] else []) ++
  (if n.getLsbD 5 then [txt "STOPPING=1"] else []) ++
  (if n.getLsbD 6 then [txt "WATCHDOG=1"] else []) ++
  (if n.getLsbD 7 then [txt "WATCHDOG=trigger"] else [])

/-- the lines a logger is to get: the text once for MESSAGE and once for STATUS, then one line for each state -/
def logLines (n : Notif) (text : Str) : List Str :=
  (if n.getLsbD 8 then [text] else []) ++
  (if n.getLsbD 1 then [text] else []) ++
  (if n.getLsbD 3 then [txt "| READY |"] else []) ++
  (if n.getLsbD 4 then [txt "| RELOADING |"] else []) ++
  (if n.getLsbD 5 then [txt "| STOPPING |"] else []) ++
  (if n.getLsbD 6 then [txt "| WATCHDOG_REFRESH |"] else []) ++
  (if n.getLsbD 7 then [txt "| WATCHDOG_TRIGGER |"] else [])

/-- what a link does for a notification -/
def does (i : Info) (n : Notif) (text : Str) : List Effect :=
  match i.kind with
  | .systemd => [.sdNotify (n.getLsbD 0) ((sdLines n text).flatMap fun l => l ++ [10])]
  | .logger => (logLines n text).map fun l => .log i.data l
  | .none => []

/-- how often a link goes through the arguments of the message -/
def uses (i : Info) (n : Notif) : Nat :=
  match i.kind with
  | .systemd => 1
  | .logger => (if n.getLsbD 8 then 1 else 0) + (if n.getLsbD 1 then 1 else 0)
  | .none => 0

/-- the link takes the notification: there is a kind of notification in both -/
def takes (i : Info) (n : Notif) : Bool := decide (∃ k : Fin 64, i.notif.getLsbD k = true ∧ n.getLsbD k = true)

/-- the members that take the notification, with their settings -/
def takers (s : State) (n : Notif) (xs : List Nat) : List (Nat × Info) :=
  xs.filterMap fun x => (s.info x).bind fun i => if takes i n then some (x, i) else none

/-- the last of the errors of systemd, 0 if there is none -/
def lastError (sd : Nat → Int) (l : List (Nat × Info)) : Int :=
  (((l.filter fun e => e.2.kind = .systemd).map fun e => sd e.1).filter (· < 0)).getLast?.getD 0

/-- the settings a definition asks for -/
def ofDef (d : Def) : Info := ⟨d.name, d.kind, d.notif, d.flags, d.data⟩

end Sid.Spec.SrvLnk
