import Verif.Model.Log
/-
What is expected of the log: which messages are shown at a verbosity, and how a message looks.
-/
namespace Sid.Spec.Log
open Sid.Log
open Sid (Str)
open Sid.Ifc (txt)

/-- priorities as in syslog(3) shown at a verbosity: up to "notice" (5), with one `-v` also "info" (6), then also "debug" (7) -/
def Shown (v level : Int) : Prop := level ≤ 5 ∨ (level = 6 ∧ v ≠ 0) ∨ (level = 7 ∧ v ≠ 0 ∧ v ≠ 1)

instance (v level : Int) : Decidable (Shown v level) := inferInstanceAs (Decidable (_ ∨ _))

/-- a prefix as it is shown -/
def bracket (p : Str) : Str := [60] ++ p ++ [62, 32]

/-- prefixes in order, then the text -/
def body (ps : List Str) (text : Str) : Str := (ps.map bracket).flatten ++ text

/-- the description of an error number of either sign, none for 0 -/
def cause (e : Env) (n : Int) : Str := if n = 0 then [] else txt ": " ++ e.strerror n.natAbs ++ txt "."

/-- calls which do not set the log up -/
def Later (ops : List Op) : Prop := ∀ t v, Op.init t v ∉ ops ∧ Op.initWithHandle t v ∉ ops

/-- the target chosen by the last change of the target made with the handle -/
def targetAfter (t : Target) : List Op → Target
  | [] => t
  | .changeTgt true u :: l => targetAfter u l
  | _ :: l => targetAfter t l

/-- the prefix of the log set by the last such call made with the handle -/
def prefixAfter (p : Option Str) : List Op → Option Str
  | [] => p
  | .setPfx true q :: l => prefixAfter q l
  | _ :: l => prefixAfter p l

/-- the prefixes shown: that of the log, then those of the message -/
def prefixes (own : Option Str) (r : Req) : List Str := own.toList ++ r.pfx.map (·.getD [])

/-- a string of C -/
def CStr (s : Str) : Prop := (0 : UInt8) ∉ s

/-- all prefixes are strings of C -/
def CStrs (l : List Str) : Prop := ∀ s ∈ l, CStr s

/-- what a call outputs after other calls -/
def said (e : Env) (before : List Op) (op : Op) : List Event := (step e (run e {} before).1 op).2

/-- the text of an event -/
def textOf : Event → Str
  | .std _ l => l
  | .sys _ t => t
  | .jrn t _ _ _ => t

/-- `needle` is somewhere in `l` -/
def Within (needle l : Str) : Prop := ∃ a b, l = a ++ needle ++ b

end Sid.Spec.Log

namespace Sid.Spec.Log
open Sid.Log
open Sid (Str)
open Sid.Ifc (txt)

/-- the log was set up for target `t` and verbosity `v`, and a message logged with the handle (`h`) or without it is not refused -/
def SetUp (first : Op) (t : Target) (v : Int) (h : Bool) : Prop :=
  first = .init t v ∨ (first = .initWithHandle t v ∧ h = true)

/-- the prefix of the log for messages logged with the handle or without it -/
def own (h : Bool) (ops : List Op) : Option Str := if h then prefixAfter none ops else none

/-- the name of the function, if known -/
def funcText : Option Str → Str
  | none => []
  | some f => txt ":" ++ f

/-- what precedes the prefixes of a line at high verbosity: processes (from 4 on), place in the source (from 3 on) -/
def lead (e : Env) (v : Int) (c : Ctx) : Str :=
  (if 0 ≤ v ∧ v ≤ 3 then [] else txt "[" ++ Fmt.decInt e.ppid ++ txt ":" ++ Fmt.decInt e.pid ++ txt "]:") ++
  (if 0 ≤ v ∧ v ≤ 2 then []
   else c.file ++ txt ":" ++ Fmt.decInt c.line ++ funcText c.func ++ [9])

/-- the place a message comes from -/
def place (c : Ctx) : Str × Int × Option Str := (c.file, c.line, c.func)

/-- the settings a user means by options of the daemon and its environment: all the options were among those known, none asked for
help or the version -/
def Plain (opts : List Opt) : Prop := .help ∉ opts ∧ .version ∉ opts ∧ .other ∉ opts

end Sid.Spec.Log
