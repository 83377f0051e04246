import Verif.Model.Fmt
import Verif.Model.BaseUtil
/-
Model of logging: /repo/src/log/log.c, log-target-standard.c, log-target-syslog.c, log-target-journal.c, the log functions of
resources (/repo/src/resource/res.c) and the choice of target and verbosity in `main` of /repo/src/daemon/sid.c.

Simplifications: the format and its arguments are the text they give (no NUL in it; `vsnprintf` does not fail; a number of characters
fits into `int`); `getopt_long` is the list of options it recognises; writing to a stream succeeds; `errno` is not modelled.
-/
namespace Sid.Log
open Sid (Str)
open Sid.Ifc (txt)
open Sid.Fmt (decInt)

/-- src/include/log/log.h:21-26 `sid_log_tgt_t` -/
inductive Target where
  | none | standard | syslog | journal
deriving DecidableEq, Repr

/-- src/include/log/log.h:35-41 `sid_log_ctx_t` -/
structure Ctx where
  level : Int
  errno : Int
  file : Str
  line : Int
  func : Option Str
deriving DecidableEq, Repr

/-- src/include/log/log.h:30-33, 43-46 `sid_log_req_t`: the list of prefixes (each may be NULL) and the context -/
structure Req where
  pfx : List (Option Str)
  ctx : Ctx
deriving DecidableEq, Repr

/-- model only, for src/log/log.c:71-121: what becomes visible outside: a line on a standard stream, a message for syslog, an entry of the journal -/
inductive Event where
  | std (err : Bool) (line : Str)
  | sys (prio : Int) (text : Str)
  | jrn (text : Str) (pfx : Option Str) (prio : Int) (src : Option (Str × Int × Option Str))
deriving DecidableEq, Repr

/-- model only, for src/log/log-target-standard.c:49-79: what the process is asked for: its identity, and `strerror` -/
structure Env where
  ppid : Int
  pid : Int
  strerror : Int → Str

/-- <syslog.h>: `LOG_ERR`, `LOG_WARNING`, `LOG_NOTICE`, `LOG_INFO`, `LOG_DEBUG`; src/include/log/log.h:68 `SID_LOG_PRINT` -/
def logErr : Int := 3
/-- src/include/log/log.h:80-96 `LOG_WARNING` -/
@[inherit_doc logErr] def logWarning : Int := 4
/-- src/include/log/log.h:80-96 `LOG_NOTICE` -/
@[inherit_doc logErr] def logNotice : Int := 5
/-- src/include/log/log.h:80-96 `LOG_INFO` -/
@[inherit_doc logErr] def logInfo : Int := 6
/-- src/include/log/log.h:80-96 `LOG_DEBUG` -/
@[inherit_doc logErr] def logDebug : Int := 7
/-- src/include/log/log.h:68 `SID_LOG_PRINT` -/
@[inherit_doc logErr] def logPrint : Int := 128

/-- src/log/log-target-standard.c:12-15 the variables of the standard target -/
structure Std where
  max : Int := -1
  force : Bool := false
  pids : Bool := false
  src : Bool := false
deriving DecidableEq, Repr

/-- src/log/log-target-journal.c:14-17 the variables of the journal target that are used -/
structure Jrn where
  max : Int := -1
  src : Bool := true
deriving DecidableEq, Repr

/-- src/log/log.c:9-18, 73 `_log`, `log_ignored` and the variables of the targets -/
structure St where
  target : Target := .none
  required : Bool := false
  verbose : Int := 0
  pfx : Option Str := .none
  ignored : Bool := false
  std : Std := {}
  sys : Int := -1
  jrn : Jrn := {}
deriving DecidableEq, Repr

/-- src/log/log-target-standard.c:17-41 `_log_standard_open` -/
def stdOpen (v : Int) (s : Std) : Std :=
  if v = 0 then { s with max := logNotice }
  else if v = 1 then { s with max := logInfo }
  else if v = 2 then { s with max := logDebug }
  else if v = 3 then { s with max := logDebug, src := true, force := true }
  else { s with max := logDebug, src := true, force := true, pids := true }

/-- src/log/log-target-syslog.c:16-31 `_log_syslog_open` (the call of `openlog` is left out) -/
def sysOpen (v : Int) : Int := if v = 0 then logNotice else if v = 1 then logInfo else logDebug

/-- src/log/log-target-journal.c:19-43 `_log_journal_open` -/
def jrnOpen (v : Int) (s : Jrn) : Jrn :=
  if v = 0 then { s with max := logNotice }
  else if v = 1 then { s with max := logInfo }
  else if v = 2 then { s with max := logDebug }
  else { s with max := logDebug, src := true }

/-- src/log/log.c:30, 58 the call of `open` of the target -/
def openTgt (t : Target) (v : Int) (s : St) : St :=
  match t with
  | .none => s
  | .standard => { s with std := stdOpen v s.std }
  | .syslog => { s with sys := sysOpen v }
  | .journal => { s with jrn := jrnOpen v s.jrn }

/-- src/log/log.c:20-31 `sid_log_init` -/
def init (t : Target) (v : Int) (s : St) : St :=
  if s.target ≠ .none then s else openTgt t v { s with required := false, target := t, verbose := v }

/-- src/log/log.c:33-39 `sid_log_init_with_handle` -/
def initWithHandle (t : Target) (v : Int) (s : St) : St := { init t v s with required := true }

/-- src/log/log.c:50-61 `sid_log_change_tgt`; `h`: the handle is given, it is not NULL (closing flushes and changes nothing else) -/
def changeTgt (h : Bool) (t : Target) (s : St) : St :=
  if !h || s.target = t then s else { openTgt t s.verbose s with target := t }

/-- src/log/log.c:63-69 `sid_log_set_pfx` -/
def setPfx (h : Bool) (p : Option Str) (s : St) : St := if h then { s with pfx := p } else s

/-- src/log/log-target-standard.c:71 the prefix as it is printed -/
def pfxText (p : Option Str) : Str := txt "<" ++ p.getD [] ++ txt "> "

/-- src/log/log-target-standard.c:62-68 source of the message -/
def srcText (c : Ctx) : Str :=
  c.file ++ txt ":" ++ decInt c.line ++ (if c.func = .none then [] else txt ":") ++ c.func.getD [] ++ [9]

/-- src/log/log-target-standard.c:75-76 description of the error number -/
def errText (e : Env) (n : Int) : Str := if n ≠ 0 then txt ": " ++ e.strerror n ++ txt "." else []

/-- src/log/log-target-standard.c:59-78 the line printed -/
def stdLine (e : Env) (s : Std) (r : Req) (text : Str) : Str :=
  (if s.pids then txt "[" ++ decInt e.ppid ++ txt ":" ++ decInt e.pid ++ txt "]:" else []) ++
  (if s.src then srcText r.ctx else []) ++
  r.pfx.flatMap pfxText ++ text ++ errText e r.ctx.errno ++ [10]

/-- src/log/log-target-standard.c:57 the stream -/
def toErr (s : Std) (level : Int) : Bool := if s.force then true else level ≤ logWarning

/-- src/log/log-target-standard.c:49-79 `_log_standard_output` -/
def stdOut (e : Env) (s : Std) (r : Req) (text : Str) : List Event :=
  if r.ctx.level > s.max ∧ r.ctx.level ≠ logPrint then []
  else [.std (toErr s r.ctx.level) (stdLine e s r text)]

/-- used in src/log/log-target-syslog.c:38-68: <limits.h> `LINE_MAX` -/
def lineMax : Nat := 2048

/-- src/log/log-target-syslog.c:38-68: `snprintf(buf + off, size, "%s", s)`: what the buffer has afterwards -/
def put (buf : Str) (off size : Nat) (s : Str) : Str :=
  if size = 0 then buf
  else buf.take off ++ s.take (size - 1) ++ [0] ++ buf.drop (off + (s.take (size - 1)).length + 1)

/-- src/log/log-target-syslog.c:38-68: the string that begins at the start of the buffer -/
def cstr (buf : Str) : Str := buf.takeWhile (· ≠ 0)

/-- src/log/log-target-syslog.c:38-68: the buffer `msg`, `printed` and `remaining` -/
structure Msg where
  buf : Str
  printed : Nat := 0
  remaining : Nat := lineMax
deriving DecidableEq, Repr

/-- src/log/log-target-syslog.c:48-59 the loop over prefixes: each is stored at the start of the buffer; `none`: too long -/
def sysPfx : List (Option Str) → Msg → Option Msg
  | [], m => some m
  | p :: l, m =>
    if (pfxText p).length ≥ m.remaining then Option.none
    else sysPfx l ⟨put m.buf 0 lineMax (pfxText p), m.printed + (pfxText p).length, m.remaining - (pfxText p).length⟩

/-- src/log/log-target-syslog.c:52 -/
def sysPfxTooLong : Str := txt "Internal error: _log_syslog_output: (log prefix too long)"

/-- src/log/log-target-syslog.c:64 -/
def sysTruncated : Str := txt "Internal error: _log_syslog_output: (log message truncated)"

/-- src/log/log-target-syslog.c:61-67 the message behind the prefixes -/
def sysMsg (m : Msg) (level : Int) (text : Str) : List Event :=
  (if text.length ≥ m.remaining then [.sys level sysTruncated] else []) ++
  (if text.length > 0 then [.sys level (cstr (put m.buf m.printed m.remaining text))] else [])

/-- src/log/log-target-syslog.c:38-68 `_log_syslog_output`; `junk` is what the buffer has before -/
def sysOut (junk : Str) (max : Int) (r : Req) (text : Str) : List Event :=
  if r.ctx.level > max then []
  else match sysPfx r.pfx ⟨junk, 0, lineMax⟩ with
    | Option.none => [.sys r.ctx.level sysPfxTooLong, .sys r.ctx.level text]
    | some m => sysMsg m r.ctx.level text

/-- src/log/log-target-journal.c:61-80 the loop over prefixes; `none`: too long -/
def jrnPfx : List (Option Str) → Msg → Option Msg
  | [], m => some m
  | p :: l, m =>
    if (pfxText p).length ≥ m.remaining then Option.none
    else jrnPfx l ⟨put m.buf m.printed m.remaining (pfxText p), m.printed + (pfxText p).length,
      m.remaining - (pfxText p).length⟩

/-- src/log/log-target-journal.c:68-73 the fields about the source -/
def srcOf (c : Ctx) : Str × Int × Option Str := (c.file, c.line, c.func)

/-- src/log/log-target-journal.c:101 the field `PREFIX` (a first prefix which is NULL: `none`) -/
def firstPfx : List (Option Str) → Option Str
  | [] => some []
  | p :: _ => p

/-- src/log/log-target-journal.c:82-119 the message behind the prefixes -/
def jrnMsg (m : Msg) (s : Jrn) (r : Req) (text : Str) : List Event :=
  (if text.length ≥ m.remaining then [.jrn (txt "(log message truncated)") .none r.ctx.level (some (srcOf r.ctx))] else []) ++
  (if text.length > 0 then
    [.jrn (cstr (put m.buf m.printed m.remaining text)) (firstPfx r.pfx) r.ctx.level
      (if s.src then some (srcOf r.ctx) else .none)] else [])

/-- src/log/log-target-journal.c:51-120 `_log_journal_output` -/
def jrnOut (junk : Str) (s : Jrn) (r : Req) (text : Str) : List Event :=
  if r.ctx.level > s.max then []
  else match jrnPfx r.pfx ⟨junk, 0, lineMax⟩ with
    | Option.none => [.jrn (txt "(log prefix too long)") .none r.ctx.level (some (srcOf r.ctx))]
    | some m => jrnMsg m s r text

/-- src/log/log.c:103-109 the output of the target -/
def tgtOut (e : Env) (junk : Str) (s : St) (r : Req) (text : Str) : List Event :=
  match s.target with
  | .none => []
  | .standard => stdOut e s.std r text
  | .syslog => sysOut junk s.sys r text
  | .journal => jrnOut junk s.jrn r text

/-- src/log/log.c:78-84 the prefix of the log is put before those of the message -/
def withPfx (h : Bool) (s : St) (r : Req) : Req :=
  if h then (match s.pfx with | .none => r | some p => { r with pfx := some p :: r.pfx }) else r

/-- src/log/log.c:106-107 the error number is made positive -/
def posErrno (r : Req) : Req := if r.ctx.errno < 0 then { r with ctx := { r.ctx with errno := - r.ctx.errno } } else r

/-- src/log/log.c:96 -/
def noHandle : Str := txt "Internal error: Incorrect or missing log handle, skipping log messages."

/-- src/log/log.c:88-93 the request for the line about a missing handle -/
def noHandleReq (r : Req) : Req := ⟨[], { r.ctx with level := logErr, errno := 0 }⟩

/-- src/log/log.c:71-121 `sid_log_voutput`, `sid_log_output`; `h`: the handle is given.  A handle that is neither NULL nor that of
the log cannot be had through the interface and is left out -/
def output (e : Env) (junk : Str) (h : Bool) (r : Req) (text : Str) (s : St) : St × List Event :=
  if s.required && !h then
    if s.ignored then (s, [])
    else ({ s with ignored := true }, tgtOut e junk s (posErrno (withPfx true s (noHandleReq r))) noHandle)
  else (s, tgtOut e junk s (posErrno (withPfx h s r)) text)

/-- the calls of the interface, src/include/log/log.h:59-66; `close` (log.c:41-48) flushes or closes and changes nothing here -/
inductive Op where
  | close
  | init (t : Target) (v : Int)
  | initWithHandle (t : Target) (v : Int)
  | changeTgt (h : Bool) (t : Target)
  | setPfx (h : Bool) (p : Option Str)
  | output (junk : Str) (h : Bool) (r : Req) (text : Str)
deriving DecidableEq, Repr

/-- one call (see `Op`; src/log/log.c:20-121) -/
def step (e : Env) (s : St) : Op → St × List Event
  | .close => (s, [])
  | .init t v => (init t v s, [])
  | .initWithHandle t v => (initWithHandle t v s, [])
  | .changeTgt h t => (changeTgt h t s, [])
  | .setPfx h p => (setPfx h p s, [])
  | .output junk h r text => output e junk h r text s

/-- calls in sequence (see `Op`; src/log/log.c:20-121): final state and all that was output -/
def run (e : Env) : St → List Op → St × List Event
  | s, [] => (s, [])
  | s, op :: l =>
    let a := step e s op
    let b := run e a.1 l
    (b.1, a.2 ++ b.2)

/-- src/resource/res.c:1390-1417 `sid_res_log_output`: the prefixes of a message about a resource -/
def resPfx (type : Option Str) (id : Str) (pfx : List (Option Str)) : List (Option Str) :=
  some (txt "res-imp") :: ((match type with | .none => [] | some t => [some t]) ++ some id :: pfx)

/-- src/resource/res.c:1368-1388 `_res_log_output` -/
def resIntPfx (id : Str) : List (Option Str) := [some (txt "res-int"), some id]

/-- src/include/resource/res.h:253-260 the macros `sid_res_log_…` -/
inductive Macro where
  | debug | info | notice | warning | error | print | errorErrno
deriving DecidableEq, Repr

/-- src/include/resource/res.h:253-259, src/resource/res.c:33-39 the level of the macros (both sets agree) -/
def Macro.level : Macro → Int
  | .debug => logDebug
  | .info => logInfo
  | .notice => logNotice
  | .warning => logWarning
  | .error => logErr
  | .print => logPrint
  | .errorErrno => logDebug

/-- src/resource/res.c:1390-1417, src/iface/srv-lnk.c:339-340 what the log is given for `sid_res_log_…` (the link of the daemon's
logger asks for messages, sid.c:211-215, 236-240, and has the handle as its data) -/
def resReq (m : Macro) (type : Option Str) (id : Str) (errno : Int) (file : Str) (line : Int) (func : Option Str) : Req :=
  ⟨resPfx type id [], ⟨m.level, if m = .errorErrno then errno else 0, file, line, func⟩⟩

/-- src/daemon/sid.c:148-169 the options as `getopt_long` gives them -/
inductive Opt where
  | foreground | help | journal | verbose | version | other
deriving DecidableEq, Repr

/-- src/daemon/sid.c:135-137 -/
structure Settings where
  verbose : Nat := 0
  foreground : Bool := false
  journal : Bool := false
deriving DecidableEq, Repr

/-- src/daemon/sid.c:148-172 what is done with the options -/
inductive Parsed where
  | exit (code : Nat)
  | go (s : Settings)
deriving DecidableEq, Repr

/-- src/daemon/sid.c:148-169 the loop over options (number of `-v` below `INT_MAX`) -/
def options : List Opt → Settings → Parsed
  | [], s => .go s
  | .foreground :: l, s => options l { s with foreground := true }
  | .help :: _, _ => .exit 0
  | .journal :: l, s => options l { s with journal := true }
  | .verbose :: l, s => options l { s with verbose := s.verbose + 1 }
  | .version :: _, _ => .exit 0
  | .other :: _, _ => .exit 22

/-- src/daemon/sid.c:171-172 `VERBOSE` of the environment -/
def envVerbose (env : List Str) (s : Settings) : Settings :=
  match Util.envGetUll env (txt "VERBOSE") 0 (2 ^ 31 - 1) with
  | .ok v => { s with verbose := v }
  | .error _ => s

/-- src/daemon/sid.c:177-184 the target -/
def targetOf (s : Settings) : Target := if s.journal then .journal else if s.foreground then .standard else .syslog

/-- src/daemon/sid.c:171-184 the log of the daemon once it is set up -/
def startLog (env : List Str) (s : Settings) : St :=
  let t := envVerbose env s
  initWithHandle (targetOf t) t.verbose {}

end Sid.Log
