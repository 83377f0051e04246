/-
Model of the life of a command in a worker: /repo/src/resource/ubr.c 202-218, 312-318, 4427-4517, 5768-6029, 6231-6343, 6832-6934.

Not modelled: what a command's own function does apart from its result (the scan phases are in Model/Scan, the records exported in
Model/UbrSync), logging, failures of memory allocation.  Of sd-event: a deferred source whose counter is set relative by one runs
its handler once (Model/EvSrc); a negative result of the handler ends the worker's event loop (`sid_res_ev_set_exit_on_failure`,
ubr.c:6335).
-/
namespace Sid.Cmd

/-- src/resource/ubr.c:202-218 `cmd_state_t` -/
inductive St
  | undefined | ini | stgWait | exeSched | exeRun | exeWait | resBuild | expFirst | resLast | resFirst | expLast | waitAck | timOut
  | err | fin
deriving DecidableEq, Repr

/-- src/resource/ubr.c:312-318 `struct cmd_reg`, 502-512 its flags: whether there is a function to execute, whether records are
    exported at all, whether the export goes to the main process, whether udev properties go to the response, the number of stages;
    and whether the command came from a client (msg_category_t, 195-199) -/
structure Reg where
  hasExec : Bool
  exports : Bool
  toMain : Bool
  udevToRes : Bool
  stages : Nat
  client : Bool
deriving DecidableEq, Repr

/-- model only, for src/resource/ubr.c:5896-6029: what can be seen of a command, newest first.  `ran`: the handler ran; `exec`: the command's function was called;
    `asked`: it asked the main process for something and waits; `exported`: records were handed over; `replied`: the response was
    sent; `yielded`: the worker was yielded; `acked`, `answered`, `nextStage`: messages of the main process came in
    (SYSTEM_CMD_SYNC, SYSTEM_CMD_RESOURCES, SYSTEM_CMD_UMONITOR). -/
inductive Obs
  | ran | exec | asked | exported | replied | yielded | acked | answered | nextStage
deriving DecidableEq, Repr

/-- src/resource/ubr.c:293-308 the fields of `struct sid_ucmd_ctx` for the life of a command: state, previous state, stage; whether
    the handler is due (`cmd_handler_es`), whether the timeout is armed (`tim_out_es`), whether there is a response buffer; `gone`:
    the worker's event loop ended -/
structure Cmd where
  st : St
  prev : St
  stage : Nat
  due : Bool
  timer : Bool
  resBuf : Bool
  gone : Bool
  log : List Obs
deriving DecidableEq, Repr

/-- model only, for src/resource/ubr.c:5896-6029: something more to be seen -/
def Cmd.see (c : Cmd) (x : Obs) : Cmd := { c with log := x :: c.log }

/-- model only, for src/resource/ubr.c:5896-6029: result of a step inside the handler: `none` undefined behaviour, else whether it succeeded, and the command -/
abbrev R := Option (Bool × Cmd)

/-- model only, for src/resource/ubr.c:5896-6029: the next step if this one succeeded -/
def R.andThen : R → (Cmd → R) → R
  | none, _ => none
  | some (false, c), _ => some (false, c)
  | some (true, c), f => f c

/-- src/resource/ubr.c:4438-4441 `_is_last_stage` -/
def lastStage (reg : Reg) (c : Cmd) : Bool := reg.stages = 0 || reg.stages = c.stage

/-- src/resource/ubr.c:4513-4514 -/
def Cmd.enter (c : Cmd) (s : St) : Cmd := { c with prev := c.st, st := s }

/-- src/resource/ubr.c:4456-4474 what precedes the change to CMD_STATE_EXE_SCHED -/
def scheduled (c : Cmd) : Cmd :=
  { c with
    due := if c.st = .ini then c.due else true
    timer := false
    stage := if c.st = .ini ∨ c.st = .stgWait then c.stage + 1 else c.stage }

/-- src/resource/ubr.c:4443-4517 `_change_cmd_state`; `timerOk`: the timeout event can be created -/
def change (reg : Reg) (timerOk : Bool) (c : Cmd) (s : St) : Bool × Cmd :=
  if c.st = s then (false, c)
  else
    match s with
    | .exeSched => (true, (scheduled c).enter s)
    | .stgWait => if lastStage reg c || !timerOk then (false, c) else (true, { c.enter s with timer := true })
    | .timOut => if c.st = .stgWait then (true, { c.enter s with timer := false, due := true }) else (false, c)
    | _ => (true, c.enter s)

/-- model only, for src/resource/ubr.c:5936-5961: how the function of a command ends: it succeeds, it waits for data of the main process, it fails -/
inductive ExecRes
  | ok | wait | fail
deriving DecidableEq, Repr

/-- model only, for src/resource/ubr.c:5768-5852: how sending the export ends: sent, nothing to send (-ENODATA), failed -/
inductive ExpRes
  | sent | nothing | fail
deriving DecidableEq, Repr

/-- model only, for src/resource/ubr.c:5896-6029: what the world makes of one run of the handler: the function's result, whether the buffers of records can be built and whether
    there are udev properties among the records, the results of sending export and response, whether the timeout can be created -/
structure Outcome where
  exec : ExecRes
  build : Bool
  udev : Bool
  exp : ExpRes
  res : Bool
  timer : Bool
deriving DecidableEq, Repr

/-- src/resource/ubr.c:5768-5852 `_send_out_cmd_expbuf`: negative (`false`), -ENODATA (`none`), or success.  Without an export
    buffer (no flag asks for one: 1312-1315) nothing is sent; only towards the main process an empty buffer is not sent. -/
def sendExp (reg : Reg) (o : Outcome) (c : Cmd) : Option Bool × Cmd :=
  if !reg.exports then (some true, c)
  else
    match o.exp with
    | .sent => (some true, c.see .exported)
    | .nothing => if reg.toMain then (none, c) else (some true, c.see .exported)
    | .fail => (some false, c)

/-- src/resource/ubr.c:5854-5894 `_send_out_cmd_resbuf`: the buffer is destroyed whatever the result; without one there is nothing
    to do; a command the daemon gave to itself has nobody to send it to -/
def sendRes (reg : Reg) (o : Outcome) (c : Cmd) : Bool × Cmd :=
  if !c.resBuf then (true, c)
  else if !reg.client then (true, { c with resBuf := false })
  else if o.res then (true, { c with resBuf := false }.see .replied)
  else (false, { c with resBuf := false })

/-- src/resource/ubr.c:5924-5943 the command's function is executed -/
def execute (reg : Reg) (o : Outcome) (c : Cmd) : R :=
  R.andThen (some (change reg true c .exeRun)) fun c =>
  if !reg.hasExec then some (change reg true c .resBuild)
  else
    match o.exec with
    | .ok => some (change reg true (c.see .exec) .resBuild)
    | .wait => some (change reg true ((c.see .exec).see .asked) .exeWait)
    | .fail => some (false, c.see .exec)

/-- src/resource/ubr.c:5903-5953 -/
def start (reg : Reg) (o : Outcome) (c : Cmd) : R :=
  if c.st = .timOut then some (false, c)
  else if c.st ≠ .exeSched then some (false, c)
  else if c.prev = .ini ∨ c.prev = .exeWait ∨ c.prev = .stgWait then execute reg o c
  else if c.prev = .waitAck then some (change reg true c .resLast)
  else some (false, c)

/-- src/resource/ubr.c:5955-5970; 1432-1439: udev properties are added to the response buffer, which must exist -/
def build (reg : Reg) (o : Outcome) (c : Cmd) : R :=
  if c.st ≠ .resBuild then some (true, c)
  else if reg.exports && reg.udevToRes && o.udev && !c.resBuf then none
  else if reg.exports && !o.build then some (false, c)
  else some (change reg true c (if reg.toMain then .expFirst else .resFirst))

/-- src/resource/ubr.c:5972-5993 -/
def sendFirst (reg : Reg) (o : Outcome) (c : Cmd) : R :=
  if c.st = .expFirst then
    match sendExp reg o c with
    | (some false, c) => some (false, c)
    | (none, c) => some (change reg true c .resLast)
    | (some true, c) => some (change reg true c .waitAck)
  else if c.st = .resFirst then
    R.andThen (some (sendRes reg o c)) fun c => some (change reg true c .expLast)
  else some (true, c)

/-- src/resource/ubr.c:6001-6002, 6010-6011 -/
def endStage (reg : Reg) (o : Outcome) (c : Cmd) : R :=
  some (change reg o.timer c (if lastStage reg c then .fin else .stgWait))

/-- src/resource/ubr.c:5995-6014 -/
def sendLast (reg : Reg) (o : Outcome) (c : Cmd) : R :=
  if c.st = .resLast then R.andThen (some (sendRes reg o c)) (endStage reg o)
  else if c.st = .expLast then
    match sendExp reg o c with
    | (some false, c) => some (false, c)
    | (_, c) => endStage reg o c
  else some (true, c)

/-- src/resource/ubr.c:6020 after a failure the state is CMD_STATE_ERR -/
def failed (reg : Reg) (r : Bool × Cmd) : Cmd := if r.1 then r.2 else (change reg true r.2 .err).2

/-- src/resource/ubr.c:6026-6027 -/
def yieldIf (c : Cmd) : Cmd := if c.st = .fin ∨ c.st = .err then c.see .yielded else c

/-- src/resource/ubr.c:6016-6029 the end of the handler; a failure ends the event loop -/
def finish (reg : Reg) (r : Bool × Cmd) : Cmd := { yieldIf (failed reg r) with gone := !r.1 }

/-- src/resource/ubr.c:5896-6029 `_cmd_handler` -/
def handler (reg : Reg) (o : Outcome) (c : Cmd) : Option Cmd :=
  (R.andThen (R.andThen (R.andThen (start reg o c) (build reg o)) (sendFirst reg o)) (sendLast reg o)).map (finish reg)

/-- the messages of the main process to a command: the export was taken (6909-6934), the answer asked for (6832-6892), udev is done
    with the event (6894-6908) -/
inductive Msg
  | ack | answer | nextStage
deriving DecidableEq, Repr

/-- model only, for src/resource/ubr.c:6832-6934: the trace of a message -/
def Msg.obs : Msg → Obs
  | .ack => .acked
  | .answer => .answered
  | .nextStage => .nextStage

/-- model only, for src/resource/ubr.c:4427-4430, 5896-6029, 6936-7011: what happens in the worker: the handler runs, a message comes in, time is out, the process ends (SIGTERM) -/
inductive Ev
  | run (o : Outcome) | message (m : Msg) | timeout | stop
deriving DecidableEq, Repr

/-- one event.  All messages have the same effect (6888, 6907, 6933); a refused change of state is only logged
    (src/resource/wrk-ctl.c:443-448).  4427-4430 `_on_cmd_tim_out_event`. -/
def step (reg : Reg) (c : Cmd) : Ev → Option Cmd
  | .run o => if c.gone || !c.due then some c else handler reg o ({ c with due := false }.see .ran)
  | .message m => if c.gone then some c else some (change reg true (c.see m.obs) .exeSched).2
  | .timeout => if c.gone || !c.timer then some c else some (change reg true c .timOut).2
  | .stop => some { c with gone := true }

/-- src/resource/ubr.c:6231-6343 `_init_command` at its end: scheduled for the first time -/
def init (reg : Reg) : Cmd :=
  (change reg true ⟨.ini, .undefined, 0, true, false, true, false, []⟩ .exeSched).2

/-- model only, for src/resource/ubr.c:5896-6029: a history -/
def run (reg : Reg) : Cmd → List Ev → Option Cmd
  | c, [] => some c
  | c, e :: l => (step reg c e).bind fun c => run reg c l

/-- src/resource/ubr.c:5710-5728: registrations of the client commands -/
def scan : Reg := ⟨true, true, true, true, 2, true⟩
/-- src/resource/ubr.c:5710-5728 -/
def version : Reg := ⟨true, false, false, false, 0, true⟩
/-- src/resource/ubr.c:5710-5728 -/
def dbdump : Reg := ⟨false, true, false, false, 0, true⟩
/-- src/resource/ubr.c:5710-5728 -/
def resources : Reg := ⟨true, false, false, false, 0, true⟩

/-- src/resource/ubr.c:5730-5735 the command the daemon gives to itself to write the database file -/
def selfDump : Reg := ⟨false, true, false, false, 0, false⟩

end Sid.Cmd
