import Verif.Model.Common
/-
Event counters of src/resource/res.c.  Of sd-event (systemd) only this is modelled: a source is dispatched only if it is
enabled, a one-shot source is disabled before its handler is called, and a negative result of the handler disables it.
-/
namespace Sid.Ev

/-- src/resource/res.c:159-163: `SD_EVENT_OFF`, `SD_EVENT_ONESHOT`, `SD_EVENT_ON` -/
inductive En
  | off | oneshot | on
deriving DecidableEq, Repr

/-- src/include/resource/res.h:57 `SID_RES_UNLIMITED_EV_COUNT` -/
def unlimited : BitVec 64 := BitVec.allOnes 64

/-- src/resource/res.c:102-112 `struct sid_res_ev_src`: whether it watches a child process, the two counters, and the
    enablement kept by sd-event -/
structure Src where
  child : Bool
  fired : BitVec 64
  max : BitVec 64
  en : En
deriving DecidableEq, Repr

/-- src/resource/res.c:159-164 -/
def enOfMax (max : BitVec 64) : En := if max = 0 then .off else if max = 1 then .oneshot else .on

/-- src/resource/res.c:115-173 `_create_event_source`, the counters -/
def create (child : Bool) (max : BitVec 64) : Src := ⟨child, 0, max, enOfMax max⟩

/-- src/include/resource/res.h:163-166 -/
inductive Pos
  | abs | rel
deriving DecidableEq, Repr

/-- src/resource/res.c:971-981 -/
def newMax (fired : BitVec 64) (pos : Pos) (n : BitVec 64) : BitVec 64 :=
  match pos with
  | .abs => if n < fired then fired else n
  | .rel => if fired + n = unlimited ∨ fired + n < fired then unlimited - 1 else fired + n

/-- src/resource/res.c:983-988 -/
def enOf (fired max : BitVec 64) : En := if fired = max then .off else if fired + 1 = max then .oneshot else .on

/-- src/resource/res.c:963-992 `sid_res_ev_set_counter` -/
def setCounter (s : Src) (pos : Pos) (n : BitVec 64) : Src :=
  if n = unlimited then { s with max := n, en := .on }
  else { s with max := newMax s.fired pos n, en := enOf s.fired (newMax s.fired pos n) }

/-- src/resource/res.c:538-543 `_handle_event_counter` -/
def handleCounter (s : Src) : Src :=
  if s.max ≠ unlimited ∧ s.fired + 1 = s.max then { s with fired := s.fired + 1, en := .off }
  else { s with fired := s.fired + 1 }

/-- src/resource/res.c:545-558, 591-619, 658-672, 739-752, 852-865: for child processes the test is for a positive
    result -/
def limits (child : Bool) (ret : Int) : Bool := if child then 0 < ret else ret < 0

/-- src/resource/res.c:539-558: the same lines: after the handler; a negative result disables the source (sd-event) -/
def afterHandler (s : Src) (ret : Int) : Src :=
  { s with
    max := if limits s.child ret then s.fired else s.max
    en := if ret < 0 then .off else s.en }

/-- src/resource/res.c:539-558: The source is ready.  `calls`: what the handler does to the counter of its own source; `ret`: its result.  The
    second component says whether the handler was called. -/
def ready (s : Src) (calls : List (Pos × BitVec 64)) (ret : Int) : Src × Bool :=
  if s.en = .off then (s, false)
  else
    let s1 := handleCounter (if s.en = .oneshot then { s with en := .off } else s)
    (afterHandler (calls.foldl (fun s c => setCounter s c.1 c.2) s1) ret, true)

/-- model only, for src/resource/res.c:539-558, 963-992: what happens to a source -/
inductive Act
  | set (pos : Pos) (n : BitVec 64)
  | ready (calls : List (Pos × BitVec 64)) (ret : Int)

/-- model only, for src/resource/res.c:539-558, 963-992 -/
def step (s : Src) : Act → Src × Bool
  | .set pos n => (setCounter s pos n, false)
  | .ready calls ret => ready s calls ret

/-- model only, for src/resource/res.c:539-558, 963-992: a history: the source after it, and for each action whether the handler was called -/
def run (s : Src) : List Act → Src × List Bool
  | [] => (s, [])
  | a :: as => ((run (step s a).1 as).1, (step s a).2 :: (run (step s a).1 as).2)

/-! ### timers -/

/-- model only, for src/resource/res.c:561-961: result of a C function returning an `int`: the value -/
abbrev Ret := Int

/-- src/resource/res.c:785-804 `sid_res_ev_create_time` with a relative time: what `sd_event_now` returned, the time it
    gave; the result is the value returned and the time the timer is set to -/
def createRelTime (nowRet : Ret) (now usec : BitVec 64) : Ret × Option (BitVec 64) :=
  if nowRet < 0 then (1, none)
  else if BitVec.allOnes 64 - now ≤ usec then (-75, none)
  else (0, some (now + usec))

/-- src/resource/res.c:831-845 `sid_res_ev_rearm_time` with a relative time -/
def rearmRelTime (nowRet : Ret) (now usec : BitVec 64) : Ret × Option (BitVec 64) :=
  if nowRet < 0 then (nowRet, none)
  else if BitVec.allOnes 64 - now ≤ usec then (-75, none)
  else (0, some (now + usec))

end Sid.Ev
