/-
Model of the ready and reserved state of a device as modules and the scan code see and change it:
src/resource/ubr.c:2990-3275, capability table 5589-5621.
One device; its record in the key-value store is `stored` (none: no record), the copy in the context of the running
command is `cached`.  The key-value write is an outcome chosen by the environment, because it may be refused by write
protection or fail for lack of memory.
-/
namespace Sid.DevState

/-- src/include/resource/ucmd-mod.h:221-239 `sid_dev_ready_t` (only its named values) -/
inductive Ready
  | undefined | removed | unprocessed | unconfigured | uninitialized | isPrivate | flat | unavailable | isPublic
  deriving DecidableEq, Repr

/-- src/include/resource/ucmd-mod.h:240-246 `sid_dev_reserved_t` (only its named values) -/
inductive Reserved
  | undefined | unprocessed | reserved | used | free
  deriving DecidableEq, Repr

/-- src/resource/ubr.c:139-158 `cmd_scan_phase_t` -/
inductive Phase
  | aInit | aPre | aCurrent | aNext | aPostCurrent | aPostNext | aExit
  | removeInit | removeCurrent | removeExit
  | bInit | bActionCurrent | bActionNext | bExit
  | error
  deriving DecidableEq, Repr

/-- src/resource/ubr.c:5589-5621 `.flags & CMD_SCAN_CAP_RDY` of `_cmd_scan_phase_regs` -/
def capReady : Phase → Bool
  | .aInit | .aPre | .aCurrent | .aExit | .removeInit | .bInit => true
  | _ => false

/-- src/resource/ubr.c:5589-5621 `.flags & CMD_SCAN_CAP_RES` of `_cmd_scan_phase_regs` -/
def capReserved : Phase → Bool
  | .aInit | .aNext | .aExit | .removeInit | .bInit => true
  | _ => false

/-- Outcome of `_do_sid_ucmd_kv_set` (src/resource/ubr.c:2485-2574): stored (0); refused before the store was asked
    (negative, e.g. no memory for the key); refused or failed in the store itself, where
    `(r = sid_kvs_va_set(...) < 0)` turns the negative code into 1. -/
inductive KvOutcome
  | stored
  | failedEarly
  | deniedByStore
  deriving DecidableEq, Repr

/-- src/resource/ubr.c:2485-2574: the value `_do_sid_ucmd_kv_set` returns -/
def KvOutcome.code : KvOutcome → Int
  | .stored => 0
  | .failedEarly => -12
  | .deniedByStore => 1

/-- src/resource/ubr.c:256-310, 3001-3274: A device and the context of the running command.  `α` is `Ready` or `Reserved`. -/
structure Ctx (α : Type) where
  phase : Phase
  cached : α
  stored : Option α
  deriving DecidableEq, Repr

/-- src/resource/ubr.c:3020-3056 the switch of `_do_sid_ucmd_dev_set_ready`: is the change acceptable? -/
def readyOk (old new : Ready) : Bool :=
  match new with
  | .undefined => false
  | .removed => old != .undefined
  | .unprocessed => old == .undefined
  | .unconfigured => old == .unprocessed
  | .uninitialized | .isPrivate | .flat | .unavailable | .isPublic => old != .undefined

/-- src/resource/ubr.c:3165-3186 the switch of `_do_sid_ucmd_dev_set_reserved` -/
def reservedOk (old new : Reserved) : Bool :=
  match new with
  | .undefined => false
  | .unprocessed => old == .undefined
  | .reserved | .used | .free => true

/-- src/resource/ubr.c:3001-3087 `_do_sid_ucmd_dev_set_ready` and 3146-3216 `_do_sid_ucmd_dev_set_reserved`, which differ
    in the capability and in the switch: result code and new context.  -1 is -EPERM, -56 is -EBADRQC. -/
def setState {α : Type} [DecidableEq α] (cap : Phase → Bool) (ok : α → α → Bool) (c : Ctx α) (new : α) (kv : KvOutcome) :
    Int × Ctx α :=
  if !cap c.phase then (-1, c)
  else if new = c.cached then (0, c)
  else if !ok c.cached new then (-56, c)
  else if kv.code < 0 then (kv.code, c)
  else (kv.code, { c with cached := new, stored := if kv = .stored then some new else c.stored })

/-- src/resource/ubr.c:3101-3132 `_do_sid_ucmd_dev_get_ready`, 3230-3263 `_do_sid_ucmd_dev_get_reserved` (archive = 0):
    the cached value, loaded from the store if undefined -/
def getState {α : Type} [DecidableEq α] (undef : α) (c : Ctx α) : α × Ctx α :=
  if c.cached = undef then
    match c.stored with
    | some v => (v, { c with cached := v })
    | none => (c.cached, c)
  else (c.cached, c)

/-- What happens to a device: a new command starts (its context is zeroed, src/resource/ubr.c:6243), the scan enters a
    phase, somebody sets or reads the state -/
inductive Op (α : Type)
  | command (p : Phase)
  | phase (p : Phase)
  | set (new : α) (kv : KvOutcome)
  | get
  deriving DecidableEq, Repr

/-- model only, for src/resource/ubr.c:3001-3274: one event -/
def step {α : Type} [DecidableEq α] (undef : α) (cap : Phase → Bool) (ok : α → α → Bool) (c : Ctx α) : Op α → Ctx α
  | .command p => { c with phase := p, cached := undef }
  | .phase p => { c with phase := p }
  | .set new kv => (setState cap ok c new kv).2
  | .get => (getState undef c).2

/-- src/resource/ubr.c:3001-3144: ready state -/
def stepReady : Ctx Ready → Op Ready → Ctx Ready := step .undefined capReady readyOk

/-- src/resource/ubr.c:3146-3274: reserved state -/
def stepReserved : Ctx Reserved → Op Reserved → Ctx Reserved := step .undefined capReserved reservedOk

/-- model only, for src/resource/ubr.c:3101-3132: a device nobody has seen -/
def fresh {α : Type} (undef : α) (p : Phase) : Ctx α := ⟨p, undef, none⟩

end Sid.DevState
