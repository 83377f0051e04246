import Verif.Model.DevState
/-
Model of the scan command: src/resource/ubr.c:5170-5219 (calling modules), 5366-5587 (phase handlers), 5589-5708 (the
phase table and `_cmd_exec_scan`).
Everything a handler touches outside the scan context (key-value store, sysfs, the modules' own functions) is an
environment that may do anything to its own state `σ` and return anything.
-/
namespace Sid.Scan
open Sid.DevState

/-- src/resource/ubr.c:139-158 numeric values of `cmd_scan_phase_t` -/
def code : Phase → Nat
  | .aInit => 0 | .aPre => 1 | .aCurrent => 2 | .aNext => 3 | .aPostCurrent => 4 | .aPostNext => 5 | .aExit => 6
  | .removeInit => 7 | .removeCurrent => 8 | .removeExit => 9
  | .bInit => 10 | .bActionCurrent => 11 | .bActionNext => 12 | .bExit => 13
  | .error => 14

/-- the phase with that number (numbers above 14 are not used) -/
def ofCode : Nat → Phase
  | 0 => .aInit | 1 => .aPre | 2 => .aCurrent | 3 => .aNext | 4 => .aPostCurrent | 5 => .aPostNext | 6 => .aExit
  | 7 => .removeInit | 8 => .removeCurrent | 9 => .removeExit
  | 10 => .bInit | 11 => .bActionCurrent | 12 => .bActionNext | 13 => .bExit
  | _ => .error

/-- src/resource/ubr.c:5629-5647 first and last phase by stage and by whether the uevent is a removal; `none`: bad stage -/
def range (stage : Nat) (remove : Bool) : Option (Phase × Phase) :=
  match stage with
  | 1 => if remove then some (.removeInit, .removeExit) else some (.aInit, .aExit)
  | 2 => some (.bInit, .bExit)
  | _ => none

/-- src/resource/ubr.c:5673-5679 phases whose failure ends the scan at once -/
def terminalPhase : Phase → Bool
  | .aInit | .bInit | .removeInit | .aExit | .bExit | .removeExit => true
  | _ => false

/-- src/resource/ubr.c:5691-5700 the cleanup phase after an error -/
def exitPhase (stage : Nat) (remove : Bool) : Phase :=
  match stage with
  | 1 => if remove then .removeExit else .aExit
  | 2 => .bExit
  | _ => .error

/-- src/resource/ubr.c:5649-5705 the loop of `_cmd_exec_scan`: return value, final state, and the phases executed with
    their results; `none` would be a loop still going after `fuel` rounds -/
def scanLoop {σ : Type} (exec : Phase → σ → Int × σ) (exit : Phase) (last : Nat) :
    (fuel : Nat) → (phase : Nat) → σ → Option (Int × σ × List (Phase × Int))
  | 0, _, _ => none
  | fuel + 1, phase, s =>
    if phase > last then some (0, s, [])
    else
      let r := exec (ofCode phase) s
      if r.1 = 0 ∨ r.1 = 1 then
        (scanLoop exec exit last fuel (phase + 1) r.2).map fun x => (x.1, x.2.1, (ofCode phase, r.1) :: x.2.2)
      else if terminalPhase (ofCode phase) then some (-1, r.2, [(ofCode phase, r.1)])
      else
        let e := exec .error r.2
        let x := exec exit e.2
        (scanLoop exec exit last fuel (code exit + 1) x.2).map fun y =>
          (y.1, y.2.1, (ofCode phase, r.1) :: (.error, e.1) :: (exit, x.1) :: y.2.2)

/-- src/resource/ubr.c:5623-5708 `_cmd_exec_scan` -/
def cmdExecScan {σ : Type} (exec : Phase → σ → Int × σ) (stage : Nat) (remove : Bool) (s : σ) :
    Option (Int × σ × List (Phase × Int)) :=
  match range stage remove with
  | none => some (-1, s, [])
  | some (first, last) => scanLoop exec (exitPhase stage remove) (code last) 16 (code first) s

/-! ### the phase handlers -/

/-- model only, for src/resource/ubr.c:5171-5587: What the handlers use.  `σ`: everything outside; `M`: modules. -/
structure Env (σ M : Type) where
  /-- `_do_sid_ucmd_dev_get_ready` -/
  getReady : σ → Ready × σ
  /-- `_do_sid_ucmd_dev_set_ready` -/
  setReady : Ready → σ → Int × σ
  /-- `_do_sid_ucmd_dev_get_reserved` -/
  getReserved : σ → Reserved × σ
  /-- `_do_sid_ucmd_dev_set_reserved` -/
  setReserved : Reserved → σ → Int × σ
  /-- `_set_dev_kvs` -/
  setDevKvs : σ → Int × σ
  /-- `_get_base_mod_name` then `sid_mod_reg_get_mod`: no name found / no such module / module -/
  baseMod : σ → Option (Option M) × σ
  /-- `_update_dev_deps_from_sysfs` -/
  updateDeps : σ → Int × σ
  /-- the stored name of the next module looked up in the registry -/
  nextMod : σ → Option M × σ
  /-- block modules in registry order -/
  blockMods : List M
  /-- `sid_mod_reg_get_mod_syms`: the function the module has for a phase, `none` if the symbols cannot be had -/
  fns : M → Option (Phase → Option (σ → Int × σ))
  /-- `req_env.dev.udev.action == UDEV_ACTION_REMOVE` -/
  isRemove : Bool

/-- src/resource/ubr.c:256-310: The scan part of the command context, with a log of the module functions called -/
structure St (σ M : Type) where
  s : σ
  cur : Option M
  next : Option M
  calls : List (M × Phase)

variable {σ M : Type}

/-- src/resource/ubr.c:5182-5193, 5209-5217 one module in the running phase -/
def callMod (env : Env σ M) (ph : Phase) (m : M) (st : St σ M) : Int × St σ M :=
  match env.fns m with
  | none => (-1, st)
  | some f =>
    match f ph with
    | none => (0, st)
    | some g =>
      let r := g st.s
      (if r.1 < 0 then -1 else 0, { st with s := r.2, calls := st.calls ++ [(m, ph)] })

/-- src/resource/ubr.c:5171-5197 `_exec_block_mods` -/
def execMods (env : Env σ M) (ph : Phase) : List M → St σ M → Int × St σ M
  | [], st => (0, st)
  | m :: ms, st =>
    let r := callMod env ph m st
    if r.1 < 0 then (-1, r.2) else execMods env ph ms r.2

/-- src/resource/ubr.c:5171-5197 `_exec_block_mods` forward or in reverse order -/
def execBlockMods (env : Env σ M) (ph : Phase) (reverse : Bool) (st : St σ M) : St σ M :=
  (execMods env ph (if reverse then env.blockMods.reverse else env.blockMods) st).2

/-- src/resource/ubr.c:5199-5219 `_exec_type_mod` -/
def execTypeMod (env : Env σ M) (ph : Phase) (m : Option M) (st : St σ M) : Int × St σ M :=
  match m with
  | none => (0, st)
  | some m => callMod env ph m st

/-- src/resource/ubr.c:5416-5434 and others: the usual body: block modules (result ignored), then a type module -/
def execBoth (env : Env σ M) (ph : Phase) (m : St σ M → Option M) (st : St σ M) : Int × St σ M :=
  let st := execBlockMods env ph false st
  execTypeMod env ph (m st) st

/-- src/resource/ubr.c:5366-5401 `_common_scan_init` -/
def commonInit (env : Env σ M) (ph : Phase) (st : St σ M) : Int × St σ M :=
  let k := env.setDevKvs st.s
  let st := { st with s := k.2 }
  if k.1 < 0 then (-1, st) else
  let b := env.baseMod st.s
  let st := { st with s := b.2 }
  match b.1 with
  | none => (-1, st)
  | some cur =>
    let d := if env.isRemove then (0, st.s) else env.updateDeps st.s
    let st := { st with s := d.2 }
    if d.1 < 0 then (-1, st) else
    let st := execBlockMods env ph false st
    let st := { st with cur := cur }
    execTypeMod env ph cur st

/-- src/resource/ubr.c:5419-5430 reading the ready state in the current-layer phase, with the default for devices nobody
    handles: `none` if the default could not be set -/
def readyOrDefault (env : Env σ M) (st : St σ M) : Option Ready × St σ M :=
  let g := env.getReady st.s
  let st := { st with s := g.2 }
  if g.1 = .unprocessed ∧ st.cur.isNone then
    let w := env.setReady .isPublic st.s
    let st := { st with s := w.2 }
    if w.1 < 0 then (none, st) else (some .isPublic, st)
  else (some g.1, st)

/-- src/resource/ubr.c:5432, 5471 ready states in which the current layer is scanned -/
def currentOk (r : Ready) : Bool := r == .isPrivate || r == .flat || r == .isPublic

/-- src/resource/ubr.c:5415-5437 `_cmd_exec_scan_a_current` -/
def aCurrent (env : Env σ M) (st : St σ M) : Int × St σ M :=
  let r := readyOrDefault env st
  match r.1 with
  | none => (-1, r.2)
  | some ready => if !currentOk ready then (1, r.2) else execBoth env .aCurrent (·.cur) r.2

/-- src/resource/ubr.c:5439-5464 `_cmd_exec_scan_a_next` -/
def aNext (env : Env σ M) (st : St σ M) : Int × St σ M :=
  let g := env.getReady st.s
  let st := { st with s := g.2 }
  if g.1 != .isPublic then (1, st) else
  let st := execBlockMods env .aNext false st
  let n := env.nextMod st.s
  let st := { st with s := n.2, next := n.1 }
  execTypeMod env .aNext n.1 st

/-- src/resource/ubr.c:5466-5476 `_cmd_exec_scan_a_post_current` -/
def aPostCurrent (env : Env σ M) (st : St σ M) : Int × St σ M :=
  let g := env.getReady st.s
  let st := { st with s := g.2 }
  if !currentOk g.1 then (1, st) else execBoth env .aPostCurrent (·.cur) st

/-- src/resource/ubr.c:5478-5488 `_cmd_exec_scan_a_post_next` -/
def aPostNext (env : Env σ M) (st : St σ M) : Int × St σ M :=
  let g := env.getReady st.s
  let st := { st with s := g.2 }
  if g.1 != .isPublic then (1, st) else execBoth env .aPostNext (·.next) st

/-- src/resource/ubr.c:5498-5500 the ready default at the end of a scan -/
def finishReady (env : Env σ M) (r : Int × St σ M) : Int × St σ M :=
  let g := env.getReady r.2.s
  if g.1 = .unprocessed then
    let w := env.setReady .isPublic g.2
    (if w.1 < 0 then -1 else r.1, { r.2 with s := w.2 })
  else (r.1, { r.2 with s := g.2 })

/-- src/resource/ubr.c:5502-5504 the reserved default at the end of a scan -/
def finishReserved (env : Env σ M) (r : Int × St σ M) : Int × St σ M :=
  let g := env.getReserved r.2.s
  if g.1 = .unprocessed then
    let w := env.setReserved .free g.2
    (if w.1 < 0 then -1 else r.1, { r.2 with s := w.2 })
  else (r.1, { r.2 with s := g.2 })

/-- the exit phases: the type module, then the block modules in reverse (src/resource/ubr.c:5490-5496, 5529-5537,
    5563-5576) -/
def execExit (env : Env σ M) (ph : Phase) (st : St σ M) : Int × St σ M :=
  let r := execTypeMod env ph st.cur st
  (r.1, execBlockMods env ph true r.2)

/-- src/resource/ubr.c:5514-5523 `_cmd_exec_scan_remove_current` -/
def removeCurrent (env : Env σ M) (st : St σ M) : Int × St σ M :=
  let r := execBoth env .removeCurrent (·.cur) st
  if r.1 < 0 then (-1, r.2) else
  let d := env.updateDeps r.2.s
  (d.1, { r.2 with s := d.2 })

/-- src/resource/ubr.c:5578-5587 `_cmd_exec_scan_error` (results are 0 or -1, so `|=` is "negative if either is") -/
def scanError (env : Env σ M) (st : St σ M) : Int × St σ M :=
  let st := execBlockMods env .error false st
  let r1 := execTypeMod env .error st.cur st
  let r2 := execTypeMod env .error r1.2.next r1.2
  (if r1.1 < 0 ∨ r2.1 < 0 then -1 else 0, r2.2)

/-- src/resource/ubr.c:5589-5621 `.exec` of `_cmd_scan_phase_regs` -/
def handler (env : Env σ M) : Phase → St σ M → Int × St σ M
  | .aInit => commonInit env .aInit
  | .aPre => execBoth env .aPre (·.cur)
  | .aCurrent => aCurrent env
  | .aNext => aNext env
  | .aPostCurrent => aPostCurrent env
  | .aPostNext => aPostNext env
  | .aExit => fun st => finishReserved env (finishReady env (execExit env .aExit st))
  | .removeInit => commonInit env .removeInit
  | .removeCurrent => removeCurrent env
  | .removeExit => execExit env .removeExit
  | .bInit => execBoth env .bInit (·.cur)
  | .bActionCurrent => execBoth env .bActionCurrent (·.cur)
  | .bActionNext => execBoth env .bActionNext (·.next)
  | .bExit => execExit env .bExit
  | .error => scanError env

end Sid.Scan
