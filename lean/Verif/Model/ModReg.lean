import Verif.Model.UtilStr
/-
Model of registries of modules, /repo/src/resource/mod-reg.c, /repo/src/include/resource/mod.h:23-30,
/repo/src/resource/res.c:221-236, 496-516.

Simplifications: malloc succeeds; a registry is not yet or no longer connected to a resource tree other than by its modules, and
children of it are modules only (mod-reg.c:72 checks it); the path of a module's file is not longer than PATH_MAX (454); a module's
init function does not itself look up or load modules of the same registry; the reset functions of modules change nothing in the
registry.  `none` is undefined behaviour.
-/
namespace Sid.ModReg
open Sid (Str)

/-- include/resource/mod.h:24 `SID_MOD_NAME_DELIM` -/
def slash : UInt8 := 47

/-- what a shared object offers, mod-reg.c:407-413: the value of `sid_mod_prio`, the memory `sid_mod_aliases` points to, whether
    there are the init and exit functions, the other symbols -/
structure Plugin where
  prio : Option Int
  aliases : Option (List UInt8)
  hasInit : Bool
  hasExit : Bool
  sym : Str → Option Nat

/-- mod-reg.c:19-30, include/resource/mod-reg.h:27-38: prefix and suffix of file names, symbols to be looked up with
    `SID_MOD_SYM_FL_FAIL_ON_MISSING` -/
structure Params where
  pre : Option Str
  suf : Option Str
  syms : List (Str × Bool)
deriving DecidableEq, Repr

/-- mod-reg.c:32-42 `struct sid_mod` with its resource: an identity, priority -/
structure Mod where
  mid : Nat
  fullName : Str
  name : Str
  aliases : Option (List UInt8)
  syms : List (Option Nat)
  prio : Int
deriving DecidableEq, Repr

/-- mod-reg.c:18-30 `struct module_registry` with the children of its resource in order -/
structure Reg where
  base : Str
  params : Params
  mods : List Mod
  next : Nat
deriving DecidableEq, Repr

/-- `strrchr(s, '/') + 1` -/
def lastSeg (s : Str) : Str := (s.reverse.takeWhile (· ≠ slash)).reverse

/-- mod-reg.c:44-63 `_set_module_name` -/
def setName (base : Str) (m : Mod) (name : Str) : Mod :=
  { m with fullName := base ++ [slash] ++ name, name := lastSeg (base ++ [slash] ++ name) }

/-- mod-reg.c:79-85 the loop over a module's aliases; `none`: the memory ends before an empty string -/
def aliasLoop (nm : Str) (mem : List UInt8) : Option Bool :=
  match h : UStr.cstrAt mem 0 with
  | none => none
  | some a => if a.length = 0 then some false else if a = nm then some true else aliasLoop nm (mem.drop (a.length + 1))
termination_by mem.length
decreasing_by
  have : mem ≠ [] := by rintro rfl; simp [UStr.cstrAt] at h
  have : 0 < mem.length := List.length_pos_iff.mpr this
  simp only [List.length_drop]
  omega

/-- mod-reg.c:75-86 does the module have that name or alias -/
def hasName (nm : Str) (m : Mod) : Option Bool :=
  if m.name = nm then some true
  else
    match m.aliases with
    | none => some false
    | some mem => aliasLoop nm mem

/-- mod-reg.c:65-95 `_find_module` -/
def findIn (nm : Str) : List Mod → Option (Option Mod)
  | [] => some none
  | m :: l =>
    match hasName nm m with
    | none => none
    | some true => some (some m)
    | some false => findIn nm l

/-- mod-reg.c:129-135 `sid_mod_reg_get_mod` -/
def getMod (r : Reg) (nm : Str) : Option (Option Mod) := if nm.length = 0 then some none else findIn nm r.mods

/-- res.c:221-236 `_add_res_to_parent_res` -/
def insPrio (m : Mod) : List Mod → List Mod
  | [] => [m]
  | c :: l => if m.prio < c.prio then m :: c :: l else c :: insPrio m l

/-- mod-reg.c:452-458 the file of a module -/
def fileOf (p : Params) (name : Str) : Str := p.pre.getD [] ++ name ++ p.suf.getD []

/-- mod-reg.c:494-497 looking up the symbols -/
def loadSyms (pl : Plugin) : List (Str × Bool) → Option (List (Option Nat))
  | [] => some []
  | (s, must) :: l =>
    if must && (pl.sym s).isNone then none
    else (loadSyms pl l).map fun r => pl.sym s :: r

/-- mod-reg.c:413-513 `_init_module` for a resource with that id; `initOk`: the module's own init function succeeds.  The module is
    put in the list with priority 0 and then moved according to its priority (res.c:496-516): the place is the same. -/
def initMod (r : Reg) (disk : Str → Option Plugin) (nm : Str) (initOk : Bool) : Option Mod :=
  let m := setName r.base ⟨r.next, [], [], none, [], 0⟩ nm
  match disk (fileOf r.params m.name) with
  | none => none
  | some pl =>
    if !(pl.hasInit && pl.hasExit) then none
    else
      match loadSyms pl r.params.syms with
      | none => none
      | some s => if initOk then some { m with aliases := pl.aliases, syms := s, prio := pl.prio.getD 0 } else none

/-- res.c:247-357 `sid_res_create` of a module -/
def createMod (r : Reg) (disk : Str → Option Plugin) (nm : Str) (initOk : Bool) : Reg × Option Mod :=
  match initMod r disk nm initOk with
  | none => (r, none)
  | some m => ({ r with mods := insPrio m r.mods, next := r.next + 1 }, some m)

/-- mod-reg.c:97-127 `sid_mod_reg_load_mod` -/
def loadMod (r : Reg) (disk : Str → Option Plugin) (nm : Str) (initOk : Bool) : Option (Reg × Option Mod) :=
  if nm.length = 0 then some (r, none)
  else
    match findIn nm r.mods with
    | none => none
    | some (some m) => some (r, some m)
    | some none => some (createMod r disk nm initOk)

/-- mod-reg.c:137-143 `sid_mod_reg_unload_mod`, with no other reference to it -/
def unloadMod (r : Reg) (mid : Nat) : Reg := { r with mods := r.mods.filter fun m => m.mid ≠ mid }

/-- mod-reg.c:339-350 the name of the module in a file of the directory: `none` if it is none, or too long -/
def entryName (p : Params) (e : Str) : Option Str :=
  if e.head? = some 46 then none
  else
    match UStr.combstr e p.pre none p.suf true with
    | none => none
    | some _ =>
      UStr.copySubstr (some 256) e (p.pre.getD []).length (e.length - (p.pre.getD []).length - (p.suf.getD []).length)

/-- mod-reg.c:338-366 the loop of `_load_modules`: directory entries in order, each with whether the module's init succeeds -/
def loadMods (r : Reg) (disk : Str → Option Plugin) : List (Str × Bool) → Reg
  | [] => r
  | (e, ok) :: l =>
    match entryName r.params e with
    | none => loadMods r disk l
    | some nm => loadMods (createMod r disk nm ok).1 disk l

/-- mod-reg.c:584 the registry when created; `rid`: the id of its resource -/
def newReg (rid : Str) (p : Params) : Reg := ⟨[slash] ++ rid, p, [], 0⟩

/-- mod-reg.c:160-184 `sid_mod_reg_reset_mods` -/
def resetMods (r : Reg) : Reg :=
  { r with mods := r.mods.map fun m => if r.base.isPrefixOf m.fullName then m else setName r.base m m.name }

/-- mod-reg.c:235-286 `sid_mod_reg_add_mod_subreg`: the subregistry afterwards; `attachOk`: adding it to the tree succeeds (276) -/
def addSubreg (m : Mod) (sub : Reg) (attachOk : Bool) : Reg × Bool :=
  let s := resetMods { sub with base := m.fullName ++ sub.base }
  if attachOk then (s, true) else (resetMods { s with base := sub.base }, false)

/-- model only, for mod-reg.c:97-383: operations on a registry -/
inductive Op where
  | load (disk : Str → Option Plugin) (nm : Str) (initOk : Bool)
  | loadAll (disk : Str → Option Plugin) (entries : List (Str × Bool))
  | unload (mid : Nat)

/-- model only, for mod-reg.c:97-383 -/
def step (r : Reg) : Op → Option Reg
  | .load d nm ok => (loadMod r d nm ok).map Prod.fst
  | .loadAll d es => some (loadMods r d es)
  | .unload mid => some (unloadMod r mid)

/-- model only, for mod-reg.c:97-383 -/
def run (r : Reg) : List Op → Option Reg
  | [] => some r
  | o :: l => (step r o).bind fun r => run r l

end Sid.ModReg
