import Verif.Model.UbrAlias
/-
Model of the arrays of strings that searches of the database return, in /repo/src/resource/ubr.c (2708-2831, 3511-3552, 3819-4102), in
memory: blocks that are allocated and freed, pointers of eight bytes in front of the characters of the same block.

Simplifications: composing keys needs no memory of its own (it is done in a buffer that is kept); the bitmap of the keys that match
(2734-2760) is a block whose content is the list of the keys that match; the arguments `count` and `ret_code` are not NULL.
-/
namespace Sid.Ubr

/-- model only, for src/resource/ubr.c:2709-2831: an address, a block and an offset in it -/
abbrev Addr := Nat × Nat

/-- model only, for src/resource/ubr.c:2709-2831: a byte of memory: never written, the `k`-th byte of a pointer, a character -/
inductive Cell
  | undef
  | ptr (a : Addr) (k : Nat)
  | chr (c : UInt8)
  deriving DecidableEq, Repr

/-- model only, for src/resource/ubr.c:2709-2831: the memory; `avail n`: the `n`-th allocation succeeds -/
structure Heap where
  blk : Nat → Option (List Cell)
  next : Nat
  avail : Nat → Bool

/-- `malloc` (src/resource/ubr.c:2743, 2780, 2813, src/internal/bmp.c:49) -/
def malloc (h : Heap) (n : Nat) : Heap × Option Nat :=
  if h.avail h.next then
    ({ h with blk := fun b => if b = h.next then some (List.replicate n .undef) else h.blk b, next := h.next + 1 }, some h.next)
  else ({ h with next := h.next + 1 }, none)

/-- `free` (src/resource/ubr.c:2758, 3876, 4013-4015, 4080-4083); a block that is not there: undefined -/
def free (h : Heap) : Option Nat → Option Heap
  | none => some h
  | some b => if (h.blk b).isSome then some { h with blk := fun a => if a = b then none else h.blk a } else none

/-- writing to memory (src/resource/ubr.c:2754-2755, 2787-2793, 2821-2828); outside of a block: undefined -/
def store (h : Heap) (b o : Nat) (cs : List Cell) : Option Heap :=
  match h.blk b with
  | none => none
  | some m =>
    if o + cs.length ≤ m.length then
      some { h with blk := fun a => if a = b then some (m.take o ++ cs ++ m.drop (o + cs.length)) else h.blk a }
    else none

/-- model only, for src/resource/ubr.c:2754: the bytes of a pointer -/
def ptrCells (a : Addr) : List Cell := (List.range 8).map (Cell.ptr a)

/-- model only, for src/resource/ubr.c:2755: the bytes of a string with its end -/
def strCells (s : Str) : List Cell := s.map Cell.chr ++ [.chr 0]

/-- reading the `i`-th pointer of an array (src/resource/ubr.c:2777-2778, 2788, 2809, 4002); no pointer there: undefined -/
def loadPtr (h : Heap) (b i : Nat) : Option Addr :=
  match h.blk b with
  | none => none
  | some m =>
    match m[8 * i]? with
    | some (.ptr a _) => if (m.drop (8 * i)).take 8 = ptrCells a then some a else none
    | _ => none

/-- model only, for src/resource/ubr.c:2780: the characters up to the end of a string -/
def cString : List Cell → Option Str
  | .chr c :: m => if c = 0 then some [] else (cString m).map (c :: ·)
  | _ => none

/-- reading a string (src/resource/ubr.c:2780, 2787-2790, 2806, 4002); no end in the block: undefined -/
def strAt (h : Heap) (a : Addr) : Option Str :=
  match h.blk a.1 with
  | none => none
  | some m => cString (m.drop a.2)

/-- model only, for src/resource/ubr.c:3881-4102: what a search returns: the array (NULL: `none`), its size, the code -/
structure Got where
  arr : Option Nat
  count : Nat
  code : Int
  deriving DecidableEq, Repr

/-- src/resource/ubr.c:2735-2742 does this key match? -/
def keep (filter : KeySpec) (x : Str) : Bool := partsMatch (decomposeKey x) (specParts filter)

/-- src/resource/ubr.c:2751-2757 filling the array -/
def fillKeys (h : Heap) (p : Nat) (filter : KeySpec) : Nat → Nat → List Str → Option Heap
  | _, _, [] => some h
  | i, o, x :: l =>
    if keep filter x then
      (store h p (8 * i) (ptrCells (p, o))).bind fun h =>
      (store h p o (strCells x)).bind fun h => fillKeys h p filter (i + 1) (o + (x.length + 1)) l
    else fillKeys h p filter i o l

/-- src/resource/ubr.c:2735-2742 the number of characters of the keys that match -/
def keptChars (filter : KeySpec) (l : List Str) : Nat := ((l.filter (keep filter)).map fun x => x.length + 1).sum

/-- src/resource/ubr.c:2743-2764 with the bitmap there -/
def keyStrvWith (h : Heap) (bmp : Nat) (l : List Str) (filter : KeySpec) : Option (Heap × Got) :=
  match malloc h (8 * (l.filter (keep filter)).length + keptChars filter l) with
  | (h, none) => (free h (some bmp)).map fun h => (h, ⟨none, keptChars filter l, -12⟩)
  | (h, some p) =>
    (fillKeys h p filter 0 (8 * (l.filter (keep filter)).length) l).bind fun h =>
    (free h (some bmp)).map fun h => (h, ⟨some p, (l.filter (keep filter)).length, 0⟩)

/-- src/resource/ubr.c:2709-2764 `_get_key_strv_from_vvalue` -/
def keyStrv (h : Heap) (v : Option (List Str)) (filter : KeySpec) : Option (Heap × Got) :=
  match v with
  | none => some (h, ⟨none, 0, 0⟩)
  | some [] => some (h, ⟨none, 0, 0⟩)
  | some l =>
    match malloc h (16 + ((l.length - 1) / 32 + 1) * 4) with
    | (h, none) => some (h, ⟨none, 0, -12⟩)
    | (h, some bmp) => keyStrvWith h bmp l filter

/-- model only, for src/resource/ubr.c:2780, 2810: the difference of two pointers into the same block; otherwise undefined -/
def ptrDiff (a b : Addr) : Option Nat := if a.1 = b.1 ∧ b.2 ≤ a.2 then some (a.2 - b.2) else none

/-- src/resource/ubr.c:2776-2780 the bytes from the first string of an array to the end of its last one -/
def charsOf (h : Heap) (p n : Nat) : Option Nat :=
  (loadPtr h p (n - 1)).bind fun a =>
  (strAt h a).bind fun s =>
  (loadPtr h p 0).bind fun f => ptrDiff (a.1, a.2 + s.length + 1) f

/-- src/resource/ubr.c:2785-2794, 2819-2823 a string is copied and its pointer set: the address behind it -/
def putStr (h : Heap) (p i o : Nat) (a : Addr) : Option (Heap × Nat) :=
  (strAt h a).bind fun s =>
  (store h p o (strCells s)).bind fun h =>
  (store h p (8 * i) (ptrCells (p, o))).map fun h => (h, o + s.length + 1)

/-- src/resource/ubr.c:2785-2794 the loop of `_strv_add_strv`; `left` strings to do -/
def mergeLoop (p p1 n1 p2 : Nat) : Nat → Heap → Nat → Nat → Option Heap
  | 0, h, _, _ => some h
  | left + 1, h, i, o =>
    (if i < n1 then loadPtr h p1 i else loadPtr h p2 (i - n1)).bind fun a =>
    (putStr h p i o a).bind fun r => mergeLoop p p1 n1 p2 left r.1 (i + 1) r.2

/-- src/resource/ubr.c:2767-2796 `_strv_add_strv`, neither array is NULL -/
def addStrv (h : Heap) (p1 n1 p2 n2 : Nat) : Option (Heap × Option Nat) :=
  if n1 = 0 ∨ n2 = 0 then some (h, none)
  else
    (charsOf h p1 n1).bind fun d1 =>
    (charsOf h p2 n2).bind fun d2 =>
    match malloc h (8 * (n1 + n2) + d1 + d2) with
    | (h, none) => some (h, none)
    | (h, some p) => (mergeLoop p p1 n1 p2 (n1 + n2) h 0 (8 * (n1 + n2))).map fun h => (h, some p)

/-- src/resource/ubr.c:2806-2811 the bytes of the array up to the end of its last string; the string before the first one of an empty
    array: undefined -/
def sizeOf (h : Heap) (n : Nat) : Option Nat → Option Nat
  | none => some 0
  | some q =>
    if n = 0 then none
    else
      (loadPtr h q (n - 1)).bind fun a =>
      (strAt h a).bind fun s => ptrDiff (a.1, a.2 + s.length + 1) (q, 0)

/-- src/resource/ubr.c:2818-2824 the loop of `_strv_add_str`: the address behind the strings -/
def copyLoop (p q : Nat) : Nat → Heap → Nat → Nat → Option (Heap × Nat)
  | 0, h, _, o => some (h, o)
  | left + 1, h, i, o =>
    (loadPtr h q i).bind fun a =>
    (putStr h p i o a).bind fun r => copyLoop p q left r.1 (i + 1) r.2

/-- src/resource/ubr.c:2818-2824 for an array that may be NULL -/
def copyAll (h : Heap) (p n : Nat) : Option Nat → Option (Heap × Nat)
  | none => some (h, 8 * (n + 1))
  | some q => copyLoop p q n h 0 (8 * (n + 1))

/-- src/resource/ubr.c:2798-2831 `_strv_add_str`; the pointer is set at the number of strings copied -/
def addStr (h : Heap) (q : Option Nat) (n : Nat) (a : Addr) : Option (Heap × Option Nat) :=
  (strAt h a).bind fun s =>
  (sizeOf h n q).bind fun d =>
  match malloc h (8 + (s.length + 1) + d) with
  | (h, none) => some (h, none)
  | (h, some p) =>
    (copyAll h p n q).bind fun r =>
    (store r.1 p (8 * (if q.isSome then n else 0)) (ptrCells (p, r.2))).bind fun h =>
    (store h p r.2 (strCells s)).map fun h => (h, some p)

/-- src/resource/ubr.c:3864-3876 the only key found; NULL is not looked at -/
def dsqFrom (h : Heap) (g : Got) : Option (Except Int Str) :=
  if g.count ≠ 1 then some (.error (-31))
  else
    match g.arr with
    | none => none
    | some p =>
      (loadPtr h p 0).bind fun a =>
      (strAt h a).map fun x => dsqOf (some [x])

/-- src/resource/ubr.c:3819-3879 `_dev_key_to_dsq` -/
def dsqMem (h : Heap) (db : Db) (key : Str) : Option (Heap × Except Int Str) :=
  if (decomposeKey key).length = 1 then (plainKey key).map fun r => (h, r)
  else if (decomposeKey key).length ≠ 7 then some (h, .error (-126))
  else
    match db.recs (Kvs.canon (key ++ gin)) with
    | none => some (h, .error (-61))
    | some r =>
      match r.val with
      | .scalar _ => none
      | .vector l =>
        (keyStrv h (some l) dseqFilter).bind fun g =>
        (dsqFrom g.1 g.2).bind fun d =>
        (free g.1 g.2.arr).map fun h => (h, d)

/-- src/resource/ubr.c:3910-3935, 3947-3961 the record is read and the array made of it; -ENOENT is no error -/
def depMem (h : Heap) (db : Db) (owner : Str) (s filter : KeySpec) : Option (Heap × Got) :=
  match getRec db owner (composeKey s) with
  | .error e => if e = -2 then keyStrv h none filter else some (h, ⟨none, 0, e⟩)
  | .ok r =>
    match r.val with
    | .scalar _ => none
    | .vector l => keyStrv h (some l) filter

/-- src/resource/ubr.c:3938-3945 what the key given stands for, empty if there is none -/
def startMem (h : Heap) (db : Db) : Option Str → Option (Heap × Except Int Str)
  | none => some (h, .ok [])
  | some key => dsqMem h db key

/-- src/resource/ubr.c:3895-3935 towards the disks -/
def immDown (h : Heap) (db : Db) (c : Ctx) (owner : Str) : Except Int Str → Option (Heap × Got)
  | .error e => some (h, ⟨none, 0, e⟩)
  | .ok buf => depMem h db owner
      { ns := .device, nsPart := some (if buf = [] then nsPartOf c owner .device else buf), core := some gmb } dseqFilter

/-- src/resource/ubr.c:3936-3961 away from the disks -/
def immUp (h : Heap) (db : Db) (dseq owner : Str) : Except Int Str → Option (Heap × Got)
  | .error e => some (h, ⟨none, 0, e⟩)
  | .ok buf => depMem h db owner { dseqFilter with ident := some (if buf = [] then dseq else buf), core := some gin } { ns := .device }

/-- src/resource/ubr.c:3881-3968 `_get_dev_imm_deps` -/
def immMem (h : Heap) (db : Db) (c : Ctx) (dseq owner : Str) (key : Option Str) (m : Search) : Option (Heap × Got) :=
  if m.down then (startOf (devKeyToDevid db) key).bind (immDown h db c owner)
  else (startMem h db key).bind fun s => immUp s.1 db dseq owner s.2

/-- src/resource/ubr.c:4079-4086 the arrays of a search that fails -/
def failMem (h : Heap) (strv s1 s2 : Option Nat) (code : Int) : Option (Heap × Got) :=
  (free h s1).bind fun h =>
  (free h s2).bind fun h =>
  (if strv ≠ s1 then free h strv else some h).map fun h => (h, ⟨none, 0, code⟩)

/-- src/resource/ubr.c:4021-4026 the end for all devices -/
def allDone (h : Heap) (strv n s1 n1 : Nat) : Option (Heap × Got) :=
  if s1 ≠ strv then (free h (some strv)).map fun h => (h, ⟨some s1, n1, 0⟩) else some (h, ⟨some strv, n, 0⟩)

/-- src/resource/ubr.c:4013-4018 the array that was extended is freed, but not the one that is walked through -/
def swapAll (h : Heap) (strv s1 p2 : Nat) : Option Heap :=
  (if s1 ≠ strv then free h (some s1) else some h).bind fun h => free h (some p2)

/-- src/resource/ubr.c:4000-4026 the loop for all devices; `left` of the `n` strings of `strv` to do -/
def allMem (again : Heap → Str → Option (Heap × Got)) (strv n : Nat) : Nat → Heap → Nat → Nat → Nat → Option (Heap × Got)
  | 0, h, _, s1, n1 => allDone h strv n s1 n1
  | left + 1, h, i, s1, n1 =>
    (loadPtr h strv i).bind fun a =>
    (strAt h a).bind fun x =>
    (again h x).bind fun r =>
    if r.2.code < 0 then failMem r.1 (some strv) (some s1) r.2.arr r.2.code
    else
      match r.2.arr with
      | none => allMem again strv n left r.1 (i + 1) s1 n1
      | some p2 =>
        (addStrv r.1 s1 n1 p2 r.2.count).bind fun
          | (h, none) => failMem h (some strv) (some s1) (some p2) (-12)
          | (h, some q) => (swapAll h strv s1 p2).bind fun h => allMem again strv n left h (i + 1) q (n1 + r.2.count)

/-- src/resource/ubr.c:4035-4075 the loop for those that end the search; `left` of the strings of `strv` to do -/
def endMem (again : Heap → Str → Option (Heap × Got)) (strv : Nat) : Nat → Heap → Nat → Option Nat → Nat → Option (Heap × Got)
  | 0, h, _, s1, n1 => (free h (some strv)).map fun h => (h, ⟨s1, n1, 0⟩)
  | left + 1, h, i, s1, n1 =>
    (loadPtr h strv i).bind fun a =>
    (strAt h a).bind fun x =>
    (again h x).bind fun r =>
    if r.2.code < 0 then failMem r.1 (some strv) s1 r.2.arr r.2.code
    else
      match r.2.arr with
      | none =>
        (addStr r.1 s1 n1 a).bind fun
          | (h, none) => failMem h (some strv) s1 none (-12)
          | (h, some q) => (free h s1).bind fun h => endMem again strv left h (i + 1) (some q) (n1 + 1)
      | some p2 =>
        match s1 with
        | none => endMem again strv left r.1 (i + 1) (some p2) r.2.count
        | some q1 =>
          (addStrv r.1 q1 n1 p2 r.2.count).bind fun
            | (h, none) => failMem h (some strv) (some q1) (some p2) (-12)
            | (h, some q) =>
              (free h (some q1)).bind fun h =>
              (free h (some p2)).bind fun h => endMem again strv left h (i + 1) (some q) (n1 + r.2.count)

/-- src/resource/ubr.c:3986-4077 the switch over what to search for; with a size there is an array, otherwise its strings would be read
    behind NULL -/
def searchMem (again : Heap → Str → Option (Heap × Got)) (m : Search) (h : Heap) (g : Got) : Option (Heap × Got) :=
  if g.code < 0 then failMem h g.arr none none g.code
  else if m = .immAnc ∨ m = .immDesc ∨ g.count = 0 then some (h, g)
  else
    match g.arr with
    | none => none
    | some strv =>
      if m = .anc ∨ m = .desc then allMem again strv g.count g.count h 0 strv g.count
      else endMem again strv g.count h 0 none 0

/-- src/resource/ubr.c:3970-4090 `_do_sid_ucmd_dev_stack_get`, 4092-4102 `sid_ucmd_dev_stack_get` in memory; `none` if undefined or not
    through after `fuel` calls in depth -/
def stackMem (db : Db) (c : Ctx) (dseq owner : Str) (m : Search) : Nat → Heap → Option Str → Option (Heap × Got)
  | 0, _, _ => none
  | fuel + 1, h, key =>
    (immMem h db c dseq owner key m).bind fun r =>
      searchMem (fun h x => stackMem db c dseq owner m fuel h (some x)) m r.1 r.2

/-- src/resource/ubr.c:3511-3552 `sid_ucmd_dev_alias_get` in memory, called by one of the daemon's modules -/
def aliasMem (h : Heap) (db : Db) (c : Ctx) (owner : Str) (a : AliasArgs) : Option (Heap × Got) :=
  match getRec db owner (composeKey (aliasSpec c owner a)) with
  | .error _ => some (h, ⟨none, 0, 0⟩)
  | .ok r =>
    match r.val with
    | .scalar _ => none
    | .vector l => keyStrv h (some l) (aliasFilter a)

end Sid.Ubr
