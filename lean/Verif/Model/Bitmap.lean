import Verif.Model.Common
/-
Model of /repo/src/internal/bmp.c (all of it).
`size_t` is `Nat` (bit counts are limited by the address space), `unsigned` is 32 bits.
malloc is assumed to succeed.
-/
namespace Sid.Bmp

/-- bmp.c:16-20 `struct bmp`. `mem` are the 32-bit blocks. -/
structure Bmp where
  bitCount : Nat
  setCount : Nat
  mem : List (BitVec 32)
deriving DecidableEq, Repr

/-- bmp.c:36-66 `bmp_create`. -/
def create (bitCount : Nat) (invert : Bool) : Res Bmp :=
  if bitCount = 0 then .err .EINVAL
  else
    let blocks := (bitCount - 1) / 32 + 1
    if invert then .ok { bitCount, setCount := bitCount, mem := List.replicate blocks 0xffffffff#32 }
    else .ok { bitCount, setCount := 0, mem := List.replicate blocks 0#32 }

/-- bmp.c:73-82 `_get_coord`; `BLOCK_SHIFT` is 5 (bmp.c:22-34).  The block number is stored in an `unsigned`,
    hence truncated to 32 bits.  `1 << 31` is taken to set bit 31 (as gcc and clang define it). -/
def getCoord (b : Bmp) (pos : Nat) : Res (Nat × BitVec 32) :=
  if pos ≥ b.bitCount then .err .ERANGE
  else .ok ((pos >>> 5) % 2 ^ 32, 1#32 <<< (pos &&& 31))

/-- bmp.c:84-98 `bmp_set_bit`; reading `mem` out of bounds would be `ub`. -/
def setBit (b : Bmp) (pos : Nat) : Res Bmp :=
  match getCoord b pos with
  | .err e => .err e
  | .ub => .ub
  | .ok (block, bit) =>
    match b.mem[block]? with
    | none => .ub
    | some m =>
      if m &&& bit = 0#32 then .ok { b with mem := b.mem.set block (m ||| bit), setCount := b.setCount + 1 }
      else .ok b

/-- bmp.c:100-114 `bmp_unset_bit`.  (`bit_set_count--` below zero would wrap; the invariant rules it out.) -/
def unsetBit (b : Bmp) (pos : Nat) : Res Bmp :=
  match getCoord b pos with
  | .err e => .err e
  | .ub => .ub
  | .ok (block, bit) =>
    match b.mem[block]? with
    | none => .ub
    | some m =>
      if m &&& bit ≠ 0#32 then .ok { b with mem := b.mem.set block (m &&& ~~~bit), setCount := b.setCount - 1 }
      else .ok b

/-- bmp.c:116-128 `bmp_bit_is_set`; out of range returns false and stores -ERANGE through `ret_code`. -/
def isSet (b : Bmp) (pos : Nat) : Res Bool :=
  match getCoord b pos with
  | .err e => .err e
  | .ub => .ub
  | .ok (block, bit) =>
    match b.mem[block]? with
    | none => .ub
    | some m => .ok (m &&& bit ≠ 0#32)

/-- model only, for src/internal/bmp.c:36-139: A call made on a bitmap. -/
inductive Op where
  | set (pos : Nat)
  | unset (pos : Nat)
deriving DecidableEq, Repr

/-- One call: bmp.c:84-114. An error return leaves the bitmap as it was. `none` is undefined behaviour. -/
def step (b : Bmp) : Op → Option Bmp
  | .set p => match setBit b p with | .ok b' => some b' | .err _ => some b | .ub => none
  | .unset p => match unsetBit b p with | .ok b' => some b' | .err _ => some b | .ub => none

/-- A sequence of calls (bmp.c:84-114). -/
def run (b : Bmp) : List Op → Option Bmp
  | [] => some b
  | o :: os => match step b o with | some b' => run b' os | none => none

end Sid.Bmp
