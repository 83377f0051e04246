import Verif.Spec.LinearBuf
/-
Model of /repo/src/base/buf.c and /repo/src/base/buf-type-linear.c.

Simplifications: sizes are `Nat` (no `size_t` overflow of `used + len`; an object that large cannot exist);
realloc/mremap/ftruncate/memfd/open succeed; the three storage backends differ only in how memory is obtained and are
modelled by one byte list; `vsnprintf` gets the finished expansion; destroy is not modelled.
The bytes that realloc leaves unspecified are given by `fresh` (any function), so statements quantify over them.
-/
namespace Sid.LBuf
open Sid.Spec.Buf (Op Ret)

/-- buf-common.h:34-37 `sid_buf_mode_t`. -/
inductive Mode where
  | plain
  | prefixed
deriving DecidableEq, Repr

/-- buf-type.h `struct sid_buf` with `struct sid_buf_stat` (buf-common.h:39-69) of a linear buffer. `mem` is the
    allocated memory (`usage.allocated` is its length; NULL iff empty). `gen` is not in the code: it counts how often
    memory was (re)allocated, i.e. how often addresses handed out earlier may have become invalid. -/
structure Buf where
  mode : Mode
  size : Nat
  step : Nat
  limit : Nat
  mem : List UInt8
  used : Nat
  markSet : Bool
  markPos : Nat
  gen : Nat
deriving DecidableEq, Repr

/-- buf-common.h:16-17 `SID_BUF_SIZE_PREFIX_LEN`, 0 in plain mode. -/
def pfxLen : Mode → Nat
  | .plain => 0
  | .prefixed => 4

/-- buf-type-linear.c:18-28 `_buffer_linear_count`; the subtraction wraps as `size_t` does. -/
def count (b : Buf) : Nat :=
  match b.mode with
  | .plain => b.used
  | .prefixed => if b.used = 0 then 0 else if b.used < 4 then b.used + (2 ^ 64 - 4) else b.used - 4

/-- buf-type-linear.c:50-92 memory after realloc to `n` bytes: old bytes kept, new bytes unspecified (`fresh`). -/
def resize (mem : List UInt8) (n : Nat) (fresh : Nat → UInt8) : List UInt8 :=
  mem.take n ++ (List.range (n - mem.length)).map (fun i => fresh (mem.length + i))

/-- buf-type-linear.c:44-45 rounding up to the allocation step. -/
def roundUp (needed step : Nat) : Nat :=
  if needed % step ≠ 0 then needed + (step - needed % step) else needed

/-- buf-type-linear.c:30-98 `_buffer_linear_realloc`. -/
def realloc (b : Buf) (needed : Nat) (force : Bool) (fresh : Nat → UInt8) : Except Errno Buf :=
  if ¬ force ∧ b.mem.length ≥ needed then .ok b
  else if ¬ force ∧ b.step = 0 then .error .EXFULL
  else
    let n := roundUp needed (if force then 1 else b.step)
    if b.limit ≠ 0 ∧ n > b.limit then .error .EOVERFLOW
    else .ok { b with mem := resize b.mem n fresh, gen := b.gen + 1 }

/-- buf.c:17-27 `_check_buf`; `none` is the division by zero when there is a limit but no step. -/
def checkBuf (size step limit : Nat) : Option Bool :=
  if limit = 0 then some true
  else if limit < size ∨ limit < step then some false
  else if step = 0 then none
  else some (limit % step = 0)

/-- buf.c:29-70 `sid_buf_create` and buf-type-linear.c:100-114 `_buffer_linear_create`. -/
def create (mode : Mode) (size step limit : Nat) (fresh : Nat → UInt8) : Res Buf :=
  match checkBuf size step limit with
  | none => .ub
  | some false => .err .EINVAL
  | some true =>
    let b : Buf := { mode, size, step, limit, mem := [], used := 0, markSet := false, markPos := 0, gen := 0 }
    match realloc b (size + pfxLen mode) true fresh with
    | .error e => .err e
    | .ok b' => .ok b'

/-- buf-type-linear.c:142-153 `_buffer_linear_reset`, after the mark was cleared (buf.c:97-103). -/
def reset (b : Buf) (fresh : Nat → UInt8) : Buf × Ret :=
  let b := { b with markSet := false, markPos := 0, used := 0 }
  match realloc b (b.size + pfxLen b.mode) true fresh with
  | .error e => (b, .err e)
  | .ok b' => (b', .done)

/-- buf.c:78-95 `sid_buf_reset_init`: a refused init restores the stat but the mark is already cleared. -/
def resetInit (b : Buf) (size step limit : Nat) (fresh : Nat → UInt8) : Option (Buf × Ret) :=
  match checkBuf size step limit with
  | none => none
  | some false => some ({ b with markSet := false, markPos := 0 }, .err .EINVAL)
  | some true => some (reset { b with size, step, limit } fresh)

/-- buf-type-linear.c:177-179, 212-222: Overwriting memory from offset `off` (memcpy/memset/vsnprintf targets below). -/
def store (mem : List UInt8) (off : Nat) (bs : List UInt8) : List UInt8 :=
  mem.take off ++ bs ++ mem.drop (off + bs.length)

/-- buf-type-linear.c:160-161, 203-204: the first add into a size-prefix buffer starts behind the prefix. -/
def startOff (b : Buf) : Nat :=
  if b.used = 0 then pfxLen b.mode else b.used

/-- buf.c:109-124 / 131-147: common tail of the add functions, setting the mark when the address was requested. -/
def setMark (b : Buf) (mem : Bool) (pos : Nat) : Buf :=
  if mem then { b with markSet := true, markPos := pos } else b

/-- buf.c:105-125 `sid_buf_add` with buf-type-linear.c:155-188 `_buffer_linear_add`; `bs` are the bytes copied or
    zero-filled. -/
def add (b : Buf) (bs : List UInt8) (mem : Bool) (fresh : Nat → UInt8) : Buf × Ret :=
  if b.markSet then (b, .err .EBUSY)
  else
    let off := startOff b
    let pos := count b
    match realloc b (off + bs.length) false fresh with
    | .error e => (b, .err e)
    | .ok b' =>
      (setMark { b' with mem := store b'.mem off bs, used := off + bs.length } mem pos, .pos pos)

/-- buf.c:127-174 `sid_buf_add_fmt`/`sid_buf_add_vfmt` with buf-type-linear.c:190-234 `_buffer_linear_fmt_add`: the
    expansion and its NUL are stored; growth happens only when the expansion does not fit. -/
def addFmt (b : Buf) (s : List UInt8) (mem : Bool) (fresh : Nat → UInt8) : Buf × Ret :=
  if b.markSet then (b, .err .EBUSY)
  else
    let off := startOff b
    let pos := count b
    -- first attempt: the part that fits (with NUL) is stored behind `used`
    let avail := b.mem.length - off
    if s.length ≥ avail then
      let b1 := if avail = 0 then b else { b with mem := store b.mem off (s.take (avail - 1) ++ [0]) }
      match realloc b1 (off + s.length + 1) false fresh with
      | .error e => (b1, .err e)
      | .ok b' => (setMark { b' with mem := store b'.mem off (s ++ [0]), used := off + s.length + 1 } mem pos, .pos pos)
    else
      (setMark { b with mem := store b.mem off (s ++ [0]), used := off + s.length + 1 } mem pos, .pos pos)

/-- buf-type-linear.c:240-255 `_buffer_linear_release`; `newUsed` is `pos` plus the prefix length (modulo 2^64). -/
def releaseAt (b : Buf) (pos newUsed : Nat) (rewind : Bool) : Buf :=
  let b := if b.markSet ∧ pos ≤ b.markPos then { b with markSet := false, markPos := 0 } else b
  if rewind then { b with used := newUsed } else b

/-- buf.c:176-200 `sid_buf_unbind`/`sid_buf_rewind`. -/
def release (b : Buf) (pos : Nat) (rel rewind : Bool) : Buf × Ret :=
  let c := count b
  if c = 0 then (b, if pos ≠ 0 then .err .ERANGE else .done)
  else if pos > c then (b, .err .ERANGE)
  else
    let p := if rel then c - pos else pos
    (releaseAt b p (p + pfxLen b.mode) rewind, .done)

/-- buf-type-linear.c:255-261 the position of the address `buf->mem + off`; the subtraction wraps. -/
def addrPos (mode : Mode) (off : Nat) : Nat :=
  match mode with
  | .plain => off
  | .prefixed => if off < 4 then off + (2 ^ 64 - 4) else off - 4

/-- buf.c:202-218 `sid_buf_unbind_mem`/`sid_buf_rewind_mem` with buf-type-linear.c:253-264; the address is
    `buf->mem + off` (a NULL or lower address is refused in buf.c:204 and not modelled). -/
def releaseMem (b : Buf) (off : Nat) (rewind : Bool) : Buf × Ret :=
  if off > b.used then (b, .err .ERANGE)
  else (releaseAt b (addrPos b.mode off) off rewind, .done)

/-- buf-type-linear.c:297, 303 the size reported by `_buffer_linear_data_get`. -/
def dataSize (b : Buf) (pos : Nat) : Nat :=
  match b.mode with
  | .plain => b.used - pos
  | .prefixed => if b.used ≠ 0 then b.used - 4 - pos else 0

/-- buf.c:225-241 `sid_buf_get_data_from`, `sid_buf_get_data` with buf-type-linear.c:291-312.  Note the comparison
    of `pos` with the boolean `mark.set` (buf.c:230). -/
def getData (b : Buf) (pos : Nat) : Buf × Ret :=
  if pos > count b then (b, .err .ERANGE)
  else
    let b' := if ¬ b.markSet ∨ pos < (if b.markSet then 1 else 0) then { b with markSet := true, markPos := pos } else b
    (b', .data ((b.mem.drop (pfxLen b.mode + pos)).take (dataSize b pos)))

/-- One API call on a linear buffer; `none` is undefined behaviour. (buf.c:78-241) -/
def step (b : Buf) (op : Op) (fresh : Nat → UInt8) : Option (Buf × Ret) :=
  match op with
  | .add bs m => some (add b bs m fresh)
  | .addZero n m => some (add b (List.replicate n 0) m fresh)
  | .addFmt s m => some (addFmt b s m fresh)
  | .release p rel rw => some (release b p rel rw)
  | .releaseMem o rw => some (releaseMem b o rw)
  | .getData p => some (getData b p)
  | .reset => some (reset b fresh)
  | .resetInit sz st l => resetInit b sz st l fresh

/-- States reachable by API calls, together with the history of calls and results (oldest first), from any successful
    creation (buf.c:29-70) with any unspecified bytes. -/
inductive Reach (mode : Mode) : List (Op × Ret) → Buf → Prop
  | create {size st limit fresh b} : create mode size st limit fresh = .ok b → Reach mode [] b
  | call {hist b op fresh b' r} : Reach mode hist b → step b op fresh = some (b', r) → Reach mode (hist ++ [(op, r)]) b'

end Sid.LBuf
