import Verif.Model.BufIo
import Verif.Spec.VectorBuf
/-
Model of /repo/src/base/buf-type-vector.c behind /repo/src/base/buf.c.

Simplifications as for linear buffers (Model/LinearBuf.lean).  A cell is an `iovec`: `some bs` refers to the bytes `bs`
(which the caller keeps alive and unchanged), `none` is `{NULL, 0}`.  Cells that realloc leaves unspecified are given by
`fresh`.  `sid_buf_reset_init`, `release_mem` and `get_fd` of vector buffers are not modelled; reading is refused by the
code (-ENOTSUP, lines 340-360), as is formatted adding (231-234).
-/
namespace Sid.VBuf
open Sid.LBuf (Mode IoEv WOut checkBuf roundUp rd32)
open Sid.Spec.VBuf (Op Ret)

/-- `struct iovec` (buf-type-vector.c:16). -/
abbrev Cell := Option (List UInt8)

/-- include/base/buf-type.h:15-24: buf-type.h `struct sid_buf` of a vector buffer; `usage.allocated` is the length of `cells`. -/
structure Buf where
  mode : Mode
  size : Nat
  step : Nat
  limit : Nat
  cells : List Cell
  used : Nat
  markSet : Bool
  markPos : Nat
deriving DecidableEq, Repr

/-- buf-type-vector.c:110-111, 178-179, 192-193: one cell is taken by the size prefix. -/
def pfxCells : Mode → Nat
  | .plain => 0
  | .prefixed => 1

/-- buf-type-vector.c:18-28 `_buffer_vector_count`. -/
def count (b : Buf) : Nat :=
  match b.mode with
  | .plain => b.used
  | .prefixed => if b.used = 0 then 0 else b.used - 1

/-- buf-type-vector.c:51-95 cells after realloc to `n`. -/
def resize (cells : List Cell) (n : Nat) (fresh : Nat → Cell) : List Cell :=
  cells.take n ++ (List.range (n - cells.length)).map (fun i => fresh (cells.length + i))

/-- buf-type-vector.c:30-103 `_buffer_vector_realloc`. -/
def realloc (b : Buf) (needed : Nat) (force : Bool) (fresh : Nat → Cell) : Except Errno Buf :=
  if ¬ force ∧ b.cells.length ≥ needed then .ok b
  else if ¬ force ∧ b.step = 0 then .error .EXFULL
  else
    let n := roundUp needed (if force then 1 else b.step)
    if b.limit ≠ 0 ∧ n > b.limit then .error .EOVERFLOW
    else .ok { b with cells := resize b.cells n fresh }

/-- buf.c:29-70 `sid_buf_create` with buf-type-vector.c:105-136 `_buffer_vector_create`: in size-prefix mode the first
    cell refers to four bytes of fresh memory (`p`). -/
def create (mode : Mode) (size step limit : Nat) (fresh : Nat → Cell) (p : UInt8 × UInt8 × UInt8 × UInt8) : Res Buf :=
  match checkBuf size step limit with
  | none => .ub
  | some false => .err .EINVAL
  | some true =>
    let b : Buf := { mode, size, step, limit, cells := [], used := 0, markSet := false, markPos := 0 }
    match realloc b (size + pfxCells mode) true fresh with
    | .error e => .err e
    | .ok b' =>
      match mode with
      | .plain => .ok b'
      | .prefixed => .ok { b' with cells := b'.cells.set 0 (some [p.1, p.2.1, p.2.2.1, p.2.2.2]) }

/-- buf.c:97-103 `sid_buf_reset` with buf-type-vector.c:170-182 `_buffer_vector_reset`. -/
def reset (b : Buf) (fresh : Nat → Cell) : Buf × Ret :=
  let b := { b with markSet := false, markPos := 0, used := 0 }
  match realloc b (b.size + pfxCells b.mode) true fresh with
  | .error e => (b, .err e)
  | .ok b' => (b', .done)

/-- buf-type-vector.c:192-193: index of the next cell. -/
def startIdx (b : Buf) : Nat := if b.used = 0 then pfxCells b.mode else b.used

/-- buf-type-vector.c:206-207: storing a reference. -/
def putItem (cells : List Cell) (idx : Nat) (d : List UInt8) : List Cell := cells.set idx (some d)

/-- buf-type-vector.c:209-213: the loop `while (len) { len--; iov[len] = {NULL, 0}; }` (indices from 0, whatever is
    used already). -/
def putEmpty (cells : List Cell) (_idx : Nat) : Nat → List Cell
  | 0 => cells
  | n + 1 => putEmpty (cells.set n none) _idx n

/-- buf.c:115-122: setting the mark when the address was asked for. -/
def setMark (b : Buf) (mem : Bool) (pos : Nat) : Buf :=
  if mem then { b with markSet := true, markPos := pos } else b

/-- buf.c:105-125 `sid_buf_add` with buf-type-vector.c:184-229 `_buffer_vector_add`, `data` given. -/
def add (b : Buf) (d : List UInt8) (mem : Bool) (fresh : Nat → Cell) : Buf × Ret :=
  if b.markSet then (b, .err .EBUSY)
  else
    match realloc b (startIdx b + 1) false fresh with
    | .error e => (b, .err e)
    | .ok b' =>
      (setMark { b' with cells := putItem b'.cells (startIdx b) d, used := startIdx b + 1 } mem (count b), .pos (count b))

/-- The same with `data == NULL`. (buf-type-vector.c:184-229) -/
def addEmpty (b : Buf) (n : Nat) (mem : Bool) (fresh : Nat → Cell) : Buf × Ret :=
  if b.markSet then (b, .err .EBUSY)
  else
    match realloc b (startIdx b + n) false fresh with
    | .error e => (b, .err e)
    | .ok b' =>
      (setMark { b' with cells := putEmpty b'.cells (startIdx b) n, used := startIdx b + n } mem (count b), .pos (count b))

/-- buf-type-vector.c:236-251 `_buffer_vector_release`. -/
def releaseAt (b : Buf) (pos : Nat) (rewind : Bool) : Buf :=
  let b := if b.markSet ∧ pos ≤ b.markPos then { b with markSet := false, markPos := 0 } else b
  if rewind then { b with used := pos + pfxCells b.mode } else b

/-- buf.c:176-200 `sid_buf_unbind`/`sid_buf_rewind`. -/
def release (b : Buf) (pos : Nat) (rel rewind : Bool) : Buf × Ret :=
  let c := count b
  if c = 0 then (b, if pos ≠ 0 then .err .ERANGE else .done)
  else if pos > c then (b, .err .ERANGE)
  else (releaseAt b (if rel then c - pos else pos) rewind, .done)

/-- Reading a cell's bytes. (buf-type-vector.c:400, struct iovec) -/
def cellBytes (c : Cell) : List UInt8 := c.getD []

/-- buf.c:225-241 `sid_buf_get_data_from` with buf-type-vector.c:289-309 `_buffer_vector_data_get`; in plain mode the
    position is subtracted from the start address (line 294). -/
def getData (b : Buf) (pos : Nat) : Buf × Ret :=
  if pos > count b then (b, .err .ERANGE)
  else
    let b' := if ¬ b.markSet ∨ pos < (if b.markSet then 1 else 0) then { b with markSet := true, markPos := pos } else b
    match b.mode with
    | .plain =>
      if pos = 0 then (b', .items ((b.cells.take b.used).map cellBytes)) else (b', .badAddress)
    | .prefixed => (b', .items (((b.cells.take b.used).drop (pos + 1)).map cellBytes))

/-- One API call. (buf.c:97-241) -/
def step (b : Buf) (op : Op) (fresh : Nat → Cell) : Buf × Ret :=
  match op with
  | .add d m => add b d m fresh
  | .addEmpty n m => addEmpty b n m fresh
  | .release p rel rw => release b p rel rw
  | .getData p => getData b p
  | .reset => reset b fresh

/-- States reachable by API calls from any successful creation, with the history (oldest first). (buf.c:29-241) -/
inductive Reach (mode : Mode) : List (Op × Ret) → Buf → Prop
  | create {size st limit fresh p b} : create mode size st limit fresh p = .ok b → Reach mode [] b
  | call {hist b op fresh b' r} : Reach mode hist b → step b op fresh = (b', r) → Reach mode (hist ++ [(op, r)]) b'

/-- buf-type-vector.c:369-387: the skipping loop; the bytes offered to writev from byte offset `off`. -/
def skip : List (List UInt8) → Nat → Except Errno (List UInt8)
  | [], off => if off = 0 then .error .ENODATA else .error .ERANGE
  | c :: cs, off => if c.length > off then .ok (c.drop off ++ cs.flatten) else skip cs (off - c.length)

/-- buf-type-vector.c:311-322 `_update_size_prefix`; `none` is the write through a NULL pointer. -/
def updatePrefix (b : Buf) (pos : Nat) : Option Buf :=
  if pos = 0 ∧ b.mode = .prefixed then
    match b.cells with
    | some _ :: cs =>
      let t := ((b.cells.take b.used).map (fun c => (cellBytes c).length)).sum
      some { b with cells := some [UInt8.ofNat t, UInt8.ofNat (t / 256), UInt8.ofNat (t / 65536),
        UInt8.ofNat (t / 16777216)] :: cs }
    | _ => none
  else some b

/-- buf-type-vector.c:362-409 `_buffer_vector_write` up to the writev call: the new buffer and the bytes offered. -/
def offer (b : Buf) (pos : Nat) : Option (Buf × Except Errno (List UInt8)) :=
  let l := (b.cells.take b.used).map cellBytes
  match (if pos = 0 then (if l = [] then .error .ENODATA else .ok l.flatten) else skip l pos) with
  | .error e => some (b, .error e)
  | .ok _ =>
    match updatePrefix b pos with
    | none => none
    | some b' =>
      let l' := (b'.cells.take b'.used).map cellBytes
      some (b', if pos = 0 then .ok l'.flatten else skip l' pos)

/-- buf.c:268-291 `sid_buf_write_all` from position `pos`; `none` is undefined behaviour. -/
def writeAll (b : Buf) (pos : Nat) (out : List UInt8) : List IoEv → Option WOut
  | [] =>
    match offer b pos with
    | none => none
    | some (_, .error e) => some (if e = .ENODATA then .done out else .failed e out)
    | some (_, .ok _) => some (.pending out)
  | ev :: es =>
    match offer b pos with
    | none => none
    | some (_, .error e) => some (if e = .ENODATA then .done out else .failed e out)
    | some (b', .ok bs) =>
      match ev with
      | .fail e =>
        if e = .ENODATA then some (.done out)
        else if e = .EAGAIN ∨ e = .EINTR then writeAll b' pos out es
        else some (.failed e out)
      | .xfer k => writeAll b' (pos + (bs.take k).length) (out ++ bs.take k) es

end Sid.VBuf
