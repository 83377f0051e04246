import Verif.Model.LinearBuf
/-
Model of the read and write paths: /repo/src/base/buf-type-linear.c:266-478, /repo/src/base/buf.c:248-291,
and the receive loops built on them.

System calls: a `read`/`write` call takes the next event of a schedule. `xfer k` moves up to `k` bytes (at least one on
read, as read(2) does when data is there), `fail e` is a return of -1 with that errno. All schedules are allowed.
A stream holds the bytes still to be delivered by the kernel; that they have not arrived yet is the kernel's choice of
returning EAGAIN or fewer bytes. sendfile (memfd/file backends) is treated as write.
-/
namespace Sid.LBuf
open Sid.Spec.Buf (Op Ret)

/-- Behaviour of one read/write/sendfile system call (buf-type-linear.c:347, 367, 436, 442). -/
inductive IoEv where
  | xfer (k : Nat)
  | fail (e : Errno)
deriving DecidableEq, Repr

/-- Does the call move data (buf-type-linear.c:347, 367)?  Used to state progress. -/
def IoEv.moves : IoEv → Bool
  | .xfer _ => true
  | .fail _ => false

/-- model only, for buf-type-linear.c:338-404: The reading end of a pipe or socket. -/
structure Stream where
  data : List UInt8
  closed : Bool
deriving DecidableEq, Repr

/-- read(2) of `req` bytes (buf-type-linear.c:347, 367). -/
def sysRead (s : Stream) (req : Nat) : IoEv → Except Errno (List UInt8)
  | .fail e => .error e
  | .xfer k =>
    if req = 0 then .ok []
    else if s.data = [] then (if s.closed then .ok [] else .error .EAGAIN)
    else .ok (s.data.take (max 1 (min k req)))

/-- buf-type-linear.c:266 `*((uint32_t *) buf->mem)` on a little-endian machine, when four bytes are there. -/
def rd32 : List UInt8 → Nat
  | a :: b :: c :: d :: _ => a.toNat + 256 * b.toNat + 65536 * c.toNat + 16777216 * d.toNat
  | _ => 0

/-- buf-type-linear.c:266 `EXPECTED`. -/
def expected (b : Buf) : Nat := if b.used ≥ 4 then rd32 b.mem else 0

/-- buf-type-linear.c:272-293 `_buffer_linear_is_complete`. -/
def isComplete (b : Buf) : Bool :=
  match b.mode with
  | .plain => true
  | .prefixed => b.used ≠ 0 ∧ b.used = expected b

/-- buf-type-linear.c:342-345 making room before a plain read -/
def growPlain (b : Buf) (fresh : Nat → UInt8) : Except Errno Buf :=
  if b.used = b.mem.length then realloc b (b.mem.length + b.step) false fresh else .ok b

/-- buf-type-linear.c:347-354 one read(2) into the free space -/
def readInto (b : Buf) (s : Stream) (ev : IoEv) : Buf × Stream × Except Errno Nat :=
  match sysRead s (b.mem.length - b.used) ev with
  | .error e => (b, s, .error e)
  | .ok bs => ({ b with mem := store b.mem b.used bs, used := b.used + bs.length },
               { s with data := s.data.drop bs.length }, .ok bs.length)

/-- buf-type-linear.c:338-355 `_buffer_linear_read_plain`; result: new buffer, rest of the stream, bytes read or error. -/
def readPlain (b : Buf) (s : Stream) (ev : IoEv) (fresh : Nat → UInt8) : Buf × Stream × Except Errno Nat :=
  match growPlain b fresh with
  | .error e => (b, s, .error e)
  | .ok b => readInto b s ev

/-- buf-type-linear.c:357-392 `_buffer_linear_read_with_size_prefix`. -/
def readPrefixed (b : Buf) (s : Stream) (ev : IoEv) (fresh : Nat → UInt8) : Buf × Stream × Except Errno Nat :=
  if isComplete b then (b, s, .error .EXFULL)
  else
    match sysRead s (b.mem.length - b.used) ev with
    | .error e => (b, s, .error e)
    | .ok bs =>
      if bs.length = 0 then
        let ex := expected b
        if (ex = 0 ∧ b.used ≠ 0) ∨ (ex ≠ 0 ∧ b.used ≠ ex) then (b, s, .error .EBADMSG)
        else (b, s, .ok 0)
      else
        let b1 := { b with mem := store b.mem b.used bs, used := b.used + bs.length }
        let s1 := { s with data := s.data.drop bs.length }
        let ex := expected b1
        if ex ≠ 0 then
          if ex < 4 then (b1, s1, .error .EBADE)
          else if b.used < 4 then
            match realloc b1 ex false fresh with
            | .error e => (b1, s1, .error e)
            | .ok b2 => (b2, s1, .ok bs.length)
          else (b1, s1, .ok bs.length)
        else (b1, s1, .ok bs.length)

/-- buf-type-linear.c:394-404, buf.c:248-251 `sid_buf_read`. -/
def read (b : Buf) (s : Stream) (ev : IoEv) (fresh : Nat → UInt8) : Buf × Stream × Except Errno Nat :=
  match b.mode with
  | .plain => readPlain b s ev fresh
  | .prefixed => readPrefixed b s ev fresh

/-- buf-type-linear.c:315-318 `_update_size_prefix` (the used count truncated to 32 bits, little endian). -/
def updatePrefix (b : Buf) : Buf :=
  match b.mode with
  | .plain => b
  | .prefixed =>
    { b with mem := store b.mem 0 [UInt8.ofNat b.used, UInt8.ofNat (b.used / 256), UInt8.ofNat (b.used / 65536),
        UInt8.ofNat (b.used / 16777216)] }

/-- model only, for buf.c:268-291: Outcome of `sid_buf_write_all`: `out` are the bytes the kernel accepted; `pending` means the schedule given to the
    model ended before the call returned. -/
inductive WOut where
  | done (out : List UInt8)
  | failed (e : Errno) (out : List UInt8)
  | pending (out : List UInt8)
deriving DecidableEq, Repr

/-- buf.c:268-291 `sid_buf_write_all` from position `pos`, with buf-type-linear.c:406-439 `_buffer_linear_write`. -/
def writeAll (b : Buf) (pos : Nat) (out : List UInt8) : List IoEv → WOut
  | [] => if pos = b.used then .done out else if pos > b.used then .failed .ERANGE out else .pending out
  | ev :: es =>
    if pos = b.used then .done out
    else if pos > b.used then .failed .ERANGE out
    else
      match ev with
      | .fail e =>
        if e = .ENODATA then .done out
        else if e = .EAGAIN ∨ e = .EINTR then writeAll (updatePrefix b) pos out es
        else .failed e out
      | .xfer k =>
        let b' := updatePrefix b
        let bs := ((b'.mem.take b'.used).drop pos).take k
        writeAll b' (pos + bs.length) (out ++ bs) es

/-- model only, for buf-type-linear.c:338-404: Outcome of a receive loop. -/
inductive ROut where
  | complete (b : Buf) (s : Stream)
  | eof (b : Buf) (s : Stream)
  | failed (e : Errno) (b : Buf) (s : Stream)
  | pending (b : Buf) (s : Stream)
deriving DecidableEq, Repr

/-- The client's receive loop ifc.c:295-314 (the server's per-event version is ubr.c:6135-6178, the worker channel's
    wrk-ctl.c:247-349): read until complete, retrying on EAGAIN/EINTR. -/
def recvLoop (b : Buf) (s : Stream) : List (IoEv × (Nat → UInt8)) → ROut
  | [] => .pending b s
  | (ev, fresh) :: es =>
    match read b s ev fresh with
    | (b', s', .ok n) =>
      if n > 0 then (if isComplete b' then .complete b' s' else recvLoop b' s' es)
      else if isComplete b' then .eof b' s' else .failed .EBADMSG b' s'
    | (b', s', .error e) => if e = .EAGAIN ∨ e = .EINTR then recvLoop b' s' es else .failed e b' s'

/-- Receiving message after message with one buffer, as `_chan_buf_recv` (wrk-ctl.c:247-349) does: on completion the
    payload is delivered and the buffer reset. Returns the delivered payloads, the buffer and the stream. -/
def pump (b : Buf) (s : Stream) (got : List (List UInt8)) :
    List (IoEv × (Nat → UInt8)) → List (List UInt8) × Buf × Stream
  | [] => (got, b, s)
  | (ev, fresh) :: es =>
    match read b s ev fresh with
    | (b', s', .ok n) =>
      if n > 0 ∧ isComplete b' then
        match (getData b' 0).2 with
        | .data p => pump (reset b' fresh).1 s' (got ++ [p]) es
        | _ => (got, b', s')
      else if n > 0 then pump b' s' got es
      else (got, b', s')
    | (b', s', .error e) => if e = .EAGAIN ∨ e = .EINTR then pump b' s' got es else (got, b', s')

/-- Any number of `sid_buf_read` calls on one buffer (buf.c:248-251), going on after errors: final buffer, rest of the
    stream and the results of the calls, oldest first. -/
def readMany (b : Buf) (s : Stream) : List (IoEv × (Nat → UInt8)) → Buf × Stream × List (Except Errno Nat)
  | [] => (b, s, [])
  | (ev, fresh) :: es =>
    let r := read b s ev fresh
    let q := readMany r.1 r.2.1 es
    (q.1, q.2.1, r.2.2 :: q.2.2)

end Sid.LBuf
