import Verif.Model.UbrGen
/-
Model of how the database file is written: /repo/src/resource/ubr.c 1337-1345, 1485-1515 and 5818-5822 (command "s-dbdump") on
top of the linear buffer with size prefix and file backend, /repo/src/base/buf-type-linear.c 30-182 and 317-336.

The file is mapped into memory and shared, so what the worker stores there is in the file at once and stays when the worker is
killed.  Simplifications: a crash is the end of the process (the file is in /run, which does not outlive the machine, so `fsync`
has no effect that could be seen); a store behind the end of the file kills the process (in the code only if it is also behind
the last page of the file); numbers are little endian; `mmap` and `mremap` succeed.
-/
namespace Sid.Ubr
open Sid.Ifc (leBytes)

/-- model only, for src/base/buf-type-linear.c:30-191, src/resource/ubr.c:5768-5852: what a worker does to the file: `open` with O_CREAT | O_TRUNC, `ftruncate`, `memcpy` to the mapped file, the store of the
    size prefix (one aligned word) -/
inductive Act
  | trunc
  | size (n : Nat)
  | copy (pos : Nat) (d : List UInt8)
  | word (n : Nat)
  deriving DecidableEq, Repr

/-- ftruncate(2): cut, or filled up with zeros -/
def resize (n : Nat) (b : List UInt8) : List UInt8 := b.take n ++ List.replicate (n - b.length) 0

/-- src/base/buf-type-linear.c:177: memory stores at `pos` of the mapped file; `none`: behind the end of the file, SIGBUS -/
def storeAt (pos : Nat) (d : List UInt8) (b : List UInt8) : Option (List UInt8) :=
  if pos + d.length ≤ b.length then some (b.take pos ++ d ++ b.drop (pos + d.length)) else none

/-- model only, for src/base/buf-type-linear.c:30-191: the effect on the file (`none`: there is none); the outer `none`: the worker is killed by SIGBUS.  Nobody removes the file,
    so without a file only `trunc` is done. -/
def act : Option (List UInt8) → Act → Option (Option (List UInt8))
  | _, .trunc => some (some [])
  | none, _ => none
  | some b, .size n => some (some (resize n b))
  | some b, .copy pos d => (storeAt pos d b).map some
  | some b, .word n => (storeAt 0 (leBytes n 4) b).map some

/-- model only, for src/base/buf-type-linear.c:30-191: one after the other -/
def acts : Option (List UInt8) → List Act → Option (Option (List UInt8))
  | f, [] => some f
  | f, a :: l => (act f a).bind fun f => acts f l

/-- src/base/buf-type-linear.c:45-46 with the `alloc_step` of src/resource/ubr.c:1344, PATH_MAX -/
def roundUp (n : Nat) : Nat := if n % 4096 ≠ 0 then n + (4096 - n % 4096) else n

/-- src/base/buf-type-linear.c:157-191 `_buffer_linear_add` with 30-97 `_buffer_linear_realloc`: what is done to the file, and
    `used` and `allocated` after it (SID_BUF_SIZE_PREFIX_LEN is 4) -/
def addActs (used alloc : Nat) (d : List UInt8) : List Act × Nat × Nat :=
  let at_ := if used = 0 then 4 else used
  if alloc ≥ at_ + d.length then ([.copy at_ d], at_ + d.length, alloc)
  else ([.size (roundUp (at_ + d.length)), .copy at_ d], at_ + d.length, roundUp (at_ + d.length))

/-- src/resource/ubr.c:1485-1515 all `sid_buf_add` calls: what is done to the file and `used` in the end -/
def addAll (used alloc : Nat) : List (List UInt8) → List Act × Nat
  | [] => ([], used)
  | d :: l =>
    let r := addActs used alloc d
    let s := addAll r.2.1 r.2.2 l
    (r.1 ++ s.1, s.2)

/-- src/resource/ubr.c:1485-1515 the pieces of one record, each added on its own -/
def pieces (x : Str × Rec) : List (List UInt8) :=
  match x.2.val with
  | .scalar d =>
    [leBytes 0 4, leBytes (x.1.length + 1) 8, leBytes (scalarBytes x.2 d).length 8, x.1 ++ [0], scalarBytes x.2 d]
  | .vector l =>
    [leBytes 1 4, leBytes (x.1.length + 1) 8, leBytes (vectorItems x.2 l).length 8, x.1 ++ [0]] ++
      (vectorItems x.2 l).flatMap fun i => [leBytes i.length 8, i]

/-- src/resource/ubr.c:1343 with src/base/buf-type-linear.c:98-112 `_buffer_linear_create` (size 4, not rounded), the records,
    and src/resource/ubr.c:5819 with src/base/buf-type-linear.c:317-330: `sid_buf_get_fd` writes the size prefix, which is
    `used`, also if nothing was added and `used` is 0 -/
def dumpActs (l : List (Str × Rec)) : List Act :=
  let r := addAll 0 4 (l.flatMap pieces)
  [.trunc, .size 4] ++ r.1 ++ [.word r.2]

end Sid.Ubr
