import Verif.Model.Common
/-
Vocabulary of the buffer API (`/repo/src/include/base/buf.h`) and the byte-sequence specification of a buffer.
Does not mention the model.
-/
namespace Sid.Spec.Buf

/-- Calls of the buffer API.  `mem = true` means the caller asks for the address of the added data.
    `addFmt s` is a formatted add whose expansion is `s` (no NUL inside). -/
inductive Op where
  | add (bs : List UInt8) (mem : Bool)
  | addZero (n : Nat) (mem : Bool)
  | addFmt (s : List UInt8) (mem : Bool)
  /-- `sid_buf_unbind` (`rewind = false`) / `sid_buf_rewind` (`rewind = true`); `rel` selects relative position. -/
  | release (pos : Nat) (rel : Bool) (rewind : Bool)
  /-- `sid_buf_unbind_mem` / `sid_buf_rewind_mem` with the address `off` bytes after the buffer's start. -/
  | releaseMem (off : Nat) (rewind : Bool)
  | getData (pos : Nat)
  | reset
  | resetInit (size step limit : Nat)
deriving DecidableEq, Repr

/-- What a call returns. -/
inductive Ret where
  | pos (p : Nat)
  | done
  | data (bs : List UInt8)
  | err (e : Errno)
deriving DecidableEq, Repr

/-- The buffer's content seen as a byte sequence, after one call that returned `r`.
    `pfx` is the length of the size prefix (0 in plain mode, 4 in size-prefix mode). -/
def effect (pfx : Nat) (c : List UInt8) : Op → Ret → List UInt8
  | .add bs _, .pos _ => c ++ bs
  | .addZero n _, .pos _ => c ++ List.replicate n 0
  | .addFmt s _, .pos _ => c ++ s ++ [0]
  | .release p rel true, .done => if rel then c.take (c.length - p) else c.take p
  | .releaseMem off true, .done => c.take (off - pfx)
  | .reset, .done => []
  | .reset, .err .EOVERFLOW => []
  | .resetInit _ _ _, .done => []
  | .resetInit _ _ _, .err .EOVERFLOW => []
  | _, _ => c

/-- The content after a history of calls and their results, oldest first. -/
def content (pfx : Nat) (hist : List (Op × Ret)) : List UInt8 :=
  hist.foldl (fun c e => effect pfx c e.1 e.2) []

/-- Addresses (as positions) handed out and not yet given back after a history of calls: a successful add that asked
    for the address hands out its position, `getData p` hands out `p`; a successful release at a position gives back
    everything from that position on; resets give back everything (a refused re-initialisation gives back nothing). `len` is the content length before the call. -/
def handed (pfx : Nat) (len : Nat) (h : List Nat) : Op → Ret → List Nat
  | .add _ true, .pos p => p :: h
  | .addZero _ true, .pos p => p :: h
  | .addFmt _ true, .pos p => p :: h
  | .getData p, .data _ => p :: h
  | .release p rel _, .done => h.filter (· < if rel then len - p else p)
  | .releaseMem off _, .done => h.filter (· < off - pfx)
  | .reset, _ => []
  | .resetInit _ _ _, .err .EINVAL => h
  | .resetInit _ _ _, _ => []
  | _, _ => h

/-- Content and outstanding addresses after a history. -/
def track (pfx : Nat) (hist : List (Op × Ret)) : List UInt8 × List Nat :=
  hist.foldl (fun s e => (effect pfx s.1 e.1 e.2, handed pfx s.1.length s.2 e.1 e.2)) ([], [])

/-- Discipline of a history with respect to outstanding addresses: data is only asked for from position 0 or from a
    position not below an outstanding one, and no refused re-initialisation is attempted while an address is
    outstanding. -/
def Disciplined (pfx : Nat) (hist : List (Op × Ret)) : Prop :=
  ∀ pre op r post, hist = pre ++ (op, r) :: post →
    match op, r with
    | .getData p, _ => p = 0 ∨ ∀ q ∈ (track pfx pre).2, q ≤ p
    | .resetInit _ _ _, .err .EINVAL => (track pfx pre).2 = []
    | _, _ => True

end Sid.Spec.Buf
