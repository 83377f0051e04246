import Verif.Model.Common
/-
Vocabulary of the vector buffer API and its specification as a list of items. Does not mention the model.
-/
namespace Sid.Spec.VBuf

/-- Calls on a vector buffer: an item is a reference to bytes that stay unchanged while the buffer refers to them. -/
inductive Op where
  | add (item : List UInt8) (mem : Bool)
  /-- `sid_buf_add(buf, NULL, n, ..)`: `n` empty items. -/
  | addEmpty (n : Nat) (mem : Bool)
  | release (pos : Nat) (rel : Bool) (rewind : Bool)
  | getData (pos : Nat)
  | reset
deriving DecidableEq, Repr

/-- What a call returns. -/
inductive Ret where
  | pos (p : Nat)
  | done
  | items (l : List (List UInt8))
  /-- `get_data` reported success but the address is not inside the buffer. -/
  | badAddress
  | err (e : Errno)
deriving DecidableEq, Repr

/-- The items after one call that returned `r`. -/
def effect (c : List (List UInt8)) : Op → Ret → List (List UInt8)
  | .add d _, .pos _ => c ++ [d]
  | .addEmpty n _, .pos _ => c ++ List.replicate n []
  | .release p rel true, .done => if rel then c.take (c.length - p) else c.take p
  | .reset, _ => []
  | _, _ => c

/-- The items after a history of calls and their results, oldest first. -/
def content (hist : List (Op × Ret)) : List (List UInt8) :=
  hist.foldl (fun c e => effect c e.1 e.2) []

end Sid.Spec.VBuf
