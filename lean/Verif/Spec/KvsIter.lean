import Verif.Model.KvsIter
import Verif.Spec.Kvs
import Verif.Spec.BpShape
/-
What a user expects of iterating over a store, and of its statistics.
-/
namespace Sid.Spec.KvStore
open Sid.Kvs Sid.Spec.Shape

/-- each key of the store for which `P` holds, with what is stored under it, and nothing else -/
def Reports (c : Content) (P : Str → Prop) (out : List (Str × Got)) : Prop :=
  (out.map Prod.fst).Nodup ∧ ∀ k g, (k, g) ∈ out ↔ c k = some g ∧ P k

/-- ... in ascending order -/
def ReportsInOrder (c : Content) (P : Str → Prop) (out : List (Str × Got)) : Prop :=
  Ascending out ∧ Reports c P out

/-- a value given by reference to nothing -/
def NullRef (g : Got) : Prop := g.ref = true ∧ g.data.ptr = 0

instance : DecidablePred NullRef := fun g => inferInstanceAs (Decidable (g.ref = true ∧ g.data.ptr = 0))

def NoNulls (c : Content) : Prop := ∀ k g, c k = some g → ¬ NullRef g

/-- what comes before the first such value -/
def beforeNull (out : List (Str × Got)) : List (Str × Got) := out.takeWhile fun x => !decide (NullRef x.2)

/-- the values a call hands to the store: its own, or one its callback puts in place of it -/
def Gives : Op → Input → Prop
  | .set _ _ f i, j => j = i ∨ ∃ g old new, f = some g ∧ (g old new).2 = some j
  | .unset .., _ => False

/-- no vector is given both by reference and to be merged -/
def NoMergedRefs (ops : List Op) : Prop := ∀ op ∈ ops, ∀ i, Gives op i → ¬ (i.vec = true ∧ i.ref = true ∧ i.merge = true)

def total (l : List Bytes) : Nat := l.flatten.length

/-- Memory a value takes.  A copy is kept by the store, behind a header of 16 bytes, with 16 bytes for each item of a vector.  Of a value by
    reference the store has a header and the pointer, 24 bytes; the rest is the caller's. -/
def memoryOf (mem : Nat → List Bytes) (g : Got) : Sizes :=
  match g.data with
  | .copied items => ⟨16 + (if g.vec then 16 * items.length else 0) + total items, total items, 0, 0⟩
  | .refd p =>
    if g.vec then ⟨24, 0, total ((mem p).take g.size) + 16 * g.size, total ((mem p).take g.size)⟩ else ⟨24, 0, g.size, g.size⟩
  | .merged _ items => ⟨24 + total items, total items, 16 * items.length, 0⟩

/-- the statistics of what is reported -/
def statsOf (mem : Nat → List Bytes) (out : List (Str × Got)) : DbStats where
  pairs := out.length
  keySize := (out.map fun x => x.1.length + 1).sum
  int := (out.map fun x => (memoryOf mem x.2).int).sum
  intData := (out.map fun x => (memoryOf mem x.2).intData).sum
  ext := (out.map fun x => (memoryOf mem x.2).ext).sum
  extData := (out.map fun x => (memoryOf mem x.2).extData).sum

end Sid.Spec.KvStore
