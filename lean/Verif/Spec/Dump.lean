import Verif.Model.Dump
import Verif.Spec.UbrGen
/-
A database file that is being written, and the moments at which the worker writing it can be killed.
-/
namespace Sid.Spec.Dump
open Sid.Ubr Sid.Spec.Gen Sid.Spec.Codec

/-- some of the bytes that differ between `b` and `b'` have been written: the order in which `memcpy` writes them is not
    defined -/
def Partly (b b' f : List UInt8) : Prop :=
  b.length = f.length ∧ b'.length = f.length ∧ ∀ i : Nat, f[i]? = b[i]? ∨ f[i]? = b'[i]?

/-- `f` is what the worker may leave when it is killed or gives up while it does `l`, if the file was `f0`: between two actions,
    or in the middle of copying -/
inductive Left (f0 : Option (List UInt8)) (l : List Act) : Option (List UInt8) → Prop
  | between {before after f} : l = before ++ after → acts f0 before = some f → Left f0 l f
  | within {before after pos d b b' f} : l = before ++ .copy pos d :: after → acts f0 before = some (some b) →
      act (some b) (.copy pos d) = some (some b') → Partly b b' f → Left f0 l (some f)

/-- a record that is kept over a restart: marked to be kept, and it holds something (a record that only reserves its name does
    not) -/
def Kept (r : Rec) : Prop := has r.flags flPersist = true ∧ ¬ Empty r

/-- two workers at the same file: the actions of both in the order `sched` says (`true`: the next one of the first worker),
    until one of them has none left when it is its turn -/
def merge {α : Type} : List Bool → List α → List α → List α
  | true :: s, x :: a, b => x :: merge s a b
  | false :: s, a, x :: b => x :: merge s a b
  | _, _, _ => []

end Sid.Spec.Dump
