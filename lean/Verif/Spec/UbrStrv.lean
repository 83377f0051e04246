import Verif.Model.UbrStrv
/-
Arrays of strings in memory.
-/
namespace Sid.Spec.Strv
open Sid.Ubr

/-- the array at `p` has these strings: every pointer in it is to one of them, in the same block -/
def IsArray (h : Heap) (p : Nat) (l : List Str) : Prop :=
  (h.blk p).isSome ∧ ∀ i (hi : i < l.length), ∃ o, loadPtr h p i = some (p, o) ∧ strAt h (p, o) = some l[i]

/-- blocks that will be allocated are not there yet -/
def Sane (h : Heap) : Prop := ∀ b, h.next ≤ b → h.blk b = none

/-- between `h` and `h'` an allocation failed -/
def NoRoom (h h' : Heap) : Prop := ∃ n, h.next ≤ n ∧ n < h'.next ∧ h.avail n = false

/-- all memory is as it was, but for the block `p` -/
def Same (h h' : Heap) (p : Option Nat) : Prop := ∀ b, some b ≠ p → h'.blk b = h.blk b

/-- a new array with these strings came back, or NULL -/
def Returns (h h' : Heap) (g : Got) : Option (List Str) → Prop
  | none => g.arr = none ∧ g.count = 0
  | some l => ∃ p, g.arr = some p ∧ h.blk p = none ∧ IsArray h' p l ∧ g.count = l.length

/-- the members of groups are strings, and not empty -/
def Strings (db : Db) : Prop :=
  ∀ k r l, db.recs k = some r → r.val = .vector l → ∀ x ∈ l, 0 ∉ x ∧ x ≠ []

end Sid.Spec.Strv
