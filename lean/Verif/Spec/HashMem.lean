import Verif.Model.HashMem
/-
What is expected of the memory of a hash table (C106).
-/
namespace Sid.Spec.HashMem
open Sid.Hash

/-- since `before` this table and nothing else was allocated: a block for the table, one for its slots and one for each entry there is,
    together as many bytes as the table reports for itself and its keys -/
def Holds (z : Sizes) (before now : Heap) (t : Table) : Prop :=
  now.blocks = before.blocks + 2 + entryCount t ∧ now.bytes = before.bytes + (getSize z.table z.ptr z.node t).1 ∧
  entryCount t = (iter t).length

/-- as much is allocated as before -/
def SameUse (before now : Heap) : Prop := now.blocks = before.blocks ∧ now.bytes = before.bytes

/-- no allocation will fail -/
def Plenty (m : Heap) : Prop := false ∉ m.answers

/-- a call without a callback that makes other calls -/
def Plain : Op → Prop
  | .update _ fn => ∀ x, (fn x).2 = []
  | _ => True

end Sid.Spec.HashMem
