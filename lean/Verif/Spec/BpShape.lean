import Verif.Model.BpTree
/-
What it means for a tree to be balanced, and for a list of keys to be what an iteration must report.
-/
namespace Sid.Spec.Shape
open Sid.Bpt

/-- `n` occurs in the tree, `d` steps below its root -/
inductive At : Tree → Nat → Tree → Prop where
  | root (t : Tree) : At t 0 t
  | child (ks : List K) (cs : List Tree) (c : Tree) (d : Nat) (n : Tree) : c ∈ cs → At c d n → At (.node ks cs) (d + 1) n

/-- a balanced search tree of the given order and depth of the leaves -/
structure Balanced (order h : Nat) (t : Tree) : Prop where
  /-- all leaves are at the same depth -/
  depth : ∀ d l, At t d (.leaf l) → d = h
  /-- no node has more than order - 1 keys; an internal node has one child more than keys -/
  leafFits : ∀ d l, At t d (.leaf l) → l.keys.length ≤ order - 1 ∧ l.ptrs.length = l.keys.length
  nodeFits : ∀ d ks cs, At t d (.node ks cs) → ks.length ≤ order - 1 ∧ cs.length = ks.length + 1
  /-- below the root nodes are at least half full -/
  leafFull : ∀ d l, At t (d + 1) (.leaf l) → order - 1 ≤ 2 * l.keys.length
  nodeFull : ∀ d ks cs, At t (d + 1) (.node ks cs) → order ≤ 2 * cs.length
  /-- the root is not empty -/
  rootFull : 1 ≤ numKeys t
  /-- keys ascend from leaf to leaf -/
  sorted : ((leaves t).flatMap fun l => l.keys.map K.str).Pairwise fun x y => strLt x y = true

/-- strictly ascending keys -/
def Ascending {α : Type} (l : List (Str × α)) : Prop := l.Pairwise fun x y => strLt x.1 y.1 = true

/-- not below `start`, not above `stop` -/
def InRange (start stop : Option Str) (s : Str) : Prop :=
  (∀ a, start = some a → strLt s a = false) ∧ (∀ e, stop = some e → strLt e s = false)

end Sid.Spec.Shape
