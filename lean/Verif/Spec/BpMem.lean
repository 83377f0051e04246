import Verif.Model.BpMem
/-
What a B+ tree takes of memory, said from the tree alone.
-/
namespace Sid.Spec.BpMem
open Sid.Bpt

/-- sum of a number over all nodes, given their keys -/
def weigh (g : List K → Nat) : Tree → Nat
  | .leaf l => g l.keys
  | .node ks kids => g ks + (kids.attach.map fun c => weigh g c.1).sum
termination_by t => t
decreasing_by
  have := List.sizeOf_lt_of_mem c.2
  simp; omega

/-- number of nodes -/
def nodesIn (t : Tree) : Nat := weigh (fun _ => 1) t

/-- number of places a key object is referred to from -/
def placesIn (k : K) (t : Tree) : Nat := weigh (fun l => l.count k) t

/-- the same for a tree that may be empty -/
def nodesOf (b : Bpt) : Nat :=
  match b.root with
  | none => 0
  | some t => nodesIn t

/-- the same for a tree that may be empty -/
def placesOf (b : Bpt) (k : K) : Nat :=
  match b.root with
  | none => 0
  | some t => placesIn k t

/-- the key objects: one for each key the tree holds -/
def keyObjs (b : Bpt) : List K :=
  match b.root with
  | none => []
  | some t => (leaves t).flatMap Leaf.keys

/-- the records the tree holds -/
def records (b : Bpt) : List Rec := (List.range b.nextRec).filterMap b.recs

/-- memory and tree fit: the size reported is the one of the tree itself, of all its nodes (each with an array for keys and one for
    pointers), of its keys with their strings and of its records; no block is allocated but these; every key allocated is one of the
    tree's and is referred to as often as it says -/
structure Exact (z : Sizes) (b : Bpt) (m : Mem) : Prop where
  size : m.metaSize = ((z.tree + nodesOf b * (z.node + b.order * z.ptr + (b.order - 1) * z.ptr) +
    ((keyObjs b).map fun k => z.key + k.str.length + 1).sum + (records b).length * z.rcd : Nat) : Int)
  blocks : m.blocks = ((1 + 3 * nodesOf b + 2 * (keyObjs b).length + (records b).length : Nat) : Int)
  refs : ∀ k, m.keys k = if placesOf b k = 0 then none else some (placesOf b k)
  alive : ∀ k, placesOf b k ≠ 0 ↔ k ∈ keyObjs b

/-- result and tree a call is made for, with memory for all it takes -/
def wanted (b : Bpt) : Op → Option (Int × Bpt)
  | .alias k a f => addAlias b k a f
  | o => (step b o).map fun b => (0, b)

/-- calls that take memory: those that add a name not there yet -/
def needs (b : Bpt) : Op → Prop
  | .add s _ _ => lookup b s = some none
  | .alias k a _ => lookup b k ≠ some none ∧ lookup b a = some none
  | .update s fn => lookup b s = some none ∧ ∃ d n, fn none = .write d n
  | .del _ => False

/-- what a sequence of calls did, from first to last tree, given whether memory can be lacking: every call did what it was made for, or
    took memory, reported a failure and changed nothing -/
inductive Each : Bpt → List Op → List Int → Bpt → Prop → Prop
  | nil (b : Bpt) (lack : Prop) : Each b [] [] b lack
  | did {b o r b1 os rs b2 lack} : wanted b o = some (r, b1) → Each b1 os rs b2 lack → Each b (o :: os) (r :: rs) b2 lack
  | lacked {b o os rs b2 lack} : lack → needs b o → Each b os rs b2 lack → Each b (o :: os) (-1 :: rs) b2 lack

theorem Each.weaken {b os rs b2 p q} (h : Each b os rs b2 p) (f : p → q) : Each b os rs b2 q := by
  induction h with
  | nil b _ => exact .nil b _
  | did h1 _ ih => exact .did h1 (ih f)
  | lacked h1 h2 _ ih => exact .lacked (f h1) h2 (ih f)

/-- the names with the record each refers to, in their order -/
def entries (b : Bpt) : List (Str × Nat) :=
  match b.root with
  | none => []
  | some t => (((leaves t).flatMap Leaf.keys).map K.str).zip ((leaves t).flatMap Leaf.ptrs)

/-- what a caller is told about entries that are given up one after the other: name, data and size of the record, and how many of the
    entries left, this one included, refer to it -/
def told (recs : Nat → Option Rec) : List (Str × Nat) → List (Str × Option Rec)
  | [] => []
  | (s, r) :: es => (s, (recs r).map fun x => ⟨x.data, x.size, ((r :: es.map Prod.snd).count r)⟩) :: told recs es

end Sid.Spec.BpMem
