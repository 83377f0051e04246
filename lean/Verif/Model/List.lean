/-
Model of the doubly linked ring list: src/internal/list.c and the walking macros of src/include/internal/list.h.
A heap maps the address of every `struct list` to its two links; nothing is assumed about addresses that are not linked.
-/
namespace Sid.Lst

/-- src/include/internal/list.h:18-21 `struct list`: the `n` and `p` members by address -/
structure Heap where
  n : Nat → Nat
  p : Nat → Nat

/-- src/internal/list.c:10-32: assignment to one member -/
def put (f : Nat → Nat) (a v : Nat) : Nat → Nat := fun x => if x = a then v else f x

/-- src/internal/list.c:10-32: `a->n = v` -/
def setN (h : Heap) (a v : Nat) : Heap := { h with n := put h.n a v }

/-- src/internal/list.c:10-32: `a->p = v` -/
def setP (h : Heap) (a v : Nat) : Heap := { h with p := put h.p a v }

/-- src/internal/list.c:10-13 `list_init` -/
def init (h : Heap) (head : Nat) : Heap :=
  let h := setP h head head
  setN h head (h.p head)

/-- src/internal/list.c:15-21 `list_add` -/
def add (h : Heap) (head elem : Nat) : Heap :=
  let h := setN h elem head
  let h := setP h elem (h.p head)
  let h := setN h (h.p head) elem
  setP h head elem

/-- src/internal/list.c:23-27 `list_del` -/
def del (h : Heap) (elem : Nat) : Heap :=
  let h := setP h (h.n elem) (h.p elem)
  setN h (h.p elem) (h.n elem)

/-- src/internal/list.c:29-32 `list_is_empty` -/
def isEmpty (h : Heap) (head : Nat) : Bool := h.n head == head

/-- src/include/internal/list.h:23 `list_iterate` from node `v` on, `none` if not over after `fuel` rounds -/
def walk (h : Heap) (head : Nat) : (fuel : Nat) → (v : Nat) → Option (List Nat)
  | 0, v => if v = head then some [] else none
  | fuel + 1, v => if v = head then some [] else (walk h head fuel (h.n v)).map (v :: ·)

/-- src/include/internal/list.h:25 `list_iterate_back` -/
def walkBack (h : Heap) (head : Nat) : (fuel : Nat) → (v : Nat) → Option (List Nat)
  | 0, v => if v = head then some [] else none
  | fuel + 1, v => if v = head then some [] else (walkBack h head fuel (h.p v)).map (v :: ·)

/-- src/internal/list.c:34-43 `list_get_size` (the `unsigned` counter is a natural number here) -/
def getSize (h : Heap) (head fuel : Nat) : Option Nat := (walk h head fuel (h.n head)).map List.length

/-- src/include/internal/list.h:46-49 `list_iterate_items_gen_safe` with a body that unlinks the elements `pick` selects:
    the next element is read before the body runs.  Result: the elements the body saw and the heap at the end. -/
def walkSafe (pick : Nat → Bool) (head : Nat) : (fuel : Nat) → Heap → (v t : Nat) → Option (List Nat × Heap)
  | 0, h, v, _ => if v = head then some ([], h) else none
  | fuel + 1, h, v, t =>
    if v = head then some ([], h) else
      let h' := if pick v then del h v else h
      (walkSafe pick head fuel h' t (h'.n t)).map fun r => (v :: r.1, r.2)

/-- model only, for src/internal/list.c:10-43: Calls -/
inductive Op
  | init (head : Nat)
  | add (head elem : Nat)
  | del (elem : Nat)
  deriving DecidableEq, Repr

/-- model only, for src/internal/list.c:10-43: one call -/
def step (h : Heap) : Op → Heap
  | .init x => init h x
  | .add x e => add h x e
  | .del e => del h e

end Sid.Lst
