import Verif.Model.List
/-
What a program using lists sees: some list heads, each with its sequence of elements.
-/
namespace Sid.Spec.Lists

/-- the lists in existence: head and elements, front first -/
abbrev State := List (Nat × List Nat)

/-- the address is in use as a head or element -/
def Used (s : State) (a : Nat) : Prop := ∃ l ∈ s, a = l.1 ∨ a ∈ l.2

/-- The meaning of correct use: only unused cells become heads or elements, only linked elements are removed; an element
    is appended at the end of its list; removal takes the element out of the list it is on and touches no other. -/
inductive Step : State → Lst.Op → State → Prop
  | init {s a} : ¬ Used s a → Step s (.init a) ((a, []) :: s)
  | add {s1 s2 a xs e} : ¬ Used (s1 ++ (a, xs) :: s2) e →
      Step (s1 ++ (a, xs) :: s2) (.add a e) (s1 ++ (a, xs ++ [e]) :: s2)
  | del {s1 s2 a xs ys e} : Step (s1 ++ (a, xs ++ e :: ys) :: s2) (.del e) (s1 ++ (a, xs ++ ys) :: s2)

/-- a history of correct calls, the heap changing along -/
inductive Reach (h0 : Lst.Heap) : Lst.Heap → State → Prop
  | start : Reach h0 h0 []
  | call {h s op s'} : Reach h0 h s → Step s op s' → Reach h0 (Lst.step h op) s'

end Sid.Spec.Lists
