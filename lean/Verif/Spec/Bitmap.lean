/-
Specification of a bitmap: a set of positions below `n`, described by the history of calls.
-/
namespace Sid.Spec.Bitmap

/-- A call: `(p, true)` sets position `p`, `(p, false)` unsets it. -/
abbrev Call := Nat × Bool

/-- What the most recent call for `p` did (`none`: never touched). -/
def lastTouch (calls : List Call) (p : Nat) : Option Bool :=
  ((calls.filter (fun c => c.1 = p)).getLast?).map (·.2)

/-- Is position `p` set after `calls`, on a bitmap created with all bits equal to `inv`? -/
def isSet (inv : Bool) (calls : List Call) (p : Nat) : Bool :=
  match lastTouch calls p with
  | some v => v
  | none => inv

/-- Number of set positions below `n`. -/
def count (n : Nat) (inv : Bool) (calls : List Call) : Nat :=
  ((List.range n).filter (fun p => isSet inv calls p)).length

end Sid.Spec.Bitmap
