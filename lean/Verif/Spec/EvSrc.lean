import Verif.Model.EvSrc
/-
Specification of event counters: how often the handler was called and how often it may still be called.
-/
namespace Sid.Spec.Ev
open Sid.Ev (Pos Act)

/-- the greatest number of calls that can be asked for: one less than the number that stands for "no limit" -/
def most : Nat := 2 ^ 64 - 2

/-- calls so far; calls still allowed (`none`: no limit) -/
structure Budget where
  fired : Nat
  left : Option Nat
deriving DecidableEq

/-- how many more calls are asked for: `n` is relative to the calls so far, or counts from the creation of the source;
    requests for more than the greatest number give the greatest number -/
def asked (fired : Nat) (n : Nat) : Pos → Nat
  | .abs => n - fired
  | .rel => min n (most - fired)

def Budget.set (b : Budget) (pos : Pos) (n : Nat) : Budget :=
  { b with left := if n = 2 ^ 64 - 1 then none else some (asked b.fired n pos) }

/-- the source is ready: the handler is called if calls are left; after a negative result no calls are left -/
def Budget.ready (b : Budget) (calls : List (Pos × BitVec 64)) (ret : Int) : Budget × Bool :=
  if b.left = some 0 then (b, false)
  else
    let b1 : Budget := ⟨b.fired + 1, b.left.map (· - 1)⟩
    let b2 := calls.foldl (fun b c => b.set c.1 c.2.toNat) b1
    (if ret < 0 then { b2 with left := some 0 } else b2, true)

def Budget.step (b : Budget) : Act → Budget × Bool
  | .set pos n => (b.set pos n.toNat, false)
  | .ready calls ret => b.ready calls ret

def Budget.run (b : Budget) : List Act → Budget × List Bool
  | [] => (b, [])
  | a :: as => (((b.step a).1.run as).1, (b.step a).2 :: ((b.step a).1.run as).2)

/-- What is asked of the actions: the handler of a source that watches a child process does not return a positive
    number; and no source without limit fires 2^64 - 1 times. -/
def Fine (child : Bool) (b : Budget) : List Act → Prop
  | [] => True
  | a :: as =>
    (match a with
      | .set _ _ => True
      | .ready _ ret => (child = true → ret ≤ 0) ∧ (b.left = none → b.fired < most)) ∧
    Fine child (b.step a).1 as

end Sid.Spec.Ev
