import Verif.Model.DevState
import Verif.Model.Scan
/-
The documented course of a scan.
-/
namespace Sid.Spec.Scan
open Sid.DevState

/-- the phases of the three kinds of scan, in order: init, middle phases, exit -/
structure Plan where
  init : Phase
  mids : List Phase
  exit : Phase

/-- first stage, device present -/
def planA : Plan := ⟨.aInit, [.aPre, .aCurrent, .aNext, .aPostCurrent, .aPostNext], .aExit⟩
/-- first stage, device being removed -/
def planRemove : Plan := ⟨.removeInit, [.removeCurrent], .removeExit⟩
/-- second stage -/
def planB : Plan := ⟨.bInit, [.bActionCurrent, .bActionNext], .bExit⟩

/-- a phase succeeded (0) or was skipped (1) -/
def Fine (r : Int) : Prop := r = 0 ∨ r = 1

/-- The rest of a scan from the middle phases `mids` on: the phases executed with their results, and the overall result -/
inductive Rest (exit : Phase) : List Phase → List (Phase × Int) → Int → Prop
  | exitOk {r} : Fine r → Rest exit [] [(exit, r)] 0
  | exitFails {r} : ¬ Fine r → Rest exit [] [(exit, r)] (-1)
  | go {m ms r t v} : Fine r → Rest exit ms t v → Rest exit (m :: ms) ((m, r) :: t) v
  | fails {m ms r e x} : ¬ Fine r → Rest exit (m :: ms) [(m, r), (.error, e), (exit, x)] 0

/-- A whole scan -/
inductive Course (p : Plan) : List (Phase × Int) → Int → Prop
  | initFails {r} : ¬ Fine r → Course p [(p.init, r)] (-1)
  | initOk {r t v} : Fine r → Rest p.exit p.mids t v → Course p ((p.init, r) :: t) v

/-- the results recorded are those the handlers gave, one after the other -/
def Follows {σ : Type} (exec : Phase → σ → Int × σ) : σ → List (Phase × Int) → σ → Prop
  | s, [], s' => s' = s
  | s, (p, r) :: t, s' => (exec p s).1 = r ∧ Follows exec (exec p s).2 t s'

/-- the plan of a stage -/
def plan (stage : Nat) (remove : Bool) : Option Plan :=
  if stage = 1 then (if remove then some planRemove else some planA)
  else if stage = 2 then some planB else none

open Sid.Scan in
/-- Modules called one after the other in a phase, from the state `s` to `s'`: each module with a function for the phase is
    called once, in order; a module without one is passed over; behind a call that fails, or a module whose functions cannot be
    had, no more modules are called.  The calls made, and whether it ended this way. -/
inductive Round {σ M : Type} (env : Env σ M) (ph : Phase) : List M → σ → σ → List (M × Phase) → Bool → Prop
  | done {s} : Round env ph [] s s [] false
  | pass {m ms f s s' l b} : env.fns m = some f → f ph = none → Round env ph ms s s' l b → Round env ph (m :: ms) s s' l b
  | called {m ms f g s s' l b} : env.fns m = some f → f ph = some g → 0 ≤ (g s).1 → Round env ph ms (g s).2 s' l b →
      Round env ph (m :: ms) s s' ((m, ph) :: l) b
  | failed {m ms f g s} : env.fns m = some f → f ph = some g → (g s).1 < 0 →
      Round env ph (m :: ms) s (g s).2 [(m, ph)] true
  | missing {m ms s} : env.fns m = none → Round env ph (m :: ms) s s [] true

open Sid.Scan in
/-- Two rounds, from the state `s`: the calls made, and -1 if the round that counts (the second, or in exit phases the first)
    ended early. -/
def Rounds {σ M : Type} (env : Env σ M) (ph : Phase) (ms ms' : List M) (s : σ) (calls : List (M × Phase)) (counts : Bool → Bool → Bool)
    (r : Int × St σ M) : Prop :=
  ∃ s1 l1 b1 l2 b2, Round env ph ms s s1 l1 b1 ∧ Round env ph ms' s1 r.2.s l2 b2 ∧ r.2.calls = calls ++ l1 ++ l2 ∧
    r.1 = if counts b1 b2 then -1 else 0

end Sid.Spec.Scan
