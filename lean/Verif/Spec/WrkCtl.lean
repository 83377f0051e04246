/-
How workers are to be used, in terms of what an observer sees in the course of time.
-/
namespace Sid.Spec.WrkCtl

/-- A step of the history of a worker. -/
inductive Kind where
  | started
  | givenJob
  | told
  | finished
  | ended
deriving DecidableEq, Repr

/-- Jobs are exclusive: whenever a worker is given a job, it has been started before and, since its last job (if any), it has said that
    it has finished. -/
def Exclusive {W : Type} (log : List (W × Kind)) : Prop :=
  ∀ pre w post, log = pre ++ (w, .givenJob) :: post →
    (w, .started) ∈ pre ∧ ∀ p q, pre = p ++ (w, .givenJob) :: q → (w, .finished) ∈ q

/-- A worker whose process has ended is never used again. -/
def NotUsedAfterEnd {W : Type} (log : List (W × Kind)) : Prop :=
  ∀ pre w post, log = pre ++ (w, .ended) :: post → ∀ k, (w, k) ∉ post

/-- Stronger: nothing has happened to a worker that is given a job but that it was started. -/
def OnlyFresh {W : Type} (log : List (W × Kind)) : Prop :=
  ∀ pre w post, log = pre ++ (w, .givenJob) :: post → ∀ k, (w, k) ∈ pre → k = .started

end Sid.Spec.WrkCtl
