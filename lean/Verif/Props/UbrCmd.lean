import Verif.Proof.UbrCmd
/-
C42: the life of a command in its worker, over all outcomes of its function, of sending and of building buffers, and all orders of
runs, messages of the main process, timeouts and stops.
-/
namespace Sid.Props
open Sid.Cmd Sid.Spec.Cmd

/-- Whatever messages come in whatever order: the client gets at most one response. -/
theorem C42_one_response (reg : Reg) (l : List Ev) (c : Cmd) (h : run reg (init reg) l = some c) : times .replied c.log ≤ 1 := by
  have := (run_any (init_any reg) h).once
  omega

/-- Whatever messages come in whatever order: once the worker was yielded, the command is never executed again. -/
theorem C42_nothing_after_yield (reg : Reg) (l : List Ev) (c : Cmd) (h : run reg (init reg) l = some c) : NothingAfterYield c.log :=
  (run_any (init_any reg) h).after

/-- With messages as the main process sends them (one acknowledgement for each export, one answer for each question, the end of
    udev's event after the response): a finished command of a client sent exactly one response, in its first stage.
    Missing: a response in the second stage (`C42_counterexample_second_stage`), a response of a failed command
    (`C42_counterexample_failed`). -/
theorem C42_response_partial (reg : Reg) (hr : RegOk reg) (c : Cmd) (h : Life reg c) (hc : reg.client = true) (hf : c.st = .fin) :
    times .replied c.log = 1 :=
  (h.inv hr).reply hf hc

/-- A command exporting to the main process responds only when all it exported is acknowledged. -/
theorem C42_response_after_ack_partial (reg : Reg) (hr : RegOk reg) (c : Cmd) (h : Life reg c) (hm : reg.toMain = true) :
    AckedBefore c.log :=
  (h.inv hr).acked hm

/-- The worker is yielded exactly once, when the command is finished or failed. -/
theorem C42_yield (reg : Reg) (hr : RegOk reg) (c : Cmd) (h : Life reg c) :
    (Terminal c → times .yielded c.log = 1) ∧ (¬ Terminal c → times .yielded c.log = 0) := by
  have := (h.inv hr).quiet
  refine ⟨fun ht => ?_, fun ht => ?_⟩
  · rw [this]; exact if_pos ht
  · rw [this]; exact if_neg ht

/-- A command that is not finished and not failed is never stuck: it is to be run, or an acknowledgement or an answer is on its
    way, or the timeout is armed (and may be preceded by the end of udev's event). -/
theorem C42_progress (reg : Reg) (hr : RegOk reg) (c : Cmd) (h : Life reg c) (hg : c.gone = false) (ht : ¬ Terminal c) :
    c.due = true ∨ (c.st = .waitAck ∧ Expected reg c.log .ack) ∨ (c.st = .exeWait ∧ Expected reg c.log .answer) ∨
      (c.st = .stgWait ∧ c.timer = true ∧ (reg.client = true → Expected reg c.log .nextStage)) := by
  have ha := (h.inv hr).alive hg
  unfold Alive at ha
  split at ha
  · exact Or.inl ha.1
  · next hs =>
    refine Or.inr (Or.inr (Or.inl ⟨hs, ?_⟩))
    have := ha.2.asks
    show times _ _ < times _ _
    omega
  · next hs =>
    refine Or.inr (Or.inl ⟨hs, ha.2.1, ?_⟩)
    have := ha.2.2.exps ha.2.1
    omega
  · next hs =>
    obtain ⟨-, ht, h1, h2, h⟩ := ha
    refine Or.inr (Or.inr (Or.inr ⟨hs, ht, fun hc => ⟨h2, ?_, ?_⟩⟩))
    · have := h.reply; rw [hc] at this; exact this
    · rcases h.stage with h | h
      · exact h.2
      · have : c.stage = 2 := h.1
        omega
  · exact Or.inl ha.1
  · next hs => exact absurd (Or.inl hs) ht
  · exact ha.elim

/-- The handler runs at most twice in each stage and once more for each question asked: with `C42_progress`, a command ends. -/
theorem C42_ends (reg : Reg) (hr : RegOk reg) (c : Cmd) (h : Life reg c) :
    times .ran c.log ≤ 2 * max 1 reg.stages + times .asked c.log :=
  (h.inv hr).bound

/-- A finished command is not run again, and none of the messages of the main process is left for it. -/
theorem C42_finished (reg : Reg) (hr : RegOk reg) (c c' : Cmd) (h : Life reg c) (hg : c.gone = false) (hf : c.st = .fin) :
    (∀ m, ¬ Expected reg c.log m) ∧ (∀ o, step reg c (.run o) = some c' → c' = c) ∧ (step reg c .timeout = some c' → c' = c) := by
  have ha := (h.inv hr).alive hg
  simp only [Alive, hf] at ha
  obtain ⟨hd, ht, hl, h1, h2, h3⟩ := ha
  refine ⟨fun m he => ?_, fun o hs => ?_, fun hs => ?_⟩
  · cases m with
    | ack => have := h2 he.1; have := he.2; omega
    | answer => have : times .answered c.log < times .asked c.log := he; omega
    | nextStage => have := h3 he.1; have := he.2; omega
  · simp only [step, hg, hd, Bool.not_false, Bool.or_true, if_true, Option.some.injEq] at hs
    exact hs.symm
  · simp only [step, hg, ht, Bool.not_false, Bool.or_true, if_true, Option.some.injEq] at hs
    exact hs.symm

/-- The worker crashes only in the second stage, when there are udev properties to be sent then. -/
theorem C42_no_crash_partial (reg : Reg) (hr : RegOk reg) (c : Cmd) (h : Life reg c) (e : Ev) (hn : step reg c e = none) :
    ∃ o, e = .run o ∧ o.udev = true ∧ reg.udevToRes = true ∧ times .nextStage c.log = 1 := by
  cases e with
  | run o =>
    simp only [step] at hn
    split at hn
    · cases hn
    · next hg =>
      simp only [Bool.or_eq_true, Bool.not_eq_true', not_or, Bool.not_eq_true, Bool.not_eq_false] at hg
      obtain ⟨h1, h2, h3⟩ := handler_none hn
      have h3 : c.resBuf = false := h3
      have ha := (h.inv hr).alive hg.1
      have hm : (∃ k, Mid reg k 0 0 c) → times .nextStage c.log = 1 := by
        intro ⟨k, hk⟩
        rcases hk.stage with h | h
        · rw [h3] at h; simp at h
        · exact h.2.2.1
      refine ⟨o, rfl, h1, h2, ?_⟩
      unfold Alive at ha
      split at ha
      · next hs =>
        rcases ha.2 with ⟨-, h⟩ | ⟨-, h⟩ | ⟨hp, h⟩
        · exact hm ⟨_, h⟩
        · exact hm ⟨_, h⟩
        · exfalso
          simp [handler, start, Cmd.see, hs, hp, R.andThen] at hn
      · rw [ha.1] at hg; simp at hg
      · rw [ha.1] at hg; simp at hg
      · rw [ha.1] at hg; simp at hg
      · next hs =>
        exfalso
        simp [handler, start, Cmd.see, hs, R.andThen] at hn
      · rw [ha.1] at hg; simp at hg
      · exact ha.elim
  | message m =>
    simp only [step] at hn
    split at hn <;> cases hn
  | timeout =>
    simp only [step] at hn
    split at hn <;> cases hn
  | stop => cases hn

namespace CmdExample

/-- everything works, no udev properties -/
def good : Outcome := ⟨.ok, true, false, .sent, true, true⟩
/-- the life of a scan: two stages, each with an acknowledged export -/
def scanLife : List Ev :=
  [.run good, .message .ack, .run good, .message .nextStage, .run good, .message .ack, .run good]

/-- the log of a scan, newest first: one response, in the first stage -/
theorem scan_life : (run scan (init scan) scanLife).map (fun c => (c.st, c.log)) =
    some (.fin, [.yielded, .ran, .acked, .exported, .exec, .ran, .nextStage, .replied, .ran, .acked, .exported, .exec, .ran]) := by
  decide +kernel

/-- C42 as stated is false: a command with two stages does not respond in the second -/
theorem C42_counterexample_second_stage :
    ((run scan (init scan) scanLife).map fun c => (c.st, times .exec c.log, times .replied c.log)) = some (.fin, 2, 1) := by
  decide +kernel

/-- C42 as stated is false: a command whose function fails sends no response -/
theorem C42_counterexample_failed :
    ((run version (init version) [.run { good with exec := .fail }]).map fun c => (c.st, times .exec c.log, times .replied c.log)) =
      some (.err, 1, 0) := by
  decide +kernel

/-- The hypothesis on messages is needed: a message about the end of udev's event before the acknowledgement is taken for the
    acknowledgement. -/
theorem C42_counterexample_early_message :
    ((run scan (init scan) [.run good, .message .nextStage, .run good]).map fun c => c.log) =
      some [.replied, .ran, .nextStage, .exported, .exec, .ran] := by
  decide +kernel

/-- a udev property exported in the second stage: the response buffer is gone -/
theorem C42_counterexample_crash :
    run scan (init scan) [.run good, .message .ack, .run good, .message .nextStage, .run { good with udev := true }] = none := by
  decide +kernel

/-- messages the main process does not send: a message after the end makes the finished command fail and the worker yield again -/
theorem C42_counterexample_late_message :
    ((run version (init version) [.run good, .message .ack, .run good]).map fun c => (c.st, times .yielded c.log)) = some (.err, 2) := by
  decide +kernel

theorem scan_ok : RegOk scan := ⟨fun _ => rfl, by decide⟩
theorem version_ok : RegOk version := ⟨(by intro h; cases h), by decide⟩

/-- a life with messages as expected: the scan up to its second stage -/
theorem scan_stage : ∃ c, Life scan c ∧ c.st = .stgWait ∧ c.gone = false ∧ c.log = [.replied, .ran, .acked, .exported, .exec, .ran] := by
  have h1 : Life scan _ := .run good .start (by rfl)
  have h2 := Life.message (c' := _) .ack h1 ⟨rfl, by decide⟩ (by rfl)
  have h3 := Life.run (c' := _) good h2 (by rfl)
  exact ⟨_, h3, rfl, rfl, rfl⟩

/-- a finished scan -/
theorem scan_done : ∃ c, Life scan c ∧ c.st = .fin ∧ c.gone = false ∧ times .replied c.log = 1 ∧ times .ran c.log = 4 := by
  have h1 : Life scan _ := .run good .start (by rfl)
  have h2 := Life.message (c' := _) .ack h1 ⟨rfl, by decide⟩ (by rfl)
  have h3 := Life.run (c' := _) good h2 (by rfl)
  have h4 := Life.message (c' := _) .nextStage h3 ⟨rfl, by decide, by decide⟩ (by rfl)
  have h5 := Life.run (c' := _) good h4 (by rfl)
  have h6 := Life.message (c' := _) .ack h5 ⟨rfl, by decide⟩ (by rfl)
  have h7 := Life.run (c' := _) good h6 (by rfl)
  exact ⟨_, h7, rfl, rfl, by decide, by decide⟩

example : ∃ c, Life scan c ∧ c.st = .fin ∧ times .replied c.log = 1 ∧ times .yielded c.log = 1 ∧ AckedBefore c.log :=
  let ⟨c, h, hs, _, _, _⟩ := scan_done
  ⟨c, h, hs, C42_response_partial scan scan_ok c h rfl hs, (C42_yield scan scan_ok c h).1 (Or.inl hs),
    C42_response_after_ack_partial scan scan_ok c h rfl⟩

example : ∃ c, Life scan c ∧ c.timer = true ∧ Expected scan c.log .nextStage := by
  obtain ⟨c, h, hs, hg, hl⟩ := scan_stage
  rcases C42_progress scan scan_ok c h hg (by simp [Terminal, hs]) with h1 | h1 | h1 | h1
  · have ha := (h.inv scan_ok).alive hg
    simp only [Alive, hs] at ha
    rw [ha.1] at h1; cases h1
  · rw [hs] at h1; exact absurd h1.1 (by decide)
  · rw [hs] at h1; exact absurd h1.1 (by decide)
  · exact ⟨c, h, h1.2.1, h1.2.2 rfl⟩

/-- the resources command asks, waits for the answer, is executed again -/
example : ((run resources (init resources) [.run { good with exec := .wait }, .message .answer, .run good]).map fun c => (c.st, c.log)) =
    some (.fin, [.yielded, .replied, .exec, .ran, .answered, .asked, .exec, .ran]) := by
  decide +kernel

/-- nothing to export: the response follows at once -/
example : ((run scan (init scan) [.run { good with exp := .nothing }]).map fun c => (c.st, c.log)) =
    some (.stgWait, [.replied, .exec, .ran]) := by
  decide +kernel

/-- the end of udev's event does not come in time -/
example : ((run scan (init scan) [.run { good with exp := .nothing }, .timeout, .run good]).map fun c => (c.st, c.log)) =
    some (.err, [.yielded, .ran, .replied, .exec, .ran]) := by
  decide +kernel

end CmdExample
end Sid.Props
