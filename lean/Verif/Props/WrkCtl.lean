import Verif.Model.WrkCtl
import Verif.Spec.WrkCtl
/-
C44: the use of workers.
-/
namespace Sid.Props
open Sid.WrkCtl Sid.Spec.WrkCtl

/-- the observer's words for a note of the model -/
def toKind : Act → Nat × Kind
  | .started w => (w, .started)
  | .job w => (w, .givenJob)
  | .told w => (w, .told)
  | .yielded w => (w, .finished)
  | .exited w => (w, .ended)

/-- what an observer of a history sees -/
def history (l : List Ev) : List (Nat × Kind) := (run l).log.map toKind

theorem snoc_split {α : Type} {l pre post : List α} {a x : α} (h : l ++ [a] = pre ++ x :: post) :
    (post = [] ∧ pre = l ∧ x = a) ∨ ∃ post', post = post' ++ [a] ∧ l = pre ++ x :: post' := by
  rcases List.eq_nil_or_concat post with rfl | ⟨p, b, rfl⟩
  · obtain ⟨h1, h2⟩ := List.append_inj' h rfl
    exact .inl ⟨rfl, h1.symm, by simpa using h2.symm⟩
  · have h' : l ++ [a] = (pre ++ x :: p) ++ [b] := by simpa using h
    obtain ⟨h1, h2⟩ := List.append_inj' h' rfl
    have : a = b := by simpa using h2
    subst this
    exact .inr ⟨p, by simp, h1⟩

/-- what holds at any time -/
structure WInv (w : World) : Prop where
  noIdle : ∀ p ∈ w.proxies, p.state ≠ .idle
  small : ∀ p ∈ w.proxies, p.wid < w.next
  logSmall : ∀ a ∈ w.log, a.wid < w.next
  notEnded : ∀ p ∈ w.proxies, .exited p.wid ∉ w.log
  begun : ∀ p ∈ w.proxies, .started p.wid ∈ w.log
  fresh : OnlyFresh (w.log.map toKind)
  start : ∀ pre v post, w.log.map toKind = pre ++ (v, Kind.givenJob) :: post → (v, Kind.started) ∈ pre
  ended : NotUsedAfterEnd (w.log.map toKind)

theorem toKind_fst (a : Act) : (toKind a).1 = a.wid := by cases a <;> rfl

theorem WInv.snoc_other {ps : List Proxy} {w : World} (I : WInv w) (a : Act) {n : Nat} (hn : w.next ≤ n) (hw : a.wid < n)
    (h1 : ∀ p ∈ ps, p.state ≠ .idle) (h2 : ∀ p ∈ ps, p.wid < n) (h3 : ∀ p ∈ ps, .exited p.wid ∉ w.log ++ [a])
    (h4 : ∀ p ∈ ps, .started p.wid ∈ w.log ++ [a]) (hne : .exited a.wid ∉ w.log)
    (hj : ∀ v, a = .job v → .started v ∈ w.log ∧ ∀ x ∈ w.log, x.wid = v → x = .started v) :
    WInv ⟨ps, n, w.log ++ [a]⟩ := by
  refine ⟨h1, h2, ?_, h3, h4, ?_, ?_, ?_⟩
  · intro x hx
    rcases List.mem_append.mp hx with h | h
    · exact Nat.lt_of_lt_of_le (I.logSmall x h) hn
    · rw [List.mem_singleton.mp h]; exact hw
  · intro pre v post h k hk
    rw [List.map_append, List.map_singleton] at h
    rcases snoc_split h with ⟨-, rfl, he⟩ | ⟨p', -, h'⟩
    · obtain ⟨x, hx, hxe⟩ := List.mem_map.mp hk
      have hav : a = .job v := by cases a <;> simp [toKind] at he ⊢; exact he.symm
      have hxw : x.wid = v := by have := toKind_fst x; rw [hxe] at this; exact this.symm
      rw [(hj v hav).2 x hx hxw] at hxe
      cases hxe; rfl
    · exact I.fresh pre v p' h' k hk
  · intro pre v post h
    rw [List.map_append, List.map_singleton] at h
    rcases snoc_split h with ⟨-, rfl, he⟩ | ⟨p', -, h'⟩
    · have hav : a = .job v := by cases a <;> simp [toKind] at he ⊢; exact he.symm
      exact List.mem_map.mpr ⟨_, (hj v hav).1, rfl⟩
    · exact I.start pre v p' h'
  · intro pre v post h k hk
    rw [List.map_append, List.map_singleton] at h
    rcases snoc_split h with ⟨rfl, -, -⟩ | ⟨p', rfl, h'⟩
    · cases hk
    · rcases List.mem_append.mp hk with hk | hk
      · exact I.ended pre v p' h' k hk
      · rw [List.mem_singleton] at hk
        have : a.wid = v := by rw [← toKind_fst, ← hk]
        apply hne
        rw [this]
        have hm : (v, Kind.ended) ∈ w.log.map toKind := by rw [h']; simp
        obtain ⟨x, hx, hxe⟩ := List.mem_map.mp hm
        have : x = .exited v := by cases x <;> simp [toKind] at hxe ⊢; exact hxe
        rw [← this]; exact hx

theorem find_mem {ps : List Proxy} {wid : Nat} {p : Proxy} (h : findWorker ps wid = some p) : p ∈ ps ∧ p.wid = wid := by
  have h1 := List.mem_of_find?_eq_some h
  have h2 := List.find?_some h
  exact ⟨h1, by simpa using h2⟩

theorem mem_setState {ps : List Proxy} {wid : Nat} {s : St} {p : Proxy} (h : p ∈ setState ps wid s) :
    ∃ q ∈ ps, q.wid = p.wid ∧ (p.state = s ∨ p.state = q.state) := by
  obtain ⟨q, hq, hqe⟩ := List.mem_map.mp h
  refine ⟨q, hq, ?_⟩
  split at hqe <;> subst hqe <;> simp

theorem WInv.getIdle {w : World} (I : WInv w) : getIdle w.proxies = none := by
  unfold WrkCtl.getIdle
  rw [List.find?_eq_none]
  intro p hp
  simpa using I.noIdle p hp

theorem WInv.step {w : World} (I : WInv w) (e : Ev) : WInv (WrkCtl.step w e) := by
  cases e with
  | request newOk acceptOk =>
    simp only [WrkCtl.step, getWorker, I.getIdle, newWorker]
    cases newOk with
    | false => exact I
    | true =>
      simp only [if_true]
      have I' : WInv ⟨w.proxies ++ [⟨w.next, .new⟩], w.next + 1, w.log ++ [.started w.next]⟩ := by
        refine I.snoc_other _ (Nat.le_succ _) (Nat.lt_succ_self _) ?_ ?_ ?_ ?_ ?_ (fun v h => by cases h)
        · intro p hp
          rcases List.mem_append.mp hp with h | h
          · exact I.noIdle p h
          · rw [List.mem_singleton.mp h]; simp
        · intro p hp
          rcases List.mem_append.mp hp with h | h
          · exact Nat.lt_succ_of_lt (I.small p h)
          · rw [List.mem_singleton.mp h]; exact Nat.lt_succ_self _
        · intro p hp hm
          rcases List.mem_append.mp hm with h | h
          · rcases List.mem_append.mp hp with h' | h'
            · exact I.notEnded p h' h
            · rw [List.mem_singleton.mp h'] at h
              exact Nat.lt_irrefl _ (I.logSmall _ h)
          · simp at h
        · intro p hp
          rcases List.mem_append.mp hp with h | h
          · exact List.mem_append.mpr (.inl (I.begun p h))
          · rw [List.mem_singleton.mp h]; simp
        · intro h; exact Nat.lt_irrefl _ (I.logSmall _ h)
      split
      · refine I'.snoc_other (.job w.next) (Nat.le_refl _) (Nat.lt_succ_self _) ?_ ?_ ?_ ?_ ?_ ?_
        · intro p hp
          obtain ⟨q, hq, -, h⟩ := mem_setState hp
          rcases h with h | h
          · rw [h]; simp
          · rw [h]; exact I'.noIdle q hq
        · intro p hp
          obtain ⟨q, hq, h, -⟩ := mem_setState hp
          rw [← h]; exact I'.small q hq
        · intro p hp hm
          obtain ⟨q, hq, h, -⟩ := mem_setState hp
          rcases List.mem_append.mp hm with h' | h'
          · rw [← h] at h'; exact I'.notEnded q hq h'
          · simp at h'
        · intro p hp
          obtain ⟨q, hq, h, -⟩ := mem_setState hp
          rw [← h]; exact List.mem_append.mpr (.inl (I'.begun q hq))
        · exact I'.notEnded ⟨w.next, .new⟩ (by simp)
        · intro v hv
          cases hv
          refine ⟨by simp, fun x hx hxw => ?_⟩
          rcases List.mem_append.mp hx with h | h
          · exact absurd (I.logSmall x h) (by rw [hxw]; exact Nat.lt_irrefl _)
          · simpa using h
      · exact I'
  | monitor wid =>
    simp only [WrkCtl.step]
    split
    · exact I
    · next p hp =>
      obtain ⟨h1, h2⟩ := find_mem hp
      refine I.snoc_other (.told wid) (Nat.le_refl _) (h2 ▸ I.small p h1) ?_ ?_ ?_ ?_ (h2 ▸ I.notEnded p h1) (fun v h => by cases h)
      · intro p hp
        obtain ⟨q, hq, -, h⟩ := mem_setState hp
        rcases h with h | h
        · rw [h]; simp
        · rw [h]; exact I.noIdle q hq
      · intro p hp
        obtain ⟨q, hq, h, -⟩ := mem_setState hp
        rw [← h]; exact I.small q hq
      · intro p hp hm
        obtain ⟨q, hq, h, -⟩ := mem_setState hp
        rcases List.mem_append.mp hm with h' | h'
        · rw [← h] at h'; exact I.notEnded q hq h'
        · simp at h'
      · intro p hp
        obtain ⟨q, hq, h, -⟩ := mem_setState hp
        rw [← h]; exact List.mem_append.mpr (.inl (I.begun q hq))
  | yielded wid killOk =>
    simp only [WrkCtl.step]
    split
    · exact I
    · next p hp =>
      obtain ⟨h1, h2⟩ := find_mem hp
      have hm : ∀ p ∈ (if killOk = true then setState w.proxies wid .exiting else w.proxies),
          ∃ q ∈ w.proxies, q.wid = p.wid ∧ (p.state = .exiting ∨ p.state = q.state) := by
        intro p hp
        split at hp
        · exact mem_setState hp
        · exact ⟨p, hp, rfl, .inr rfl⟩
      refine I.snoc_other (.yielded wid) (Nat.le_refl _) (h2 ▸ I.small p h1) ?_ ?_ ?_ ?_ (h2 ▸ I.notEnded p h1) (fun v h => by cases h)
      · intro p hp
        obtain ⟨q, hq, -, h⟩ := hm p hp
        rcases h with h | h
        · rw [h]; simp
        · rw [h]; exact I.noIdle q hq
      · intro p hp
        obtain ⟨q, hq, h, -⟩ := hm p hp
        rw [← h]; exact I.small q hq
      · intro p hp hmm
        obtain ⟨q, hq, h, -⟩ := hm p hp
        rcases List.mem_append.mp hmm with h' | h'
        · rw [← h] at h'; exact I.notEnded q hq h'
        · simp at h'
      · intro p hp
        obtain ⟨q, hq, h, -⟩ := hm p hp
        rw [← h]; exact List.mem_append.mpr (.inl (I.begun q hq))
  | timeout wid =>
    simp only [WrkCtl.step]
    refine ⟨?_, ?_, I.logSmall, ?_, ?_, I.fresh, I.start, I.ended⟩
    · intro p hp
      obtain ⟨q, hq, -, h⟩ := mem_setState hp
      rcases h with h | h
      · rw [h]; simp
      · rw [h]; exact I.noIdle q hq
    · intro p hp
      obtain ⟨q, hq, h, -⟩ := mem_setState hp
      simp only [← h]; exact I.small q hq
    · intro p hp hm
      obtain ⟨q, hq, h, -⟩ := mem_setState hp
      simp only [← h] at hm; exact I.notEnded q hq hm
    · intro p hp
      obtain ⟨q, hq, h, -⟩ := mem_setState hp
      simp only [← h]; exact I.begun q hq
  | exited wid =>
    simp only [WrkCtl.step]
    split
    · exact I
    · next p hp =>
      obtain ⟨h1, h2⟩ := find_mem hp
      have hm : ∀ p ∈ (setState w.proxies wid .exited).filter (fun p => p.wid ≠ wid),
          p.wid ≠ wid ∧ ∃ q ∈ w.proxies, q.wid = p.wid ∧ (p.state = .exited ∨ p.state = q.state) := by
        intro p hp
        obtain ⟨hp1, hp2⟩ := List.mem_filter.mp hp
        exact ⟨by simpa using hp2, mem_setState hp1⟩
      refine I.snoc_other (.exited wid) (Nat.le_refl _) (h2 ▸ I.small p h1) ?_ ?_ ?_ ?_ (h2 ▸ I.notEnded p h1) (fun v h => by cases h)
      · intro p hp
        obtain ⟨-, q, hq, -, h⟩ := hm p hp
        rcases h with h | h
        · rw [h]; simp
        · rw [h]; exact I.noIdle q hq
      · intro p hp
        obtain ⟨-, q, hq, h, -⟩ := hm p hp
        rw [← h]; exact I.small q hq
      · intro p hp hmm
        obtain ⟨hne, q, hq, h, -⟩ := hm p hp
        rcases List.mem_append.mp hmm with h' | h'
        · rw [← h] at h'; exact I.notEnded q hq h'
        · simp at h'; exact hne h'
      · intro p hp
        obtain ⟨-, q, hq, h, -⟩ := hm p hp
        rw [← h]; exact List.mem_append.mpr (.inl (I.begun q hq))

theorem run_winv (l : List Ev) : WInv (run l) := by
  have : ∀ (l : List Ev) (w : World), WInv w → WInv (l.foldl WrkCtl.step w) := by
    intro l
    induction l with
    | nil => intro w I; exact I
    | cons e l ih => intro w I; exact ih _ (I.step e)
  refine this l _ ⟨by simp, by simp, by simp, by simp, by simp, ?_, ?_, ?_⟩
  · intro pre v post h; simp at h
  · intro pre v post h; simp at h
  · intro pre v post h; simp at h

/-- **C44.** Whatever clients connect, workers finish, time out and end: a worker is given a job only if it has been started, and, if it
    had one before, has said since that it has finished. -/
theorem C44_exclusive (l : List Ev) : Exclusive (history l) := by
  have I := run_winv l
  intro pre w post h
  refine ⟨I.start pre w post h, fun p q hp => ?_⟩
  have := I.fresh pre w post h .givenJob (by rw [hp]; simp)
  cases this

/-- **C44.** In fact each job goes to a new process: nothing ever happened to the worker but its start.  (The code for handing out
    idle workers is never effective: no worker is ever recorded as idle.) -/
theorem C44_always_fresh (l : List Ev) : OnlyFresh (history l) ∧ getIdle (run l).proxies = none :=
  ⟨(run_winv l).fresh, (run_winv l).getIdle⟩

/-- **C44.** A worker whose end has been noticed is never used again: it is given no job and told nothing. -/
theorem C44_not_used_after_end (l : List Ev) : NotUsedAfterEnd (history l) := (run_winv l).ended

/-- **C44.** Taken by itself, for any recorded states: a worker is handed out as idle exactly if one is recorded as idle, and then it
    is one of these — not one assigned, exiting, timed out or new. -/
theorem C44_idle_pick (ps : List Proxy) :
    (∀ p, getIdle ps = some p → p ∈ ps ∧ p.state = .idle) ∧ (getIdle ps = none ↔ ∀ p ∈ ps, p.state ≠ .idle) := by
  constructor
  · intro p h
    exact ⟨List.mem_of_find?_eq_some h, by simpa using List.find?_some h⟩
  · simp [WrkCtl.getIdle, List.find?_eq_none]

/-- **C44.** But the recorded state is not to be relied on: a worker that has finished and was told to exit is recorded as assigned
    again when a message about its udev event comes late. -/
theorem C44_counterexample_recorded_state :
    (run [.request true true, .yielded 0 true]).proxies = [⟨0, .exiting⟩] ∧
    (run [.request true true, .yielded 0 true, .monitor 0]).proxies = [⟨0, .assigned⟩] := ⟨rfl, rfl⟩

/-- **C44.** And a worker started for a connection that then could not be accepted is never given a job, whatever happens later. -/
theorem C44_counterexample_worker_left_over (l : List Ev) :
    (0, Kind.givenJob) ∉ history (.request true false :: l) := by
  intro h
  have key : ∀ (l : List Ev) (w : World), WInv w → (.started 0 ∈ w.log) → .job 0 ∉ w.log → 0 < w.next →
      .job 0 ∉ (l.foldl WrkCtl.step w).log := by
    intro l
    induction l with
    | nil => intro w _ _ h _; exact h
    | cons e l ih =>
      intro w I h1 h2 h3
      refine ih _ (I.step e) ?_ ?_ ?_
      all_goals
        cases e with
        | request newOk acceptOk =>
          simp only [WrkCtl.step, getWorker, I.getIdle, newWorker]
          cases newOk <;> cases acceptOk <;> simp [send, h1, h2, h3] <;> omega
        | monitor wid => simp only [WrkCtl.step]; split <;> simp [send, h1, h2, h3]
        | yielded wid k => simp only [WrkCtl.step]; split <;> simp [h1, h2, h3]
        | timeout wid => simp [WrkCtl.step, h1, h2, h3]
        | exited wid => simp only [WrkCtl.step]; split <;> simp [h1, h2, h3]
  obtain ⟨x, hx, hxe⟩ := List.mem_map.mp h
  have : x = .job 0 := by cases x <;> simp [toKind] at hxe ⊢; exact hxe
  subst this
  have I1 : WInv (run [.request true false]) := run_winv _
  exact key l _ I1 (by simp [run, WrkCtl.step, getWorker, WrkCtl.getIdle, newWorker])
    (by simp [run, WrkCtl.step, getWorker, WrkCtl.getIdle, newWorker]) (by decide) hx

/-- a history with two clients, a late message and an end -/
example : history [.request true true, .request true true, .monitor 0, .yielded 0 true, .exited 0, .monitor 0, .request true true] =
    [(0, .started), (0, .givenJob), (1, .started), (1, .givenJob), (0, .told), (0, .finished), (0, .ended), (2, .started),
      (2, .givenJob)] := by decide

end Sid.Props
