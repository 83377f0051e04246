import Verif.Spec.DevState
/-
C39, C40: device state machines.
-/
namespace Sid.Props
open Sid.DevState Sid.Spec.DevState

/-- the store agrees with the command's copy, and never holds "undefined" -/
def StInv {α : Type} (undef : α) (c : Ctx α) : Prop :=
  (c.cached ≠ undef → c.stored = some c.cached) ∧ c.stored ≠ some undef

theorem step_inv_ds {α : Type} [DecidableEq α] {undef : α} {cap : Phase → Bool} {ok : α → α → Bool}
    (hok : ∀ o, ok o undef = false) {c : Ctx α} {o : Op α} (I : StInv undef c) (hd : Disciplined undef c o) :
    StInv undef (step undef cap ok c o) := by
  obtain ⟨I1, I2⟩ := I
  cases o with
  | command p => exact ⟨fun h => absurd rfl h, I2⟩
  | phase p => exact ⟨I1, I2⟩
  | get =>
    simp only [step, getState]
    split
    · cases hs : c.stored with
      | none => exact ⟨I1, I2⟩
      | some v =>
        refine ⟨fun _ => by simp [hs], ?_⟩
        simpa [hs] using I2
    · exact ⟨I1, I2⟩
  | set new kv =>
    simp only [Disciplined] at hd
    simp only [step, setState]
    split
    · exact ⟨I1, I2⟩
    · split
      · exact ⟨I1, I2⟩
      · split
        · exact ⟨I1, I2⟩
        · rename_i h3
          have hn : new ≠ undef := by
            rintro rfl
            exact h3 (by simp [hok])
          split
          · exact ⟨I1, I2⟩
          · rename_i h4
            have hkv : kv = .stored := by cases kv <;> simp_all [KvOutcome.code]
            simp [hkv, StInv, hn]

/-- every event either leaves the visible state alone, or is an accepted set in a phase with the capability, from the
    state that was visible -/
theorem step_seen {α : Type} [DecidableEq α] {undef : α} {cap : Phase → Bool} {ok : α → α → Bool}
    (hok : ∀ o, ok o undef = false) {c : Ctx α} {o : Op α} (I : StInv undef c) (hd : Disciplined undef c o) :
    seen undef (step undef cap ok c o) = seen undef c ∨
      ∃ new kv, o = .set new kv ∧ cap c.phase = true ∧ ok (seen undef c) new = true ∧ new ≠ seen undef c ∧
        (setState cap ok c new kv).1 = 0 ∧ seen undef (step undef cap ok c o) = new := by
  obtain ⟨I1, I2⟩ := I
  cases o with
  | command p =>
    left
    simp only [seen, step, getState]
    by_cases h : c.cached = undef
    · simp only [h, if_true]; cases c.stored <;> rfl
    · simp [h, I1 h]
  | phase p => left; simp only [seen, step, getState]; by_cases h : c.cached = undef <;> simp only [h, if_true, if_false] <;> cases c.stored <;> rfl
  | get =>
    left
    simp only [seen, step, getState]
    by_cases h : c.cached = undef
    · simp only [h, if_true]
      cases hs : c.stored with
      | none => simp [h, hs]
      | some v =>
        by_cases hv : v = undef
        · subst hv; simp [hs]
        · simp [hv]
    · simp [h]
  | set new kv =>
    simp only [Disciplined] at hd
    have hseen : seen undef c = c.cached := by
      simp only [seen, getState]
      split
      · rename_i h
        rcases hd.1 with h' | h'
        · exact absurd h h'
        · simp [h', h]
      · rfl
    rw [hseen]
    simp only [step]
    by_cases h1 : cap c.phase = true
    · by_cases h2 : new = c.cached
      · left; simp [setState, h1, h2, hseen]
      · by_cases h3 : ok c.cached new = true
        · by_cases h4 : kv.code < 0
          · left; simp [setState, h1, h2, h3, h4, hseen]
          · right
            have hkv : kv = .stored := by cases kv <;> simp_all [KvOutcome.code]
            have hn : new ≠ undef := by rintro rfl; simp [hok] at h3
            refine ⟨new, kv, rfl, h1, h3, h2, ?_, ?_⟩
            · subst hkv; simp [setState, h1, h2, h3, KvOutcome.code]
            · subst hkv; simp [setState, h1, h2, h3, KvOutcome.code, seen, getState, hn]
        · left; simp [setState, h1, h2, h3, hseen]
    · left; simp [setState, h1, hseen]

theorem run_inv_ds {α : Type} [DecidableEq α] {undef : α} {cap : Phase → Bool} {ok : α → α → Bool}
    (hok : ∀ o, ok o undef = false) {c : Ctx α} {ops : List (Op α)} (I : StInv undef c)
    (hd : DisciplinedAll undef (step undef cap ok) c ops) : StInv undef (ops.foldl (step undef cap ok) c) := by
  induction ops generalizing c with
  | nil => exact I
  | cons o os ih => exact ih (step_inv_ds hok I hd.1) hd.2

theorem fresh_inv {α : Type} {undef : α} (p : Phase) : StInv undef (fresh undef p) :=
  ⟨fun h => absurd rfl h, by simp [fresh]⟩

theorem readyOk_iff {a b : Ready} : readyOk a b = true ↔ ReadyMove a b := by
  constructor
  · intro h
    cases b <;> simp [readyOk] at h
    · exact .removed h
    · subst h; exact .discovered
    · subst h; exact .unconfigured
    · exact .uninitialized h
    · exact .isPrivate h
    · exact .flat h
    · exact .unavailable h
    · exact .isPublic h
  · intro h; cases h <;> simp_all [readyOk]

theorem setState_again {α : Type} [DecidableEq α] {cap : Phase → Bool} {ok : α → α → Bool} {c : Ctx α} {new : α} {kv kv' : KvOutcome}
    (h : 0 ≤ (setState cap ok c new kv).1) (hp : (setState cap ok c new kv').1 ≠ -1) :
    setState cap ok (setState cap ok c new kv).2 new kv' = (0, (setState cap ok c new kv).2) := by
  have hcap : cap c.phase = true := by
    cases e : cap c.phase with
    | true => rfl
    | false => simp [setState, e] at hp
  revert h
  simp only [setState, hcap, Bool.not_true, Bool.false_eq_true, if_false]
  by_cases h1 : new = c.cached
  · simp [h1, hcap]
  · by_cases h2 : ok c.cached new = true
    · by_cases h3 : kv.code < 0
      · simp only [h1, h2, h3, if_true, if_false, Bool.not_true, Bool.false_eq_true]; intro h; omega
      · simp [h1, h2, h3, hcap]
    · simp [h1, h2]

theorem reservedOk_iff {a b : Reserved} : reservedOk a b = true ↔ ReservedMove a b := by
  constructor
  · intro h
    cases b <;> simp [reservedOk] at h
    · subst h; exact .discovered
    · exact .reserved
    · exact .used
    · exact .free
  · intro h; cases h <;> rfl

/-- C39 (partial).  For every history of commands, phases, reads and changes in which each command reads the state of a
    known device before changing it and the store does not deny a write: each further such event leaves the ready state
    readers see as it was, or moves it along a permitted transition, by a request that succeeded, in a phase that permits it.
    Missing: histories without that discipline, see the two counterexamples. -/
theorem C39_ready_moves_partial (p : Phase) (ops : List (Op Ready)) (o : Op Ready)
    (hd : DisciplinedAll .undefined stepReady (fresh .undefined p) (ops ++ [o])) :
    let c := ops.foldl stepReady (fresh .undefined p)
    seen .undefined (stepReady c o) = seen .undefined c ∨
      (ReadyMove (seen .undefined c) (seen .undefined (stepReady c o)) ∧ c.phase ∈ readyPhases ∧
        ∃ kv, o = .set (seen .undefined (stepReady c o)) kv ∧
          (setState capReady readyOk c (seen .undefined (stepReady c o)) kv).1 = 0) := by
  intro c
  have split : ∀ (l : List (Op Ready)) (c : Ctx Ready), DisciplinedAll .undefined stepReady c (l ++ [o]) →
      DisciplinedAll .undefined stepReady c l ∧ Disciplined .undefined (l.foldl stepReady c) o := by
    intro l
    induction l with
    | nil => intro c h; exact ⟨trivial, h.1⟩
    | cons x l ih => intro c h; exact ⟨⟨h.1, (ih _ h.2).1⟩, (ih _ h.2).2⟩
  obtain ⟨h1, h2⟩ := split ops _ hd
  have I : StInv .undefined c := run_inv_ds (by intro o; cases o <;> rfl) (fresh_inv p) h1
  rcases step_seen (cap := capReady) (ok := readyOk) (by intro o; cases o <;> rfl) I h2 with h | ⟨new, kv, e1, e2, e3, _, e5, e6⟩
  · exact Or.inl h
  · have e6' : seen .undefined (stepReady c o) = new := e6
    rw [e6']
    refine Or.inr ⟨readyOk_iff.1 e3, ?_, kv, e1, e5⟩
    revert e2; cases c.phase <;> simp [capReady, readyPhases]

/-- C39.  A refused request (negative result) changes nothing at all, in every state, disciplined or not. -/
theorem C39_refused_changes_nothing (c : Ctx Ready) (new : Ready) (kv : KvOutcome)
    (h : (setState capReady readyOk c new kv).1 < 0) : (setState capReady readyOk c new kv).2 = c := by
  revert h
  simp only [setState]
  repeat' split
  all_goals (first | (intro _; rfl) | (intro h; exact absurd h (by assumption)))

/-- C39.  A request that succeeded succeeds again in the same phase and changes nothing more, whatever the store says. -/
theorem C39_repeated_request (c : Ctx Ready) (new : Ready) (kv kv' : KvOutcome)
    (h : 0 ≤ (setState capReady readyOk c new kv).1) (hp : (setState capReady readyOk c new kv').1 ≠ -1) :
    setState capReady readyOk (setState capReady readyOk c new kv).2 new kv' = (0, (setState capReady readyOk c new kv).2) :=
  setState_again h hp

/-- C39.  Requests in other phases are refused, whatever they are and whatever the state. -/
theorem C39_refused_outside_phases (c : Ctx Ready) (new : Ready) (kv : KvOutcome) (h : c.phase ∉ readyPhases) :
    (setState capReady readyOk c new kv).1 = -1 := by
  have : capReady c.phase = false := by revert h; cases c.phase <;> simp [capReady, readyPhases]
  simp [setState, this]

/-- C39.  Where the claim fails: a command that sets the state of a known device without reading it first moves a public
    device back to unprocessed (the first module in the initial phase can do so) ... -/
theorem C39_unread_state_counterexample :
    let c := [Op.set Ready.unprocessed .stored, .set .isPublic .stored, .command .aInit].foldl stepReady (fresh .undefined .aInit)
    seen .undefined c = .isPublic ∧ (setState capReady readyOk c .unprocessed .stored).1 = 0 ∧
      seen .undefined (stepReady c (.set .unprocessed .stored)) = .unprocessed ∧
      ¬ ReadyMove .isPublic .unprocessed := by
  refine ⟨rfl, rfl, rfl, ?_⟩
  intro h; cases h

/-- ... and a change the store denies is reported as 1, taken for success, and shown for the rest of the command,
    although the record was never changed: the next command sees the old state again. -/
theorem C39_denied_write_counterexample :
    let c := [Op.set Ready.unprocessed .stored].foldl stepReady (fresh .undefined .aInit)
    (setState capReady readyOk c .isPublic .deniedByStore).1 = 1 ∧
      seen .undefined (stepReady c (.set .isPublic .deniedByStore)) = .isPublic ∧
      seen .undefined (stepReady (stepReady c (.set .isPublic .deniedByStore)) (.command .aInit)) = .unprocessed :=
  ⟨rfl, rfl, rfl⟩

/-- C40 (partial).  As C39 for the reserved state. -/
theorem C40_reserved_moves_partial (p : Phase) (ops : List (Op Reserved)) (o : Op Reserved)
    (hd : DisciplinedAll .undefined stepReserved (fresh .undefined p) (ops ++ [o])) :
    let c := ops.foldl stepReserved (fresh .undefined p)
    seen .undefined (stepReserved c o) = seen .undefined c ∨
      (ReservedMove (seen .undefined c) (seen .undefined (stepReserved c o)) ∧ c.phase ∈ reservedPhases ∧
        ∃ kv, o = .set (seen .undefined (stepReserved c o)) kv ∧
          (setState capReserved reservedOk c (seen .undefined (stepReserved c o)) kv).1 = 0) := by
  intro c
  have split : ∀ (l : List (Op Reserved)) (c : Ctx Reserved), DisciplinedAll .undefined stepReserved c (l ++ [o]) →
      DisciplinedAll .undefined stepReserved c l ∧ Disciplined .undefined (l.foldl stepReserved c) o := by
    intro l
    induction l with
    | nil => intro c h; exact ⟨trivial, h.1⟩
    | cons x l ih => intro c h; exact ⟨⟨h.1, (ih _ h.2).1⟩, (ih _ h.2).2⟩
  obtain ⟨h1, h2⟩ := split ops _ hd
  have I : StInv .undefined c := run_inv_ds (by intro o; cases o <;> rfl) (fresh_inv p) h1
  rcases step_seen (cap := capReserved) (ok := reservedOk) (by intro o; cases o <;> rfl) I h2 with
    h | ⟨new, kv, e1, e2, e3, _, e5, e6⟩
  · exact Or.inl h
  · have e6' : seen .undefined (stepReserved c o) = new := e6
    rw [e6']
    refine Or.inr ⟨reservedOk_iff.1 e3, ?_, kv, e1, e5⟩
    revert e2; cases c.phase <;> simp [capReserved, reservedPhases]

/-- C40.  A refused request (negative result) changes nothing. -/
theorem C40_refused_changes_nothing (c : Ctx Reserved) (new : Reserved) (kv : KvOutcome)
    (h : (setState capReserved reservedOk c new kv).1 < 0) : (setState capReserved reservedOk c new kv).2 = c := by
  revert h
  simp only [setState]
  repeat' split
  all_goals (first | (intro _; rfl) | (intro h; exact absurd h (by assumption)))

/-- C40.  A request that succeeded succeeds again in the same phase and changes nothing more, whatever the store says. -/
theorem C40_repeated_request (c : Ctx Reserved) (new : Reserved) (kv kv' : KvOutcome)
    (h : 0 ≤ (setState capReserved reservedOk c new kv).1) (hp : (setState capReserved reservedOk c new kv').1 ≠ -1) :
    setState capReserved reservedOk (setState capReserved reservedOk c new kv).2 new kv' = (0, (setState capReserved reservedOk c new kv).2) :=
  setState_again h hp

/-- C40.  Requests in other phases are refused. -/
theorem C40_refused_outside_phases (c : Ctx Reserved) (new : Reserved) (kv : KvOutcome) (h : c.phase ∉ reservedPhases) :
    (setState capReserved reservedOk c new kv).1 = -1 := by
  have : capReserved c.phase = false := by revert h; cases c.phase <;> simp [capReserved, reservedPhases]
  simp [setState, this]

/-- C40.  Where the claim fails: unread state. -/
theorem C40_unread_state_counterexample :
    let c := [Op.set Reserved.unprocessed .stored, .set .used .stored, .command .aInit].foldl stepReserved
      (fresh .undefined .aInit)
    seen .undefined c = .used ∧ (setState capReserved reservedOk c .unprocessed .stored).1 = 0 ∧
      seen .undefined (stepReserved c (.set .unprocessed .stored)) = .unprocessed ∧
      ¬ ReservedMove .used .unprocessed := by
  refine ⟨rfl, rfl, rfl, ?_⟩
  intro h; cases h

/-- A new device: discovered, configured, and in a second command read and made unavailable -/
example : DisciplinedAll .undefined stepReady (fresh .undefined .aInit)
    ([.set .unprocessed .stored, .phase .aCurrent, .set .isPublic .stored, .phase .aPostNext, .set .flat .stored,
      .command .aInit, .get] ++ [.set .unavailable .stored]) := by
  simp [DisciplinedAll, Disciplined, stepReady, step, fresh, setState, getState, capReady, readyOk, KvOutcome.code]

example : DisciplinedAll .undefined stepReserved (fresh .undefined .aInit)
    ([.set .unprocessed .stored, .phase .aExit] ++ [.set .free .stored]) := by
  simp [DisciplinedAll, Disciplined, stepReserved, step, fresh, setState, capReserved, reservedOk, KvOutcome.code]

end Sid.Props
