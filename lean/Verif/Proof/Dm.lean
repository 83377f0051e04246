import Verif.Model.Dm
/-
The stages of the scan of a device-mapper device in closed form.
-/
namespace Sid.Dm
open Sid.DevState Sid.Event Sid.Scan

/-- the ready state is read into the context -/
def load (w : World) : World := { w with ready := (getState .undefined w.ready).2 }

/-- the reserved state is read into the context -/
def loadRes (w : World) : World := { w with reserved := (getState .undefined w.reserved).2 }

/-- the default for the ready state -/
def defReady (w : World) : World :=
  if w.ready.cached = .unprocessed then { w with ready := ⟨.aExit, .isPublic, some .isPublic⟩ } else w

/-- the default for the reserved state -/
def defRes (w : World) : World :=
  if w.reserved.cached = .unprocessed then { w with reserved := ⟨.aExit, .free, some .free⟩ } else w

theorem getState_val {α : Type} [DecidableEq α] {u : α} (c : DevState.Ctx α) :
    (getState u c).1 = (getState u c).2.cached := by
  unfold getState
  split
  · cases c.stored <;> rfl
  · rfl

theorem getState_idem {α : Type} [DecidableEq α] {u : α} (c : DevState.Ctx α) :
    (getState u (getState u c).2).2 = (getState u c).2 := by
  unfold getState
  split
  · cases hs : c.stored with
    | none => simp [*]
    | some v =>
      by_cases hv : v = u
      · simp [hv, hs]
      · simp [hv]
  · simp [*]

theorem load_idem (w : World) : load (load w) = load w := by
  unfold load
  simp only [getState_idem]

theorem aExit_load (w : World) : aExit (load w) = aExit w := by
  unfold aExit load
  simp only [getState_idem]
  rw [getState_val, getState_idem, ← getState_val]

theorem aExit_code (w : World) : (aExit w).1 = 0 := by
  unfold aExit
  dsimp only
  split <;> rfl

theorem scanPre_code (kv : Ready → KvOutcome) (e : Ev) (w : World) : (scanPre kv e w).1 = 0 ∨ (scanPre kv e w).1 = -1 := by
  unfold scanPre
  dsimp only
  split
  · exact .inr rfl
  · split
    · exact .inr rfl
    · dsimp only
      split
      · exact .inr rfl
      · exact .inl rfl

theorem h_call (lvm : Bool) (e : Ev) (ph : Phase) (st : St World Unit) :
    callMod (env lvm e) ph () st = (if (fn lvm e ph st.s).1 < 0 then -1 else 0,
      { st with s := (fn lvm e ph st.s).2, calls := st.calls ++ [((), ph)] }) := rfl

theorem h_block (lvm : Bool) (e : Ev) (ph : Phase) (b : Bool) (st : St World Unit) : execBlockMods (env lvm e) ph b st = st := by
  unfold execBlockMods
  cases b <;> rfl

theorem h_init (lvm : Bool) (e : Ev) (ph : Phase) (st : St World Unit) :
    ∃ l, commonInit (env lvm e) ph st = (if (fn lvm e ph (newDev st.s)).1 < 0 then -1 else 0,
      ⟨(fn lvm e ph (newDev st.s)).2, some (), st.next, l⟩) := by
  unfold commonInit
  have hd : (if (env lvm e).isRemove = true then (0, newDev st.s) else (env lvm e).updateDeps (newDev st.s)) = ((0 : Int), newDev st.s) := by
    split <;> rfl
  dsimp only [env] at hd ⊢
  simp only [hd, Int.lt_irrefl, if_false]
  exact ⟨_, rfl⟩

/-- the phases between in the first stage read the state and do nothing else -/
theorem h_mid (lvm : Bool) (e : Ev) (ph : Phase) (hp : ph = .aCurrent ∨ ph = .aNext ∨ ph = .aPostCurrent ∨ ph = .aPostNext) (w : World)
    (l : List (Unit × Phase)) :
    ∃ c l', handler (env lvm e) ph ⟨w, some (), none, l⟩ = (c, ⟨load w, some (), none, l'⟩) ∧ (c = 0 ∨ c = 1) := by
  rcases hp with h | h | h | h
  · subst h
    simp only [handler, aCurrent, readyOrDefault]
    simp only [Option.isNone_some, Bool.false_eq_true, and_false, if_false]
    split
    · exact ⟨_, _, rfl, .inr rfl⟩
    · unfold execBoth
      rw [h_block]
      exact ⟨_, _, rfl, .inl rfl⟩
  · subst h
    simp only [handler, aNext]
    split
    · exact ⟨_, _, rfl, .inr rfl⟩
    · rw [h_block]
      exact ⟨_, _, rfl, .inl rfl⟩
  · subst h
    simp only [handler, aPostCurrent]
    split
    · exact ⟨_, _, rfl, .inr rfl⟩
    · unfold execBoth
      rw [h_block]
      exact ⟨_, _, rfl, .inl rfl⟩
  · subst h
    simp only [handler, aPostNext]
    split
    · exact ⟨_, _, rfl, .inr rfl⟩
    · unfold execBoth
      rw [h_block]
      exact ⟨_, _, rfl, .inl rfl⟩

theorem h_finReady (lvm : Bool) (e : Ev) (r : Int × St World Unit) :
    finishReady (env lvm e) r = (r.1, { r.2 with s := defReady (load r.2.s) }) := by
  unfold finishReady defReady
  have hv : (load r.2.s).ready.cached = (getState .undefined r.2.s.ready).1 := (getState_val _).symm
  by_cases h : (getState .undefined r.2.s.ready).1 = Ready.unprocessed
  · have hc : (getState .undefined r.2.s.ready).2.cached = Ready.unprocessed := by rw [← getState_val]; exact h
    have : ((env lvm e).getReady r.2.s).1 = .unprocessed := h
    simp only [this, hv, h, if_true]
    simp [env, setState, capReady, readyOk, hc, KvOutcome.code, load]
  · have : ¬ ((env lvm e).getReady r.2.s).1 = .unprocessed := h
    simp only [this, hv, h, if_false]
    rfl

theorem h_finRes (lvm : Bool) (e : Ev) (r : Int × St World Unit) :
    finishReserved (env lvm e) r = (r.1, { r.2 with s := defRes (loadRes r.2.s) }) := by
  unfold finishReserved defRes
  have hv : (loadRes r.2.s).reserved.cached = (getState .undefined r.2.s.reserved).1 := (getState_val _).symm
  by_cases h : (getState .undefined r.2.s.reserved).1 = Reserved.unprocessed
  · have hc : (getState .undefined r.2.s.reserved).2.cached = Reserved.unprocessed := by rw [← getState_val]; exact h
    have : ((env lvm e).getReserved r.2.s).1 = .unprocessed := h
    simp only [this, hv, h, if_true]
    simp [env, setState, capReserved, reservedOk, hc, KvOutcome.code, loadRes]
  · have : ¬ ((env lvm e).getReserved r.2.s).1 = .unprocessed := h
    simp only [this, hv, h, if_false]
    rfl

/-- the end of the first stage -/
def fin (w : World) : World := defRes (loadRes (defReady (load (aExit w).2)))

theorem h_exit (lvm : Bool) (e : Ev) (w : World) (n : Option Unit) (l : List (Unit × Phase)) :
    ∃ l', handler (env lvm e) .aExit ⟨w, some (), n, l⟩ = (0, ⟨fin w, some (), n, l'⟩) := by
  simp only [handler, h_finRes, h_finReady]
  have h : execExit (env lvm e) .aExit ⟨w, some (), n, l⟩ = (0, ⟨(aExit w).2, some (), n, l ++ [((), .aExit)]⟩) := by
    simp only [execExit, h_block, execTypeMod, h_call, fn, aExit_code]
    rfl
  rw [h]
  exact ⟨_, rfl⟩

theorem h_error (lvm : Bool) (e : Ev) (w : World) (l : List (Unit × Phase)) :
    ∃ l', handler (env lvm e) .error ⟨w, some (), none, l⟩ = (0, ⟨w, some (), none, l'⟩) := by
  simp only [handler, scanError, h_block]
  exact ⟨_, rfl⟩

/-- the first stage -/
theorem stageA (lvm : Bool) {e : Ev} (hr : e.action ≠ .remove) (w : World) :
    stage lvm 1 e w = if (fn lvm e .aInit (newDev w)).1 < 0 then (-1, (fn lvm e .aInit (newDev w)).2)
      else (0, fin (fn lvm e .aPre (fn lvm e .aInit (newDev w)).2).2) := by
  unfold stage cmdExecScan
  simp only [hr, decide_false, Scan.range, Bool.false_eq_true, if_false, exitPhase]
  obtain ⟨l0, h0⟩ := h_init lvm e .aInit ⟨w, some (), none, []⟩
  have h0 : handler (env lvm e) .aInit ⟨w, some (), none, []⟩ = _ := h0
  rw [show code .aExit = 6 from rfl, show code .aInit = 0 from rfl]
  rw [scanLoop]
  simp only [show ¬ (0 > 6) by decide, if_false, show ofCode 0 = .aInit from rfl, h0]
  by_cases hi : (fn lvm e .aInit (newDev w)).1 < 0
  · simp [hi, terminalPhase]
  · simp only [hi, if_false, true_or, if_true]
    generalize (fn lvm e .aInit (newDev w)).2 = w1
    rw [scanLoop]
    simp only [show ¬ (0 + 1 > 6) by decide, if_false, show ofCode (0 + 1) = .aPre from rfl]
    have h1 : ∃ l', handler (env lvm e) .aPre ⟨w1, some (), none, l0⟩ =
        (if (fn lvm e .aPre w1).1 < 0 then -1 else 0, ⟨(fn lvm e .aPre w1).2, some (), none, l'⟩) := by
      simp only [handler, execBoth, h_block]
      exact ⟨_, rfl⟩
    obtain ⟨l1, h1⟩ := h1
    simp only [h1]
    by_cases hp : (fn lvm e .aPre w1).1 < 0
    · simp only [hp, if_true, show ¬ ((-1 : Int) = 0 ∨ (-1 : Int) = 1) by decide, if_false, terminalPhase, Bool.false_eq_true]
      clear h1 h0 hp hi
      generalize (fn lvm e .aPre w1).2 = w2
      obtain ⟨l2, h2⟩ := h_error lvm e w2 l1
      rw [h2]
      obtain ⟨l3, h3⟩ := h_exit lvm e w2 none l2
      rw [h3, scanLoop]
      generalize fin w2 = w3
      rfl
    · simp only [hp, if_false, true_or, if_true]
      generalize (fn lvm e .aPre w1).2 = w2
      have hm : ∀ (c fuel : Nat) (ph : Phase) (w : World) (l), (c > 6) = False → ofCode c = ph →
          (ph = .aCurrent ∨ ph = .aNext ∨ ph = .aPostCurrent ∨ ph = .aPostNext) →
          ∃ k l', scanLoop (handler (env lvm e)) .aExit 6 (fuel + 1) c ⟨w, some (), none, l⟩ =
            (scanLoop (handler (env lvm e)) .aExit 6 fuel (c + 1) ⟨load w, some (), none, l'⟩).map
              fun x => (x.1, x.2.1, (ph, k) :: x.2.2) := by
        intro c fuel ph w l hc ho hph
        obtain ⟨k, l', hk, hk'⟩ := h_mid lvm e ph hph w l
        refine ⟨k, l', ?_⟩
        rw [scanLoop]
        simp only [hc, if_false, ho, hk, hk', if_true]
      obtain ⟨k1, l3, h3⟩ := hm 2 13 .aCurrent w2 l1 (by simp) rfl (by simp)
      obtain ⟨k2, l4, h4⟩ := hm 3 12 .aNext (load w2) l3 (by simp) rfl (by simp)
      obtain ⟨k3, l5, h5⟩ := hm 4 11 .aPostCurrent (load w2) l4 (by simp) rfl (by simp)
      obtain ⟨k4, l6, h6⟩ := hm 5 10 .aPostNext (load w2) l5 (by simp) rfl (by simp)
      rw [load_idem] at h4 h5 h6
      have h7 : ∃ x : List (Unit × Phase) × List (Phase × Int), scanLoop (handler (env lvm e)) .aExit 6 10 6 ⟨load w2, some (), none, l6⟩ =
          some (0, ⟨fin w2, some (), none, x.1⟩, x.2) := by
        obtain ⟨l', h⟩ := h_exit lvm e (load w2) none l6
        rw [scanLoop]
        simp only [show ¬ (6 > 6) by decide, if_false, show ofCode 6 = .aExit from rfl, h, true_or, if_true]
        rw [scanLoop]
        simp only [show 6 + 1 > 6 by decide, if_true, Option.map_some]
        refine ⟨(l', [(.aExit, 0)]), ?_⟩
        unfold fin
        rw [aExit_load]
      obtain ⟨x, h7⟩ := h7
      have h8 := h3
      rw [show 2 + 1 = 3 from rfl, h4, show 3 + 1 = 4 from rfl, h5, show 4 + 1 = 5 from rfl, h6, show 5 + 1 = 6 from rfl, h7] at h8
      simp only [Option.map_some] at h8
      rw [show 0 + 1 + 1 = 2 from rfl, h8]
      rfl

/-- the first stage for a device that went away -/
theorem stageR (lvm : Bool) {e : Ev} (hr : e.action = .remove) (w : World) :
    stage lvm 1 e w = (if (fn lvm e .removeInit (newDev w)).1 < 0 then -1 else 0, (fn lvm e .removeInit (newDev w)).2) := by
  unfold stage cmdExecScan
  simp only [hr, decide_true, Scan.range, if_true, exitPhase]
  obtain ⟨l0, h0⟩ := h_init lvm e .removeInit ⟨w, some (), none, []⟩
  have h0 : handler (env lvm e) .removeInit ⟨w, some (), none, []⟩ = _ := h0
  rw [show code .removeExit = 9 from rfl, show code .removeInit = 7 from rfl]
  rw [scanLoop]
  simp only [show ¬ (7 > 9) by decide, if_false, show ofCode 7 = .removeInit from rfl, h0]
  by_cases hi : (fn lvm e .removeInit (newDev w)).1 < 0
  · simp [hi, terminalPhase]
  · simp only [hi, if_false, Int.lt_irrefl, true_or, if_true]
    generalize (fn lvm e .removeInit (newDev w)).2 = w1
    rfl

/-- the second stage -/
theorem stageB (lvm : Bool) (e : Ev) (w : World) : stage lvm 2 e w = (0, (actionCurrent w).2) := by
  unfold stage cmdExecScan
  simp only [Scan.range, exitPhase]
  unfold actionCurrent
  cases hb : w.base <;> simp [scanLoop, code, ofCode, handler, execBoth, execExit, h_block, execTypeMod, h_call, fn, actionCurrent, hb]

end Sid.Dm
