import Verif.Model.Scan
import Verif.Spec.Scan
/-
C41, C57: the scan.
-/
namespace Sid.Props
open Sid.DevState Sid.Scan Sid.Spec.Scan

/-- the loop from a middle phase on; `n` phases are left before the exit phase -/
theorem loop_rest {σ : Type} (exec : Phase → σ → Int × σ) (exit : Phase) (hx : ofCode (code exit) = exit)
    (hxt : terminalPhase exit = true) :
    ∀ (mids : List Phase) (c fuel : Nat) (s : σ),
      (∀ i, i < mids.length → mids[i]? = some (ofCode (c + i))) → c + mids.length = code exit →
      (∀ m ∈ mids, terminalPhase m = false) → mids.length + 2 ≤ fuel →
      ∃ v s' t, scanLoop exec exit (code exit) fuel c s = some (v, s', t) ∧ Rest exit mids t v ∧ Follows exec s t s' := by
  intro mids
  induction mids with
  | nil =>
    intro c fuel s _ hc _ hf
    obtain ⟨fuel, rfl⟩ : ∃ f, fuel = f + 2 := ⟨fuel - 2, by simp at hf; omega⟩
    have hc' : c = code exit := by simpa using hc
    subst hc'
    simp only [scanLoop, Nat.lt_irrefl, if_false, hx, gt_iff_lt]
    by_cases h : (exec exit s).1 = 0 ∨ (exec exit s).1 = 1
    · simp only [h, if_true, Nat.lt_succ_self, Option.map_some]
      exact ⟨_, _, _, rfl, .exitOk h, rfl, rfl⟩
    · simp only [h, if_false, hxt, if_true]
      exact ⟨_, _, _, rfl, .exitFails h, rfl, rfl⟩
  | cons m ms ih =>
    intro c fuel s hidx hc hnt hf
    obtain ⟨fuel, rfl⟩ : ∃ f, fuel = f + 2 := ⟨fuel - 2, by simp at hf; omega⟩
    have hm : ofCode c = m := by
      have := hidx 0 (by simp)
      simpa using this.symm
    have hle : ¬ c > code exit := by simp at hc; omega
    rw [show fuel + 2 = (fuel + 1) + 1 from rfl, scanLoop]
    simp only [hle, if_false, hm]
    by_cases h : (exec m s).1 = 0 ∨ (exec m s).1 = 1
    · simp only [h, if_true]
      obtain ⟨v, s', t, h1, h2, h3⟩ := ih (c + 1) (fuel + 1) (exec m s).2 (by
        intro i hi
        have := hidx (i + 1) (by simpa using hi)
        simpa [Nat.add_assoc, Nat.add_comm 1 i] using this) (by simp at hc; omega)
        (fun x hx => hnt x (by simp [hx])) (by simp at hf; omega)
      rw [h1]
      exact ⟨_, _, _, rfl, .go h h2, rfl, h3⟩
    · simp only [h, if_false, hnt m (by simp), Bool.false_eq_true]
      rw [scanLoop]
      simp only [gt_iff_lt, Nat.lt_succ_self, if_true, Option.map_some]
      exact ⟨_, _, _, rfl, .fails h, rfl, rfl, rfl, rfl⟩

theorem scan_course {σ : Type} (exec : Phase → σ → Int × σ) (p : Plan) (s : σ) (fuel : Nat)
    (hx : ofCode (code p.exit) = p.exit) (hi : ofCode (code p.init) = p.init)
    (hxt : terminalPhase p.exit = true) (hit : terminalPhase p.init = true)
    (hidx : ∀ i, i < p.mids.length → p.mids[i]? = some (ofCode (code p.init + 1 + i)))
    (hc : code p.init + 1 + p.mids.length = code p.exit) (hnt : ∀ m ∈ p.mids, terminalPhase m = false)
    (hf : p.mids.length + 3 ≤ fuel) :
    ∃ v s' t, scanLoop exec p.exit (code p.exit) fuel (code p.init) s = some (v, s', t) ∧ Course p t v ∧
      Follows exec s t s' := by
  obtain ⟨fuel, rfl⟩ : ∃ f, fuel = f + 1 := ⟨fuel - 1, by omega⟩
  rw [scanLoop]
  have hle : ¬ code p.init > code p.exit := by omega
  simp only [hle, if_false, hi]
  by_cases h : (exec p.init s).1 = 0 ∨ (exec p.init s).1 = 1
  · simp only [h, if_true]
    obtain ⟨v, s', t, h1, h2, h3⟩ := loop_rest exec p.exit hx hxt p.mids (code p.init + 1) fuel (exec p.init s).2
      hidx hc hnt (by omega)
    rw [h1]
    exact ⟨_, _, _, rfl, .initOk h h2, rfl, h3⟩
  · simp only [h, if_false, hit, if_true]
    exact ⟨_, _, _, rfl, .initFails h, rfl, rfl⟩

/-- C41.  Whatever the phase handlers do and return (each may depend on everything that happened before), a scan of
    either stage and kind ends and takes a documented course: phases in order; a failing init phase ends it; a failing
    middle phase is followed by exactly the error phase and the exit phase; the overall result is -1 exactly if the init
    phase failed or the exit phase failed with no middle phase having failed. -/
theorem C41_scan_course {σ : Type} (exec : Phase → σ → Int × σ) (stage : Nat) (remove : Bool) (p : Plan)
    (hp : plan stage remove = some p) (s : σ) :
    ∃ v s' t, cmdExecScan exec stage remove s = some (v, s', t) ∧ Course p t v ∧ Follows exec s t s' := by
  have h4 : ∀ (p : Plan), p.mids.length ≤ 5 → p.mids.length + 3 ≤ 16 := by intro p h; omega
  unfold plan at hp
  split at hp
  · rename_i hs
    subst hs
    cases remove
    · simp only [Bool.false_eq_true, if_false, Option.some.injEq] at hp
      subst hp
      exact scan_course exec planA s 16 rfl rfl rfl rfl (by decide) rfl (by decide) (by decide)
    · simp only [if_true, Option.some.injEq] at hp
      subst hp
      exact scan_course exec planRemove s 16 rfl rfl rfl rfl (by decide) rfl (by decide) (by decide)
  · split at hp
    · rename_i hs
      subst hs
      simp only [Option.some.injEq] at hp
      subst hp
      exact scan_course exec planB s 16 rfl rfl rfl rfl (by decide) rfl (by decide) (by decide)
    · simp at hp

theorem rest_exit_once {exit : Phase} {mids t v} (h : Rest exit mids t v) (hm : exit ∉ mids) (he : exit ≠ .error) :
    (t.map (·.1)).count exit = 1 ∧ (t.map (·.1)).getLast? = some exit := by
  induction h with
  | exitOk _ => simp
  | exitFails _ => simp
  | @go m ms r t v _ hr ih =>
    simp only [List.mem_cons, not_or] at hm
    have := ih hm.2
    have hne : (m == exit) = false := by simpa using fun e => hm.1 e.symm
    refine ⟨by simp [List.count_cons, hne, this.1], ?_⟩
    cases t with
    | nil => cases hr
    | cons a t => simpa [List.getLast?_cons_cons] using this.2
  | @fails m ms r e x _ =>
    simp only [List.mem_cons, not_or] at hm
    have hne : (m == exit) = false := by simpa using fun e => hm.1 e.symm
    have hne2 : ((Phase.error) == exit) = false := by simpa using fun e => he e.symm
    exact ⟨by simp [List.count_cons, hne, hne2], by simp⟩

/-- C41.  In every scan whose init phase succeeded, the exit phase runs exactly once, as the last phase. -/
theorem C41_exit_runs_once {σ : Type} (exec : Phase → σ → Int × σ) (stage : Nat) (remove : Bool) (p : Plan)
    (hp : plan stage remove = some p) (s : σ) (hi : Fine (exec p.init s).1) :
    ∃ v s' t, cmdExecScan exec stage remove s = some (v, s', t) ∧ (t.map (·.1)).count p.exit = 1 ∧
      (t.map (·.1)).getLast? = some p.exit := by
  obtain ⟨v, s', t, h1, h2, h3⟩ := C41_scan_course exec stage remove p hp s
  refine ⟨v, s', t, h1, ?_⟩
  have hpl : p.init ≠ p.exit ∧ p.exit ∉ p.mids ∧ p.exit ≠ .error := by
    unfold plan at hp
    split at hp
    · split at hp <;> (simp only [Option.some.injEq] at hp; subst hp; decide)
    · split at hp
      · simp only [Option.some.injEq] at hp; subst hp; decide
      · simp at hp
  cases h2 with
  | initFails h => exact absurd (h3.1 ▸ hi) h
  | @initOk r t v _ hr =>
    have := rest_exit_once hr hpl.2.1 hpl.2.2
    have hne : (p.init == p.exit) = false := by simpa using hpl.1
    refine ⟨by simp [List.count_cons, hne, this.1], ?_⟩
    cases t with
    | nil => simp at this
    | cons a t => simpa [List.getLast?_cons_cons] using this.2

/-- C41.  A command in any other stage runs no phase and fails. -/
theorem C41_bad_stage {σ : Type} (exec : Phase → σ → Int × σ) (stage : Nat) (remove : Bool) (s : σ)
    (h1 : stage ≠ 1) (h2 : stage ≠ 2) : cmdExecScan exec stage remove s = some (-1, s, []) := by
  unfold cmdExecScan range
  split
  · rfl
  · rename_i h
    split at h <;> simp_all

/-! ### C57: what the handlers do with modules -/

variable {σ M : Type}

theorem callMod_calls (env : Env σ M) (ph : Phase) (m : M) (st : St σ M) :
    ∃ l, (callMod env ph m st).2.calls = st.calls ++ l ∧ l.Sublist [(m, ph)] ∧
      (callMod env ph m st).2.cur = st.cur ∧ (callMod env ph m st).2.next = st.next := by
  unfold callMod
  split
  · exact ⟨[], by simp, by simp, rfl, rfl⟩
  · split
    · exact ⟨[], by simp, by simp, rfl, rfl⟩
    · exact ⟨[(m, ph)], rfl, List.Sublist.refl _, rfl, rfl⟩

theorem execMods_calls (env : Env σ M) (ph : Phase) (ms : List M) (st : St σ M) :
    ∃ l, (execMods env ph ms st).2.calls = st.calls ++ l ∧ l.Sublist (ms.map fun m => (m, ph)) ∧
      (execMods env ph ms st).2.cur = st.cur ∧ (execMods env ph ms st).2.next = st.next := by
  induction ms generalizing st with
  | nil => exact ⟨[], by simp [execMods], by simp, rfl, rfl⟩
  | cons m ms ih =>
    obtain ⟨l1, h1, h2, h3, h4⟩ := callMod_calls env ph m st
    rw [execMods]
    split
    · refine ⟨l1, h1, ?_, h3, h4⟩
      have : [(m, ph)].Sublist ((m :: ms).map fun m => (m, ph)) := by simp
      exact h2.trans this
    · obtain ⟨l2, g1, g2, g3, g4⟩ := ih (callMod env ph m st).2
      refine ⟨l1 ++ l2, by rw [g1, h1, List.append_assoc], ?_, g3.trans h3, g4.trans h4⟩
      exact h2.append g2

theorem execTypeMod_calls (env : Env σ M) (ph : Phase) (m : Option M) (st : St σ M) :
    ∃ l, (execTypeMod env ph m st).2.calls = st.calls ++ l ∧ l.Sublist (m.toList.map fun m => (m, ph)) ∧
      (execTypeMod env ph m st).2.cur = st.cur ∧ (execTypeMod env ph m st).2.next = st.next := by
  cases m with
  | none => exact ⟨[], by simp [execTypeMod], by simp, rfl, rfl⟩
  | some m => exact callMod_calls env ph m st

theorem execBoth_calls (env : Env σ M) (ph : Phase) (m : St σ M → Option M)
    (hm : ∀ a b : St σ M, a.cur = b.cur → a.next = b.next → m a = m b) (st : St σ M) :
    ∃ l, (execBoth env ph m st).2.calls = st.calls ++ l ∧
      l.Sublist ((env.blockMods ++ (m st).toList).map fun m => (m, ph)) := by
  obtain ⟨l1, h1, h2, h3, h4⟩ := execMods_calls env ph env.blockMods st
  unfold execBoth execBlockMods
  simp only [Bool.false_eq_true, if_false]
  obtain ⟨l2, g1, g2, _, _⟩ := execTypeMod_calls env ph (m (execMods env ph env.blockMods st).2)
    (execMods env ph env.blockMods st).2
  refine ⟨l1 ++ l2, by rw [g1, h1, List.append_assoc], ?_⟩
  rw [hm _ st h3 h4] at g2
  rw [List.map_append]
  exact h2.append g2

/-- C57.  Next-layer phases: unless the ready state read at their start is "public", they are skipped and no module is
    called. -/
theorem C57_next_layer_needs_public (env : Env σ M) (st : St σ M) (ph : Phase) (hph : ph = .aNext ∨ ph = .aPostNext)
    (h : (env.getReady st.s).1 ≠ .isPublic) :
    (handler env ph st).1 = 1 ∧ (handler env ph st).2.calls = st.calls := by
  rcases hph with rfl | rfl <;> simp [handler, aNext, aPostNext, h]

/-- C57.  When a device goes, its place in the stack is brought up to date behind the modules, and the result is that of this;
    but not if the type module of the device has no symbols or its function fails. -/
theorem C57_remove_updates_stack (env : Env σ M) (st : St σ M) :
    ((∃ s, (handler env .removeCurrent st).1 = (env.updateDeps s).1 ∧ (handler env .removeCurrent st).2.s = (env.updateDeps s).2) ∧
        ∀ m, st.cur = some m → ∃ f, env.fns m = some f) ∨
      (handler env .removeCurrent st).1 = -1 ∧ ∃ m, st.cur = some m ∧
        (env.fns m = none ∨ ∃ f g s, env.fns m = some f ∧ f .removeCurrent = some g ∧ (g s).1 < 0) := by
  obtain ⟨-, -, -, hcur, -⟩ := execMods_calls env .removeCurrent env.blockMods st
  have hm : ∀ (m : Option M) (st' : St σ M),
      (0 ≤ (execTypeMod env .removeCurrent m st').1 ∧ ∀ x, m = some x → ∃ f, env.fns x = some f) ∨
      ((execTypeMod env .removeCurrent m st').1 < 0 ∧ ∃ x, m = some x ∧
        (env.fns x = none ∨ ∃ f g s, env.fns x = some f ∧ f .removeCurrent = some g ∧ (g s).1 < 0)) := by
    intro m st'
    cases m with
    | none => exact Or.inl ⟨by simp [execTypeMod], nofun⟩
    | some x =>
      cases hf : env.fns x with
      | none => exact Or.inr ⟨by simp [execTypeMod, callMod, hf], x, rfl, Or.inl hf⟩
      | some f =>
        cases hg : f .removeCurrent with
        | none => exact Or.inl ⟨by simp [execTypeMod, callMod, hf, hg], fun y e => by cases e; exact ⟨f, hf⟩⟩
        | some g =>
          by_cases h : (g st'.s).1 < 0
          · exact Or.inr ⟨by simp [execTypeMod, callMod, hf, hg, h], x, rfl, Or.inr ⟨f, g, _, hf, hg, h⟩⟩
          · exact Or.inl ⟨by simp [execTypeMod, callMod, hf, hg, h], fun y e => by cases e; exact ⟨f, hf⟩⟩
  have hb : (execBlockMods env .removeCurrent false st).cur = st.cur := hcur
  have h := hm st.cur (execBlockMods env .removeCurrent false st)
  simp only [handler, removeCurrent, execBoth, hb]
  generalize execTypeMod env .removeCurrent st.cur (execBlockMods env .removeCurrent false st) = r at h ⊢
  rcases h with ⟨h1, h2⟩ | ⟨h1, h2⟩
  · left
    rw [if_neg (by omega)]
    exact ⟨⟨_, rfl, rfl⟩, h2⟩
  · right
    rw [if_pos h1]
    exact ⟨rfl, h2⟩

/-- C57.  Current-layer phase after the scan: skipped unless the device is private, flat or public. -/
theorem C57_current_layer_needs_ready (env : Env σ M) (st : St σ M)
    (h : (env.getReady st.s).1 ∉ [Ready.isPrivate, .flat, .isPublic]) :
    (handler env .aPostCurrent st).1 = 1 ∧ (handler env .aPostCurrent st).2.calls = st.calls := by
  have hc : currentOk (env.getReady st.s).1 = false := by
    revert h; cases (env.getReady st.s).1 <;> simp [currentOk]
  simp [handler, aPostCurrent, hc]

/-- C57.  Current-layer phase: likewise, except that an unprocessed device without a type module is first made public
    (and if that is refused the phase fails without calling modules). -/
theorem C57_current_phase_default (env : Env σ M) (st : St σ M)
    (h : (env.getReady st.s).1 ∉ [Ready.isPrivate, .flat, .isPublic]) :
    (handler env .aCurrent st).2.calls = st.calls ∨
      ((env.getReady st.s).1 = .unprocessed ∧ st.cur = none ∧
        0 ≤ (env.setReady .isPublic (env.getReady st.s).2).1) := by
  have hc : currentOk (env.getReady st.s).1 = false := by
    revert h; cases (env.getReady st.s).1 <;> simp [currentOk]
  simp only [handler, aCurrent, readyOrDefault]
  by_cases hd : (env.getReady st.s).1 = .unprocessed ∧ st.cur.isNone
  · simp only [hd, and_self, if_true]
    by_cases hw : (env.setReady .isPublic (env.getReady st.s).2).1 < 0
    · left; simp [hw]
    · right
      exact ⟨trivial, by simpa using hd.2, by omega⟩
  · left
    have : ¬ ((env.getReady st.s).1 = .unprocessed ∧ st.cur.isNone = true) := hd
    simp only [this, if_false, hc, Bool.not_false, if_true]

/-- C57.  Order of calls in a phase that runs modules: block modules in registry order, then the type module; in the exit
    phase the type module, then block modules in reverse.  Every module is called at most once and only with its function
    for that phase. -/
theorem C57_call_order (env : Env σ M) (st : St σ M) :
    (∀ ph, ph = .aPre ∨ ph = .bInit ∨ ph = .bActionCurrent → ∃ l, (handler env ph st).2.calls = st.calls ++ l ∧
      l.Sublist ((env.blockMods ++ st.cur.toList).map fun m => (m, ph))) ∧
    (∃ l, (handler env .bActionNext st).2.calls = st.calls ++ l ∧
      l.Sublist ((env.blockMods ++ st.next.toList).map fun m => (m, .bActionNext))) ∧
    (∀ ph, ph = .aExit ∨ ph = .removeExit ∨ ph = .bExit → ∃ l, (handler env ph st).2.calls = st.calls ++ l ∧
      l.Sublist ((st.cur.toList ++ env.blockMods.reverse).map fun m => (m, ph))) := by
  have hexit : ∀ ph, ∃ l, (execExit env ph st).2.calls = st.calls ++ l ∧
      l.Sublist ((st.cur.toList ++ env.blockMods.reverse).map fun m => (m, ph)) := by
    intro ph
    obtain ⟨l1, h1, h2, _, _⟩ := execTypeMod_calls env ph st.cur st
    obtain ⟨l2, g1, g2, _, _⟩ := execMods_calls env ph env.blockMods.reverse (execTypeMod env ph st.cur st).2
    refine ⟨l1 ++ l2, ?_, ?_⟩
    · simp only [execExit, execBlockMods, if_true]; rw [g1, h1, List.append_assoc]
    · rw [List.map_append]; exact h2.append g2
  refine ⟨?_, ?_, ?_⟩
  · rintro ph (rfl | rfl | rfl) <;> exact execBoth_calls env _ (·.cur) (fun a b h _ => h) st
  · exact execBoth_calls env _ (·.next) (fun a b _ h => h) st
  · rintro ph (rfl | rfl | rfl)
    · obtain ⟨l, h1, h2⟩ := hexit .aExit
      refine ⟨l, ?_, h2⟩
      have f1 : ∀ r : Int × St σ M, (finishReady env r).2.calls = r.2.calls := by
        intro r; unfold finishReady; dsimp only; split <;> rfl
      have f2 : ∀ r : Int × St σ M, (finishReserved env r).2.calls = r.2.calls := by
        intro r; unfold finishReserved; dsimp only; split <;> rfl
      simp only [handler, f1, f2]
      exact h1
    · exact hexit _
    · exact hexit _

theorem callMod_round (env : Env σ M) (ph : Phase) (m : M) (st : St σ M) :
    ∃ l b, Round env ph [m] st.s (callMod env ph m st).2.s l b ∧ (callMod env ph m st).2.calls = st.calls ++ l ∧
      (callMod env ph m st).1 = (if b then -1 else 0) ∧ (callMod env ph m st).2.cur = st.cur ∧ (callMod env ph m st).2.next = st.next := by
  unfold callMod
  cases hf : env.fns m with
  | none => exact ⟨[], true, .missing hf, by simp, rfl, rfl, rfl⟩
  | some f =>
    cases hg : f ph with
    | none => dsimp only; rw [hg]; exact ⟨[], false, .pass hf hg .done, by simp, rfl, rfl, rfl⟩
    | some g =>
      dsimp only
      rw [hg]
      by_cases h : (g st.s).1 < 0
      · exact ⟨[(m, ph)], true, .failed hf hg h, rfl, by simp [h], rfl, rfl⟩
      · exact ⟨[(m, ph)], false, .called hf hg (by omega) .done, rfl, by simp [h], rfl, rfl⟩

theorem execMods_round (env : Env σ M) (ph : Phase) (ms : List M) (st : St σ M) :
    ∃ l b, Round env ph ms st.s (execMods env ph ms st).2.s l b ∧ (execMods env ph ms st).2.calls = st.calls ++ l ∧
      (execMods env ph ms st).2.cur = st.cur ∧ (execMods env ph ms st).2.next = st.next := by
  induction ms generalizing st with
  | nil => exact ⟨[], false, .done, by simp [execMods], rfl, rfl⟩
  | cons m ms ih =>
    rw [execMods]
    unfold callMod
    cases hf : env.fns m with
    | none => exact ⟨[], true, .missing hf, by simp, rfl, rfl⟩
    | some f =>
      cases hg : f ph with
      | none =>
        simp only [hg]
        obtain ⟨l, b, h1, h2, h3, h4⟩ := ih st
        exact ⟨l, b, .pass hf hg h1, h2, h3, h4⟩
      | some g =>
        simp only [hg]
        by_cases h : (g st.s).1 < 0
        · simp only [h, if_true]
          exact ⟨[(m, ph)], true, .failed hf hg h, rfl, rfl, rfl⟩
        · simp only [h, if_false]
          obtain ⟨l, b, h1, h2, h3, h4⟩ := ih { st with s := (g st.s).2, calls := st.calls ++ [(m, ph)] }
          exact ⟨(m, ph) :: l, b, .called hf hg (by omega) h1, by simpa using h2, h3, h4⟩

theorem execTypeMod_round (env : Env σ M) (ph : Phase) (m : Option M) (st : St σ M) :
    ∃ l b, Round env ph m.toList st.s (execTypeMod env ph m st).2.s l b ∧ (execTypeMod env ph m st).2.calls = st.calls ++ l ∧
      (execTypeMod env ph m st).1 = (if b then -1 else 0) ∧ (execTypeMod env ph m st).2.cur = st.cur ∧
      (execTypeMod env ph m st).2.next = st.next := by
  cases m with
  | none => exact ⟨[], false, .done, by simp [execTypeMod], rfl, rfl, rfl⟩
  | some m => exact callMod_round env ph m st

theorem execBoth_rounds (env : Env σ M) (ph : Phase) (m : St σ M → Option M)
    (hm : ∀ a b : St σ M, a.cur = b.cur → a.next = b.next → m a = m b) (st : St σ M) :
    Rounds env ph env.blockMods (m st).toList st.s st.calls (fun _ b => b) (execBoth env ph m st) := by
  obtain ⟨l1, b1, h1, h2, h3, h4⟩ := execMods_round env ph env.blockMods st
  unfold execBoth execBlockMods
  simp only [Bool.false_eq_true, if_false]
  rw [hm _ st h3 h4]
  obtain ⟨l2, b2, g1, g2, g3, -⟩ := execTypeMod_round env ph (m st) (execMods env ph env.blockMods st).2
  exact ⟨_, l1, b1, l2, b2, h1, g1, by rw [g2, h2], g3⟩

theorem execExit_rounds (env : Env σ M) (ph : Phase) (st : St σ M) :
    Rounds env ph st.cur.toList env.blockMods.reverse st.s st.calls (fun b _ => b) (execExit env ph st) := by
  obtain ⟨l1, b1, h1, h2, h3, -⟩ := execTypeMod_round env ph st.cur st
  obtain ⟨l2, b2, g1, g2, -⟩ := execMods_round env ph env.blockMods.reverse (execTypeMod env ph st.cur st).2
  simp only [execExit, execBlockMods, if_true]
  exact ⟨_, l1, b1, l2, b2, h1, g1, by dsimp only; rw [g2, h2], h3⟩

/-- C57.  The calls of a phase, exactly: the block modules in registration order, then the type module for the current or for the
    next layer; the result is -1 if the type module failed, while failing block modules do not count (but end their round). -/
theorem C57_calls (env : Env σ M) (st : St σ M) :
    (∀ ph, ph = .aPre ∨ ph = .bInit ∨ ph = .bActionCurrent →
      Rounds env ph env.blockMods st.cur.toList st.s st.calls (fun _ b => b) (handler env ph st)) ∧
    Rounds env .bActionNext env.blockMods st.next.toList st.s st.calls (fun _ b => b) (handler env .bActionNext st) := by
  refine ⟨?_, execBoth_rounds env _ (·.next) (fun a b _ h => h) st⟩
  rintro ph (rfl | rfl | rfl) <;> exact execBoth_rounds env _ (·.cur) (fun a b h _ => h) st

/-- C57.  The calls of the phases that depend on the ready state, if it is one in which they run. -/
theorem C57_calls_when_ready (env : Env σ M) (st : St σ M) :
    ((env.getReady st.s).1 ∈ [Ready.isPrivate, .flat, .isPublic] →
      ∀ ph, ph = .aCurrent ∨ ph = .aPostCurrent →
        Rounds env ph env.blockMods st.cur.toList (env.getReady st.s).2 st.calls (fun _ b => b) (handler env ph st)) ∧
    ((env.getReady st.s).1 = .isPublic →
      Rounds env .aPostNext env.blockMods st.next.toList (env.getReady st.s).2 st.calls (fun _ b => b)
        (handler env .aPostNext st)) := by
  refine ⟨?_, ?_⟩
  · intro h
    have hc : currentOk (env.getReady st.s).1 = true := by
      revert h; cases (env.getReady st.s).1 <;> simp [currentOk]
    have hne : (env.getReady st.s).1 ≠ .unprocessed := by
      intro e; rw [e] at hc; simp [currentOk] at hc
    rintro ph (rfl | rfl)
    · simp only [handler, aCurrent, readyOrDefault, hne, false_and, if_false, hc, Bool.not_true, Bool.false_eq_true]
      exact execBoth_rounds env _ (·.cur) (fun a b h _ => h) { st with s := (env.getReady st.s).2 }
    · simp only [handler, aPostCurrent, hc, Bool.not_true, Bool.false_eq_true, if_false]
      exact execBoth_rounds env _ (·.cur) (fun a b h _ => h) { st with s := (env.getReady st.s).2 }
  · intro h
    simp only [handler, aPostNext, h, bne_self_eq_false, Bool.false_eq_true, if_false]
    exact execBoth_rounds env _ (·.next) (fun a b _ h => h) { st with s := (env.getReady st.s).2 }

/-- C57.  The next-layer phase of a public device: the block modules, and then the module whose name is stored by now; this one
    is kept for the phases that follow. -/
theorem C57_calls_next (env : Env σ M) (st : St σ M) (h : (env.getReady st.s).1 = .isPublic) :
    ∃ s1 l1 b1 l2 b2, Round env .aNext env.blockMods (env.getReady st.s).2 s1 l1 b1 ∧
      Round env .aNext (env.nextMod s1).1.toList (env.nextMod s1).2 (handler env .aNext st).2.s l2 b2 ∧
      (handler env .aNext st).2.calls = st.calls ++ l1 ++ l2 ∧ (handler env .aNext st).2.next = (env.nextMod s1).1 ∧
      (handler env .aNext st).1 = if b2 then -1 else 0 := by
  simp only [handler, aNext, h, bne_self_eq_false, Bool.false_eq_true, if_false, execBlockMods]
  obtain ⟨l1, b1, h1, h2, h3, h4⟩ := execMods_round env .aNext env.blockMods { st with s := (env.getReady st.s).2 }
  generalize execMods env .aNext env.blockMods { st with s := (env.getReady st.s).2 } = q at *
  obtain ⟨l2, b2, g1, g2, g3, g4, g5⟩ := execTypeMod_round env .aNext (env.nextMod q.2.s).1
    { q.2 with s := (env.nextMod q.2.s).2, next := (env.nextMod q.2.s).1 }
  exact ⟨_, l1, b1, l2, b2, h1, g1, by rw [g2]; dsimp only; rw [h2], g5, g3⟩

/-- C57.  The first phase: once what is known about the device is in place, the block modules and then the module for the
    device; it is kept for the phases that follow. -/
theorem C57_calls_init (env : Env σ M) (st : St σ M) (ph : Phase) (hph : ph = .aInit ∨ ph = .removeInit)
    (h : (handler env ph st).1 ≠ -1 ∨ (handler env ph st).2.calls ≠ st.calls) :
    ∃ cur, 0 ≤ (env.setDevKvs st.s).1 ∧ (env.baseMod (env.setDevKvs st.s).2).1 = some cur ∧
      ∃ s, s = (if env.isRemove then (env.baseMod (env.setDevKvs st.s).2).2
          else (env.updateDeps (env.baseMod (env.setDevKvs st.s).2).2).2) ∧
        (env.isRemove = false → 0 ≤ (env.updateDeps (env.baseMod (env.setDevKvs st.s).2).2).1) ∧
        Rounds env ph env.blockMods cur.toList s st.calls (fun _ b => b) (handler env ph st) ∧
        (handler env ph st).2.cur = cur := by
  have hh : handler env ph st = commonInit env ph st := by rcases hph with rfl | rfl <;> rfl
  rw [hh] at h ⊢
  unfold commonInit at h ⊢
  dsimp only at h ⊢
  by_cases h1 : (env.setDevKvs st.s).1 < 0
  · simp [h1] at h
  rw [if_neg h1] at h ⊢
  cases hb : (env.baseMod (env.setDevKvs st.s).2).1 with
  | none => rw [hb] at h; simp at h
  | some cur =>
    rw [hb] at h
    dsimp only at h ⊢
    generalize hd : (if env.isRemove = true then ((0 : Int), (env.baseMod (env.setDevKvs st.s).2).2)
      else env.updateDeps (env.baseMod (env.setDevKvs st.s).2).2) = d at h ⊢
    by_cases h2 : d.1 < 0
    · simp [h2] at h
    rw [if_neg h2] at h ⊢
    obtain ⟨l1, b1, e1, e2, e3, e4⟩ := execMods_round env ph env.blockMods { st with s := d.2 }
    unfold execBlockMods at h ⊢
    simp only [Bool.false_eq_true, if_false] at h ⊢
    generalize execMods env ph env.blockMods { st with s := d.2 } = q at *
    obtain ⟨l2, b2, g1, g2, g3, g4, -⟩ := execTypeMod_round env ph cur { q.2 with cur := cur }
    refine ⟨cur, by omega, rfl, d.2, ?_, ?_, ⟨_, l1, b1, l2, b2, e1, g1, by rw [g2]; dsimp only; rw [e2], g3⟩, g4⟩
    · rw [← hd]
      cases env.isRemove <;> rfl
    · intro hr
      rw [← hd, hr] at h2
      simpa using h2

/-- C57.  The last phases: the type module, then the block modules in reverse; the result is the one of the type module, in the
    first stage -1 also if a state of the device could not be set. -/
theorem C57_calls_exit (env : Env σ M) (st : St σ M) :
    (∀ ph, ph = .removeExit ∨ ph = .bExit →
      Rounds env ph st.cur.toList env.blockMods.reverse st.s st.calls (fun b _ => b) (handler env ph st)) ∧
    ∃ r, Rounds env .aExit st.cur.toList env.blockMods.reverse st.s st.calls (fun b _ => b) r ∧
      (handler env .aExit st).2.calls = r.2.calls ∧
      ((handler env .aExit st).1 = r.1 ∨ (handler env .aExit st).1 = -1 ∧
        ((∃ s, (env.setReady .isPublic s).1 < 0) ∨ ∃ s, (env.setReserved .free s).1 < 0)) := by
  refine ⟨?_, _, execExit_rounds env .aExit st, ?_, ?_⟩
  · rintro ph (rfl | rfl) <;> exact execExit_rounds env _ st
  · have f1 : ∀ r : Int × St σ M, (finishReady env r).2.calls = r.2.calls := by
      intro r; unfold finishReady; dsimp only; split <;> rfl
    have f2 : ∀ r : Int × St σ M, (finishReserved env r).2.calls = r.2.calls := by
      intro r; unfold finishReserved; dsimp only; split <;> rfl
    simp only [handler, f1, f2]
  · simp only [handler]
    generalize execExit env .aExit st = r
    have f1 : (finishReady env r).1 = r.1 ∨ (finishReady env r).1 = -1 ∧ ∃ s, (env.setReady .isPublic s).1 < 0 := by
      unfold finishReady; dsimp only
      split
      · dsimp only
        split
        · rename_i hw; exact .inr ⟨rfl, _, hw⟩
        · exact .inl rfl
      · exact .inl rfl
    generalize finishReady env r = q at *
    have f2 : (finishReserved env q).1 = q.1 ∨ (finishReserved env q).1 = -1 ∧ ∃ s, (env.setReserved .free s).1 < 0 := by
      unfold finishReserved; dsimp only
      split
      · dsimp only
        split
        · rename_i hw; exact .inr ⟨rfl, _, hw⟩
        · exact .inl rfl
      · exact .inl rfl
    rcases f2 with e | ⟨e, h⟩
    · rw [e]
      rcases f1 with e | ⟨e, h⟩
      · exact .inl e
      · exact .inr ⟨e, .inl h⟩
    · exact .inr ⟨e, .inr h⟩

/-- C57.  After an error: the block modules, the module for the device, the module for the next layer; the last two also if
    others failed, and the result is -1 if one of these two did. -/
theorem C57_calls_error (env : Env σ M) (st : St σ M) :
    ∃ s1 l1 b1 s2 l2 b2 l3 b3, Round env .error env.blockMods st.s s1 l1 b1 ∧ Round env .error st.cur.toList s1 s2 l2 b2 ∧
      Round env .error st.next.toList s2 (handler env .error st).2.s l3 b3 ∧
      (handler env .error st).2.calls = st.calls ++ l1 ++ l2 ++ l3 ∧ (handler env .error st).1 = if b2 || b3 then -1 else 0 := by
  obtain ⟨l1, b1, h1, h2, h3, h4⟩ := execMods_round env .error env.blockMods st
  simp only [handler, scanError, execBlockMods, Bool.false_eq_true, if_false]
  generalize execMods env .error env.blockMods st = q at *
  obtain ⟨l2, b2, g1, g2, g3, g4, g5⟩ := execTypeMod_round env .error q.2.cur q.2
  generalize execTypeMod env .error q.2.cur q.2 = q2 at *
  obtain ⟨l3, b3, e1, e2, e3, -, -⟩ := execTypeMod_round env .error q2.2.next q2.2
  rw [h3] at g1
  rw [g5, h4] at e1 e2 e3 ⊢
  refine ⟨_, l1, b1, _, l2, b2, l3, b3, h1, g1, e1, by rw [e2, g2, h2], ?_⟩
  rw [g3, e3]
  cases b2 <;> cases b3 <;> rfl

/-- C57.  Removal of a device: the block modules, the module for the device, and if this did not fail the relations of the
    device are looked up again, whose result counts. -/
theorem C57_calls_remove (env : Env σ M) (st : St σ M) :
    ∃ r, Rounds env .removeCurrent env.blockMods st.cur.toList st.s st.calls (fun _ b => b) r ∧
      (handler env .removeCurrent st).2.calls = r.2.calls ∧
      (handler env .removeCurrent st).1 = (if r.1 = -1 then -1 else (env.updateDeps r.2.s).1) ∧
      (handler env .removeCurrent st).2.s = (if r.1 = -1 then r.2.s else (env.updateDeps r.2.s).2) := by
  have h := execBoth_rounds env .removeCurrent (·.cur) (fun a b h _ => h) st
  refine ⟨_, h, ?_⟩
  obtain ⟨_, _, _, _, b2, _, _, _, e⟩ := h
  simp only [handler, removeCurrent]
  rw [e]
  cases b2 <;> simp

/-- C57.  When the exit phase of a first-stage scan succeeds, the device is left neither with an unprocessed ready state
    nor with an unprocessed reserved state, whatever the modules did: it was made public and free by default.  (The
    state functions are any that answer a read with what was set, without one disturbing the other.) -/
theorem C57_scan_leaves_states_processed (env : Env σ M) (st : St σ M)
    (hget : ∀ s, (env.getReady (env.getReady s).2).1 = (env.getReady s).1)
    (hset : ∀ s, 0 ≤ (env.setReady .isPublic s).1 → (env.getReady (env.setReady .isPublic s).2).1 = .isPublic)
    (hres1 : ∀ s, (env.getReady (env.getReserved s).2).1 = (env.getReady s).1)
    (hres2 : ∀ v s, (env.getReady (env.setReserved v s).2).1 = (env.getReady s).1)
    (rget : ∀ s, (env.getReserved (env.getReserved s).2).1 = (env.getReserved s).1)
    (rset : ∀ s, 0 ≤ (env.setReserved .free s).1 → (env.getReserved (env.setReserved .free s).2).1 = .free)
    (hok : 0 ≤ (handler env .aExit st).1) :
    (env.getReady (handler env .aExit st).2.s).1 ≠ .unprocessed ∧
    (env.getReserved (handler env .aExit st).2.s).1 ≠ .unprocessed := by
  simp only [handler] at *
  generalize execExit env .aExit st = r at *
  have h1 : 0 ≤ (finishReady env r).1 → (env.getReady (finishReady env r).2.s).1 ≠ .unprocessed := by
    unfold finishReady
    dsimp only
    split
    · rename_i hu
      dsimp only
      intro h
      by_cases hw : (env.setReady .isPublic (env.getReady r.2.s).2).1 < 0
      · simp [hw] at h
      · rw [hset _ (by omega)]; simp
    · rename_i hu
      dsimp only
      intro _
      rw [hget]; exact hu
  generalize finishReady env r = q at *
  unfold finishReserved at *
  dsimp only at *
  split at hok
  · rename_i hu
    simp only [hu, if_true] at *
    by_cases hw : (env.setReserved .free (env.getReserved q.2.s).2).1 < 0
    · simp [hw] at hok
    · simp only [hw, if_false] at hok
      exact ⟨by rw [hres2, hres1]; exact h1 hok, by rw [rset _ (by omega)]; simp⟩
  · rename_i hu
    have hu' := hu
    rw [if_neg hu]
    exact ⟨by rw [hres1]; exact h1 hok, by rw [rget]; exact hu'⟩

/-- the state functions of Model/DevState.lean as an environment, with the key-value write always succeeding -/
def exampleEnv : Env (Ctx Ready × Ctx Reserved) Nat where
  getReady s := let r := getState .undefined s.1; (r.1, (r.2, s.2))
  setReady v s := let r := setState capReady readyOk s.1 v .stored; (r.1, (r.2, s.2))
  getReserved s := let r := getState .undefined s.2; (r.1, (s.1, r.2))
  setReserved v s := let r := setState capReserved reservedOk s.2 v .stored; (r.1, (s.1, r.2))
  setDevKvs s := (0, s)
  baseMod s := (some none, s)
  updateDeps s := (0, s)
  nextMod s := (none, s)
  blockMods := [1, 2]
  fns m := some fun _ => some fun s => (if m = 2 then -1 else 0, s)
  isRemove := false

/-- C57: that environment meets the hypotheses, and the phase succeeds on a new device -/
example : (∀ s, (exampleEnv.getReady (exampleEnv.getReady s).2).1 = (exampleEnv.getReady s).1) ∧
    (∀ s, 0 ≤ (exampleEnv.setReady .isPublic s).1 →
      (exampleEnv.getReady (exampleEnv.setReady .isPublic s).2).1 = .isPublic) ∧
    0 ≤ (handler exampleEnv .aExit ⟨(⟨.aExit, .undefined, some .unprocessed⟩, ⟨.aExit, .undefined, some .unprocessed⟩),
      none, none, []⟩).1 := by
  refine ⟨?_, ?_, by decide⟩
  · rintro ⟨⟨p, c, o⟩, r⟩
    cases c <;> rcases o with _ | o <;> try rfl
    cases o <;> rfl
  · rintro ⟨⟨p, c, o⟩, r⟩
    cases p <;> cases c <;> simp [exampleEnv, setState, getState, capReady, readyOk, KvOutcome.code]

/-- C57: three block modules of which the second fails, and a module without a function for the phase as type module -/
def orderEnv : Env Nat Nat where
  getReady s := (.isPublic, s)
  setReady _ s := (0, s)
  getReserved s := (.free, s)
  setReserved _ s := (0, s)
  setDevKvs s := (0, s + 1)
  baseMod s := (some (some 7), s)
  updateDeps s := (0, s + 10)
  nextMod s := (some s, s)
  blockMods := [1, 2, 3]
  fns m := if m = 9 then none else some fun ph => if m = 7 ∧ ph = .aExit then none else
    some fun s => (if m = 2 ∧ ph ≠ .aNext then -1 else 0, s + 100)
  isRemove := false

example : (handler orderEnv .aInit ⟨0, none, none, []⟩).1 = 0 ∧
    (handler orderEnv .aInit ⟨0, none, none, []⟩).2.calls = [(1, .aInit), (2, .aInit), (7, .aInit)] ∧
    (handler orderEnv .aInit ⟨0, none, none, []⟩).2.cur = some 7 ∧
    (handler orderEnv .aExit ⟨0, some 7, none, []⟩).2.calls = [(3, .aExit), (2, .aExit)] ∧
    (handler orderEnv .aNext ⟨5, some 7, none, []⟩).2.calls = [(1, .aNext), (2, .aNext), (3, .aNext), (305, .aNext)] ∧
    (handler orderEnv .aPostNext ⟨5, some 7, some 9, []⟩).1 = -1 ∧
    (orderEnv.getReady 5).1 = .isPublic := by decide

/-- A scan in which a middle phase fails -/
example : plan 1 false = some planA ∧
    cmdExecScan (fun p (n : Nat) => (if p = .aNext then -5 else if p = .aPre then 1 else 0, n + 1)) 1 false 0 =
      some (0, 6, [(.aInit, 0), (.aPre, 1), (.aCurrent, 0), (.aNext, -5), (.error, 0), (.aExit, 0)]) := by exact ⟨rfl, rfl⟩

example : plan 1 true = some planRemove ∧ plan 2 true = some planB := ⟨rfl, rfl⟩

end Sid.Props
