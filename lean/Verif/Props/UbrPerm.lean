import Verif.Proof.UbrPerm
/-
C30 (write protection), C31 (read protection) and C32 (reservations) of the records of modules.
-/
namespace Sid.Props
open Sid.Ubr Sid.Spec.Perm
open Sid.Ifc (txt)

/-- C30: a module that may not write the record leaves the database as it is (all of it, not only the record), and a module
    that may write it replaces it by its own.  `kvSet` having a result excludes what C30_denied_set_crashes shows. -/
theorem C30_write_protection_partial (db db' : Db) (c : Ctx) (w : Str) (a : SetArgs) (key : Str) (r : Rec) (ret : Int)
    (hkey : setKey c w a.ns a.key = some key) (hr : db.recs key = some r)
    (ho : ∃ t, r.owner = 47 :: t) (hw : ∃ t, w = 47 :: t) (hc : ¬ Confusable r.owner w)
    (h : kvSet db c w a = some (ret, db')) :
    (¬ MayWrite r w → db' = db) ∧
    (MayWrite r w → ret = 0 ∧ ∃ r', db'.recs key = some r' ∧ r'.owner = w ∧ r'.val = .scalar (a.value.getD []) ∧
      r'.seqnum = c.seqnum ∧ r'.gennum = c.gennum) := by
  have hh : key.head? ≠ some 126 := by
    unfold setKey at hkey
    split at hkey
    · simp only [Option.some.injEq] at hkey
      rw [← hkey, setKey_head]
      decide
    · cases hkey
  unfold kvSet at h
  unfold setKey at hkey
  split at hkey
  · rename_i hok
    simp only [Option.some.injEq] at hkey
    rw [if_pos hok] at h
    unfold doKvSet at h
    generalize hg : (if a.ns = .udev ∧ w = core then some 0 else globalRs db w (domOf a.ns) a.ns a.key) = g at h
    cases g with
    | none => cases h
    | some g =>
      simp only [Option.bind_some] at h
      have g0 : ¬ g < 0 := by
        intro hlt
        split at hg
        · cases hg; exact absurd hlt (by decide)
        · unfold globalRs at hg
          split at hg
          · cases hg; exact absurd hlt (by decide)
          · split at hg
            · cases hg; exact absurd hlt (by decide)
            · split at hg
              · cases hg
              · split at hg
                · simp only [Option.some.injEq] at hg
                  rename_i r' _ _ _
                  have hp : ∀ (f : Flags) (m : Match), ¬ rsAllows f m < 0 := by
                    intro f m
                    cases m <;> simp only [rsAllows] <;> omega
                  rw [← hg] at hlt
                  exact hp _ _ hlt
                · cases hg; exact absurd hlt (by decide)
      rw [if_neg g0] at h
      rw [hkey, hr] at h
      have hd := wrAllowed_neg ho hw hc
      constructor
      · intro hm
        rw [if_pos (hd.mpr hm)] at h
        split at h
        · cases h
        · simp only [Option.some.injEq, Prod.mk.injEq] at h
          exact h.2.symm
      · intro hm
        rw [if_neg (fun x => hd.mp x hm)] at h
        simp only [Option.some.injEq, Prod.mk.injEq] at h
        refine ⟨h.1.symm, setRec c w a, ?_, rfl, rfl, rfl, rfl⟩
        rw [← h.2]
        exact writeRec_key db key _ hh
  · cases hkey

/-- C30: the core and the owner may write whatever the flags say. -/
theorem C30_owner_and_core (r : Rec) (w : Str) (h : w = txt "/" ∨ w = r.owner) : MayWrite r w ∧ MayRead r w := by
  rcases h with h | h
  · exact ⟨Or.inl h, Or.inl h⟩
  · exact ⟨Or.inr (Or.inl h), Or.inr (Or.inl h)⟩

/-- C30: over any history: as long as only modules call that may not write the record, it stays as it is, whatever they
    set, reserve or unreserve, in a worker as well as in the main process.  (Keys that start with '~' are archives,
    which follow their records.) -/
theorem C30_history_partial (isWorker : Bool) (db db' : Db) (key : Str) (r : Rec) (l : List (Str × Call))
    (hr : db.recs key = some r) (hh : key.head? ≠ some 126) (ho : ∃ t, r.owner = 47 :: t)
    (hl : ∀ x ∈ l, (∃ t, x.1 = 47 :: t) ∧ ¬ Confusable r.owner x.1 ∧ ¬ MayWrite r x.1)
    (h : calls isWorker db l = some db') : db'.recs key = some r :=
  calls_keep hh l hr (fun x hx => (wrAllowed_neg ho (hl x hx).1 (hl x hx).2.1).mpr (hl x hx).2.2) h

/-- C30 is incomplete in the code: a denied set of a value crashes (it reads the value the store did not give back). -/
theorem C30_denied_set_crashes (db : Db) (c : Ctx) (w : Str) (a : SetArgs) (key : Str) (r : Rec)
    (hkey : setKey c w a.ns a.key = some key) (hr : db.recs key = some r)
    (ho : ∃ t, r.owner = 47 :: t) (hw : ∃ t, w = 47 :: t) (hc : ¬ Confusable r.owner w) (hm : ¬ MayWrite r w)
    (hv : a.value ≠ none) : kvSet db c w a = none := by
  cases h : kvSet db c w a with
  | none => rfl
  | some x =>
    exfalso
    unfold kvSet at h
    unfold setKey at hkey
    split at hkey
    · rename_i hok
      simp only [Option.some.injEq] at hkey
      rw [if_pos hok] at h
      unfold doKvSet at h
      generalize hg : (if a.ns = .udev ∧ w = core then some 0 else globalRs db w (domOf a.ns) a.ns a.key) = g at h
      cases g with
      | none => cases h
      | some g =>
        simp only [Option.bind_some] at h
        have g0 : ¬ g < 0 := by
          intro hlt
          split at hg
          · cases hg; exact absurd hlt (by decide)
          · unfold globalRs at hg
            split at hg
            · cases hg; exact absurd hlt (by decide)
            · split at hg
              · cases hg; exact absurd hlt (by decide)
              · split at hg
                · cases hg
                · split at hg
                  · simp only [Option.some.injEq] at hg
                    have hp : ∀ (f : Flags) (m : Match), ¬ rsAllows f m < 0 := by
                      intro f m
                      cases m <;> simp only [rsAllows] <;> omega
                    rw [← hg] at hlt
                    exact hp _ _ hlt
                  · cases hg; exact absurd hlt (by decide)
        rw [if_neg g0, hkey, hr, if_pos ((wrAllowed_neg ho hw hc).mpr hm)] at h
        cases hvv : a.value with
        | none => exact hv hvv
        | some v =>
          rw [hvv] at h
          cases h
    · cases hkey

/-- C30 is false for names that are confused: they are unrelated, but the flag for subordinate modules decides. -/
theorem C30_confused (r : Rec) (w : Str) (ho : ∃ t, r.owner = 47 :: t) (hw : w ≠ txt "/") (hc : Confusable r.owner w) :
    ¬ Below r.owner w ∧ r.owner ≠ w ∧ (0 ≤ wrAllowed (some r) w ↔ subWr r) ∧ (rdAllowed r w = true ↔ subRd r) := by
  obtain ⟨h1, h2, h3⟩ := confused ho hw hc
  refine ⟨h2, h3, ?_, ?_⟩
  · simp only [wrAllowed, h1]
    have := wrCase_neg r.flags flSubWr flSubRd
    rw [has_subWr] at this
    rw [subWr]
    constructor
    · intro h
      by_cases e : r.flags.getLsbD 9 = true
      · exact e
      · have := this.mpr e
        omega
    · intro h
      by_cases e : wrCase r.flags flSubWr flSubRd < 0
      · exact absurd h (this.mp e)
      · omega
  · simp only [rdAllowed, h1]
    rw [has_subRd, subRd]

/-- … for instance "/block/x", which writes a record of "/type/y" that is open to subordinates only. -/
theorem C30_counterexample : ∃ (r : Rec) (w : Str), r.owner = txt "/type/y" ∧ w = txt "/block/x" ∧ ¬ MayWrite r w ∧
    ∃ db c a db', setKey c w a.ns a.key = some (txt ":USR:G::::k") ∧ db.recs (txt ":USR:G::::k") = some r ∧
      kvSet db c w a = some (0, db') ∧ db'.recs (txt ":USR:G::::k") ≠ some r := by
  refine ⟨⟨0, flSubWr, 0, txt "/type/y", .scalar [1]⟩, txt "/block/x", rfl, rfl, ?_,
    Db.empty.put (txt ":USR:G::::k") (some ⟨0, flSubWr, 0, txt "/type/y", .scalar [1]⟩), {},
    ⟨.global, txt "k", some [2], 0⟩, _, by decide, by rfl, rfl, by decide⟩
  rintro (h | h | ⟨h, -⟩ | ⟨h, -⟩ | ⟨-, -, h⟩)
  · revert h; decide
  · revert h; decide
  · rcases h with ⟨t, h⟩ | ⟨h, -⟩
    · simp [txt] at h
    · revert h; decide
  · rcases h with ⟨t, h⟩ | ⟨h, -⟩
    · simp [txt] at h
    · revert h; decide
  · revert h; unfold frgWr; decide

/-- C30: a record of "/type/dm" open to subordinates: "/type/dm/mpath" is one and may write, "/type/dmx" is not. -/
example : ∃ r : Rec, r.owner = txt "/type/dm" ∧ ¬ Confusable r.owner (txt "/type/dm/mpath") ∧
    MayWrite r (txt "/type/dm/mpath") ∧ ¬ Confusable r.owner (txt "/type/dmx") ∧ ¬ MayWrite r (txt "/type/dmx") := by
  refine ⟨⟨0, flSubWr, 0, txt "/type/dm", .scalar [1]⟩, rfl, ?_, ?_, ?_, ?_⟩
  · rintro (⟨a, b, o', w', h1, h2, h⟩ | ⟨p, a, o', w', h1, h2, h⟩)
    · simp [txt] at h1 h2
      exact h (h1.1.symm.trans h2.1)
    · have e : txt "/type/dm/mpath" = txt "/type/dm" ++ txt "/mpath" := by decide
      dsimp only at h1
      rw [e, h1, List.append_assoc] at h2
      have := List.append_cancel_left h2
      simp at this
      exact h this.1
  · exact Or.inr (Or.inr (Or.inl ⟨Or.inl ⟨txt "mpath", by decide⟩, by unfold subWr; decide⟩))
  · rintro (⟨a, b, o', w', h1, h2, h⟩ | ⟨p, a, o', w', h1, h2, h⟩)
    · simp [txt] at h1 h2
      exact h (h1.1.symm.trans h2.1)
    · have e : txt "/type/dmx" = txt "/type/dm" ++ txt "x" := by decide
      dsimp only at h1
      rw [e, h1, List.append_assoc] at h2
      have := List.append_cancel_left h2
      simp at this
      exact h this.1
  · rintro (h | h | ⟨h, -⟩ | ⟨h, -⟩ | ⟨-, -, h⟩)
    · revert h; decide
    · revert h; decide
    · rcases h with ⟨t, h⟩ | ⟨h, -⟩
      · simp [txt] at h
      · revert h; decide
    · rcases h with ⟨t, h⟩ | ⟨h, -⟩
      · simp [txt] at h
      · revert h; decide
    · revert h; unfold frgWr; decide

/-! ### C31 -/

/-- C31: a read finds the record if it is there and the module may read it; if it may not, the error is -EPERM; if there is
    none, it is -ENOENT. -/
theorem C31_read_protection_partial (db : Db) (c : Ctx) (m : Str) (a : GetArgs) (key : Str)
    (hkey : getKey c m a.ns a.key a.fmod a.fdev a.archive = some key) (hm : ∃ t, m = 47 :: t) :
    (db.recs key = none → kvGet db c m a = .error (-2)) ∧
    ∀ r, db.recs key = some r → (∃ t, r.owner = 47 :: t) → ¬ Confusable r.owner m →
      (MayRead r m → kvGet db c m a = .ok r) ∧ (¬ MayRead r m → kvGet db c m a = .error (-1)) := by
  unfold getKey at hkey
  unfold kvGet
  split at hkey
  · rename_i hok
    simp only [Option.some.injEq] at hkey
    rw [if_pos hok]
    simp only [doKvGet, getRec, hkey]
    constructor
    · intro h
      rw [h]
    · intro r hr ho hc
      rw [hr]
      have := rdAllowed_iff ho hm hc
      constructor
      · intro h
        simp only [this.mpr h, ↓reduceIte]
      · intro h
        have : ¬ rdAllowed r m = true := fun x => h (this.mp x)
        simp only [this, ↓reduceIte, Bool.false_eq_true]
  · cases hkey

/-- C31: whatever the names: the owner and the core can read every record that exists. -/
theorem C31_owner_and_core (db : Db) (c : Ctx) (m : Str) (a : GetArgs) (key : Str) (r : Rec)
    (hkey : getKey c m a.ns a.key a.fmod a.fdev a.archive = some key) (hr : db.recs key = some r)
    (h : m = txt "/" ∨ m = r.owner) : kvGet db c m a = .ok r := by
  unfold getKey at hkey
  unfold kvGet
  split at hkey
  · rename_i hok
    simp only [Option.some.injEq] at hkey
    rw [if_pos hok]
    simp only [doKvGet, getRec, hkey, hr]
    have : rdAllowed r m = true := by
      simp only [rdAllowed]
      by_cases hc : m = core
      · rw [modMatch_core.mpr hc]
      · rw [(modMatch_same hc).mpr (h.resolve_left hc).symm]
    simp only [this, ↓reduceIte]
  · cases hkey

/-- C31: what a module has set it reads back, as long as nobody else calls: value, flags, owner and sequence number. -/
theorem C31_reads_own_write (db db' : Db) (c : Ctx) (m : Str) (a : SetArgs) (ret : Int) (ha : setKey c m a.ns a.key ≠ none)
    (h : kvSet db c m a = some (ret, db')) (ho : ∀ key r, setKey c m a.ns a.key = some key → db.recs key = some r →
      r.owner = m) :
    ret = 0 ∧ kvGet db' c m { ns := a.ns, key := a.key } =
      .ok ⟨c.seqnum, if a.ns = .udev then a.flags ||| 6 else a.flags, c.gennum, m, .scalar (a.value.getD [])⟩ := by
  cases hkey : setKey c m a.ns a.key with
  | none => exact absurd hkey ha
  | some key =>
    have hget : getKey c m a.ns a.key none none 0 = some key := by
      unfold getKey
      unfold setKey at hkey
      split at hkey
      · rename_i hok
        simp only [Option.some.injEq] at hkey
        rw [if_pos hok, ← hkey]
        rw [canon_compose _ (Or.inr (Or.inl rfl)), compose_glue]
        cases a.ns <;> rfl
      · cases hkey
    have hall : ¬ wrAllowed (db.recs key) m < 0 := by
      cases hr : db.recs key with
      | none => simp [wrAllowed]
      | some r =>
        have := ho key r hkey hr
        simp only [wrAllowed]
        by_cases hc : m = core
        · rw [modMatch_core.mpr hc]; exact (by decide : ¬ (1 : Int) < 0)
        · rw [(modMatch_same hc).mpr this]; exact (by decide : ¬ (1 : Int) < 0)
    have hh : key.head? ≠ some 126 := by
      unfold setKey at hkey
      split at hkey
      · simp only [Option.some.injEq] at hkey
        rw [← hkey, setKey_head]
        decide
      · cases hkey
    have hput : ret = 0 ∧ db' = writeRec db key (setRec c m a) := by
      unfold kvSet at h
      unfold setKey at hkey
      split at hkey
      · rename_i hok
        simp only [Option.some.injEq] at hkey
        rw [if_pos hok] at h
        unfold doKvSet at h
        generalize hg : (if a.ns = .udev ∧ m = core then some 0 else globalRs db m (domOf a.ns) a.ns a.key) = g at h
        cases g with
        | none => cases h
        | some g =>
          simp only [Option.bind_some] at h
          have g0 : ¬ g < 0 := by
            intro hlt
            split at hg
            · cases hg; exact absurd hlt (by decide)
            · unfold globalRs at hg
              split at hg
              · cases hg; exact absurd hlt (by decide)
              · split at hg
                · cases hg; exact absurd hlt (by decide)
                · split at hg
                  · cases hg
                  · split at hg
                    · simp only [Option.some.injEq] at hg
                      have hp : ∀ (f : Flags) (m : Match), ¬ rsAllows f m < 0 := by
                        intro f m
                        cases m <;> simp only [rsAllows] <;> omega
                      rw [← hg] at hlt
                      exact hp _ _ hlt
                    · cases hg; exact absurd hlt (by decide)
          rw [if_neg g0, hkey, if_neg hall] at h
          simp only [Option.some.injEq, Prod.mk.injEq] at h
          exact ⟨h.1.symm, h.2.symm⟩
      · cases hkey
    refine ⟨hput.1, ?_⟩
    have hrec : db'.recs key = some (setRec c m a) := by
      rw [hput.2]
      exact writeRec_key db key _ hh
    exact C31_owner_and_core db' c m { ns := a.ns, key := a.key } key (setRec c m a) hget hrec (Or.inr rfl)

/-- C31: a record of "/type/dm" readable for its superior: "/type" reads it, "/type/dm/mpath" does not. -/
example : ∃ r : Rec, r.owner = txt "/type/dm" ∧ MayRead r (txt "/type") ∧ ¬ MayRead r (txt "/type/dm/mpath") := by
  refine ⟨⟨0, flSupRd, 0, txt "/type/dm", .scalar [1]⟩, rfl, ?_, ?_⟩
  · exact Or.inr (Or.inr (Or.inr (Or.inl ⟨Or.inl ⟨txt "dm", by decide⟩, by unfold supRd; decide⟩)))
  · rintro (h | h | ⟨-, h⟩ | ⟨h, -⟩ | ⟨-, -, h⟩)
    · revert h; decide
    · revert h; decide
    · revert h; unfold subRd; decide
    · rcases h with ⟨t, h⟩ | ⟨h, -⟩
      · simp [txt] at h
      · revert h; decide
    · revert h; unfold frgRd; decide

/-! ### C32 -/

/-- C32: a reservation can be taken over or released only by the module that made it or by the core; to anybody else the
    call has no effect at all. -/
theorem C32_exclusive (isWorker : Bool) (db db' : Db) (c : Ctx) (w : Str) (ns : Ns) (name key : Str) (r : Rec) (flags : Flags)
    (ret : Int) (hkey : rsvKey ns name = some key) (hr : db.recs key = some r) (hw : w ≠ txt "/") (ho : w ≠ r.owner)
    (h : kvReserve db c isWorker w ns name flags = some (ret, db') ∨ kvUnreserve db c isWorker w ns name = some (ret, db')) :
    db' = db := by
  have hn : rsvAllowed (some r) w = false := by
    cases e : rsvAllowed (some r) w with
    | false => rfl
    | true =>
      rw [rsvAllowed_iff] at e
      exact (e.elim hw ho).elim
  have key' : ∀ fl un, doReserve db c isWorker w (domOf ns) ns name fl un = some (ret, db') → db' = db := by
    intro fl un h
    unfold rsvKey at hkey
    split at hkey
    · simp only [Option.some.injEq] at hkey
      unfold doReserve at h
      dsimp only at h
      rw [hkey, hr, hn] at h
      simp only [Bool.false_eq_true, ↓reduceIte] at h
      split at h
      · simp only [Option.some.injEq, Prod.mk.injEq] at h
        exact h.2.symm
      · split at h
        · cases h
        · simp only [Option.some.injEq, Prod.mk.injEq] at h
          exact h.2.symm
    · cases hkey
  unfold kvReserve kvUnreserve at h
  rcases h with h | h
  · split at h
    · exact key' _ _ h
    · simp only [Option.some.injEq, Prod.mk.injEq] at h
      exact h.2.symm
  · split at h
    · exact key' _ _ h
    · simp only [Option.some.injEq, Prod.mk.injEq] at h
      exact h.2.symm

/-- C32: the owner's (or the core's) own reservation takes effect: the record is there, marked reserved and owned by the
    caller; and the owner's release in the main process removes it. -/
theorem C32_owner_can (isWorker : Bool) (db : Db) (c : Ctx) (w : Str) (ns : Ns) (name key : Str) (flags : Flags)
    (hkey : rsvKey ns name = some key) (hf : flags.getLsbD 0 = false)
    (ho : ∀ r, db.recs key = some r → w = txt "/" ∨ w = r.owner) :
    (∃ db', kvReserve db c isWorker w ns name flags = some (0, db') ∧
      ∃ r, db'.recs key = some r ∧ r.owner = w ∧ r.flags.getLsbD 4 = true ∧ r.flags.getLsbD 1 = true ∧
        ∀ i, 5 ≤ i → r.flags.getLsbD i = flags.getLsbD i) ∧
    (isWorker = false → ∃ db', kvUnreserve db c isWorker w ns name = some (0, db') ∧ db'.recs key = none) := by
  have ha : rsvAllowed (db.recs key) w = true := by
    cases hr : db.recs key with
    | none => rfl
    | some r => exact rsvAllowed_iff.mpr (ho r hr)
  have hal : has flags flAlign = false := by
    cases e : has flags flAlign with
    | false => rfl
    | true =>
      have := (has_bit flags 0 (by decide) flAlign (by decide)).mp e
      rw [hf] at this
      cases this
  unfold rsvKey at hkey
  split at hkey
  · rename_i hok
    simp only [Option.some.injEq] at hkey
    constructor
    · refine ⟨manageIndex (db.put key (some (rsvRec c w flags false))) (!isWorker) key (db.recs key)
        (some (rsvRec c w flags false)), ?_, rsvRec c w flags false, ?_, rfl, ?_, ?_, ?_⟩
      · unfold kvReserve doReserve
        dsimp only
        rw [if_pos hok, hkey]
        simp only [Bool.false_and, Bool.false_eq_true, ↓reduceIte, hal, ha]
      · rw [manageIndex_recs]
        simp [Db.put]
      · simp only [rsvRec, Bool.false_eq_true, ↓reduceIte, BitVec.getLsbD_or]
        have : flRs.getLsbD 4 = true := by decide
        simp [this]
      · simp only [rsvRec, Bool.false_eq_true, ↓reduceIte, BitVec.getLsbD_or]
        have : flSyncP.getLsbD 1 = true := by decide
        simp [this]
      · intro i hi
        simp only [rsvRec, Bool.false_eq_true, ↓reduceIte, BitVec.getLsbD_or]
        have h1 : flRs.getLsbD i = false := by
          rw [flRs, show (0x10 : BitVec 64) = BitVec.twoPow 64 4 by decide, BitVec.getLsbD_twoPow]
          simp; omega
        have h2 : flSyncP.getLsbD i = false := by
          rw [flSyncP, show (0x6 : BitVec 64) = BitVec.twoPow 64 1 ||| BitVec.twoPow 64 2 by decide, BitVec.getLsbD_or,
            BitVec.getLsbD_twoPow, BitVec.getLsbD_twoPow]
          simp; omega
        simp [h1, h2]
    · rintro rfl
      refine ⟨db.put key none, ?_, by simp [Db.put]⟩
      unfold kvUnreserve doReserve
      dsimp only
      rw [if_pos hok, hkey]
      simp [ha]
  · cases hkey

/-- C32: over any history of calls of other modules (not the owner, not the core), in a worker or in the main process, a
    record whose flags grant no writes stays as it is; so a reservation stays with its owner. -/
theorem C32_history (isWorker : Bool) (db db' : Db) (key : Str) (r : Rec) (l : List (Str × Call)) (hr : db.recs key = some r)
    (hh : key.head? ≠ some 126) (hf : ¬ frgWr r ∧ ¬ subWr r ∧ ¬ supWr r) (hl : ∀ x ∈ l, x.1 ≠ txt "/" ∧ x.1 ≠ r.owner)
    (h : calls isWorker db l = some db') : db'.recs key = some r := by
  refine calls_keep hh l hr ?_ h
  intro x hx
  obtain ⟨h1, h2⟩ := hl x hx
  obtain ⟨f1, f2, f3⟩ := hf
  rw [frgWr, ← has_frgWr] at f1
  rw [subWr, ← has_subWr] at f2
  rw [supWr, ← has_supWr] at f3
  simp only [wrAllowed]
  rcases hm : modMatch r.owner x.1 with _ | _ | _ | _ | _
  · exact (wrCase_neg _ _ _).mpr f1
  · exact absurd ((modMatch_same h1).mp hm).symm h2
  · exact absurd (modMatch_core.mp hm) h1
  · exact (wrCase_neg _ _ _).mpr f2
  · exact (wrCase_neg _ _ _).mpr f3

/-- C32: in the global namespace a reservation keeps other modules from setting the record, whatever they are called and
    whichever device they handle.  What is missing: the same for the namespaces of udev and of devices, where the code
    looks the reservation up but does not obey it (see the counterexample). -/
theorem C32_global_set_partial (db db' : Db) (c : Ctx) (w : Str) (a : SetArgs) (key : Str) (r : Rec) (ret : Int)
    (hns : a.ns = .global) (hkey : rsvKey .global a.key = some key) (hr : db.recs key = some r)
    (hf : ¬ frgWr r ∧ ¬ subWr r ∧ ¬ supWr r) (hw : w ≠ txt "/") (ho : w ≠ r.owner)
    (h : kvSet db c w a = some (ret, db')) :
    setKey c w a.ns a.key = some key ∧ db'.recs key = some r := by
  have hset : setKey c w a.ns a.key = some key := by
    rw [hns]
    unfold rsvKey at hkey
    split at hkey
    · rename_i hok
      simp only [Option.some.injEq] at hkey
      have : argsOk .global a.key = true := by
        simp only [argsOk, Bool.and_eq_true] at hok ⊢
        exact ⟨⟨by decide, hok.1⟩, hok.2⟩
      unfold setKey
      rw [if_pos this, ← hkey, canon_compose _ (Or.inl rfl), compose_glue]
      rfl
    · cases hkey
  refine ⟨hset, ?_⟩
  refine C32_history true db db' key r [(w, .set c a)] hr ?_ hf (by simp; exact ⟨hw, ho⟩) ?_
  · unfold setKey at hset
    split at hset
    · simp only [Option.some.injEq] at hset
      rw [← hset, setKey_head]
      decide
    · cases hset
  · simp [calls, call, h]

/-- C32 is false of devices' namespaces: "/type/b" sets for a device a name that "/type/a" reserved for all of them, with
    no permission for anybody else. -/
theorem C32_counterexample : ∃ (c : Ctx) (db₁ db₂ : Db) (key : Str),
    kvReserve Db.empty c false (txt "/type/a") .device (txt "k") 0 = some (0, db₁) ∧
    kvSet db₁ c (txt "/type/b") ⟨.device, txt "k", some [1], 0⟩ = some (0, db₂) ∧
    setKey c (txt "/type/b") .device (txt "k") = some key ∧
    (∃ r, db₂.recs key = some r ∧ r.owner = txt "/type/b") := by
  refine ⟨{ uid := some (txt "u1") }, _, _, txt ":USR:D:u1:::k", rfl, rfl, by decide, ?_⟩
  refine ⟨⟨0, 0, 0, txt "/type/b", .scalar [1]⟩, by decide, rfl⟩

/-- C32: a reservation and an attempt at it by another module -/
example : ∃ (db : Db) (key : Str) (r : Rec), rsvKey .global (txt "k") = some key ∧
    kvReserve Db.empty {} true (txt "/type/a") .global (txt "k") 0 = some (0, db) ∧ db.recs key = some r ∧
    r.owner = txt "/type/a" ∧ ¬ frgWr r ∧ ¬ subWr r ∧ ¬ supWr r ∧ key.head? ≠ some 126 ∧
    calls true db [(txt "/type/b", .unreserve {} .global (txt "k")), (txt "/type/b", .reserve {} .global (txt "k") 0x700)]
      ≠ none := by
  refine ⟨_, txt ":USR:G::::k", ⟨0, 0x16, 0, txt "/type/a", .scalar []⟩, by decide, rfl, by decide, rfl, ?_, ?_, ?_, by decide, ?_⟩
  · unfold frgWr; decide
  · unfold subWr; decide
  · unfold supWr; decide
  · intro h
    cases h

/-- C29: an empty name and names of the daemon's own records, which start with '#', are refused with -EINVAL by every call
    of a module, and nothing changes. -/
theorem C29_names_of_daemon_refused (db : Db) (c : Ctx) (isWorker : Bool) (m name : Str) (ns : Ns)
    (h : name = [] ∨ ∃ t, name = txt "#" ++ t) :
    (∀ a : SetArgs, a.key = name → kvSet db c m a = some (-22, db)) ∧
    (∀ a : GetArgs, a.key = name → kvGet db c m a = .error (-22)) ∧
    (∀ flags, kvReserve db c isWorker m ns name flags = some (-22, db)) ∧
    kvUnreserve db c isWorker m ns name = some (-22, db) := by
  have h1 : ∀ ns, argsOk ns name = false := by
    intro ns
    rcases h with rfl | ⟨t, rfl⟩ <;> simp [argsOk, sysChar, txt]
  have h2 : (name != [] && name.head? != some sysChar) = false := by
    rcases h with rfl | ⟨t, rfl⟩ <;> simp [sysChar, txt]
  refine ⟨fun a e => ?_, fun a e => ?_, fun flags => ?_, ?_⟩
  · simp [kvSet, e, h1]
  · simp [kvGet, e, h1]
  · simp only [kvReserve, h2]; rfl
  · simp only [kvUnreserve, h2]; rfl

/-- other names are not refused -/
example : kvSet Db.empty {} (txt "/type/a") ⟨.module, txt "a#", some [1], 0⟩ ≠ some (-22, Db.empty) := by
  intro h
  have := congrArg (Option.map (·.1)) h
  revert this
  decide +kernel

end Sid.Props
