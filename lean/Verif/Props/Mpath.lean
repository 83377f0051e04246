import Verif.Spec.Mpath
import Verif.Props.UbrReply
import Verif.Props.UbrPerm
import Verif.Props.UbrKey
import Verif.Props.Ifc
/-
C85: paths of multipath devices.  C86: partitions and the records of their disks.
-/
namespace Sid.Props
open Sid.Ubr Sid.Mpath Sid.Spec.UbrKey Sid.Spec.Mpath Sid.Spec.Perm
open Sid.Ifc (txt)
open Sid.Spec.Client (words isArg)
open Sid.Spec.Reply (Serve lastOf Holds varKey)
open Sid.Spec.Sync (Entries)

/-! ### the command line -/

theorem allowed_iff (cmdline : Option Str) : allowed cmdline = true ↔ ¬ Off cmdline := by
  have key : ∀ line, (words line).any (isArg (txt "nompath")) = true ↔ Off (some line) := by
    intro line
    rw [List.any_eq_true]
    constructor
    · rintro ⟨w, hw, h⟩
      refine ⟨line, rfl, w, hw, ?_⟩
      simp only [isArg, Bool.or_eq_true, beq_iff_eq, List.isPrefixOf_iff_prefix] at h
      rcases h with h | ⟨v, h⟩
      · exact .inl h
      · exact .inr ⟨v, by rw [← h]; rfl⟩
    · rintro ⟨l, hl, w, hw, h⟩
      cases hl
      refine ⟨w, hw, ?_⟩
      simp only [isArg, Bool.or_eq_true, beq_iff_eq, List.isPrefixOf_iff_prefix]
      rcases h with h | ⟨v, h⟩
      · exact .inl h
      · exact .inr ⟨v, by rw [h]; rfl⟩
  cases cmdline with
  | none =>
    simp only [allowed, getArg]
    simp [Off]
  | some line =>
    rw [← key]
    have h1 := C64_argument_found_iff_present (arg := txt "nompath") (line := line) (by decide)
    have h2 := (C64_argument_value_partial (arg := txt "nompath") (line := line) (by decide)).1
    unfold allowed
    simp only [getArg, h1]
    cases ha : (words line).any (isArg (txt "nompath")) with
    | true => simp
    | false =>
      have h3 := h2 (List.find?_eq_none.mpr (by
        rw [List.any_eq_false] at ha
        exact ha))
      simp only [h3]
      simp

/-! ### sets -/

theorem kvSet_cases {db db' : Db} {c : Ctx} {m : Str} {a : SetArgs} {rc : Int} (h : kvSet db c m a = some (rc, db')) :
    db' = db ∧ (a.value = none ∨ argsOk a.ns a.key = false) ∨
      setKey c m a.ns a.key = some ((composeKey (setSpec c m (domOf a.ns) a.ns a.key)).drop 1) ∧
      db' = writeRec db ((composeKey (setSpec c m (domOf a.ns) a.ns a.key)).drop 1) (setRec c m a) := by
  unfold kvSet at h
  split at h
  · rename_i hok
    rcases doKvSet_cases h with ⟨h1, h2, -⟩ | h1
    · exact .inl ⟨h1, .inl h2⟩
    · exact .inr ⟨by unfold setKey; rw [if_pos hok], h1⟩
  · rename_i hok
    simp only [Option.some.injEq, Prod.mk.injEq] at h
    exact .inl ⟨h.2.symm, .inr (by simpa using hok)⟩

theorem setText_write {db db' : Db} {c : Ctx} {m : Str} {ns : Ns} {key v : Str} {fl : Flags}
    (hok : argsOk ns key = true) (h : setText db c m ns key v fl = some db') :
    db' = writeRec db ((composeKey (setSpec c m (domOf ns) ns key)).drop 1) (setRec c m ⟨ns, key, some (v ++ [0]), fl⟩) := by
  unfold setText at h
  obtain ⟨⟨rc, db1⟩, h1, h2⟩ := Option.map_eq_some_iff.mp h
  simp only at h2
  subst h2
  rcases kvSet_cases h1 with ⟨-, h3 | h3⟩ | ⟨-, h3⟩
  · cases h3
  · rw [hok] at h3; cases h3
  · exact h3

/-- the key of the record about device `u` -/
def validKey (u m : Str) : Str := (composeKey (setSpec { uid := some u } m (domOf .devmod) .devmod keyValid)).drop 1

theorem validKey_eq {c : Ctx} {u : Str} (m : Str) (hu : c.uid = some u) :
    (composeKey (setSpec c m (domOf .devmod) .devmod keyValid)).drop 1 = validKey u m := by
  unfold validKey setSpec nsPartOf
  rw [hu]

theorem validKey_head (u m : Str) : (validKey u m).head? ≠ some 126 := by
  unfold validKey
  rw [setKey_head]
  decide

theorem validKey_set (u m : Str) : setKey { uid := some u } m .devmod keyValid = some (validKey u m) := by
  unfold setKey validKey
  rw [if_pos (by decide)]

/-- a set of something else leaves the record alone -/
theorem other_key {c : Ctx} {w m u : Str} {ns : Ns} {k : Str} (hok : argsOk ns k = true) (hm : Plain m) (hw : Plain w)
    (hu : Plain u) (hc : PlainCtx c) (h : ns ≠ .devmod ∨ k ≠ keyValid ∨ w ≠ m ∨ c.uid ≠ some u) (hu0 : u ≠ []) :
    validKey u m ≠ (composeKey (setSpec c w (domOf ns) ns k)).drop 1 := by
  intro e
  have h1 : setKey c w ns k = some (validKey u m) := by unfold setKey; rw [if_pos hok, e]
  obtain ⟨a1, a2, -, -, a5, -⟩ := C29_isolation_partial { uid := some u } c m w .devmod ns keyValid k (validKey u m) hm hw
    (by intro x hx; cases hx) hc.1 (by intro x hx; cases hx; exact hu) hc.2 (validKey_set u m) h1
  obtain ⟨b1, b2⟩ := a5 rfl
  rcases h with h | h | h | h
  · exact h a1.symm
  · exact h a2.symm
  · exact h b2.symm
  · cases hcu : c.uid with
    | none => rw [hcu] at b1; exact hu0 b1
    | some x => rw [hcu] at b1; exact h (by rw [hcu]; exact congrArg some b1.symm)

theorem rsv_key {m u : Str} (hm : Plain m) (hu : Plain u) (hu0 : u ≠ []) (ns : Ns) (k : Str) :
    validKey u m ≠ Kvs.canon (composeKey (rsvSpec (domOf ns) ns k)) := by
  intro e
  unfold validKey at e
  have hp : PlainParts (rsvSpec (domOf ns) ns k) := by
    refine ⟨?_, ?_, ?_, ?_⟩ <;> intro x hx
    · cases ns <;> simp only [rsvSpec, domOf] at hx <;> revert hx <;> simp [domUser] <;> intro hx <;> subst hx <;>
        exact (by decide)
    · cases hx
    · cases hx
    · cases hx
  rw [set_stored, C28_unique _ _ (setSpec_plain hm (by intro x hx; cases hx) (by intro x hx; cases hx; exact hu) _ _) hp
    (Or.inl rfl) (Or.inl rfl)] at e
  simp only [parts, Parts.mk.injEq] at e
  exact hu0 e.2.2.2.2.1

/-- a call that does not address a record leaves it alone -/
theorem call_frame {db db' : Db} {w k : Str} {x : Call} {rc : Int} (hk : k.head? ≠ some 126)
    (hset : ∀ c a, x = .set c a → argsOk a.ns a.key = true → k ≠ (composeKey (setSpec c w (domOf a.ns) a.ns a.key)).drop 1)
    (hrsv : ∀ ns name, k ≠ Kvs.canon (composeKey (rsvSpec (domOf ns) ns name))) (h : call true db w x = some (rc, db')) :
    db'.recs k = db.recs k := by
  have hres : ∀ (c : Ctx) (ns : Ns) (name : Str) (flags : Flags) (unset : Bool),
      doReserve db c true w (domOf ns) ns name flags unset = some (rc, db') → db'.recs k = db.recs k := by
    intro c ns name flags unset h
    have hk := hrsv ns name
    unfold doReserve at h
    dsimp only at h
    generalize Kvs.canon (composeKey (rsvSpec (domOf ns) ns name)) = k' at h hk
    simp only [Bool.not_true, Bool.and_false, Bool.false_eq_true, if_false] at h
    split at h
    · cases h
    · split at h
      · simp only [Option.some.injEq, Prod.mk.injEq] at h
        rw [← h.2, manageIndex_recs]
        simp only [Db.put]
        rw [if_neg hk]
      · simp only [Option.some.injEq, Prod.mk.injEq] at h
        rw [← h.2]
  cases x with
  | set c a =>
    simp only [call] at h
    rcases kvSet_cases h with ⟨h1, -⟩ | ⟨h1, h2⟩
    · rw [h1]
    · have hok : argsOk a.ns a.key = true := by
        unfold setKey at h1
        split at h1
        · assumption
        · cases h1
      rw [h2, writeRec_other _ _ _ _ (hset c a rfl hok) hk]
  | reserve c ns name flags =>
    simp only [call, kvReserve] at h
    split at h
    · exact hres _ _ _ _ _ h
    · simp only [Option.some.injEq, Prod.mk.injEq] at h
      rw [← h.2]
  | unreserve c ns name =>
    simp only [call, kvUnreserve] at h
    split at h
    · exact hres _ _ _ _ _ h
    · simp only [Option.some.injEq, Prod.mk.injEq] at h
      rw [← h.2]

/-- another module's call leaves the record about a device alone -/
theorem call_valid {db db' : Db} {w m u : Str} {x : Call} {rc : Int} (hm : Plain m) (hu : Plain u) (hu0 : u ≠ [])
    (hw : Plain w) (hwm : w ≠ m) (hx : ∀ c a, x = .set c a → PlainCtx c) (h : call true db w x = some (rc, db')) :
    db'.recs (validKey u m) = db.recs (validKey u m) :=
  call_frame (validKey_head u m)
    (fun c a e hok => other_key hok hm hw hu (hx c a e) (.inr (.inr (.inl hwm))) hu0) (rsv_key hm hu hu0) h

/-! ### a scan -/

theorem setPath_db {db db' : Db} {c : Ctx} {m : Str} {r : Verdict} (h : setPath db c m r = some db') :
    db' = (if r = .error then db else writeRec db (varKey (orNull c.num) keyPath)
      (setRec c m ⟨.udev, keyPath, some ((if r = .yes then txt "1" else txt "0") ++ [0]), flRd⟩)) := by
  have hw : ∀ v, setText db c m .udev keyPath v flRd = some db' →
      db' = writeRec db (varKey (orNull c.num) keyPath) (setRec c m ⟨.udev, keyPath, some (v ++ [0]), flRd⟩) := by
    intro v hv
    have := setText_write (by decide) hv
    rw [this]
    rw [← set_varKey c m]
    rfl
  cases r <;> simp only [setPath] at h
  · simp only [Option.some.injEq] at h; simp [h]
  all_goals
    have := hw _ h
    simpa using this

theorem setValid_db {db db' : Db} {c : Ctx} {m u : Str} {r : Verdict} (hu : c.uid = some u) (h : setValid db c m r = some db') :
    db' = (if r = .error then db else writeRec db (validKey u m)
      (setRec c m ⟨.devmod, keyValid, some (digit r ++ [0]), flRd ||| flSyncP⟩)) := by
  unfold setValid at h
  have hw : setText db c m .devmod keyValid (digit r) (flRd ||| flSyncP) = some db' →
      db' = writeRec db (validKey u m) (setRec c m ⟨.devmod, keyValid, some (digit r ++ [0]), flRd ||| flSyncP⟩) := by
    intro hv
    have := setText_write (by decide) hv
    rwa [validKey_eq m hu] at this
  cases r
  · simp at h; simp [h]
  all_goals
    rw [if_pos (by decide)] at h
    have := hw h
    simpa using this

theorem stored_eq {db : Db} {c : Ctx} {m u : Str} (hu : c.uid = some u) (ho : ∀ r, db.recs (validKey u m) = some r → r.owner = m) :
    stored db c m = (db.recs (validKey u m)).bind Mod.valueText := by
  have hk : getKey c m .devmod keyValid none none 0 = some (validKey u m) := by
    rw [(C29_get_finds_set c m .devmod keyValid).1]
    unfold setKey
    rw [if_pos (by decide), validKey_eq m hu]
  have hg : kvGet db c m { ns := .devmod, key := keyValid } =
      (match db.recs (validKey u m) with | none => .error (-2) | some r => if rdAllowed r m then .ok r else .error (-1)) := by
    unfold kvGet doKvGet getRec
    unfold getKey at hk
    rw [if_pos (by decide)] at hk ⊢
    simp only [Option.some.injEq] at hk
    dsimp only
    rw [hk]
    cases db.recs (validKey u m) <;> rfl
  unfold stored
  rw [hg]
  cases hr : db.recs (validKey u m) with
  | none => rfl
  | some r =>
    have : rdAllowed r m = true := by
      unfold rdAllowed
      by_cases hm : m = core
      · rw [modMatch_core.mpr hm]
      · rw [(modMatch_same hm).mpr (ho r hr)]
    simp [this]

theorem released_snoc (l : List Verdict) (v : Verdict) :
    Released (l ++ [v]) ↔ v = .no ∨ v = .maybe ∨ v ≠ .sure ∧ Released l := by
  constructor
  · rintro ⟨before, w, since, h, hw, hs⟩
    rcases List.eq_nil_or_concat since with rfl | ⟨since', x, rfl⟩
    · have := List.append_inj' h rfl
      simp only [List.cons.injEq, and_true] at this
      rcases hw with hw | hw
      · exact .inl (this.2.trans hw)
      · exact .inr (.inl (this.2.trans hw))
    · rw [List.concat_eq_append, ← List.cons_append, ← List.append_assoc] at h
      have := List.append_inj' h rfl
      simp only [List.cons.injEq, and_true] at this
      refine .inr (.inr ⟨?_, before, w, since', this.1, hw, fun hx => hs (by simp [hx])⟩)
      intro e
      apply hs
      simp [← this.2, e]
  · rintro (h | h | ⟨h, before, w, since, e, hw, hs⟩)
    · exact ⟨l, v, [], rfl, .inl h, by simp⟩
    · exact ⟨l, v, [], rfl, .inr h, by simp⟩
    · refine ⟨before, w, since ++ [v], by rw [e]; simp, hw, ?_⟩
      simp only [List.mem_append, List.mem_singleton, not_or]
      exact ⟨hs, fun e => h e.symm⟩

/-- what the record about a device says -/
def Says (m : Str) (l : List Verdict) : Option Rec → Prop
  | none => ∀ v ∈ l, v = .error
  | some r => r.owner = m ∧ (∃ v ∈ l, v ≠ .error) ∧
    ∃ w, w ≠ .error ∧ w ≠ .sure ∧ r.val = .scalar (digit w ++ [0]) ∧ (w = .yes ↔ ¬ Released l)

theorem not_released {l : List Verdict} (h : ∀ v ∈ l, v = .error) : ¬ Released l := by
  rintro ⟨b, v, s, rfl, hv, -⟩
  have := h v (by simp)
  subst this
  rcases hv with hv | hv <;> cases hv

theorem settle_says {m : Str} {l : List Verdict} {o : Option Rec} (h : Says m l o) (v : Verdict) :
    (settle (o.bind Mod.valueText) v = .error ↔ v = .error) ∧ (settle (o.bind Mod.valueText) v = .yes ↔ Claimed l v) ∧
      settle (o.bind Mod.valueText) v ≠ .sure ∧
      (settle (o.bind Mod.valueText) v ≠ .yes → settle (o.bind Mod.valueText) v = v ∨ v = .yes ∧
        settle (o.bind Mod.valueText) v = .no) := by
  cases v with
  | error => simp [settle, Claimed]
  | no => simp [settle, Claimed]
  | maybe => simp [settle, Claimed]
  | sure => simp [settle, Claimed]
  | yes =>
    cases o with
    | none =>
      have := not_released h
      simp [settle, Claimed, this]
    | some r =>
      obtain ⟨-, -, w, w1, w2, hv, hw⟩ := h
      have ht : (some r).bind Mod.valueText = some (digit w) := by
        simp only [Option.bind_some, Mod.valueText, hv]
        cases w <;> rfl
      rw [ht]
      cases w with
      | error => exact absurd rfl w1
      | sure => exact absurd rfl w2
      | yes =>
        have e : settle (some (digit .yes)) .yes = .yes := by decide +kernel
        rw [e]
        simp [Claimed, hw.mp rfl]
      | no =>
        have e : settle (some (digit .no)) .yes = .no := by decide +kernel
        rw [e]
        have : Released l := by
          apply Classical.byContradiction
          intro hn
          cases hw.mpr hn
        simp [Claimed, this]
      | maybe =>
        have e : settle (some (digit .maybe)) .yes = .no := by decide +kernel
        rw [e]
        have : Released l := by
          apply Classical.byContradiction
          intro hn
          cases hw.mpr hn
        simp [Claimed, this]

theorem devmod_ne_var (c : Ctx) (m k d n : Str) :
    varKey d n ≠ (composeKey (setSpec c m (domOf .devmod) .devmod k)).drop 1 := by
  rw [compose_glue]
  simp [varKey, glue, setSpec, domOf, domUser, txt, storedMark, opLetter, text, join]

/-- what a scan of a disk about which multipath is asked leaves behind -/
theorem scan_recs {db db' : Db} {c : Ctx} {m u : Str} {e : Ev} {rc : Int} (hu : c.uid = some u) (hm : Plain m) (hup : Plain u)
    (hu0 : u ≠ []) (hc : PlainCtx c) (ha : Asked e) (h : scanNext db c m e = some (rc, db')) :
    let r := settle (stored db c m) e.verdict
    rc = (if r ≠ .error then 0 else -1) ∧
    db'.recs (validKey u m) = (if r = .error then db.recs (validKey u m) else
      some (setRec c m ⟨.devmod, keyValid, some (digit r ++ [0]), flRd ||| flSyncP⟩)) ∧
    db'.recs (varKey (orNull c.num) keyPath) = (if r = .error then db.recs (varKey (orNull c.num) keyPath) else
      some (setRec c m ⟨.udev, keyPath, some ((if r = .yes then txt "1" else txt "0") ++ [0]), flRd⟩)) := by
  obtain ⟨a1, a2, a3⟩ := ha
  unfold scanNext at h
  rw [if_neg (by rw [(allowed_iff _).mpr a1]; simp), a2] at h
  simp only [scanDisk, a3, Bool.true_eq_false, if_false] at h
  intro r
  change (setPath db c m r).bind (fun db => (setValid db c m r).bind fun db =>
    (setWwid db c m e.wwid).map fun db => (if r ≠ .error then 0 else -1, db)) = some (rc, db') at h
  generalize r = r at h
  obtain ⟨db1, h1, h⟩ := Option.bind_eq_some_iff.mp h
  obtain ⟨db2, h2, h⟩ := Option.bind_eq_some_iff.mp h
  obtain ⟨db3, h3, h⟩ := Option.map_eq_some_iff.mp h
  simp only [Prod.mk.injEq] at h
  obtain ⟨hrc, rfl⟩ := h
  have e1 := setPath_db h1
  have e2 := setValid_db hu h2
  have hw : db3.recs (validKey u m) = db2.recs (validKey u m) ∧
      db3.recs (varKey (orNull c.num) keyPath) = db2.recs (varKey (orNull c.num) keyPath) := by
    cases hww : e.wwid with
    | none =>
      rw [hww] at h3
      simp only [setWwid, Option.some.injEq] at h3
      rw [h3]
      exact ⟨rfl, rfl⟩
    | some w =>
      rw [hww] at h3
      have := setText_write (by decide) h3
      rw [this]
      exact ⟨writeRec_other _ _ _ _ (other_key (by decide) hm hm hup hc (.inr (.inl (by decide))) hu0) (validKey_head u m),
        writeRec_other _ _ _ _ (devmod_ne_var _ _ _ _ _) (varKey_head _ _)⟩
  have hne : varKey (orNull c.num) keyPath ≠ validKey u m := by
    unfold validKey
    exact devmod_ne_var _ _ _ _ _
  refine ⟨hrc.symm, ?_, ?_⟩
  · rw [hw.1, e2, e1]
    split
    · rfl
    · rw [writeRec_key _ _ _ (validKey_head u m)]
  · rw [hw.2, e2, e1]
    split
    · rfl
    · rw [writeRec_other _ _ _ _ hne (varKey_head _ _), writeRec_key _ _ _ (varKey_head _ _)]

/-- a scan of another device, or one in which multipath is not asked, leaves the record alone -/
theorem mpath_scan_other {db db' : Db} {c : Ctx} {m u : Str} {e : Ev} {rc : Int} (hm : Plain m) (hup : Plain u)
    (hu0 : u ≠ []) (hc : PlainCtx c) (ha : ¬ (c.uid = some u ∧ Asked e)) (h : scanNext db c m e = some (rc, db')) :
    db'.recs (validKey u m) = db.recs (validKey u m) := by
  have hset : ∀ {db db' : Db} {ns : Ns} {key v : Str} {fl : Flags}, argsOk ns key = true →
      (ns ≠ .devmod ∨ key ≠ keyValid ∨ m ≠ m ∨ c.uid ≠ some u) →
      setText db c m ns key v fl = some db' → db'.recs (validKey u m) = db.recs (validKey u m) := by
    intro db db' ns key v fl hok hne hs
    rw [setText_write hok hs]
    exact writeRec_other _ _ _ _ (other_key hok hm hm hup hc hne hu0) (validKey_head u m)
  unfold scanNext at h
  split at h
  · simp only [Option.some.injEq, Prod.mk.injEq] at h
    rw [h.2]
  rename_i hal
  split at h
  · rename_i hty
    unfold scanDisk at h
    split at h
    · simp only [Option.some.injEq, Prod.mk.injEq] at h
      rw [h.2]
    rename_i hre
    have hcu : c.uid ≠ some u := by
      intro hcu
      refine ha ⟨hcu, (allowed_iff _).mp (by simpa using hal), hty, by simpa using hre⟩
    dsimp only at h
    generalize settle (stored db c m) e.verdict = r at h
    obtain ⟨db1, h1, h⟩ := Option.bind_eq_some_iff.mp h
    obtain ⟨db2, h2, h⟩ := Option.bind_eq_some_iff.mp h
    obtain ⟨db3, h3, h⟩ := Option.map_eq_some_iff.mp h
    simp only [Prod.mk.injEq] at h
    obtain ⟨-, rfl⟩ := h
    have e1 : db1.recs (validKey u m) = db.recs (validKey u m) := by
      cases r <;> simp only [setPath] at h1
      · simp only [Option.some.injEq] at h1; rw [h1]
      all_goals exact hset (by decide) (.inl (by decide)) h1
    have e2 : db2.recs (validKey u m) = db1.recs (validKey u m) := by
      unfold setValid at h2
      split at h2
      · exact hset (by decide) (.inr (.inr (.inr hcu))) h2
      · simp only [Option.some.injEq] at h2; rw [h2]
    have e3 : db3.recs (validKey u m) = db2.recs (validKey u m) := by
      cases hw : e.wwid with
      | none => rw [hw] at h3; simp only [setWwid, Option.some.injEq] at h3; rw [h3]
      | some w => rw [hw] at h3; exact hset (by decide) (.inr (.inl (by decide))) h3
    rw [e3, e2, e1]
  · unfold scanPart at h
    split at h
    · simp only [Option.some.injEq, Prod.mk.injEq] at h
      rw [h.2]
    · split at h
      · simp only [Option.some.injEq, Prod.mk.injEq] at h
        rw [h.2]
      · split at h
        · obtain ⟨db1, h1, h⟩ := Option.map_eq_some_iff.mp h
          simp only [Prod.mk.injEq] at h
          obtain ⟨-, rfl⟩ := h
          exact hset (by decide) (.inl (by decide)) h1
        · simp only [Option.some.injEq, Prod.mk.injEq] at h
          rw [h.2]
  · simp only [Option.some.injEq, Prod.mk.injEq] at h
    rw [h.2]

theorem run_snoc (m : Str) (ops : List Op) (o : Op) : ∀ db, run m db (ops ++ [o]) = (run m db ops).bind fun db => step m db o := by
  induction ops with
  | nil =>
    intro db
    simp only [List.nil_append, run, Option.bind_some]
    cases step m db o <;> rfl
  | cons x l ih =>
    intro db
    simp only [List.cons_append, run]
    cases step m db x with
    | none => rfl
    | some y => simp only [Option.bind_some, ih]

theorem Hist.init {m : Str} {ops : List Op} {o : Op} (h : Hist m (ops ++ [o])) : Hist m ops :=
  ⟨fun c e hm => h.scans c e (by simp [hm]), fun w x hm => h.others w x (by simp [hm])⟩

theorem says_run {m u : Str} {db0 : Db} {ops : List Op} {l : List Verdict} (hm : Plain m) (hu : Plain u) (hu0 : u ≠ [])
    (h0 : db0.recs (validKey u m) = none) (hp : Past u ops l) :
    ∀ {db}, Hist m ops → run m db0 ops = some db → Says m l (db.recs (validKey u m)) := by
  induction hp with
  | nil =>
    intro db _ hr
    simp only [run, Option.some.injEq] at hr
    rw [← hr, h0]
    simp [Says]
  | @asked ops l c e hp hcu ha ih =>
    intro db hh hr
    rw [run_snoc] at hr
    obtain ⟨db1, h1, h2⟩ := Option.bind_eq_some_iff.mp hr
    have hs := ih (Hist.init hh) h1
    simp only [step] at h2
    obtain ⟨⟨rc, db2⟩, h3, rfl⟩ := Option.map_eq_some_iff.mp h2
    have hc := hh.scans c e (by simp)
    obtain ⟨-, hv, -⟩ := scan_recs hcu hm hu hu0 hc ha h3
    have ho : ∀ r, db1.recs (validKey u m) = some r → r.owner = m := by
      intro r hr
      rw [hr] at hs
      exact hs.1
    rw [stored_eq hcu ho] at hv
    obtain ⟨s1, s2, s3, s4⟩ := settle_says hs e.verdict
    generalize settle ((db1.recs (validKey u m)).bind Mod.valueText) e.verdict = r at hv s1 s2 s3 s4
    dsimp only
    rw [hv]
    by_cases hre : r = .error
    · rw [if_pos hre]
      have hve := s1.mp hre
      rw [hve]
      cases hd : db1.recs (validKey u m) with
      | none =>
        rw [hd] at hs
        intro v hv
        simp only [List.mem_append, List.mem_singleton] at hv
        rcases hv with hv | hv
        · exact hs v hv
        · exact hv
      | some x =>
        rw [hd] at hs
        obtain ⟨t1, ⟨v, v1, v2⟩, w, t2, t3, t4, t5⟩ := hs
        refine ⟨t1, ⟨v, by simp [v1], v2⟩, w, t2, t3, t4, ?_⟩
        rw [released_snoc, t5]
        simp
    · rw [if_neg hre]
      have hve : e.verdict ≠ .error := fun h => hre (s1.mpr h)
      refine ⟨rfl, ⟨e.verdict, by simp, hve⟩, r, hre, s3, rfl, ?_⟩
      rw [released_snoc, s2]
      unfold Claimed
      cases hv : e.verdict <;> simp_all
  | @notAsked ops l c e hp hn ih =>
    intro db hh hr
    rw [run_snoc] at hr
    obtain ⟨db1, h1, h2⟩ := Option.bind_eq_some_iff.mp hr
    have hs := ih (Hist.init hh) h1
    simp only [step] at h2
    obtain ⟨⟨rc, db2⟩, h3, rfl⟩ := Option.map_eq_some_iff.mp h2
    dsimp only
    rw [mpath_scan_other hm hu hu0 (hh.scans c e (by simp)) hn h3]
    exact hs
  | @call ops l w x hp ih =>
    intro db hh hr
    rw [run_snoc] at hr
    obtain ⟨db1, h1, h2⟩ := Option.bind_eq_some_iff.mp hr
    have hs := ih (Hist.init hh) h1
    simp only [step] at h2
    obtain ⟨⟨rc, db2⟩, h3, rfl⟩ := Option.map_eq_some_iff.mp h2
    obtain ⟨w1, -, w3, w4⟩ := hh.others w x (by simp)
    dsimp only
    rw [call_valid hm hu hu0 w3 w1 w4 h3]
    exact hs

/-! ### C85 -/

/-- C85: with `nompath` on the command line, with or without a value, nothing is done. -/
theorem C85_turned_off (db : Db) (c : Ctx) (m : Str) (e : Ev) (h : Off e.cmdline) : scanNext db c m e = some (0, db) := by
  unfold scanNext
  rw [if_pos]
  cases ha : allowed e.cmdline with
  | false => rfl
  | true => exact absurd h ((allowed_iff _).mp ha)

theorem none_of_get {db : Db} {m u : Str} (h : kvGet db { uid := some u } m { ns := .devmod, key := txt "VALID" } = .error (-2)) :
    db.recs (validKey u m) = none := by
  have hk : getKey { uid := some u } m .devmod keyValid none none 0 = some (validKey u m) := by
    rw [(C29_get_finds_set _ m .devmod keyValid).1, validKey_set]
  unfold getKey at hk
  unfold kvGet doKvGet getRec at h
  rw [if_pos (by decide)] at hk h
  simp only [Option.some.injEq] at hk
  dsimp only at h
  have hk' : Kvs.canon (composeKey (getSpec { uid := some u } m (domOf .devmod) .devmod (txt "VALID") none none 0)) =
      validKey u m := hk
  rw [hk'] at h
  cases hr : db.recs (validKey u m) with
  | none => rfl
  | some r =>
    rw [hr] at h
    dsimp only at h
    split at h
    · cases h
    · simp only [Except.error.injEq] at h
      exact absurd h (by decide)

/-- C85: after any history, multipath having answered `l` about the disk so far, the scan tells udev "1" if the disk is claimed
    now and "0" if not; if there is no answer, the scan fails and the variable stays what it was.  Guards: names of modules and
    devices without ':' (C29), and other modules do not act as `m` or as the core. -/
theorem C85_disk_partial {m u : Str} {db0 db db' : Db} {ops : List Op} {l : List Verdict} {c : Ctx} {e : Ev} {rc : Int}
    (hm : Plain m) (hu : Plain u) (hu0 : u ≠ [])
    (h0 : kvGet db0 { uid := some u } m { ns := .devmod, key := txt "VALID" } = .error (-2))
    (hh : Hist m ops) (hp : Past u ops l) (hr : run m db0 ops = some db)
    (hcu : c.uid = some u) (hc : PlainCtx c) (ha : Asked e) (h : scanNext db c m e = some (rc, db')) :
    (e.verdict ≠ .error → rc = 0 ∧ (Claimed l e.verdict → Holds db' c path (some (txt "1"))) ∧
      (¬ Claimed l e.verdict → Holds db' c path (some (txt "0")))) ∧
    (e.verdict = .error → rc = -1 ∧ ∀ v, Holds db' c path v ↔ Holds db c path v) := by
  have hs := says_run hm hu hu0 (none_of_get h0) hp hh hr
  obtain ⟨h1, -, h3⟩ := scan_recs hcu hm hu hu0 hc ha h
  have ho : ∀ r, db.recs (validKey u m) = some r → r.owner = m := by
    intro r hr
    rw [hr] at hs
    exact hs.1
  rw [stored_eq hcu ho] at h1 h3
  obtain ⟨s1, s2, -, -⟩ := settle_says hs e.verdict
  generalize settle ((db.recs (validKey u m)).bind Mod.valueText) e.verdict = r at h1 h3 s1 s2
  have hok : argsOk .udev path = true := by decide
  refine ⟨fun hv => ?_, fun hv => ?_⟩
  · have hre : r ≠ .error := fun x => hv (s1.mp x)
    rw [if_neg hre] at h3
    rw [if_pos hre] at h1
    refine ⟨h1, fun hcl => ?_, fun hcl => ?_⟩
    · rw [if_pos (s2.mpr hcl)] at h3
      exact Sid.Ubr.holds_of hok h3 rfl
    · rw [if_neg (fun x => hcl (s2.mp x))] at h3
      exact Sid.Ubr.holds_of hok h3 rfl
  · have hre := s1.mpr hv
    rw [if_pos hre] at h3
    rw [if_neg (by simp [hre])] at h1
    refine ⟨h1, fun v => ?_⟩
    rw [Sid.Ubr.holds_iff hok, Sid.Ubr.holds_iff hok]
    have : path = keyPath := rfl
    rw [this, h3]

/-- C85: what is remembered about the disk: nothing as long as there was no answer, else that it is claimed or not. -/
theorem C85_remembered_partial {m u : Str} {db0 db : Db} {ops : List Op} {l : List Verdict}
    (hm : Plain m) (hu : Plain u) (hu0 : u ≠ [])
    (h0 : kvGet db0 { uid := some u } m { ns := .devmod, key := txt "VALID" } = .error (-2))
    (hh : Hist m ops) (hp : Past u ops l) (hr : run m db0 ops = some db) :
    (stored db { uid := some u } m = none ↔ ∀ v ∈ l, v = .error) ∧
    (stored db { uid := some u } m = some (txt "1") ↔ (∃ v ∈ l, v ≠ .error) ∧ ¬ Released l) := by
  have hs := says_run hm hu hu0 (none_of_get h0) hp hh hr
  have ho : ∀ r, db.recs (validKey u m) = some r → r.owner = m := by
    intro r hr
    rw [hr] at hs
    exact hs.1
  rw [stored_eq rfl ho]
  cases hd : db.recs (validKey u m) with
  | none =>
    rw [hd] at hs
    refine ⟨⟨fun _ => hs, fun _ => rfl⟩, ⟨fun h => (by cases h), ?_⟩⟩
    rintro ⟨⟨v, hv, hne⟩, -⟩
    exact absurd (hs v hv) hne
  | some r =>
    rw [hd] at hs
    obtain ⟨-, hex, w, w1, w2, hv, hw⟩ := hs
    have ht : (some r).bind Mod.valueText = some (digit w) := by
      simp only [Option.bind_some, Mod.valueText, hv]
      cases w <;> rfl
    rw [ht]
    refine ⟨⟨fun h => (by cases h), fun h => ?_⟩, ?_⟩
    · obtain ⟨v, hv, hne⟩ := hex
      exact absurd (h v hv) hne
    · rw [← hw]
      simp only [hex, true_and]
      cases w <;> simp [digit] <;> decide

/-- what a scan of a disk says, as steps of serving the command -/
theorem serve_scan {m : Str} {db0 db db' : Db} {c : Ctx} {e : Ev} {rc : Int} {log : List (Str × Option Str)} (ha : Asked e)
    (hs : Serve c db0 db log) (h : scanNext db c m e = some (rc, db')) :
    Serve c db0 db' (log ++ (if settle (stored db c m) e.verdict = .error then [] else
      [(path, some (if settle (stored db c m) e.verdict = .yes then txt "1" else txt "0"))])) := by
  obtain ⟨a1, a2, a3⟩ := ha
  unfold scanNext at h
  rw [if_neg (by rw [(allowed_iff _).mpr a1]; simp), a2] at h
  simp only [scanDisk, a3, Bool.true_eq_false, if_false] at h
  generalize settle (stored db c m) e.verdict = r at h
  obtain ⟨db1, h1, h⟩ := Option.bind_eq_some_iff.mp h
  obtain ⟨db2, h2, h⟩ := Option.bind_eq_some_iff.mp h
  obtain ⟨db3, h3, h⟩ := Option.map_eq_some_iff.mp h
  simp only [Prod.mk.injEq] at h
  obtain ⟨-, rfl⟩ := h
  have hdev : ∀ {dba dbb : Db} {lg : List (Str × Option Str)} {key v : Str} {fl : Flags}, Serve c db0 dba lg →
      setText dba c m .devmod key v fl = some dbb → Serve c db0 dbb lg := by
    intro dba dbb lg key v fl hs h
    unfold setText at h
    obtain ⟨⟨rc', dbx⟩, hx, rfl⟩ := Option.map_eq_some_iff.mp h
    exact .call (x := .set c ⟨.devmod, key, some (v ++ [0]), fl⟩) hs (fun c' a e => by cases e; simp) hx
  have s1 : Serve c db0 db1 (log ++ (if r = .error then [] else [(path, some (if r = .yes then txt "1" else txt "0"))])) := by
    have e1 := setPath_db h1
    have hh : r ≠ .error → Holds db1 c path (some (if r = .yes then txt "1" else txt "0")) := by
      intro hr
      rw [if_neg hr] at e1
      have := writeRec_key db (varKey (orNull c.num) keyPath)
        (setRec c m ⟨.udev, keyPath, some ((if r = .yes then txt "1" else txt "0") ++ [0]), flRd⟩) (varKey_head _ _)
      rw [← e1] at this
      exact Sid.Ubr.holds_of (by decide) this rfl
    have hacc : ∀ v, setText db c m .udev keyPath v flRd = some db1 → 0 ∉ v → Holds db1 c path (some v) →
        Serve c db0 db1 (log ++ [(path, some v)]) := by
      intro v hv h0 hh
      unfold setText at hv
      obtain ⟨⟨rc', dbx⟩, hx, rfl⟩ := Option.map_eq_some_iff.mp hv
      exact .accepted (m := m) (fl := flRd) hs (fun t ht => by cases ht; exact h0) hx hh
    cases r <;> simp only [setPath] at h1
    · simp only [Option.some.injEq] at h1
      subst h1
      simpa using hs
    all_goals exact hacc _ h1 (by decide) (hh (by decide))
  have s2 : Serve c db0 db2 (log ++ (if r = .error then [] else [(path, some (if r = .yes then txt "1" else txt "0"))])) := by
    unfold setValid at h2
    split at h2
    · exact hdev s1 h2
    · simp only [Option.some.injEq] at h2; subst h2; exact s1
  cases hw : e.wwid with
  | none => rw [hw] at h3; simp only [setWwid, Option.some.injEq] at h3; subst h3; exact s2
  | some w => rw [hw] at h3; exact hdev s2 h3

/-- C85: what udev reads in the reply after the scan of a disk: "1" for the variable if the disk is claimed, "0" if it is not,
    and without an answer of multipath what had been set before. -/
theorem C85_reply_partial {m u d : Str} {db0 db dbs db' : Db} {ops : List Op} {l : List Verdict} {c : Ctx} {e : Ev} {rc : Int}
    {log : List (Str × Option Str)} {keys : List Str} (hm : Plain m) (hu : Plain u) (hu0 : u ≠ []) (hd : Plain d) (hd0 : d ≠ [])
    (h0 : kvGet db0 { uid := some u } m { ns := .devmod, key := txt "VALID" } = .error (-2))
    (hh : Hist m ops) (hp : Past u ops l) (hr : run m db0 ops = some db)
    (hf : Spec.Reply.Fresh dbs) (hs : Serve c dbs db log)
    (hcu : c.uid = some u) (hcn : c.num = some d) (ha : Asked e) (h : scanNext db c m e = some (rc, db'))
    (he : Entries db' keys) :
    ∃ o, exportLoop { db := db' } keys = some o ∧
      (e.verdict ≠ .error → ∀ t, (path, t) ∈ o.udev ↔ (Claimed l e.verdict ∧ t = txt "1" ∨ ¬ Claimed l e.verdict ∧ t = txt "0")) ∧
      (e.verdict = .error → ∀ t, (path, t) ∈ o.udev ↔ lastOf log path = some (some t) ∧ t ≠ []) := by
  have hsay := says_run hm hu hu0 (none_of_get h0) hp hh hr
  have ho : ∀ r, db.recs (validKey u m) = some r → r.owner = m := by
    intro r hr
    rw [hr] at hsay
    exact hsay.1
  have hsv := serve_scan ha hs h
  rw [stored_eq hcu ho] at hsv
  obtain ⟨s1, s2, -, -⟩ := settle_says hsay e.verdict
  generalize settle ((db.recs (validKey u m)).bind Mod.valueText) e.verdict = r at hsv s1 s2
  obtain ⟨o, h1, -, h3, -⟩ := C79_reply_is_what_was_set hcn hd hd0 hf hsv he
  refine ⟨o, h1, fun hv t => ?_, fun hv t => ?_⟩
  · rw [h3, if_neg (fun x => hv (s1.mp x)), lastOf_append, if_pos rfl]
    simp only [Option.some.injEq]
    by_cases hcl : Claimed l e.verdict
    · rw [if_pos (s2.mpr hcl)]
      simp only [hcl, true_and, not_true, false_and, or_false]
      exact ⟨fun h => h.1.symm, fun h => ⟨h.symm, by rw [h]; decide⟩⟩
    · rw [if_neg (fun x => hcl (s2.mp x))]
      simp only [hcl, false_and, not_false_iff, true_and, false_or]
      exact ⟨fun h => h.1.symm, fun h => ⟨h.symm, by rw [h]; decide⟩⟩
  · rw [h3, if_pos (s1.mpr hv), List.append_nil]

/-! ### C86 -/

theorem canonKey_plain {s : Str} (h : Plain s) : canonKey s = s := by
  unfold canonKey
  induction s with
  | nil => rfl
  | cons c s ih =>
    simp only [Plain, List.mem_cons, not_or] at h
    rw [List.map_cons, ih h.2, if_neg (fun e => h.1 e.symm)]

theorem canonKey_number {ma mi : Str} (h1 : Plain ma) (h2 : Plain mi) :
    canonKey (ma ++ [58] ++ mi) = withUnderscore ma mi := by
  have : canonKey (ma ++ [58] ++ mi) = canonKey ma ++ [95] ++ canonKey mi := by
    simp [canonKey]
  rw [this, canonKey_plain h1, canonKey_plain h2]
  rfl

theorem digits_plain {s : Str} (h : ∀ c ∈ s, 48 ≤ c ∧ c ≤ 57) : Plain s := fun hm => absurd (h 58 hm).2 (by decide)

theorem fgets_line {n : Nat} : ∀ {s : Str}, 10 ∉ s → s.length < n → Mod.fgets n (s ++ [10]) = (s ++ [10], []) := by
  induction n with
  | zero => intro s _ h; omega
  | succ n ih =>
    intro s hs hl
    cases s with
    | nil => simp [Mod.fgets]
    | cons c s =>
      simp only [List.mem_cons, not_or] at hs
      have := ih (s := s) hs.2 (by simp only [List.length_cons] at hl; omega)
      simp only [List.cons_append, Mod.fgets]
      rw [this]
      have hc : c ≠ 10 := fun e => hs.1 e.symm
      simp [hc]

theorem sysfs_number {ma mi : Str} (h : Number ma mi) : Mod.sysfsGet 15 (some (devFile ma mi)) = some (ma ++ [58] ++ mi) := by
  have h10 : (10 : UInt8) ∉ ma ++ [58] ++ mi := by
    simp only [List.mem_append, List.mem_singleton, not_or]
    exact ⟨⟨fun hm => absurd (h.major 10 hm).1 (by decide), by decide⟩, fun hm => absurd (h.minor 10 hm).1 (by decide)⟩
  unfold Mod.sysfsGet devFile
  rw [Option.bind_some, if_neg (by simp), fgets_line h10 (by have := h.room; simp; omega)]
  dsimp only
  rw [List.getLast?_concat, if_pos rfl, List.dropLast_concat]

/-- C86: what a module reads about the disk a partition is on is the record of the device whose identifier is the number of the
    disk, in the namespace of devices. -/
theorem C86_reads_number (db : Db) (m key ma mi : Str) (h : Number ma mi) :
    getDiskPart db m (some (devFile ma mi)) key =
      (kvGet db { uid := some (withUnderscore ma mi) } m { ns := .device, key := key }).toOption := by
  unfold getDiskPart
  rw [sysfs_number h]
  unfold kvGet doKvGet
  have he : composeKey (diskSpec (ma ++ [58] ++ mi) key) =
      composeKey (getSpec { uid := some (withUnderscore ma mi) } m (domOf .device) .device key none none 0) := by
    unfold diskSpec
    rw [canonKey_number (digits_plain h.major) (digits_plain h.minor)]
    rfl
  by_cases hk : key = [] ∨ key.head? = some sysChar
  · rw [if_pos hk, if_neg]
    · rfl
    · rcases hk with hk | hk <;> simp [argsOk, hk]
  · rw [if_neg hk]
    simp only [not_or] at hk
    rw [if_pos (by simp [argsOk, hk])]
    dsimp only
    rw [he]
    cases getRec db m (composeKey (getSpec { uid := some (withUnderscore ma mi) } m (domOf .device) .device key none none 0)) <;>
      rfl

/-- C86: if the disk is identified by its number, a module reads for a partition what it has set for the disk (in the namespace
    of devices). -/
theorem C86_reads_disk_partial {db db' : Db} {c : Ctx} {m key v ma mi : Str} {fl : Flags} {rc : Int} (h : Number ma mi)
    (hc : c.uid = some (withUnderscore ma mi)) (hk : key ≠ []) (hs : key.head? ≠ some 35)
    (hset : kvSet db c m ⟨.device, key, some v, fl⟩ = some (rc, db'))
    (ho : ∀ k r, setKey c m .device key = some k → db.recs k = some r → r.owner = m) :
    ∃ r, getDiskPart db' m (some (devFile ma mi)) key = some r ∧ r.val = .scalar v ∧ r.owner = m ∧ r.flags = fl := by
  have hok : argsOk .device key = true := by
    simp [argsOk, hk, sysChar, hs]
  obtain ⟨-, h2⟩ := C31_reads_own_write db db' c m ⟨.device, key, some v, fl⟩ rc
    (by unfold setKey; rw [if_pos hok]; simp) hset ho
  rw [C86_reads_number db' m key ma mi h]
  have : kvGet db' { uid := some (withUnderscore ma mi) } m { ns := .device, key := key } =
      kvGet db' c m { ns := .device, key := key } := by
    have he : getSpec { uid := some (withUnderscore ma mi) } m (domOf .device) .device key none none 0 =
        getSpec c m (domOf .device) .device key none none 0 := by
      simp [getSpec, nsPartOf, orNull, hc]
    unfold kvGet doKvGet
    dsimp only
    rw [he]
  rw [this, h2]
  exact ⟨_, rfl, rfl, rfl, rfl⟩

/-- the key of a record in the namespace of devices -/
def deviceKey (u k : Str) : Str := (composeKey (setSpec { uid := some u } [] (domOf .device) .device k)).drop 1

theorem deviceKey_head (u k : Str) : (deviceKey u k).head? ≠ some 126 := by
  unfold deviceKey
  rw [setKey_head]
  decide

theorem device_get {db : Db} {u k m : Str} (h : db.recs (deviceKey u k) = none) :
    (kvGet db { uid := some u } m { ns := .device, key := k }).toOption = none := by
  unfold kvGet
  split
  · rename_i hok
    have hk := (C29_get_finds_set { uid := some u } m .device k).1
    unfold getKey setKey at hk
    rw [if_pos hok, if_pos hok] at hk
    simp only [Option.some.injEq] at hk
    unfold doKvGet getRec
    dsimp only
    rw [hk]
    have : (composeKey (setSpec { uid := some u } m (domOf .device) .device k)).drop 1 = deviceKey u k := rfl
    rw [this, h]
    rfl
  · rfl

theorem device_other {c : Ctx} {w u k key : Str} {ns : Ns} (hu : Plain u) (hu0 : u ≠ []) (hw : Plain w) (hc : PlainCtx c)
    (h : ns ≠ .device ∨ key ≠ k ∨ c.uid ≠ some u) : deviceKey u k ≠ (composeKey (setSpec c w (domOf ns) ns key)).drop 1 := by
  intro e
  unfold deviceKey at e
  rw [set_stored, set_stored, C28_unique _ _ (setSpec_plain (by simp [Plain]) (by intro x hx; cases hx)
    (by intro x hx; cases hx; exact hu) _ _) (setSpec_plain hw hc.1 hc.2 _ _) (Or.inl rfl) (Or.inl rfl)] at e
  simp only [parts, Parts.mk.injEq] at e
  obtain ⟨-, -, -, a3, a4, -, -, a7⟩ := e
  simp only [setSpec] at a3
  subst a3
  rcases h with h | h | h
  · exact h rfl
  · exact h a7.symm
  · cases hcu : c.uid with
    | none => simp [text, setSpec, nsPartOf, orNull, hcu] at a4; exact hu0 a4
    | some x =>
      simp [text, setSpec, nsPartOf, orNull, hcu] at a4
      exact h (by rw [hcu, a4])

theorem device_rsv {u k : Str} (hu : Plain u) (hu0 : u ≠ []) (ns : Ns) (name : Str) :
    deviceKey u k ≠ Kvs.canon (composeKey (rsvSpec (domOf ns) ns name)) := by
  intro e
  unfold deviceKey at e
  have hp : PlainParts (rsvSpec (domOf ns) ns name) := by
    refine ⟨?_, ?_, ?_, ?_⟩ <;> intro x hx
    · cases ns <;> simp only [rsvSpec, domOf] at hx <;> revert hx <;> simp [domUser] <;> intro hx <;> subst hx <;>
        exact (by decide)
    · cases hx
    · cases hx
    · cases hx
  rw [set_stored, C28_unique _ _ (setSpec_plain (by simp [Plain]) (by intro x hx; cases hx)
    (by intro x hx; cases hx; exact hu) _ _) hp (Or.inl rfl) (Or.inl rfl)] at e
  simp only [parts, Parts.mk.injEq] at e
  exact hu0 e.2.2.2.2.1

theorem number_plain {ma mi : Str} (h : Number ma mi) : Plain (withUnderscore ma mi) ∧ withUnderscore ma mi ≠ [] := by
  refine ⟨?_, by simp [withUnderscore]⟩
  have a := digits_plain h.major
  have b := digits_plain h.minor
  simp only [Plain, withUnderscore, List.mem_append, List.mem_singleton, not_or] at *
  exact ⟨⟨a, by decide⟩, b⟩

/-- C86 is false as stated: unless a device is identified by the number of the disk (the daemon identifies devices by UUIDs it
    makes or by what udev tells it), a module finds nothing for a partition, whatever it and others have set for the disk. -/
theorem C86_not_found_counterexample {db : Db} {l : List (Str × Call)} (m key ma mi : Str) (h : Number ma mi)
    (hl : ∀ x ∈ l, Plain x.1 ∧ ∀ c a, x.2 = .set c a → PlainCtx c ∧ c.uid ≠ some (withUnderscore ma mi))
    (hr : calls true Db.empty l = some db) : getDiskPart db m (some (devFile ma mi)) key = none := by
  rw [C86_reads_number db m key ma mi h]
  obtain ⟨hp, hne⟩ := number_plain h
  apply device_get
  have : ∀ (l : List (Str × Call)) (db0 : Db), (∀ x ∈ l, Plain x.1 ∧ ∀ c a, x.2 = .set c a → PlainCtx c ∧ c.uid ≠ some (withUnderscore ma mi)) →
      db0.recs (deviceKey (withUnderscore ma mi) key) = none → calls true db0 l = some db →
      db.recs (deviceKey (withUnderscore ma mi) key) = none := by
    intro l
    induction l with
    | nil =>
      intro db0 _ h0 hr
      simp only [calls, Option.some.injEq] at hr
      rw [← hr, h0]
    | cons x l ih =>
      intro db0 hl h0 hr
      obtain ⟨w, x⟩ := x
      simp only [calls] at hr
      obtain ⟨⟨rc, db1⟩, h1, h2⟩ := Option.bind_eq_some_iff.mp hr
      obtain ⟨hw, hx⟩ := hl (w, x) (by simp)
      refine ih db1 (fun y hy => hl y (by simp [hy])) ?_ h2
      rw [call_frame (deviceKey_head _ _) (fun c a e hok => device_other hp hne hw (hx c a e).1 (.inr (.inr (hx c a e).2)))
        (device_rsv hp hne) h1, h0]
  exact this l Db.empty hl rfl hr

/-- C85 is false of partitions: whatever was found out about the disk, for a partition on it the module does nothing, as it looks
    for a record which only another module could have made. -/
theorem C85_partition_counterexample {db : Db} {ops : List Op} {c : Ctx} {e : Ev} (m ma mi : Str) (h : Number ma mi) (hm : Plain m)
    (hh : Hist m ops)
    (ho : ∀ w c a, .call w (.set c a) ∈ ops → a.ns = .device → a.key = txt "VALID" → c.uid ≠ some (withUnderscore ma mi))
    (hr : run m Db.empty ops = some db) (het : e.type = .partition) (hed : e.wholeDev = some (devFile ma mi)) :
    scanNext db c m e = some (0, db) := by
  obtain ⟨hp, hne⟩ := number_plain h
  have key : ∀ (ops : List Op) (db0 : Db), Hist m ops →
      (∀ w c a, .call w (.set c a) ∈ ops → a.ns = .device → a.key = txt "VALID" → c.uid ≠ some (withUnderscore ma mi)) →
      db0.recs (deviceKey (withUnderscore ma mi) keyValid) = none → run m db0 ops = some db →
      db.recs (deviceKey (withUnderscore ma mi) keyValid) = none := by
    intro ops
    induction ops with
    | nil =>
      intro db0 _ _ h0 hr
      simp only [run, Option.some.injEq] at hr
      rw [← hr, h0]
    | cons x l ih =>
      intro db0 hh ho h0 hr
      simp only [run] at hr
      obtain ⟨db1, h1, h2⟩ := Option.bind_eq_some_iff.mp hr
      refine ih db1 ⟨fun c e hx => hh.scans c e (by simp [hx]), fun w x hx => hh.others w x (by simp [hx])⟩
        (fun w c a hx => ho w c a (by simp [hx])) ?_ h2
      cases x with
      | scan c e =>
        simp only [step] at h1
        obtain ⟨⟨rc, db2⟩, h3, rfl⟩ := Option.map_eq_some_iff.mp h1
        have hc := hh.scans c e (by simp)
        have hset : ∀ {dba dbb : Db} {ns : Ns} {k v : Str} {fl : Flags}, argsOk ns k = true → ns ≠ .device →
            setText dba c m ns k v fl = some dbb →
            dbb.recs (deviceKey (withUnderscore ma mi) keyValid) = dba.recs (deviceKey (withUnderscore ma mi) keyValid) := by
          intro dba dbb ns k v fl hok hn hs
          rw [setText_write hok hs]
          exact writeRec_other _ _ _ _ (device_other hp hne hm hc (.inl hn)) (deviceKey_head _ _)
        dsimp only
        rw [← h0]
        unfold scanNext at h3
        split at h3
        · simp only [Option.some.injEq, Prod.mk.injEq] at h3; rw [h3.2]
        split at h3
        · unfold scanDisk at h3
          split at h3
          · simp only [Option.some.injEq, Prod.mk.injEq] at h3; rw [h3.2]
          dsimp only at h3
          generalize settle (stored db0 c m) e.verdict = r at h3
          obtain ⟨dbx, g1, h3⟩ := Option.bind_eq_some_iff.mp h3
          obtain ⟨dby, g2, h3⟩ := Option.bind_eq_some_iff.mp h3
          obtain ⟨dbz, g3, h3⟩ := Option.map_eq_some_iff.mp h3
          simp only [Prod.mk.injEq] at h3
          obtain ⟨-, rfl⟩ := h3
          have e1 : dbx.recs (deviceKey (withUnderscore ma mi) keyValid) = db0.recs (deviceKey (withUnderscore ma mi) keyValid) := by
            cases r <;> simp only [setPath] at g1
            · simp only [Option.some.injEq] at g1; rw [g1]
            all_goals exact hset (by decide) (by decide) g1
          have e2 : dby.recs (deviceKey (withUnderscore ma mi) keyValid) = dbx.recs (deviceKey (withUnderscore ma mi) keyValid) := by
            unfold setValid at g2
            split at g2
            · exact hset (by decide) (by decide) g2
            · simp only [Option.some.injEq] at g2; rw [g2]
          have e3 : dbz.recs (deviceKey (withUnderscore ma mi) keyValid) = dby.recs (deviceKey (withUnderscore ma mi) keyValid) := by
            cases hw : e.wwid with
            | none => rw [hw] at g3; simp only [setWwid, Option.some.injEq] at g3; rw [g3]
            | some w => rw [hw] at g3; exact hset (by decide) (by decide) g3
          rw [e3, e2, e1]
        · unfold scanPart at h3
          split at h3
          · simp only [Option.some.injEq, Prod.mk.injEq] at h3; rw [h3.2]
          · split at h3
            · simp only [Option.some.injEq, Prod.mk.injEq] at h3; rw [h3.2]
            · split at h3
              · obtain ⟨dbx, g1, h3⟩ := Option.map_eq_some_iff.mp h3
                simp only [Prod.mk.injEq] at h3
                obtain ⟨-, rfl⟩ := h3
                exact hset (by decide) (by decide) g1
              · simp only [Option.some.injEq, Prod.mk.injEq] at h3; rw [h3.2]
        · simp only [Option.some.injEq, Prod.mk.injEq] at h3; rw [h3.2]
      | call w x =>
        simp only [step] at h1
        obtain ⟨⟨rc, db2⟩, h3, rfl⟩ := Option.map_eq_some_iff.mp h1
        obtain ⟨-, -, w3, w4⟩ := hh.others w x (by simp)
        dsimp only
        rw [call_frame (deviceKey_head _ _) (fun c a e hok => ?_) (device_rsv hp hne) h3, h0]
        by_cases hns : a.ns = .device
        · by_cases hkk : a.key = keyValid
          · exact device_other hp hne w3 (w4 c a e) (.inr (.inr (ho w c a (by simp [e]) hns hkk)))
          · exact device_other hp hne w3 (w4 c a e) (.inr (.inl hkk))
        · exact device_other hp hne w3 (w4 c a e) (.inl hns)
  have hn := device_get (m := m) (key ops Db.empty hh ho rfl hr)
  unfold scanNext
  split
  · rfl
  · rw [het]
    simp only
    unfold scanPart
    rw [hed, C86_reads_number db m keyValid ma mi h, hn]
    rfl

/-- C85, for partitions: udev is told 1 if the record found under the number of the disk is "1", and nothing is done if it is "0" or
    if there is none.  What is missing: that the record is the one made for the disk (see the counterexample). -/
theorem C85_partition_partial {db db' : Db} {c : Ctx} {e : Ev} {rc : Int} (m ma mi : Str) (h : Number ma mi)
    (het : e.type = .partition) (hed : e.wholeDev = some (devFile ma mi)) (hoff : ¬ Off e.cmdline)
    (hs : scanNext db c m e = some (rc, db')) :
    rc = 0 ∧
    (∀ r, kvGet db { uid := some (withUnderscore ma mi) } m { ns := .device, key := txt "VALID" } = .ok r →
      (r.val = .scalar (txt "1" ++ [0]) → Holds db' c path (some (txt "1"))) ∧ (r.val = .scalar (txt "0" ++ [0]) → db' = db)) ∧
    (∀ x, kvGet db { uid := some (withUnderscore ma mi) } m { ns := .device, key := txt "VALID" } = .error x → db' = db) := by
  unfold scanNext at hs
  rw [if_neg (by rw [(allowed_iff _).mpr hoff]; simp), het] at hs
  simp only [scanPart] at hs
  have hk : keyValid = txt "VALID" := rfl
  rw [hed, C86_reads_number db m keyValid ma mi h, hk] at hs
  generalize kvGet db { uid := some (withUnderscore ma mi) } m { ns := .device, key := txt "VALID" } = g at hs
  cases g with
  | error x =>
    simp only [Except.toOption, Option.bind_none, Option.some.injEq, Prod.mk.injEq] at hs
    exact ⟨hs.1.symm, fun r hr => (by cases hr), fun _ _ => hs.2.symm⟩
  | ok r =>
    simp only [Except.toOption, Option.bind_some] at hs
    refine ⟨?_, fun r' hr => ?_, fun x hx => (by cases hx)⟩
    · split at hs
      · simp only [Option.some.injEq, Prod.mk.injEq] at hs; exact hs.1.symm
      · split at hs
        · simp only [Option.some.injEq, Prod.mk.injEq] at hs; exact hs.1.symm
        · split at hs
          · obtain ⟨dbx, -, hs⟩ := Option.map_eq_some_iff.mp hs
            simp only [Prod.mk.injEq] at hs
            exact hs.1.symm
          · simp only [Option.some.injEq, Prod.mk.injEq] at hs; exact hs.1.symm
    · cases hr
      refine ⟨fun hv => ?_, fun hv => ?_⟩
      · have ht : Mod.valueText r = some (txt "1") := by simp only [Mod.valueText, hv]; rfl
        rw [ht] at hs
        dsimp only at hs
        rw [if_neg (by decide), if_pos (by decide +kernel)] at hs
        obtain ⟨dbx, h1, hs⟩ := Option.map_eq_some_iff.mp hs
        simp only [Prod.mk.injEq] at hs
        obtain ⟨-, rfl⟩ := hs
        have e1 := setText_write (by decide) h1
        refine Sid.Ubr.holds_of (r := setRec c m ⟨.udev, keyPath, some (txt "1" ++ [0]), flRd⟩) (by decide) ?_ rfl
        · rw [e1]
          have : (composeKey (setSpec c m (domOf .udev) .udev keyPath)).drop 1 = varKey (orNull c.num) keyPath := set_varKey c m keyPath
          rw [this]
          exact writeRec_key _ _ _ (varKey_head _ _)
      · have ht : Mod.valueText r = some (txt "0") := by simp only [Mod.valueText, hv]; rfl
        rw [ht] at hs
        dsimp only at hs
        rw [if_neg (by decide), if_neg (by decide +kernel)] at hs
        simp only [Option.some.injEq, Prod.mk.injEq] at hs
        exact hs.2.symm

/-! ### examples -/

/-- a disk on which multipath is asked -/
def diskEv (v : Verdict) : Ev := { cmdline := some (txt "quiet ro"), type := .disk, verdict := v, wwid := some (txt "3600") }

/-- the disk 8:16 -/
def diskCtx : Ctx := { num := some (txt "8_16"), uid := some (txt "5b0f-77"), seqnum := 7 }

/-- the module -/
def mpathMod : Str := txt "/block/dm_mpath"

/-- taken as a path, then not, then maybe again, another module sets something meanwhile -/
def diskOps : List Op :=
  [.scan diskCtx (diskEv .yes), .call (txt "/block/blkid") (.set diskCtx ⟨.devmod, txt "VALID", some (txt "9"), flRd⟩),
   .scan diskCtx (diskEv .error), .scan diskCtx (diskEv .no), .scan diskCtx (diskEv .yes)]

theorem diskEv_asked (v : Verdict) : Asked (diskEv v) :=
  ⟨(allowed_iff _).mp (show allowed (some (txt "quiet ro")) = true by decide +kernel), rfl, rfl⟩

/-- the answers so far; the disk is released -/
example : Past (txt "5b0f-77") diskOps [.yes, .error, .no, .yes] ∧ Released [.yes, .error, .no, .yes] ∧
    ¬ Claimed [.yes, .error, .no, .yes] .yes ∧ Claimed [.yes, .error, .no, .yes] .sure ∧ Claimed [.yes, .error] .yes := by
  have hrel : Released [.yes, .error, .no, .yes] := ⟨[.yes, .error], .no, [.yes], rfl, .inl rfl, by decide⟩
  refine ⟨?_, hrel, ?_, .inl rfl, .inr ⟨rfl, ?_⟩⟩
  · exact .asked (.asked (.asked (.call (.asked .nil rfl (diskEv_asked .yes))) rfl (diskEv_asked .error)) rfl
      (diskEv_asked .no)) rfl (diskEv_asked .yes)
  · rintro (h | ⟨-, h⟩)
    · cases h
    · exact h hrel
  · rintro ⟨b, v, s, h, hv, -⟩
    have : v ∈ [Verdict.yes, Verdict.error] := by rw [h]; simp
    rcases hv with rfl | rfl <;> simp at this

/-- the history is one the theorems are about, and it goes through -/
example : Hist mpathMod diskOps ∧ (run mpathMod Db.empty diskOps).isSome = true ∧
    ((run mpathMod Db.empty diskOps).bind fun db => (scanNext db diskCtx mpathMod (diskEv .sure))).isSome = true ∧
    ((run mpathMod Db.empty diskOps).map fun db => stored db diskCtx mpathMod) = some (some (txt "0")) := by
  refine ⟨⟨?_, ?_⟩, by decide +kernel, by decide +kernel, by decide +kernel⟩
  · intro c e h
    simp [diskOps] at h
    have : c = diskCtx := by rcases h with h | h | h | h <;> exact h.1
    subst this
    exact ⟨by intro x hx; cases hx; decide, by intro x hx; cases hx; decide⟩
  · intro w x h
    simp [diskOps] at h
    obtain ⟨rfl, rfl⟩ := h
    refine ⟨by decide, by decide, by decide, fun c a h => ?_⟩
    cases h
    exact ⟨by intro x hx; cases hx; decide, by intro x hx; cases hx; decide⟩

/-- nothing is recorded at first; `nompath=off` turns multipath off as well -/
example : kvGet Db.empty { uid := some (txt "5b0f-77") } mpathMod { ns := .devmod, key := txt "VALID" } = .error (-2) ∧
    Off (some (txt "quiet nompath=off")) :=
  ⟨rfl, _, rfl, txt "nompath=off", by decide, .inr ⟨txt "off", by decide⟩⟩

/-- the disk 8:16 is a path, its partition is looked at -/
example : Number (txt "8") (txt "16") ∧
    ((run mpathMod Db.empty [.scan diskCtx (diskEv .sure)]).bind fun db =>
      (scanNext db { num := some (txt "8_17"), uid := some (txt "c0-1") } mpathMod
        { cmdline := none, type := .partition, wholeDev := some (txt "8:16\n") }).map fun r =>
      (stored db diskCtx mpathMod, r.1, (r.2.recs (varKey (txt "8_16") path)).isSome, (r.2.recs (varKey (txt "8_17") path)).isSome))
      = some (some (txt "1"), 0, true, false) ∧
    devFile (txt "8") (txt "16") = txt "8:16\n" :=
  ⟨⟨by decide, by decide, by decide⟩, by decide +kernel, by decide⟩

/-- a disk identified by its number -/
example : ∃ db', kvSet Db.empty { uid := some (txt "8_16") } mpathMod ⟨.device, txt "VALID", some (txt "1"), flRd⟩ = some (0, db') ∧
    (getDiskPart db' mpathMod (some (txt "8:16\n")) (txt "VALID")).map Rec.val = some (.scalar (txt "1")) := by
  refine ⟨_, rfl, ?_⟩
  decide +kernel

end Sid.Props
