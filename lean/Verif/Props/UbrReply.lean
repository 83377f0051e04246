import Verif.Proof.UbrReply
import Verif.Props.FmtEnv
/-
C79: udev is told the variables set while a device was scanned.
-/
namespace Sid.Props
open Sid.Ubr Sid.Spec Sid.Spec.Sync Sid.Spec.Reply Sid.Spec.UbrKey
open Sid.Spec.FmtEnv (assignments)
open Sid.Ifc (txt)

/-- C79: at the end of a stage the reply has exactly the variables of the device that were set and not unset since, with the
    values given last, if these are not empty: each once, none of them lost, no other ones, whatever names were reserved and
    whatever else was written.  Afterwards nothing is left to be told. -/
theorem C79_reply_is_what_was_set {c : Ctx} {d : Str} {db0 db : Db} {log : List (Str × Option Str)} {keys : List Str}
    (hc : c.num = some d) (hd : Plain d) (hne : d ≠ []) (hf : Reply.Fresh db0) (hs : Serve c db0 db log) (he : Entries db keys) :
    ∃ o, exportLoop { db := db } keys = some o ∧ (o.udev.map fun x => x.1).Nodup ∧
      (∀ n v, (n, v) ∈ o.udev ↔ lastOf log n = some (some v) ∧ v ≠ []) ∧ Reply.Fresh (endStage o) := by
  have ht := told_serve hc hd hne hf hs
  obtain ⟨o, ho⟩ := exportLoop_some keys (o := { db := db }) he.1 (by
    intro k hk r l hr hfl hns hv
    obtain ⟨n, hkn | ⟨hkn, r', hr', hv'⟩⟩ := ht.keys k hns ((he.2 k).mp hk)
    · subst hkn
      dsimp only at hr
      cases hl : lastOf log n with
      | none =>
        have := ht.untouched n hl
        rw [hr] at this
        simp only [flagged, Option.any_some] at this
        rw [hfl] at this; cases this
      | some v? =>
        cases v? with
        | none =>
          obtain ⟨r', hr', hv'⟩ := ht.unset n hl
          rw [hr] at hr'; cases hr'
          rw [hv] at hv'; cases hv'
        | some v =>
          obtain ⟨-, r', rest, hr', hv', -⟩ := ht.texts n v hl
          rw [hr] at hr'; cases hr'
          rw [hv] at hv'; cases hv'
    · rw [hr] at hr'; cases hr'
      rw [hv] at hv'; cases hv')
  have hu := exportLoop_udev keys he.1 ho
  simp only [List.nil_append] at hu
  have hmem : ∀ k ∈ keys, ∀ x, toldOf db k = some x ↔
      k = varKey d x.1 ∧ lastOf log x.1 = some (some x.2) ∧ x.2 ≠ [] := fun k hk x =>
    told_of hd ht k ((he.2 k).mp hk) x
  refine ⟨o, ho, ?_, ?_, ?_, ?_⟩
  · rw [hu, List.map_filterMap]
    refine nodup_filterMap he.1 fun a ha b hb y z hy hz e => ?_
    simp only [Option.map_eq_some_iff] at hy hz
    obtain ⟨y', hy', rfl⟩ := hy
    obtain ⟨z', hz', rfl⟩ := hz
    rw [((hmem a ha y').mp hy').1, ((hmem b hb z').mp hz').1, e]
  · intro n v
    rw [hu, List.mem_filterMap]
    constructor
    · rintro ⟨k, hk, hx⟩
      exact ((hmem k hk (n, v)).mp hx).2
    · rintro ⟨hl, hv⟩
      obtain ⟨-, r, rest, hr, -, hfl⟩ := ht.texts n v hl
      have hk : varKey d n ∈ keys := by
        rw [he.2]
        have := ht.indexed d n
        unfold Indexed at this
        rw [this, hr]
        exact hfl
      exact ⟨_, hk, (hmem _ hk (n, v)).mpr ⟨rfl, hl, hv⟩⟩
  · intro k hk
    rw [(endStage_ok he ho).2]
    cases hi : db.idx k with
    | false => rfl
    | true =>
      have : flagged (db.recs k) = true := by
        obtain ⟨n, e | ⟨e, -⟩⟩ := ht.keys k hk hi
        · have h1 := ht.indexed d n
          unfold Indexed at h1
          rw [e, ← h1, ← e]; exact hi
        · have h1 := ht.indexed [] n
          unfold Indexed at h1
          rw [e, ← h1, ← e]; exact hi
      rw [this]; rfl
  · intro e n
    have h1 := ht.indexed e n
    unfold Indexed at h1
    rw [(endStage_ok he ho).1]
    split
    · rw [if_neg fun h => h.2 (varKey_ns e n)]
      exact flagged_clear _
    · next h =>
      cases hfl : flagged (db.recs (varKey e n)) with
      | false => rfl
      | true => rw [hfl] at h1; exact absurd ⟨h1, hfl⟩ h

/-- C79: stages one after the other: what the reply of a stage has depends on what was set in this stage, not on what was set
    in stages and commands before. -/
theorem C79_next_stage {c c' : Ctx} {d d' : Str} {db0 db db' : Db} {log log' : List (Str × Option Str)} {keys keys' : List Str}
    {o : Out} (hc : c.num = some d) (hd : Plain d) (hne : d ≠ []) (hf : Reply.Fresh db0) (hs : Serve c db0 db log)
    (he : Entries db keys) (ho : exportLoop { db := db } keys = some o) (hc' : c'.num = some d') (hd' : Plain d')
    (hne' : d' ≠ []) (hs' : Serve c' (endStage o) db' log') (he' : Entries db' keys') :
    ∃ o', exportLoop { db := db' } keys' = some o' ∧
      ∀ n v, (n, v) ∈ o'.udev ↔ lastOf log' n = some (some v) ∧ v ≠ [] := by
  obtain ⟨o1, h1, -, -, h4⟩ := C79_reply_is_what_was_set hc hd hne hf hs he
  rw [ho] at h1
  cases h1
  obtain ⟨o', h1, -, h3, -⟩ := C79_reply_is_what_was_set hc' hd' hne' h4 hs' he'
  exact ⟨o', h1, h3⟩

theorem lastOf_mem {log : List (Str × Option Str)} {n : Str} {v : Option Str} (h : lastOf log n = some v) : (n, v) ∈ log := by
  induction log with
  | nil => cases h
  | cons x log ih =>
    obtain ⟨m, w⟩ := x
    rw [lastOf] at h
    cases hl : lastOf log n with
    | some u => rw [hl] at h; cases h; exact List.mem_cons_of_mem _ (ih hl)
    | none =>
      rw [hl] at h
      simp only [Option.none_or] at h
      split at h
      · next e => cases h; rw [e]; exact List.mem_cons_self ..
      · cases h

/-- C79 (partial: names without '=' and newline, values without newline, see the counterexample).  Somebody who takes the lines
    `usid scan` prints for assignments reads the variables of the reply, in its order, and the state of the daemon. -/
theorem C79_usid_prints_partial (l : List (Str × Str)) (h0 : ∀ x ∈ l, 0 ∉ x.1 ∧ 0 ∉ x.2)
    (hl : ∀ x ∈ l, 61 ∉ x.1 ∧ 10 ∉ x.1 ∧ 10 ∉ x.2) :
    ∃ t, usidPrints (replyText l) = some t ∧ assignments t = l ++ [(txt "SID_STATUS", txt "active")] := by
  refine ⟨(l ++ [(txt "SID_STATUS", txt "active")]).flatMap assignLine, ?_, ?_⟩
  · unfold usidPrints
    rw [print_reply l h0, Option.map_some, List.flatMap_append]
    rfl
  · refine assignments_lines _ ?_
    intro a ha
    rcases List.mem_append.mp ha with ha | ha
    · exact hl a ha
    · rw [List.mem_singleton] at ha
      rw [ha]
      exact (by decide +kernel)

/-- C79 (partial: as before).  From the variables set to the lines printed. -/
theorem C79_set_to_printed_partial {c : Ctx} {d : Str} {db0 db : Db} {log : List (Str × Option Str)} {keys : List Str}
    (hc : c.num = some d) (hd : Plain d) (hne : d ≠ []) (hf : Reply.Fresh db0) (hs : Serve c db0 db log) (he : Entries db keys)
    (hl : ∀ x ∈ log, 0 ∉ x.1 ∧ 61 ∉ x.1 ∧ 10 ∉ x.1 ∧ ∀ v, x.2 = some v → 10 ∉ v) :
    ∃ o t, exportLoop { db := db } keys = some o ∧ usidPrints (replyText o.udev) = some t ∧
      ∀ n v, (n, v) ∈ assignments t ↔
        (lastOf log n = some (some v) ∧ v ≠ []) ∨ (n = txt "SID_STATUS" ∧ v = txt "active") := by
  obtain ⟨o, ho, -, hm, -⟩ := C79_reply_is_what_was_set hc hd hne hf hs he
  have ht := told_serve hc hd hne hf hs
  obtain ⟨t, h1, h2⟩ := C79_usid_prints_partial o.udev
    (fun x hx => by
      obtain ⟨hx, -⟩ := (hm x.1 x.2).mp hx
      exact ⟨(hl _ (lastOf_mem hx)).1, (ht.texts _ _ hx).1⟩)
    (fun x hx => by
      obtain ⟨hx, -⟩ := (hm x.1 x.2).mp hx
      obtain ⟨-, a, b, c⟩ := hl _ (lastOf_mem hx)
      exact ⟨a, b, c _ rfl⟩)
  refine ⟨o, t, ho, h1, fun n v => ?_⟩
  rw [h2, List.mem_append, hm, List.mem_singleton, Prod.mk.injEq]

/-- the device of the examples -/
def dev80 : Ctx := { num := some (txt "8_0"), seqnum := 7, gennum := 1 }

/-- C79 is false of values with newlines: with one of them a module has udev set another variable. -/
theorem C79_newline_counterexample : ∃ db log keys o t,
    Serve dev80 Db.empty db log ∧ Entries db keys ∧ exportLoop { db := db } keys = some o ∧
    usidPrints (replyText o.udev) = some t ∧ (txt "ID_SERIAL", txt "1") ∈ assignments t ∧
    ∀ x ∈ log, x.1 ≠ txt "ID_SERIAL" := by
  have hs : kvSet Db.empty dev80 (txt "/m") ⟨.udev, txt "A", bytes (some (txt "x\nID_SERIAL=1")), 0⟩ = some (0, _) := rfl
  refine ⟨_, _, [txt "::U:8_0:::A"], _, _, .accepted .start ?_ hs ?_, ?_, rfl, rfl, ?_, ?_⟩
  · intro t ht; cases ht; decide
  · refine holds_of (by decide) rfl rfl
  · refine ⟨by simp, fun k => ?_⟩
    constructor
    · intro h
      rw [List.mem_singleton] at h
      rw [h]; rfl
    · intro h
      rcases writeRec_idx _ _ _ _ h with h | h
      · rw [h]; decide +kernel
      · cases h
  · decide +kernel
  · decide +kernel

/-- C79: a value has to be a text of at least one character with its end mark.  A single byte given without one is kept and
    found by modules, but udev is not told. -/
theorem C79_single_byte_counterexample (m : Str) (n : Str) (b : UInt8) (fl : Flags) (hn : argsOk .udev n = true) :
    ∃ db keys o, kvSet Db.empty dev80 m ⟨.udev, n, some [b], fl⟩ = some (0, db) ∧ Entries db keys ∧
      exportLoop { db := db } keys = some o ∧ o.udev = [] ∧
      ∃ r, kvGet db dev80 core { ns := .udev, key := n } = .ok r ∧ r.val = .scalar [b] := by
  have hkey : (composeKey (setSpec dev80 m none .udev n)).drop 1 = varKey (txt "8_0") n := by
    rw [set_varKey]; rfl
  have hset : kvSet Db.empty dev80 m ⟨.udev, n, some [b], fl⟩ =
      some (0, writeRec Db.empty (varKey (txt "8_0") n) (setRec dev80 m ⟨.udev, n, some [b], fl⟩)) := by
    unfold kvSet
    rw [if_pos hn, ← hkey]
    unfold doKvSet
    by_cases hm : m = core
    · simp [hm, wrAllowed, Db.empty, domOf]
    · simp [hm, wrAllowed, Db.empty, domOf, globalRs]
  have hflag : has (setRec dev80 m ⟨.udev, n, some [b], fl⟩).flags flSync = true := sync_or fl
  have he : Entries (writeRec Db.empty (varKey (txt "8_0") n) (setRec dev80 m ⟨.udev, n, some [b], fl⟩))
      [varKey (txt "8_0") n] := by
    refine ⟨by simp, fun k => ?_⟩
    rw [List.mem_singleton]
    constructor
    · rintro rfl
      unfold writeRec
      rw [manageIndex_idx]
      simp [flagged, hflag, Db.empty]
    · intro h
      rcases writeRec_idx _ _ _ _ h with h | h
      · exact h
      · cases h
  have hrec : (writeRec Db.empty (varKey (txt "8_0") n) (setRec dev80 m ⟨.udev, n, some [b], fl⟩)).recs (varKey (txt "8_0") n) =
      some (setRec dev80 m ⟨.udev, n, some [b], fl⟩) := by
    rw [writeRec_recs (varKey_head _ _), if_pos rfl]
  obtain ⟨o, ho⟩ := exportLoop_some [varKey (txt "8_0") n]
    (o := { db := writeRec Db.empty (varKey (txt "8_0") n) (setRec dev80 m ⟨.udev, n, some [b], fl⟩) }) he.1 (by
      intro k hk r l hr _ _ hv
      rw [List.mem_singleton] at hk
      subst hk
      dsimp only at hr
      rw [hrec] at hr
      cases hr
      cases hv)
  refine ⟨_, _, o, hset, he, ho, ?_, ?_⟩
  · rw [exportLoop_udev _ he.1 ho]
    simp only [List.nil_append, List.filterMap_cons, List.filterMap_nil, toldOf, hrec, Option.bind_some, hflag, varKey_ns,
      true_and, if_true]
    have : udevLine (varKey (txt "8_0") n) [b] = none := by simp [udevLine]
    simp only [setRec, Option.getD_some, this]
  · refine ⟨setRec dev80 m ⟨.udev, n, some [b], fl⟩, ?_, rfl⟩
    unfold kvGet doKvGet getRec
    rw [if_pos hn, get_varKey]
    change (match (writeRec _ _ _).recs (varKey (txt "8_0") n) with | none => _ | some r => _) = _
    rw [hrec]
    simp [rdAllowed, modMatch]

/-- a request with two variables; one is changed by a module, which sets another one and unsets it again -/
example : ∃ db log, Serve dev80 Db.empty db log ∧ Reply.Fresh Db.empty ∧
    lastOf log (txt "DEVNAME") = some (some (txt "sda")) ∧ lastOf log (txt "ID_FS") = some (some (txt "ext4")) ∧
    lastOf log (txt "TMP") = some none := by
  have h1 : doKvSet Db.empty dev80 core none ⟨.udev, txt "DEVNAME", bytes (some (txt "sda")), 0x720⟩ = some (0, _) := rfl
  refine ⟨_, _, .accepted (v := none) (m := txt "/m") (n := txt "TMP") (fl := 0) (rc := 0)
    (.accepted (v := some (txt "1")) (m := txt "/m") (n := txt "TMP") (fl := 0) (rc := 0)
      (.accepted (v := some (txt "ext4")) (m := txt "/m") (n := txt "ID_FS") (fl := 0x720) (rc := 0)
        (.imported (n := txt "ID_FS") (v := txt "?") (fl := 0x720) (rc := 0) (.imported .start (by decide) h1) (by decide) rfl) ?_ rfl ?_) ?_ rfl ?_) ?_ rfl ?_,
    ⟨fun _ _ => rfl, fun _ _ => rfl⟩, by decide +kernel, by decide +kernel, by decide +kernel⟩
  · intro t ht; cases ht; decide
  · exact holds_of (by decide) rfl rfl
  · intro t ht; cases ht; decide
  · exact holds_of (by decide) rfl rfl
  · intro t ht; cases ht
  · exact holds_of (by decide) rfl rfl

end Sid.Props
