import Verif.Spec.UbrReply
import Verif.Proof.UbrSync
import Verif.Props.UbrKey
/-
Lemmas about what udev is told.
-/
namespace Sid.Ubr
open Sid.Spec Sid.Spec.Sync Sid.Spec.Reply Sid.Spec.UbrKey Sid.Spec.Delta
open Sid.Ifc (txt)

/-! ### keys -/

theorem varKey_glue (d n : Str) : varKey d n = glue [] [] [85] d [] [] n := by
  simp [varKey, glue, txt, join]

theorem varKey_ns (d n : Str) : nsFromKey (varKey d n) = .udev := by
  have e : getKeyPart (varKey d n) 2 = some [85] := by
    rw [varKey_glue]
    exact part2 n (by simp) (by simp) (by decide)
  unfold nsFromKey
  rw [e]
  rfl

theorem varKey_head (d n : Str) : (varKey d n).head? ≠ some 126 := by
  simp [varKey, txt]

theorem varKey_core {d : Str} (hd : Plain d) (n : Str) : getKeyPart (varKey d n) 6 = some n := by
  rw [varKey_glue]
  exact part6 n (by simp) (by simp) (by decide) hd (by simp) (by simp)

theorem varKey_inj {d e n m : Str} (hd : Plain d) (he : Plain e) (h : varKey d n = varKey e m) : d = e ∧ n = m := by
  rw [varKey_glue, varKey_glue] at h
  obtain ⟨-, -, -, a, -, -, b⟩ := glue_inj (by simp) (by simp) (by decide) hd (by simp) (by simp) (by simp) (by simp)
    (by decide) he (by simp) (by simp) h
  exact ⟨a, b⟩

theorem set_varKey (c : Ctx) (m n : Str) :
    (composeKey (setSpec c m none .udev n)).drop 1 = varKey (orNull c.num) n := by
  rw [varKey_glue, compose_glue]
  rfl

theorem rsv_varKey (n : Str) : Kvs.canon (composeKey (rsvSpec (domOf .udev) .udev n)) = varKey [] n := by
  rw [varKey_glue, canon_compose _ (Or.inl rfl)]
  rfl

theorem get_varKey (c : Ctx) (n : Str) :
    Kvs.canon (composeKey (getSpec c core (domOf .udev) .udev n none none 0)) = varKey (orNull c.num) n := by
  rw [varKey_glue, canon_compose _ (Or.inr (Or.inl rfl))]
  rfl

/-- keys of other namespaces -/
theorem set_ns (c : Ctx) (m n : Str) (dom : Option Str) (hd : dom = none ∨ dom = some domUser) (ns : Ns) :
    nsFromKey ((composeKey (setSpec c m dom ns n)).drop 1) = ns := by
  have hp : join ∉ text dom := by
    rcases hd with e | e <;> rw [e] <;> decide
  have e : getKeyPart ((composeKey (setSpec c m dom ns n)).drop 1) 2 = some (nsLetter ns) := by
    rw [compose_glue]
    exact part2 n (p0 := []) (p1 := text dom) (by simp) hp (nsLetter_plain ns)
  unfold nsFromKey
  rw [e]
  cases ns <;> rfl

theorem arch_ns (c : Ctx) (m n : Str) (dom : Option Str) (hd : dom = none ∨ dom = some domUser) (ns : Ns) :
    nsFromKey (opArchive ++ (composeKey (setSpec c m dom ns n)).drop 1) = ns := by
  have hp : join ∉ text dom := by
    rcases hd with e | e <;> rw [e] <;> decide
  have e : getKeyPart (opArchive ++ (composeKey (setSpec c m dom ns n)).drop 1) 2 = some (nsLetter ns) := by
    rw [compose_glue]
    exact part2 n (p0 := [126]) (p1 := text dom) (by decide) hp (nsLetter_plain ns)
  unfold nsFromKey
  rw [e]
  cases ns <;> rfl

theorem rsv_ns (n : Str) (ns : Ns) :
    nsFromKey (Kvs.canon (composeKey (rsvSpec (domOf ns) ns n))) = ns := by
  have hp : join ∉ text (domOf ns) := by cases ns <;> decide
  have e : getKeyPart (Kvs.canon (composeKey (rsvSpec (domOf ns) ns n))) 2 = some (nsLetter ns) := by
    rw [canon_compose _ (Or.inl rfl)]
    exact part2 n (p0 := []) (p1 := text (domOf ns)) (by simp) hp (nsLetter_plain ns)
  unfold nsFromKey
  rw [e]
  cases ns <;> rfl

/-! ### what was set last -/

theorem lastOf_append (log : List (Str × Option Str)) (m : Str) (v : Option Str) (n : Str) :
    lastOf (log ++ [(m, v)]) n = if m = n then some v else lastOf log n := by
  induction log with
  | nil => simp [lastOf]
  | cons x log ih =>
    obtain ⟨a, b⟩ := x
    rw [List.cons_append, lastOf, ih, lastOf]
    by_cases h : m = n <;> simp [h]

/-! ### writing -/

theorem wr_core (old : Option Rec) : ¬ wrAllowed old core < 0 := by
  cases old with
  | none => simp [wrAllowed]
  | some o => simp [wrAllowed, modMatch]

theorem writeRec_recs {db : Db} {key k : Str} {r : Rec} (hk : k.head? ≠ some 126) :
    (writeRec db key r).recs k = if k = key then some r else db.recs k := by
  have hA : ∀ r : Str, k ≠ opArchive ++ r := by
    intro r e; rw [e] at hk; exact hk rfl
  unfold writeRec
  rw [manageIndex_recs]
  split
  · simp [Db.put, hA]
  · simp [Db.put]

theorem writeRec_idx (db : Db) (key k : Str) (r : Rec) (h : (writeRec db key r).idx k = true) : k = key ∨ db.idx k = true := by
  unfold writeRec at h
  rw [manageIndex_idx] at h
  split at h
  · next h' => exact Or.inl h'.1
  · right
    split at h <;> exact h

theorem writeRec_frame {db : Db} {key k : Str} {r : Rec} (h1 : k ≠ key) (h2 : k ≠ opArchive ++ key) :
    (writeRec db key r).recs k = db.recs k ∧ (writeRec db key r).idx k = db.idx k := by
  unfold writeRec
  rw [manageIndex_recs, manageIndex_idx]
  split
  · simp [Db.put, h1, h2]
  · simp [Db.put, h1]

theorem globalRs_nonneg {db : Db} {m : Str} {dom : Option Str} {ns : Ns} {n : Str} {g : Int}
    (h : globalRs db m dom ns n = some g) : ¬ g < 0 := by
  unfold globalRs at h
  split at h
  · cases h; decide
  · split at h
    · cases h; decide
    · split at h
      · cases h
      · split at h
        · cases h
          unfold rsAllows
          split <;> omega
        · cases h; decide

/-- a set leaves the store alone or writes the record -/
theorem doKvSet_cases {db db' : Db} {c : Ctx} {m : Str} {dom : Option Str} {a : SetArgs} {rc : Int}
    (h : doKvSet db c m dom a = some (rc, db')) :
    (db' = db ∧ a.value = none ∧ m ≠ core) ∨
      db' = writeRec db ((composeKey (setSpec c m dom a.ns a.key)).drop 1) (setRec c m a) := by
  unfold doKvSet at h
  have hg : ∀ g, (if a.ns = .udev ∧ m = core then some 0 else globalRs db m dom a.ns a.key) = some g → ¬ g < 0 := by
    intro g hg
    split at hg
    · cases hg; decide
    · exact globalRs_nonneg hg
  generalize (if a.ns = .udev ∧ m = core then some 0 else globalRs db m dom a.ns a.key) = g at h hg
  cases g with
  | none => cases h
  | some g =>
    simp only [Option.bind_some, if_neg (hg g rfl)] at h
    split at h
    · next hw =>
      split at h
      · cases h
      · next hv =>
        cases h
        refine Or.inl ⟨rfl, by simpa using hv, ?_⟩
        rintro rfl
        exact wr_core _ hw
    · cases h
      exact Or.inr rfl

theorem sync_or (f : Flags) : has (f ||| flSyncP) flSync = true := by
  rw [has_sync, BitVec.getLsbD_or, (by decide : flSyncP.getLsbD 1 = true), Bool.or_true]

/-! ### the invariant -/

/-- the store while a command for the device `d` is served -/
structure Told (d : Str) (db : Db) (log : List (Str × Option Str)) : Prop where
  indexed : ∀ e n, Indexed db (varKey e n)
  keys : ∀ k, nsFromKey k = .udev → db.idx k = true →
    ∃ n, k = varKey d n ∨ (k = varKey [] n ∧ ∃ r, db.recs k = some r ∧ r.val = .scalar [])
  texts : ∀ n v, lastOf log n = some (some v) →
    0 ∉ v ∧ ∃ r rest, db.recs (varKey d n) = some r ∧ r.val = .scalar (v ++ 0 :: rest) ∧ has r.flags flSync = true
  unset : ∀ n, lastOf log n = some none → ∃ r, db.recs (varKey d n) = some r ∧ r.val = .scalar []
  untouched : ∀ n, lastOf log n = none → flagged (db.recs (varKey d n)) = false

theorem Told.start {d : Str} {db : Db} (h : Reply.Fresh db) : Told d db [] where
  indexed := fun e n => by
    unfold Indexed
    rw [h.2, h.1 _ (varKey_ns e n)]
  keys := fun k hk hi => by rw [h.1 k hk] at hi; cases hi
  texts := fun n v hv => by cases hv
  unset := fun n hv => by cases hv
  untouched := fun n _ => h.2 d n

/-- a variable written -/
theorem Told.write {d : Str} {db : Db} {log : List (Str × Option Str)} (h : Told d db log) (hd : Plain d)
    {n : Str} {r : Rec} {v : Option Str} {b : Option (List UInt8)} (hf : has r.flags flSync = true)
    (hv : r.val = .scalar (b.getD [])) (hb : Text v b)
    (h0 : ∀ t, v = some t → 0 ∉ t) : Told d (writeRec db (varKey d n) r) (log ++ [(n, v)]) := by
  have hpl : Plain ([] : Str) := by simp [Plain]
  refine ⟨?_, ?_, ?_, ?_, ?_⟩
  · intro e m
    exact writeRec_indexed (varKey_head e m) (h.indexed e m)
  · intro k hk hi
    by_cases hkk : k = varKey d n
    · exact ⟨n, Or.inl hkk⟩
    · rcases writeRec_idx _ _ _ _ hi with hi | hi
      · exact absurd hi hkk
      · obtain ⟨m, hm | ⟨hm, r', hr, hs⟩⟩ := h.keys k hk hi
        · exact ⟨m, Or.inl hm⟩
        · refine ⟨m, Or.inr ⟨hm, r', ?_, hs⟩⟩
          rw [writeRec_recs (by rw [hm]; exact varKey_head _ _), if_neg hkk]
          exact hr
  · intro m t ht
    rw [lastOf_append] at ht
    rw [writeRec_recs (varKey_head _ _)]
    by_cases hm : n = m
    · subst hm
      simp only [if_true] at ht ⊢
      cases ht
      obtain ⟨rest, rfl⟩ := hb
      exact ⟨h0 t rfl, r, rest, rfl, hv, hf⟩
    · rw [if_neg hm] at ht
      rw [if_neg fun e => hm (varKey_inj hd hd e).2.symm]
      exact h.texts m t ht
  · intro m ht
    rw [lastOf_append] at ht
    rw [writeRec_recs (varKey_head _ _)]
    by_cases hm : n = m
    · subst hm
      simp only [if_true] at ht ⊢
      cases ht
      cases hb
      exact ⟨r, rfl, hv⟩
    · rw [if_neg hm] at ht
      rw [if_neg fun e => hm (varKey_inj hd hd e).2.symm]
      exact h.unset m ht
  · intro m ht
    rw [lastOf_append] at ht
    rw [writeRec_recs (varKey_head _ _)]
    by_cases hm : n = m
    · rw [if_pos hm] at ht; cases ht
    · rw [if_neg hm] at ht
      rw [if_neg fun e => hm (varKey_inj hd hd e).2.symm]
      exact h.untouched m ht

/-- nothing about variables changed -/
theorem Told.frame {d : Str} {db db' : Db} {log : List (Str × Option Str)} (h : Told d db log)
    (hf : ∀ k, nsFromKey k = .udev → db'.recs k = db.recs k ∧ db'.idx k = db.idx k) : Told d db' log where
  indexed := fun e n => by
    have := h.indexed e n
    unfold Indexed at *
    rw [(hf _ (varKey_ns e n)).1, (hf _ (varKey_ns e n)).2, this]
  keys := fun k hk hi => by
    rw [(hf k hk).2] at hi
    rw [(hf k hk).1]
    exact h.keys k hk hi
  texts := fun n v hv => by rw [(hf _ (varKey_ns d n)).1]; exact h.texts n v hv
  unset := fun n hv => by rw [(hf _ (varKey_ns d n)).1]; exact h.unset n hv
  untouched := fun n hv => by rw [(hf _ (varKey_ns d n)).1]; exact h.untouched n hv

/-- a name reserved or released -/
theorem Told.reserve {d : Str} {db db' : Db} {log : List (Str × Option Str)} (h : Told d db log) (hd : Plain d) (hne : d ≠ [])
    {c : Ctx} {m : Str} {ns : Ns} {n : Str} {fl : Flags} {un : Bool} {rc : Int}
    (hr : doReserve db c true m (domOf ns) ns n fl un = some (rc, db')) (hx : ∀ e x, Indexed db' (varKey e x)) :
    Told d db' log := by
  have hpl : Plain ([] : Str) := by simp [Plain]
  unfold doReserve at hr
  simp only [Bool.not_true, Bool.and_false, Bool.false_eq_true, if_false] at hr
  split at hr
  · cases hr
  · split at hr
    · cases hr
      by_cases hns : ns = .udev
      · subst hns
        rw [rsv_varKey] at hx ⊢
        have hrecs : ∀ k, k ≠ varKey [] n →
            (manageIndex (db.put (varKey [] n) (some (rsvRec c m fl un))) false (varKey [] n) (db.recs (varKey [] n))
              (some (rsvRec c m fl un))).recs k = db.recs k := by
          intro k hk
          rw [manageIndex_recs]
          simp [Db.put, hk]
        have hneq : ∀ x, varKey d x ≠ varKey [] n := fun x e => hne (varKey_inj hd hpl e).1
        refine ⟨hx, ?_, ?_, ?_, ?_⟩
        · intro k hk hi
          by_cases hkk : k = varKey [] n
          · refine ⟨n, Or.inr ⟨hkk, rsvRec c m fl un, ?_, rfl⟩⟩
            rw [manageIndex_recs, hkk]
            simp [Db.put]
          · rw [manageIndex_idx, if_neg fun e => hkk e.1] at hi
            rw [hrecs k hkk]
            exact h.keys k hk hi
        · intro x v hv; rw [hrecs _ (hneq x)]; exact h.texts x v hv
        · intro x hv; rw [hrecs _ (hneq x)]; exact h.unset x hv
        · intro x hv; rw [hrecs _ (hneq x)]; exact h.untouched x hv
      · refine h.frame fun k hk => ?_
        have hkk : k ≠ Kvs.canon (composeKey (rsvSpec (domOf ns) ns n)) := by
          intro e
          rw [e, rsv_ns] at hk
          exact hns hk
        rw [manageIndex_recs, manageIndex_idx]
        simp [Db.put, hkk]
    · cases hr
      exact h

theorem Told.call {d : Str} {db db' : Db} {log : List (Str × Option Str)} (h : Told d db log) (hd : Plain d) (hne : d ≠ [])
    {m : Str} {x : Call} {rc : Int} (hx : ∀ c' a, x = .set c' a → a.ns ≠ .udev) (hc : call true db m x = some (rc, db')) :
    Told d db' log := by
  have hi : ∀ e n, Indexed db' (varKey e n) := fun e n => call_indexed (varKey_head e n) hc (h.indexed e n)
  cases x with
  | set c' a =>
    have hns := hx c' a rfl
    simp only [Ubr.call, kvSet] at hc
    split at hc
    · rcases doKvSet_cases hc with ⟨e, -, -⟩ | e
      · rw [e]; exact h
      · rw [e]
        have hdom : domOf a.ns = none ∨ domOf a.ns = some domUser := by
          unfold domOf; split
          · exact Or.inl rfl
          · exact Or.inr rfl
        refine h.frame fun k hk => ?_
        have h1 : k ≠ (composeKey (setSpec c' m (domOf a.ns) a.ns a.key)).drop 1 := by
          intro e; rw [e, set_ns _ _ _ _ hdom] at hk; exact hns hk
        have h2 : k ≠ opArchive ++ (composeKey (setSpec c' m (domOf a.ns) a.ns a.key)).drop 1 := by
          intro e; rw [e, arch_ns _ _ _ _ hdom] at hk; exact hns hk
        exact writeRec_frame h1 h2
    · cases hc; exact h
  | reserve c' ns name flags =>
    simp only [Ubr.call, kvReserve] at hc
    split at hc
    · exact h.reserve hd hne hc hi
    · cases hc; exact h
  | unreserve c' ns name =>
    simp only [Ubr.call, kvUnreserve] at hc
    split at hc
    · exact h.reserve hd hne hc hi
    · cases hc; exact h

theorem holds_iff {db : Db} {c : Ctx} {n : Str} {v : Option Str} (ha : argsOk .udev n = true) :
    Holds db c n v ↔ ∃ r b, db.recs (varKey (orNull c.num) n) = some r ∧ r.val = .scalar (b.getD []) ∧ Text v b := by
  unfold Holds kvGet doKvGet getRec
  rw [if_pos ha, get_varKey]
  cases hr : db.recs (varKey (orNull c.num) n) with
  | none => simp
  | some r => simp [rdAllowed, modMatch]

theorem holds_of {db : Db} {c : Ctx} {n : Str} {v : Option Str} {r : Rec} (ha : argsOk .udev n = true)
    (hr : db.recs (varKey (orNull c.num) n) = some r) (hv : r.val = .scalar ((bytes v).getD [])) : Holds db c n v :=
  (holds_iff ha).mpr ⟨r, _, hr, hv, text_bytes v⟩

theorem told_serve {c : Ctx} {db0 db : Db} {log : List (Str × Option Str)} {d : Str} (hc : c.num = some d) (hd : Plain d)
    (hne : d ≠ []) (hf : Reply.Fresh db0) (h : Serve c db0 db log) : Told d db log := by
  have hn : orNull c.num = d := by rw [hc]; rfl
  have hkey : ∀ m n, (composeKey (setSpec c m none .udev n)).drop 1 = varKey d n := by
    intro m n; rw [set_varKey, hn]
  have hflag : ∀ m n v fl, has (setRec c m ⟨.udev, n, v, fl⟩).flags flSync = true := by
    intro m n v fl; exact sync_or fl
  induction h with
  | start => exact .start hf
  | @imported db db' log n v fl rc _ h0 hs ih =>
    rcases doKvSet_cases hs with ⟨-, e, -⟩ | e
    · cases e
    · rw [e]
      dsimp only
      rw [hkey]
      exact ih.write hd (hflag _ _ _ _) rfl (text_bytes _) fun t ht => by cases ht; exact h0
  | @given db db' log m n v b fl rc _ h0 hb hs hh ih =>
    unfold kvSet at hs
    split at hs
    · next ha =>
      rcases doKvSet_cases hs with ⟨e, hv, -⟩ | e
      · subst e
        have hv : v = none := by cases v with
          | none => rfl
          | some v => obtain ⟨rest, rfl⟩ := hb; cases hv
        subst hv
        obtain ⟨r, b', hr, hs, hb'⟩ := (holds_iff ha).mp hh
        cases hb'
        rw [hn] at hr
        refine ⟨ih.indexed, ih.keys, ?_, ?_, ?_⟩
        · intro x t ht
          rw [lastOf_append] at ht
          split at ht
          · cases ht
          · exact ih.texts x t ht
        · intro x ht
          rw [lastOf_append] at ht
          split at ht
          · next e => exact e ▸ ⟨r, hr, hs⟩
          · exact ih.unset x ht
        · intro x ht
          rw [lastOf_append] at ht
          split at ht
          · cases ht
          · exact ih.untouched x ht
      · rw [e]
        have : domOf Ns.udev = none := rfl
        dsimp only
        rw [this, hkey]
        exact ih.write hd (hflag _ _ _ _) rfl hb h0
    · next ha =>
      obtain ⟨r, b', hr, -⟩ := hh
      simp [kvGet, ha] at hr
  | @ignored db db' log m n v b fl rc _ hb hs hh ih =>
    unfold kvSet at hs
    split at hs
    · next ha =>
      rcases doKvSet_cases hs with ⟨e, hv, -⟩ | e
      · rw [e]; exact ih
      · exfalso
        apply hh
        rw [holds_iff ha, e]
        have : domOf Ns.udev = none := rfl
        dsimp only
        rw [this, hkey, hn, writeRec_recs (varKey_head _ _)]
        exact ⟨_, b, if_pos rfl, rfl, hb⟩
    · cases hs; exact ih
  | call _ hx hcall ih => exact ih.call hd hne hx hcall
  | other _ hfr ih => exact ih.frame hfr

/-! ### the export -/

/-- what an entry of the index adds to the reply -/
def toldOf (db : Db) (k : Str) : Option (Str × Str) :=
  (db.recs k).bind fun r => if has r.flags flSync = true ∧ nsFromKey k = .udev then
    (match r.val with | .scalar d => udevLine k d | .vector _ => none) else none

theorem exportOne_udev {o o' : Out} {k : Str} (h : exportOne o k = some o') :
    o'.udev = o.udev ++ (toldOf o.db k).toList := by
  unfold exportOne at h
  unfold toldOf
  cases hr : o.db.recs k with
  | none => rw [hr] at h; cases h; simp
  | some r =>
    rw [hr] at h
    dsimp only at h
    by_cases hf : has r.flags flSync = true
    · rw [if_pos hf] at h
      by_cases hu : nsFromKey k = .udev
      · rw [if_pos hu] at h
        cases hv : r.val with
        | vector l => rw [hv] at h; cases h
        | scalar d => rw [hv] at h; cases h; simp [hf, hu, hv]
      · rw [if_neg hu] at h; cases h; simp [hu]
    · rw [if_neg hf] at h; cases h; simp [hf]

theorem exportLoop_udev (keys : List Str) : ∀ {o o' : Out}, keys.Nodup → exportLoop o keys = some o' →
    o'.udev = o.udev ++ keys.filterMap (toldOf o.db) := by
  induction keys with
  | nil => intro o o' _ h; cases h; simp
  | cons k keys ih =>
    intro o o' hnd h
    rw [List.nodup_cons] at hnd
    simp only [exportLoop] at h
    cases h1 : exportOne o k with
    | none => rw [h1] at h; cases h
    | some o1 =>
      rw [h1] at h
      obtain ⟨-, a2, -⟩ := exportOne_ok h1
      rw [ih hnd.2 h, exportOne_udev h1, List.append_assoc]
      congr 1
      have hfm : keys.filterMap (toldOf o1.db) = keys.filterMap (toldOf o.db) := by
        refine filterMap_congr' fun x hx => ?_
        have : x ≠ k := fun e => hnd.1 (e ▸ hx)
        rw [a2]
        simp [toldOf, Db.put, this]
      rw [hfm, List.filterMap_cons]
      cases toldOf o.db k <;> rfl

theorem takeWhile_text {v rest : Str} (h : 0 ∉ v) : (v ++ 0 :: rest).takeWhile (· ≠ 0) = v := by
  induction v with
  | nil => rfl
  | cons a v ih =>
    have ha : a ≠ 0 := fun e => h (by simp [e])
    have hv : 0 ∉ v := fun e => h (by simp [e])
    rw [List.cons_append, List.takeWhile_cons, if_pos (by simpa using ha), ih hv]

theorem udevLine_text {k v rest : Str} (h : 0 ∉ v) :
    udevLine k (v ++ 0 :: rest) = if v = [] then none else some ((getKeyPart k 6).getD [], v) := by
  unfold udevLine
  cases v with
  | nil => simp
  | cons a v =>
    have ha : a ≠ 0 := fun e => h (by simp [e])
    rw [takeWhile_text h]
    simp [ha]

theorem told_of {d : Str} (hd : Plain d) {db : Db} {log : List (Str × Option Str)} (h : Told d db log) (k : Str)
    (hi : db.idx k = true) (x : Str × Str) :
    toldOf db k = some x ↔ k = varKey d x.1 ∧ lastOf log x.1 = some (some x.2) ∧ x.2 ≠ [] := by
  constructor
  · intro ht
    unfold toldOf at ht
    cases hr : db.recs k with
    | none => rw [hr] at ht; cases ht
    | some r =>
      rw [hr] at ht
      simp only [Option.bind_some] at ht
      split at ht
      · next hfu =>
        obtain ⟨n, hk | ⟨hk, r', hr', hv'⟩⟩ := h.keys k hfu.2 hi
        · subst hk
          cases hl : lastOf log n with
          | none =>
            have := h.untouched n hl
            rw [hr] at this
            simp only [flagged, Option.any_some] at this
            rw [hfu.1] at this; cases this
          | some v? =>
            cases v? with
            | none =>
              obtain ⟨r', hr', hv'⟩ := h.unset n hl
              rw [hr] at hr'; cases hr'
              rw [hv'] at ht
              simp [udevLine] at ht
            | some v =>
              obtain ⟨h0, r', rest, hr', hv', -⟩ := h.texts n v hl
              rw [hr] at hr'; cases hr'
              rw [hv'] at ht
              dsimp only at ht
              rw [udevLine_text h0, varKey_core hd] at ht
              split at ht
              · cases ht
              · next hne => cases ht; exact ⟨rfl, hl, hne⟩
        · rw [hr] at hr'; cases hr'
          rw [hv'] at ht
          simp [udevLine] at ht
      · cases ht
  · rintro ⟨hk, hl, hne⟩
    obtain ⟨n, v⟩ := x
    dsimp only at hk hl hne
    obtain ⟨h0, r, rest, hr, hv, hf⟩ := h.texts n v hl
    subst hk
    unfold toldOf
    rw [hr]
    simp only [Option.bind_some, hf, varKey_ns, true_and, if_true]
    rw [hv]
    dsimp only
    rw [udevLine_text h0, varKey_core hd, if_neg hne]
    rfl

theorem nodup_filterMap {α β : Type} {f : α → Option β} {l : List α} (hn : l.Nodup)
    (hf : ∀ a ∈ l, ∀ b ∈ l, ∀ y z, f a = some y → f b = some z → y = z → a = b) : (l.filterMap f).Nodup := by
  induction l with
  | nil => simp
  | cons a l ih =>
    rw [List.nodup_cons] at hn
    have ih := ih hn.2 fun a ha b hb => hf a (by simp [ha]) b (by simp [hb])
    rw [List.filterMap_cons]
    cases h : f a with
    | none => exact ih
    | some y =>
      rw [List.nodup_cons]
      refine ⟨?_, ih⟩
      intro hm
      obtain ⟨b, hb, e⟩ := List.mem_filterMap.mp hm
      exact hn.1 (hf a (by simp) b (by simp [hb]) y y h e rfl ▸ hb)

/-! ### what usid prints -/

theorem printFrom_line (cur l rest : Str) (h : 0 ∉ l) :
    printFrom cur (l ++ 0 :: rest) = (printFrom [] rest).map fun t => cur ++ l ++ [10] ++ t := by
  induction l generalizing cur with
  | nil => simp [printFrom]
  | cons a l ih =>
    have ha : a ≠ 0 := fun e => h (by simp [e])
    have hl : 0 ∉ l := fun e => h (by simp [e])
    rw [List.cons_append, printFrom, if_neg ha, ih _ hl]
    simp

theorem print_reply (l : List (Str × Str)) (h : ∀ x ∈ l, 0 ∉ x.1 ∧ 0 ∉ x.2) :
    printFrom [] (replyText l) = some (l.flatMap fun x => x.1 ++ [61] ++ x.2 ++ [10]) := by
  induction l with
  | nil => rfl
  | cons x l ih =>
    obtain ⟨h1, h2⟩ := h x (by simp)
    have e : replyText (x :: l) = (x.1 ++ [61] ++ x.2) ++ 0 :: replyText l := by
      simp [replyText, replyLine]
    rw [e, printFrom_line _ _ _ (by simp [h1, h2]), ih fun y hy => h y (by simp [hy])]
    simp

end Sid.Ubr
