import Verif.Proof.UbrCodec
import Verif.Props.UbrSync
/-
C37 (export and import are inverse).
-/
namespace Sid.Props
open Sid.Ubr Sid.Spec.Delta Sid.Spec.Sync Sid.Spec.Codec
open Sid.Ifc (txt)

/-- C37: reading the bytes written for any records gives these records again: keys, flags, sequence and generation numbers,
    owners and data, in the order written, and nothing is left.  (Messages of more than 64 MiB are refused.) -/
theorem C37_roundtrip (l : List (Str × Rec)) (hw : ∀ x ∈ l, WfRec x) (hsize : (message l).length ≤ 0x4000000) :
    readMsg (message l) = .ok l :=
  readMsg_message hw hsize

/-- the data of a record that asks for it begin at a multiple of eight bytes, behind less than eight bytes of padding; other
    records have no padding -/
theorem C37_aligned (r : Rec) (d : List UInt8) :
    ∃ pre pad : List UInt8, scalarBytes r d = pre ++ r.owner ++ [0] ++ pad ++ d ∧ pre.length = 18 ∧ pad.length < 8 ∧
      (has r.flags flAlign = true → (pre.length + r.owner.length + 1 + pad.length) % 8 = 0) ∧
      (has r.flags flAlign = false → pad = []) := by
  refine ⟨headBytes r, List.replicate (padding r.flags (r.owner.length + 1)) 0, rfl, headBytes_length r, ?_, ?_, ?_⟩
  · rw [List.length_replicate, padding]
    split
    · unfold padSize; omega
    · omega
  · intro h
    rw [headBytes_length, List.length_replicate, padding, if_pos h, padSize]
    omega
  · intro h
    rw [padding, if_neg (by simp [h])]
    rfl

/-- different records have different bytes -/
theorem C37_injective (l l' : List (Str × Rec)) (hw : ∀ x ∈ l, WfRec x) (hw' : ∀ x ∈ l', WfRec x)
    (hsize : (message l).length ≤ 0x4000000) (e : message l = message l') : l = l' := by
  have h := readMsg_message hw hsize
  rw [e, readMsg_message hw' (e ▸ hsize)] at h
  cases h
  rfl

/-- what a worker exports is read by the main process as it was written, so that it does with the bytes what C35 and C36 say
    about the records -/
theorem C37_export (db main : Db) (keys : List Str) (o : Out) (he : Entries db keys) (hx : exportLoop { db := db } keys = some o)
    (hw : ∀ k ∈ keys, ∀ r, db.recs k = some r → WfRec (k, r)) (hsize : (message o.recs).length ≤ 0x4000000)
    (main' : Db) (hs : syncMain main o.recs = some main') : syncBytes main (message o.recs) = .ok main' := by
  obtain ⟨b1, -⟩ := exportLoop_ok keys he.1 hx
  dsimp only at b1
  rw [List.nil_append] at b1
  have hwf : ∀ x ∈ o.recs, WfRec x := by
    intro x hx
    rw [b1, List.mem_filterMap] at hx
    obtain ⟨k, hk, e⟩ := hx
    simp only [sent] at e
    cases hr : db.recs k with
    | none => rw [hr] at e; simp at e
    | some r =>
      rw [hr] at e
      simp only [Option.bind_some] at e
      split at e
      · cases e
        have := hw k hk r hr
        exact ⟨this.key, this.owner, this.seqnum, this.gennum, this.items⟩
      · cases e
  unfold syncBytes
  rw [C37_roundtrip _ hwf hsize]
  simp [Parsed.bind, hs]

/-- C37: loading the database file into an empty store gives exactly the records that were written, archived copies included.
    Missing: records without data (see `C37_counterexample`). -/
theorem C37_load_partial (l : List (Str × Rec)) (hw : ∀ x ∈ l, WfRec x) (hsize : (message l).length ≤ 0x4000000)
    (hnd : (l.map fun x => x.1).Nodup) (hl : ∀ x ∈ l, Loadable l x) :
    ∃ db, syncBytes Db.empty (message l) = .ok db ∧ Contents db l := by
  obtain ⟨db, e, h⟩ := load_ok hl hnd
  refine ⟨db, ?_, h⟩
  unfold syncBytes
  rw [C37_roundtrip _ hw hsize]
  simp [Parsed.bind, e]

namespace CodecExample
open DeltaExample SyncExample

def rsvKey : Str := Kvs.canon (composeKey { ns := .global, dom := some (txt "USR"), core := some (txt "K") })

/-- the records of all reservations, as they are exported, ask for their own removal -/
theorem C37_reservation (c : Ctx) (owner : Str) (flags : Flags) : Spec.Codec.Empty (rsvRec c owner flags false).clear := by
  refine Or.inr ⟨rfl, ?_⟩
  intro e
  have := congrArg (fun f : Flags => f.getLsbD 2) e
  simp only [rsvRec, Rec.clear, Bool.false_eq_true, if_false, BitVec.getLsbD_and, BitVec.getLsbD_or] at this
  rw [(by decide : flSyncP.getLsbD 2 = true), (by decide : (~~~flSync).getLsbD 2 = true), (by decide : flRs.getLsbD 2 = false)] at this
  simp at this

/-- C37 is not true of reservations: the record of a reservation has no data and is marked as persistent; it is read as the
    request to remove the key.  So reservations in the database file are not loaded, and reservations made by workers do not
    reach the main process. -/
theorem C37_counterexample :
    WfRec (rsvKey, ⟨0, flRs ||| flPersist, 1, txt "/type/m", .scalar []⟩) ∧
    ∃ db, syncBytes Db.empty (message [(rsvKey, ⟨0, flRs ||| flPersist, 1, txt "/type/m", .scalar []⟩)]) = .ok db ∧
      db.recs rsvKey = none := by
  have hw : WfRec (rsvKey, ⟨0, flRs ||| flPersist, 1, txt "/type/m", .scalar []⟩) :=
    ⟨by unfold NoNul; decide +kernel, by unfold NoNul; decide, by decide, by decide, fun l h => by cases h⟩
  refine ⟨hw, ?_⟩
  unfold syncBytes
  rw [C37_roundtrip _ (by simpa using hw) (by decide +kernel)]
  exact ⟨_, rfl, by decide +kernel⟩

/-- so a name reserved in a worker is not reserved in the main process, and another module gets it in the next worker -/
theorem C37_counterexample_worker :
    ∃ db o main', kvReserve Db.empty {} true (txt "/type/m") .global (txt "K") 0 = some (0, db) ∧
      Entries db [rsvKey] ∧ exportLoop { db := db } [rsvKey] = some o ∧
      (o.recs.map fun x => x.1) = [rsvKey] ∧ syncMain Db.empty o.recs = some main' ∧ main'.recs rsvKey = none ∧
      ∃ db2, kvReserve main' {} true (txt "/type/other") .global (txt "K") 0 = some (0, db2) ∧
        (db2.recs rsvKey).map (fun r => r.owner) = some (txt "/type/other") := by
  refine ⟨_, _, _, rfl, ⟨by decide, ?_⟩, rfl, by decide +kernel, rfl, by decide +kernel, _, rfl, by decide +kernel⟩
  intro k
  have : ∀ k' : Str, k' = rsvKey ↔ (if k' = rsvKey then true else false) = true := by intro k'; split <;> simp_all
  rw [List.mem_singleton, this]
  rfl

/-- records that meet the hypotheses: a scalar, an aligned one, a set of two, and an archived copy -/
def dump : List (Str × Rec) :=
  [ (opKey prop .set, ⟨7, flPersist ||| flAr, 3, txt "/type/m", .scalar (txt "abc")⟩),
    (opKey (g "a") .set, ⟨2 ^ 63, flPersist ||| flRs, 65535, core, .vector [txt "d", txt "e"]⟩),
    (opKey (g "b") .set, ⟨1, flPersist ||| flAlign, 1, txt "/type/mm", .scalar [0, 1, 0]⟩),
    (archKey (opKey prop .set), ⟨5, flPersist ||| flAr, 3, txt "/type/m", .scalar (txt "ab")⟩) ]

instance (s : Str) : Decidable (NoNul s) := inferInstanceAs (Decidable (0 ∉ s))

theorem dump_wf : ∀ x ∈ dump, WfRec x := by
  intro x hx
  simp only [dump, List.mem_cons, List.not_mem_nil, or_false] at hx
  rcases hx with rfl | rfl | rfl | rfl
  all_goals refine ⟨by decide +kernel, by decide +kernel, by decide, by decide, ?_⟩
  all_goals intro l h; cases h
  decide +kernel

example : (∀ x ∈ dump, WfRec x) ∧ (message dump).length ≤ 0x4000000 ∧ (dump.map fun x => x.1).Nodup ∧
    ∀ x ∈ dump, Loadable dump x := by
  refine ⟨dump_wf, by decide +kernel, by decide +kernel, ?_⟩
  intro x hx
  refine ⟨?_, ?_⟩
  · rw [← wantsUnset_iff]
    revert x
    decide +kernel
  · simp only [dump, List.mem_cons, List.not_mem_nil, or_false] at hx
    rcases hx with rfl | rfl | rfl | rfl
    · exact Or.inl (by decide +kernel)
    · exact Or.inl (by decide +kernel)
    · exact Or.inl (by decide +kernel)
    · refine Or.inr ⟨opKey prop .set, by decide +kernel, rfl, ?_⟩
      intro r hr
      have : ∀ x ∈ dump, x.1 = opKey prop .set → has x.2.flags flAr = true := by decide +kernel
      exact this _ hr rfl

/-- and those of `C37_export`: a worker with one changed record -/
example : ∃ db o main', Entries db [opKey prop .set] ∧ exportLoop { db := db } [opKey prop .set] = some o ∧
    (∀ k ∈ [opKey prop .set], ∀ r, db.recs k = some r → WfRec (k, r)) ∧ (message o.recs).length ≤ 0x4000000 ∧
    syncMain Db.empty o.recs = some main' ∧ (main'.recs (opKey prop .set)).map (fun r => r.seqnum) = some 7 := by
  refine ⟨⟨fun k => if k = opKey prop .set then some ⟨7, flPersist ||| flSync, 3, txt "/type/m", .scalar (txt "abc")⟩ else none,
    fun k => k == opKey prop .set⟩, _, _, ⟨by decide, by simp⟩, rfl, ?_, by decide +kernel, rfl, by decide +kernel⟩
  intro k hk r hr
  rw [List.mem_singleton.mp hk] at hr ⊢
  simp only [if_true, Option.some.injEq] at hr
  subst hr
  exact ⟨by decide +kernel, by decide +kernel, by decide, by decide, fun l h => by cases h⟩

end CodecExample
end Sid.Props
