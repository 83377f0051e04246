import Verif.Proof.UbrDelta
/-
C33 (set records: difference of a step) and C34 (set records: accumulated difference).
-/
namespace Sid.Props
open Sid.Ubr Sid.Spec.Delta
open Sid.Ifc (txt)

/-- C33: an update allowed to write leaves exactly the items the operation asks for, in order and without duplicates; the
    differences reported are the items added and the items removed; no other record is touched. -/
theorem C33_step (db : Db) (isSync : Bool) (key : Str) (op : KvOp) (h : Hdr) (new : List Str)
    (hset : IsSet (db.recs key)) (hnew : Asc new) (hw : 0 ≤ wrAllowed (db.recs key) h.owner) :
    ∃ t st l, deltaStep ⟨db, [], []⟩ isSync key op h new = some (0, t, st) ∧
      t.done.recs key = some (h.vec l) ∧ Asc l ∧ (∀ x, x ∈ l ↔ Result op (members (db.recs key)) new x) ∧
      Asc st.plus ∧ (∀ x, x ∈ st.plus ↔ x ∈ l ∧ x ∉ members (db.recs key)) ∧
      Asc st.minus ∧ (∀ x, x ∈ st.minus ↔ x ∈ members (db.recs key) ∧ x ∉ l) ∧
      ∀ k, k ≠ key → t.done.recs k = db.recs k := by
  have ho := members_asc hset
  obtain ⟨a1, a2, a3⟩ := stepCalc_asc op _ _ ho hnew
  have hm := fun x => stepMem op ho hnew x
  refine ⟨{ db := db.put key (some (h.vec (stepCalc op (members (db.recs key)) new).final)) },
    stepCalc op (members (db.recs key)) new, (stepCalc op (members (db.recs key)) new).final, ?_, ?_, a1,
    fun x => (stepCalc_mem op _ _ ho hnew x).1, a2, fun x => (hm x).1, a3, fun x => (hm x).2, ?_⟩
  · unfold deltaStep
    rw [vecItems_eq hset]
    simp only [Option.bind_some]
    rw [if_neg (by omega)]
  · simp [Tx.done, Db.put]
  · intro k hk
    simp [Tx.done, Db.put, hk]

/-- C33: an update not allowed to write changes nothing. -/
theorem C33_denied (db : Db) (isSync : Bool) (key : Str) (op : KvOp) (h : Hdr) (new : List Str)
    (hset : IsSet (db.recs key)) (hw : wrAllowed (db.recs key) h.owner < 0) :
    deltaStep ⟨db, [], []⟩ isSync key op h new =
      some (if isSync then 0 else wrAllowed (db.recs key) h.owner, ⟨db, [], []⟩, ⟨[], [], []⟩) := by
  unfold deltaStep
  rw [vecItems_eq hset]
  simp only [Option.bind_some]
  rw [if_pos hw]

/-- C33, C34: at any point of a history an update succeeds; the record then holds what the operation asks for; each item
    added has the record's key prefix in its own record, each item removed no longer has it, what else was in those records
    stays; set-valued records of other items are as before. -/
theorem C33_update (S : KeySpec → Prop) (db0 db : Db) (u : Update) (hb : Synced S db0) (hh : Hist S db0 db)
    (hf : Fits S db u) :
    ∃ db', kvDeltaSet db false u.spec u.rel u.op u.hdr u.new = some (0, db') ∧
      Asc (mem db' u.spec) ∧ (∀ x, x ∈ mem db' u.spec ↔ Result u.op (mem db u.spec) u.new x) ∧
      (∀ x r, x ∈ mem db u.spec ++ u.new → relSpec u.rel x = some r →
        Asc (mem db' r) ∧ ∀ y, y ∈ mem db' r ↔
          (if x ∈ mem db' u.spec ∧ x ∉ mem db u.spec then y ∈ mem db r ∨ y = composeKeyPrefix u.spec
           else if x ∈ mem db u.spec ∧ x ∉ mem db' u.spec then y ∈ mem db r ∧ y ≠ composeKeyPrefix u.spec
           else y ∈ mem db r)) ∧
      ∀ s, S s → opKey s .set ≠ opKey u.spec .set →
        (∀ x r, x ∈ mem db u.spec ++ u.new → relSpec u.rel x = some r → opKey s .set ≠ opKey r .set) →
        mem db' s = mem db s := by
  exact update_mem hb.unmarked hf (hist_ok hb hh)

/-- C34: after any history of updates since the last synchronisation (`db0`), the accumulated records of every set-valued
    record hold, in order, exactly the items added and removed with respect to `db0`.  Such a record is there iff it has
    items; it is then marked to be synchronised and listed in the index. -/
theorem C34_accumulated (S : KeySpec → Prop) (db0 db : Db) (hb : Synced S db0) (hh : Hist S db0 db) (s : KeySpec) (hs : S s) :
    Asc (members (db.recs (opKey s .plus))) ∧ Asc (members (db.recs (opKey s .minus))) ∧
    (∀ x, x ∈ members (db.recs (opKey s .plus)) ↔ x ∈ mem db s ∧ x ∉ mem db0 s) ∧
    (∀ x, x ∈ members (db.recs (opKey s .minus)) ↔ x ∈ mem db0 s ∧ x ∉ mem db s) ∧
    ∀ op, op = .plus ∨ op = .minus →
      (db.idx (opKey s op) = true ↔ members (db.recs (opKey s op)) ≠ []) ∧
      (∀ r, db.recs (opKey s op) = some r → members (some r) ≠ [] ∧ has r.flags flSync = true) := by
  have hk := hist_ok hb hh s hs
  have hx := hb.unmarked s hs
  have eP := opKey_plus s hx
  have eM := opKey_minus s hx
  have hidx : ∀ key, HalfOk db key → (db.idx key = true ↔ members (db.recs key) ≠ []) ∧
      (∀ r, db.recs key = some r → members (some r) ≠ [] ∧ has r.flags flSync = true) := by
    intro key ho
    refine ⟨?_, fun r hr => ho.nonempty r hr⟩
    rw [ho.idx]
    cases hr : db.recs key with
    | none => simp [members]
    | some r => simpa using (ho.nonempty r hr).1
  refine ⟨by rw [eP]; exact members_asc hk.plus.set, by rw [eM]; exact members_asc hk.minus.set,
    by rw [eP]; exact hk.pMem, by rw [eM]; exact hk.mMem, ?_⟩
  rintro op (rfl | rfl)
  · rw [eP]; exact hidx _ hk.plus
  · rw [eM]; exact hidx _ hk.minus

/-! ### the hypotheses can be met -/

namespace DeltaExample

def group : KeySpec := { ns := .module, nsPart := some (txt "m"), ident := some (txt "g"), core := some (txt "M") }
def devIn (d : String) : KeySpec := { ns := .device, nsPart := some (txt d), core := some (txt "IN") }
def devName (d : String) : Str := composeKeyPrefix { ns := .device, nsPart := some (txt d) }
def hdr : Hdr := ⟨7, flagsNoSync, 1, core⟩
def S (s : KeySpec) : Prop := s ∈ [group, devIn "a", devIn "b"]
def upd (op : KvOp) (l : List Str) : Update := ⟨group, { ns := .device, core := some (txt "IN") }, op, hdr, l⟩
def empty : Db := ⟨fun _ => none, fun _ => false⟩

theorem synced : Synced S empty := by
  refine ⟨?_, ?_, fun _ _ _ _ => ⟨rfl, rfl⟩⟩
  · intro s hs
    simp only [S, List.mem_cons, List.not_mem_nil, or_false] at hs
    rcases hs with rfl | rfl | rfl <;> rfl
  · intro s _ x hx
    cases hx

theorem fits (db : Db) (op : KvOp) (hm : ∀ x ∈ mem db group, x = devName "a" ∨ x = devName "b") :
    Fits S db (upd op [devName "a", devName "b"]) := by
  have hcases : ∀ x ∈ mem db group ++ [devName "a", devName "b"], x = devName "a" ∨ x = devName "b" := by
    intro x hx
    rcases List.mem_append.mp hx with h | h
    · exact hm x h
    · simpa using h
  have ra : relSpec { ns := .device, core := some (txt "IN") } (devName "a") = some (devIn "a") := by decide +kernel
  have rb : relSpec { ns := .device, core := some (txt "IN") } (devName "b") = some (devIn "b") := by decide +kernel
  refine ⟨rfl, rfl, (by decide +kernel : Asc [devName "a", devName "b"]), by simp [S, upd], ?_, ?_⟩
  · intro x hx
    rcases hcases x hx with rfl | rfl
    · exact ⟨_, ra, by simp [S], (by decide +kernel : opKey (devIn "a") .set ≠ opKey group .set)⟩
    · exact ⟨_, rb, by simp [S], (by decide +kernel : opKey (devIn "b") .set ≠ opKey group .set)⟩
  · intro x hx y hy r r' hr hr' e
    rcases hcases x hx with rfl | rfl <;> rcases hcases y hy with rfl | rfl
    · rfl
    · change relSpec { ns := .device, core := some (txt "IN") } _ = _ at hr hr'
      rw [ra] at hr; rw [rb] at hr'; cases hr; cases hr'
      exact absurd e (by decide +kernel)
    · change relSpec { ns := .device, core := some (txt "IN") } _ = _ at hr hr'
      rw [rb] at hr; rw [ra] at hr'; cases hr; cases hr'
      exact absurd e (by decide +kernel)
    · rfl

/-- two devices are put into an empty group -/
theorem added : ∃ db, kvDeltaSet empty false group { ns := .device, core := some (txt "IN") } .plus hdr
    [devName "a", devName "b"] = some (0, db) ∧ Hist S empty db ∧ ∀ x, x ∈ mem db group ↔ x ∈ [devName "a", devName "b"] := by
  have hf := fits empty .plus (by intro x hx; cases hx)
  obtain ⟨db, e, -, hm, -⟩ := C33_update S empty empty _ synced .start hf
  refine ⟨db, e, .step .start hf e, fun x => ?_⟩
  have := hm x
  simp only [Result, upd] at this
  rw [this]
  constructor
  · rintro (h | h)
    · cases h
    · exact h
  · exact Or.inr

/-- so the hypotheses of C34 are met by a store that has changed, and it says what the accumulated record holds -/
example : ∃ db, Hist S empty db ∧ devName "a" ∈ members (db.recs (opKey group .plus)) := by
  obtain ⟨db, -, hh, hm⟩ := added
  refine ⟨db, hh, ?_⟩
  rw [(C34_accumulated S empty db synced hh group (by simp [S])).2.2.1]
  exact ⟨(hm _).mpr (by simp), by simp [mem, empty, members]⟩

/-- and a second update can follow -/
example : ∃ db, Hist S empty db ∧ Fits S db (upd .minus [devName "a", devName "b"]) := by
  obtain ⟨db, -, hh, hm⟩ := added
  exact ⟨db, hh, fits db .minus (fun x hx => by simpa using (hm x).mp hx)⟩

end DeltaExample

example : IsSet (some (DeltaExample.hdr.vec [txt "a", txt "c"])) ∧ Asc [txt "b", txt "c"] ∧
    0 ≤ wrAllowed (some (DeltaExample.hdr.vec [txt "a", txt "c"])) core ∧
    stepCalc .set [txt "a", txt "c"] [txt "b", txt "c"] = ⟨[txt "b", txt "c"], [txt "b"], [txt "a"]⟩ := by
  refine ⟨isSet_vec _ (by decide), by decide, by decide +kernel, ?_⟩
  simp [stepCalc, newOnly, oldOnly, inBoth, txt, strLt]

example : wrAllowed (some ⟨1, 0, 1, txt "/block/x", .vector []⟩) (txt "/block/y") < 0 := by decide +kernel

end Sid.Props
