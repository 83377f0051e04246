import Verif.Spec.UbrBoot
import Verif.Proof.UbrGen
/-
C107: the boot identifier in the database.
-/
namespace Sid.Props
open Sid.Ubr Sid.Spec.Boot Sid.Spec.Gen
open Sid.Ifc (txt)

theorem bootKey_eq : bootKey = bootName := by decide +kernel

theorem fgetsTake_full {n : Nat} {id : List UInt8} (h : id.length = n) (hn : (10 : UInt8) ∉ id) (rest : List UInt8) :
    fgetsTake n (id ++ rest) = id := by
  induction id generalizing n with
  | nil =>
    subst h
    unfold fgetsTake
    rfl
  | cons c id ih =>
    obtain ⟨m, rfl⟩ : ∃ m, n = m + 1 := ⟨id.length, by simpa using h.symm⟩
    rw [List.cons_append]
    unfold fgetsTake
    rw [if_neg (fun hh => hn (by simp [hh])), ih (by simpa using h) (fun hh => hn (List.mem_cons_of_mem _ hh))]

theorem fgetsTake_short {n : Nat} {line : List UInt8} (h : line.length < n) (hn : (10 : UInt8) ∉ line) (rest : List UInt8) :
    fgetsTake n (line ++ 10 :: rest) = line ++ [10] := by
  induction line generalizing n with
  | nil =>
    obtain ⟨m, rfl⟩ : ∃ m, n = m + 1 := ⟨n - 1, by simp at h; omega⟩
    rw [List.nil_append]
    unfold fgetsTake
    rw [if_pos rfl]
    rfl
  | cons c line ih =>
    obtain ⟨m, rfl⟩ : ∃ m, n = m + 1 := ⟨n - 1, by simp at h; omega⟩
    rw [List.cons_append]
    unfold fgetsTake
    rw [if_neg (fun hh => hn (by simp [hh])), ih (by simp at h; omega) (fun hh => hn (List.mem_cons_of_mem _ hh))]
    rfl

theorem readable_iff (db : Db) : readable (db.recs bootKey) = true ↔ OldOk db := by
  rw [bootKey_eq]
  unfold OldOk readable
  cases db.recs bootName with
  | none => simp
  | some r =>
    cases hv : r.val with
    | vector v => simp [hv]
    | scalar d => simp [hv]

theorem getBootId_has {boot : Except Int (List UInt8)} {id : List UInt8} (h : FileHas boot id) {junk : List UInt8} (hj : junk.length = 37) :
    getBootId junk boot = .ok (id ++ [0]) := by
  obtain ⟨rest, rfl, h1, h2⟩ := h
  unfold getBootId
  cases hs : id ++ rest with
  | nil => simp at hs; rw [hs.1] at h1; simp at h1
  | cons c s =>
    dsimp only
    rw [← hs, fgetsTake_full h1 h2 rest, h1, List.drop_of_length_le (by omega), List.append_nil]

/-- C107: setting it up makes the identifier the kernel gives the one in the database, whatever the buffer contained; every other record, the
    generation number among them, and the index stay as they are.
    Partial: the kernel's file starts with 36 characters (`C107_counterexample_short`), and a record from an earlier start is a terminated
    string (`C107_counterexample_old`). -/
theorem C107_current_partial (db : Db) (gen : Nat) (junk : List UInt8) (hj : junk.length = 37) (boot : Except Int (List UInt8))
    (id : List UInt8) (h : FileHas boot id) (ho : OldOk db) :
    ∃ db', setUpBoot db gen junk boot = some (0, db') ∧ BootIs db' id ∧ OldOk db' ∧ (∀ k, k ≠ bootName → db'.recs k = db.recs k) ∧
      db'.idx = db.idx ∧ ∀ g, Holds db g → Holds db' g := by
  have hne : genName ≠ bootName := by decide +kernel
  unfold setUpBoot
  rw [getBootId_has h hj]
  dsimp only
  rw [if_pos ((readable_iff db).2 ho), bootKey_eq]
  have hg : (db.put bootName (some (bootRec gen (id ++ [0])))).recs bootName = some (bootRec gen (id ++ [0])) := by
    unfold Db.put
    dsimp only
    rw [if_pos rfl]
  have hk : ∀ k, k ≠ bootName → (db.put bootName (some (bootRec gen (id ++ [0])))).recs k = db.recs k := by
    intro k hk
    unfold Db.put
    dsimp only
    rw [if_neg hk]
  refine ⟨_, rfl, ⟨_, hg, rfl⟩, ?_, hk, rfl, ?_⟩
  · intro r hr
    rw [hg] at hr
    cases hr
    exact ⟨_, rfl, by simp⟩
  · intro g ⟨r, h1, h2⟩
    exact ⟨r, by rw [hk _ hne]; exact h1, h2⟩

/-- C107: if the identifier cannot be read, that is reported and the database stays as it is. -/
theorem C107_failed (db : Db) (gen : Nat) (junk : List UInt8) :
    (∀ e, setUpBoot db gen junk (.error e) = some (e, db)) ∧ setUpBoot db gen junk (.ok []) = some (-1, db) := ⟨fun _ => rfl, rfl⟩

/-- C107: a start without a database file, and one with a file that was saved while the generation number was `g`, comes to a database with
    the identifier of this boot and the right generation number; one where the identifier cannot be read does not come up. -/
theorem C107_start_partial (junk : List UInt8) (hj : junk.length = 37) (boot : Except Int (List UInt8)) (id : List UInt8)
    (h : FileHas boot id) (file : Option (List UInt8)) (g : Nat) (db : Db) (hs : start file = .ok (g, db)) (hh : Holds db g)
    (ho : OldOk db) :
    (∃ db', startBoot file junk boot = .ok (some (g, db')) ∧ BootIs db' id ∧ Holds db' g) ∧
      ∀ e, e < 0 → startBoot file junk (.error e) = .ok none := by
  constructor
  · obtain ⟨db', e1, e2, -, -, -, e6⟩ := C107_current_partial db g junk hj boot id h ho
    refine ⟨db', ?_, e2, e6 g hh⟩
    unfold startBoot
    rw [hs]
    dsimp only [Parsed.bind]
    rw [e1]
    rfl
  · intro e he
    unfold startBoot
    rw [hs]
    dsimp only [Parsed.bind]
    rw [(C107_failed db g junk).1 e]
    dsimp only
    rw [if_pos he]

/-- C107, counterexample: a shorter line is stored with its newline, and behind its end with what was in the buffer before. -/
theorem C107_counterexample_short (db : Db) (gen : Nat) (line rest junk : List UInt8) (hl : line.length < 36) (hn : (10 : UInt8) ∉ line)
    (ho : OldOk db) : ∃ db' r, setUpBoot db gen junk (.ok (line ++ 10 :: rest)) = some (0, db') ∧ db'.recs bootName = some r ∧
      r.val = .scalar (line ++ [10, 0] ++ junk.drop (line.length + 2)) := by
  unfold setUpBoot
  have e : getBootId junk (.ok (line ++ 10 :: rest)) = .ok (line ++ [10, 0] ++ junk.drop (line.length + 2)) := by
    unfold getBootId
    cases hs : line ++ 10 :: rest with
    | nil => simp at hs
    | cons c s =>
      dsimp only
      rw [← hs, fgetsTake_short hl hn rest]
      simp
  rw [e]
  dsimp only
  rw [if_pos ((readable_iff db).2 ho), bootKey_eq]
  refine ⟨_, bootRec gen (line ++ [10, 0] ++ junk.drop (line.length + 2)), rfl, ?_, rfl⟩
  unfold Db.put
  dsimp only
  rw [if_pos rfl]

/-- C107, counterexample: a record of an earlier start that is not a terminated string is read as one: undefined. -/
theorem C107_counterexample_old (db : Db) (gen : Nat) (junk : List UInt8) (hj : junk.length = 37) (boot : Except Int (List UInt8))
    (id : List UInt8) (h : FileHas boot id) (ho : ¬OldOk db) : setUpBoot db gen junk boot = none := by
  unfold setUpBoot
  rw [getBootId_has h hj]
  dsimp only
  rw [if_neg (fun hh => ho ((readable_iff db).1 hh))]

/-- an identifier as the kernel gives it -/
def someId : List UInt8 := txt "3f2c1a60-52d1-4a7e-9a5e-0c6f6a3b7d11"

example : FileHas (.ok (someId ++ [10])) someId := ⟨[10], rfl, by decide +kernel, by decide +kernel⟩

example : OldOk Db.empty := by intro r hr; cases hr

example : ∃ db, start none = .ok (1, db) ∧ Holds db 1 ∧ OldOk db := by
  refine ⟨_, rfl, setUpGen_holds (db := Db.empty) rfl (by omega), ?_⟩
  intro r hr
  have hne : bootName ≠ genKey := by decide +kernel
  unfold Db.put at hr
  dsimp only at hr
  rw [if_neg hne] at hr
  cases hr

example : ¬OldOk (Db.empty.put bootName (some (bootRec 1 []))) := by
  intro h
  obtain ⟨d, h1, h2⟩ := h (bootRec 1 []) (by unfold Db.put; dsimp only; rw [if_pos rfl])
  cases h1
  cases h2

end Sid.Props
