import Verif.Spec.Dump
import Verif.Proof.UbrGen
/-
Proofs about what is in the store after a restart.
-/
namespace Sid.Ubr
open Sid.Spec.Codec Sid.Spec.Gen Sid.Spec.Dump
open Sid.Ifc (txt leBytes leNat)

theorem importRec_unset {m : Main} {k : Str} {r : Rec} (hk : PlainKey k) (hu : wantsUnset r = true) :
    importRec m k r = some ⟨importUnset m.tx k r, true⟩ := by
  simp [importRec, importAs, plain_op hk, mainKey, hu]

theorem importRec_put {m : Main} {k : Str} {r : Rec} (hk : PlainKey k) (hu : wantsUnset r = false) :
    importRec m k r = some ⟨importSet m.tx k r, m.stale || !has r.flags flAr⟩ := by
  simp [importRec, importAs, plain_op hk, mainKey, hu]

/-- a key without a record stays so when its removal is asked for -/
theorem importUnset_none {t : Tx} {k : Str} {r : Rec} (h : t.db.recs k = none) : (importUnset t k r).db.recs = t.db.recs := by
  have hu : ∀ (t : Tx) (k : Str) (n : Nat) (o : Str), (mainUnset t k n o).db = t.db := by
    intro t k n o; unfold mainUnset; split <;> rfl
  unfold importUnset
  split
  · unfold mainUnsetAr
    split
    · simp [h]
    · rfl
  · rw [hu, hu]

/-- the first record of a key: there is no old one to archive -/
theorem importSet_none {t : Tx} {k : Str} {r : Rec} (h : t.db.recs k = none) :
    (importSet t k r).db.recs = fun x => if x = k then some r else t.db.recs x := by
  have hu : ∀ (t : Tx) (k : Str) (n : Nat) (o : Str), (mainUnset t k n o).db = t.db := by
    intro t k n o; unfold mainUnset; split <;> rfl
  have hs : ∀ a, (mainSet t k r a).db.recs = fun x => if x = k then some r else t.db.recs x := by
    intro a
    unfold mainSet
    rw [h, if_pos (show mainSetOk none r = true from rfl)]
    simp [Db.put]
  unfold importSet
  split
  · exact hs true
  · rw [hu]; exact hs false

/-- all records before removals: the records that hold something -/
theorem loop_recs (l : List (Str × Rec)) : ∀ (m : Main), (∀ x ∈ l, PlainKey x.1) → (l.map fun x => x.1).Nodup →
    (∀ x ∈ l, m.tx.db.recs x.1 = none) → ∃ m', importLoop m l = some m' ∧
    ∀ K, ((∀ x ∈ l, x.1 ≠ K) → m'.tx.db.recs K = m.tx.db.recs K) ∧
      ∀ r, (K, r) ∈ l → m'.tx.db.recs K = if wantsUnset r then none else some r := by
  induction l with
  | nil => intro m _ _ _; exact ⟨m, rfl, fun K => ⟨fun _ => rfl, by simp⟩⟩
  | cons x l ih =>
    intro m hp hnd hn
    rw [List.map_cons, List.nodup_cons] at hnd
    have hx : ∃ m1, importRec m x.1 x.2 = some m1 ∧
        m1.tx.db.recs = fun y => if y = x.1 then (if wantsUnset x.2 then none else some x.2) else m.tx.db.recs y := by
      cases hw : wantsUnset x.2 with
      | true =>
        refine ⟨_, importRec_unset (hp x (by simp)) hw, ?_⟩
        rw [importUnset_none (hn x (by simp))]
        funext y
        by_cases hy : y = x.1
        · simp [hy, hn x (by simp)]
        · simp [hy]
      | false =>
        refine ⟨_, importRec_put (hp x (by simp)) hw, ?_⟩
        rw [importSet_none (hn x (by simp))]
        simp
    obtain ⟨m1, e1, h1⟩ := hx
    have hne : ∀ y ∈ l, y.1 ≠ x.1 := fun y hy e => hnd.1 (List.mem_map.mpr ⟨y, hy, e⟩)
    obtain ⟨m2, e2, h2⟩ := ih m1 (fun y hy => hp y (by simp [hy])) hnd.2 (by
      intro y hy
      rw [h1]
      simp [hne y hy, hn y (by simp [hy])])
    refine ⟨m2, by simp [importLoop, e1, e2], fun K => ⟨?_, ?_⟩⟩
    · intro hK
      rw [(h2 K).1 fun y hy => hK y (by simp [hy]), h1]
      simp [Ne.symm (hK x (by simp))]
    · intro r hr
      rcases List.mem_cons.mp hr with rfl | hr
      · rw [(h2 K).1 hne, h1]
        simp
      · exact (h2 K).2 r hr

/-- the archived copy of `K` is not removed: only a record of `K` without archive would -/
theorem loop_arch {K : Str} (hK : K.head? = some 58) (l : List (Str × Rec)) : ∀ (m m' : Main), (∀ x ∈ l, PlainKey x.1) →
    (∀ x ∈ l, x.1 = archKey K → wantsUnset x.2 = false) → (∀ x ∈ l, x.1 = K → has x.2.flags flAr = true) →
    importLoop m l = some m' → (archKey K ∈ m'.tx.unsetRecs ↔ archKey K ∈ m.tx.unsetRecs) := by
  induction l with
  | nil => intro m m' _ _ _ e; cases e; rfl
  | cons x l ih =>
    intro m m' hp hu ha e
    simp only [importLoop] at e
    cases e1 : importRec m x.1 x.2 with
    | none => rw [e1] at e; cases e
    | some m1 =>
      rw [e1] at e
      rw [ih m1 m' (fun y hy => hp y (by simp [hy])) (fun y hy => hu y (by simp [hy])) (fun y hy => ha y (by simp [hy])) e]
      have hpx := hp x (by simp)
      have h3 : archKey K ≠ archKey (archKey K) := by
        intro h
        have := congrArg List.length h
        simp [archKey, opArchive, txt] at this
      have hset : ∀ (t : Tx) (k : Str) (r : Rec) (a : Bool), (mainSet t k r a).unsetRecs = t.unsetRecs := by
        intro t k r a; unfold mainSet; split <;> rfl
      have hmu : ∀ (t : Tx) (k : Str) (n : Nat) (o : Str), k ≠ archKey K →
          (archKey K ∈ (mainUnset t k n o).unsetRecs ↔ archKey K ∈ t.unsetRecs) := by
        intro t k n o hk
        unfold mainUnset
        split
        · simp [Ne.symm hk]
        · rfl
      by_cases hxK : x.1 = K
      · have har := ha x (by simp) hxK
        have hne : x.1 ≠ archKey K := by rw [hxK]; exact ne_archKey hK K
        cases hw : wantsUnset x.2 with
        | true =>
          rw [importRec_unset hpx hw] at e1
          cases e1
          dsimp only
          unfold importUnset
          rw [if_pos har]
          unfold mainUnsetAr
          split
          · simp [Ne.symm hne]
          · rfl
        | false =>
          rw [importRec_put hpx hw] at e1
          cases e1
          dsimp only
          unfold importSet
          rw [if_pos har, hset]
      · have hak : archKey x.1 ≠ archKey K := fun h => hxK (archKey_inj h)
        cases hw : wantsUnset x.2 with
        | true =>
          have hne : x.1 ≠ archKey K := by
            intro h
            rw [hu x (by simp) h] at hw
            cases hw
          rw [importRec_unset hpx hw] at e1
          cases e1
          dsimp only
          unfold importUnset
          split
          · unfold mainUnsetAr
            split
            · simp [Ne.symm hne]
            · rfl
          · rw [hmu _ _ _ _ hak, hmu _ _ _ _ hne]
        | false =>
          rw [importRec_put hpx hw] at e1
          cases e1
          dsimp only
          unfold importSet
          split
          · rw [hset]
          · rw [hmu _ _ _ _ hak, hset]

/-- what loading gives -/
theorem load_all {l : List (Str × Rec)} (hp : ∀ x ∈ l, PlainKey x.1) (hnd : (l.map fun x => x.1).Nodup) :
    ∃ db, syncMain Db.empty l = some db ∧
      (∀ K r, K.head? = some 58 → (db.recs K = some r ↔ (K, r) ∈ l ∧ wantsUnset r = false)) ∧
      ∀ K r, K.head? = some 58 → (db.recs (archKey K) = some r → (archKey K, r) ∈ l ∧ wantsUnset r = false) ∧
        ((archKey K, r) ∈ l → wantsUnset r = false → (∀ r', (K, r') ∈ l → has r'.flags flAr = true) →
          db.recs (archKey K) = some r) := by
  obtain ⟨m, e, h⟩ := loop_recs l ⟨⟨Db.empty, [], []⟩, false⟩ hp hnd (fun _ _ => rfl)
  have hsync : syncMain Db.empty l = some m.tx.done := by simp [syncMain, e]
  have hone : ∀ K r, m.tx.done.recs K = some r → (K, r) ∈ l ∧ wantsUnset r = false := by
    intro K r hr
    simp only [Tx.done] at hr
    split at hr
    · cases hr
    · by_cases hK : ∀ x ∈ l, x.1 ≠ K
      · rw [(h K).1 hK] at hr; cases hr
      · have : ∃ x, x ∈ l ∧ x.1 = K := by
          apply Classical.byContradiction
          intro hc
          exact hK fun x hx he => hc ⟨x, hx, he⟩
        obtain ⟨x, hx, rfl⟩ := this
        rw [(h x.1).2 x.2 hx] at hr
        cases hw : wantsUnset x.2 with
        | true => rw [hw] at hr; cases hr
        | false => rw [hw] at hr; cases hr; exact ⟨hx, hw⟩
  refine ⟨_, hsync, fun K r hK => ⟨hone K r, ?_⟩, fun K r hK => ⟨hone _ r, ?_⟩⟩
  · rintro ⟨hr, hw⟩
    obtain ⟨db, e1, e2⟩ := load_one hp hnd hK hr hw
    rw [hsync] at e1
    cases e1
    exact e2
  · intro hr hw ha
    have huniq : ∀ x ∈ l, x.1 = archKey K → wantsUnset x.2 = false := by
      intro x hx hxe
      have h1 := (h (archKey K)).2 r hr
      have h2 := (h (archKey K)).2 x.2 (by rw [← hxe]; exact hx)
      rw [hw] at h1
      rw [h1] at h2
      cases hwx : wantsUnset x.2 with
      | true => rw [hwx] at h2; cases h2
      | false => rfl
    have hno := loop_arch hK l _ m hp huniq (fun x hx hxe => ha x.2 (by rw [← hxe]; exact hx)) e
    have hno' : archKey K ∉ m.tx.unsetRecs := by rw [hno]; simp
    simp only [Tx.done, if_neg hno']
    rw [(h (archKey K)).2 r hr, hw]
    rfl

theorem archKey_plain {K : Str} (hK : K.head? = some 58) : PlainKey (archKey K) := Or.inr ⟨K, hK, rfl⟩

theorem saved_mem {db : Db} {keys : List Str} (hall : ∀ k, k ∈ keys ↔ db.recs k ≠ none) (K : Str) (r : Rec) :
    (K, r) ∈ keys.filterMap (savedRec db) ↔ db.recs K = some r ∧ has r.flags flPersist = true := by
  rw [List.mem_filterMap]
  constructor
  · rintro ⟨k, -, e⟩
    obtain ⟨e1, e2, e3⟩ := savedRec_some e
    dsimp only at e1 e2 e3
    subst e1
    exact ⟨e2, e3⟩
  · rintro ⟨h1, h2⟩
    exact ⟨K, (hall K).mpr (by simp [h1]), by simp [savedRec, h1, h2]⟩

/-- a start with a saved file -/
theorem restart_all {db : Db} {b : List UInt8} {g : Nat} (hs : Saved db b) (hh : Holds db g) (hg : g < 65536) :
    ∃ db', start (some b) = .ok ((g + 1) % 65536, db') ∧
      (∀ K r, K.head? = some 58 → K ≠ genName → (db'.recs K = some r ↔ db.recs K = some r ∧ Kept r)) ∧
      ∀ K r, K.head? = some 58 → (db'.recs (archKey K) = some r → db.recs (archKey K) = some r ∧ Kept r) ∧
        (db.recs (archKey K) = some r → Kept r →
          (∀ r', db.recs K = some r' → has r'.flags flPersist = true → has r'.flags flAr = true) →
          db'.recs (archKey K) = some r) := by
  obtain ⟨⟨keys, hnd, hall, hk, hw⟩, hsize⟩ := hs
  obtain ⟨rg, hr, hgen⟩ := hh
  unfold saveFile at hw
  split at hw
  · cases hw
  · cases hw
    have hx : ∀ x ∈ keys.filterMap (savedRec db), PlainKey x.1 ∧ WfRec x := by
      intro x hx
      obtain ⟨k, hk1, e⟩ := List.mem_filterMap.mp hx
      obtain ⟨e1, e2, -⟩ := savedRec_some e
      have := hk k hk1
      rw [e1]
      refine ⟨this.1, ?_⟩
      have w := this.2 _ e2
      rwa [← e1] at w
    obtain ⟨db1, e1, h1, h2⟩ := load_all (fun x h => (hx x h).1) ((saved_map_sublist db keys).nodup hnd)
    have hempty : ∀ r, wantsUnset r = false ↔ ¬ Empty r := fun r => by rw [← wantsUnset_iff]; simp
    have e3 : syncBytes Db.empty (message (keys.filterMap (savedRec db))) = .ok db1 := by
      unfold syncBytes
      rw [readMsg_message (fun x h => (hx x h).2) hsize]
      simp [Parsed.bind, e1]
    have e4 : setUpGen db1 = some ((g + 1) % 65536, db1.put genKey (some (genRec ((g + 1) % 65536)))) := by
      have : db1.recs genName = some rg := (h1 genName rg genName_head).mpr
        ⟨(saved_mem hall _ _).mpr ⟨hr, hgen.2.2.2.2.1⟩, by simp [wantsUnset, hgen.1, twoBytes]⟩
      unfold setUpGen
      rw [genKey_eq, this, nextGen_gen hg hgen]
      simp only [Option.map_some]
    refine ⟨db1.put genKey (some (genRec ((g + 1) % 65536))), by simp only [start, loadFile, e3, Parsed.bind, e4], ?_, ?_⟩
    · intro K r hK hne
      rw [show (db1.put genKey (some (genRec ((g + 1) % 65536)))).recs K = db1.recs K by simp [Db.put, genKey_eq, hne],
        h1 K r hK, saved_mem hall, hempty]
      unfold Kept
      exact and_assoc
    · intro K r hK
      have hne : archKey K ≠ genName := fun h => ne_archKey genName_head K h.symm
      rw [show (db1.put genKey (some (genRec ((g + 1) % 65536)))).recs (archKey K) = db1.recs (archKey K) by
        simp [Db.put, genKey_eq, hne]]
      have h := h2 K r hK
      rw [saved_mem hall, hempty] at h
      refine ⟨fun h' => ?_, fun a b c => h.2 ⟨a, b.1⟩ b.2 fun r' hr' => ?_⟩
      · have := h.1 h'
        exact ⟨this.1.1, this.1.2, this.2⟩
      · have := (saved_mem hall _ _).mp hr'
        exact c r' this.1 this.2

/-- the keys modules read -/
theorem getKey_form (c : Ctx) (owner : Str) (ns : Ns) (key : Str) (fmod fdev : Option Str) :
    ∃ K : Str, K.head? = some 58 ∧ K ≠ genName ∧
      (∀ n, n ≠ 1 → Kvs.canon (composeKey (getSpec c owner (domOf ns) ns key fmod fdev n)) = K) ∧
      Kvs.canon (composeKey (getSpec c owner (domOf ns) ns key fmod fdev 1)) = archKey K := by
  obtain ⟨rest, e0⟩ : ∃ rest, Kvs.canon (composeKey (getSpec c owner (domOf ns) ns key fmod fdev 0)) =
      join :: (Spec.UbrKey.text (domOf ns) ++ join :: (Spec.UbrKey.nsLetter ns ++ join :: rest)) := by
    rw [canon_compose _ (Or.inr (Or.inl (by simp [getSpec, opBlank, txt])))]
    exact ⟨_, rfl⟩
  have e : ∀ n, n ≠ 1 → Kvs.canon (composeKey (getSpec c owner (domOf ns) ns key fmod fdev n)) =
      join :: (Spec.UbrKey.text (domOf ns) ++ join :: (Spec.UbrKey.nsLetter ns ++ join :: rest)) := by
    intro n hn
    rw [← e0]
    simp only [getSpec, if_neg hn]
    rfl
  refine ⟨_, ?_, ?_, e, ?_⟩
  · rfl
  · intro h
    exact gen_apart ns _ h.symm
  · rw [← e 0 (by decide), canon_compose _ (Or.inr (Or.inr (Or.inl (by simp [getSpec, opArchive, txt])))),
      canon_compose _ (Or.inr (Or.inl (by simp [getSpec, opBlank, txt])))]
    simp only [getSpec, if_true, storedMark]
    rfl

end Sid.Ubr
