import Verif.Spec.UbrCodec
import Verif.Proof.UbrSync
import Verif.Proof.Ifc
/-
Lemmas about the bytes of records.
-/
namespace Sid.Ubr
open Sid.Ifc (leBytes leNat leNat_number number_leBytes leBytes_length)
open Sid.Spec.Codec

theorem leNat_leBytes {n k : Nat} (h : n < 256 ^ k) : leNat (leBytes n k) = n := by
  rw [leNat_number, number_leBytes, Nat.mod_eq_of_lt h]

theorem takeB_append {n : Nat} {a b : List UInt8} (h : a.length = n) : takeB n (a ++ b) = .ok (a, b) := by
  subst h
  simp [takeB]

theorem takeWhile_nul {s r : List UInt8} (h : NoNul s) : (s ++ 0 :: r).takeWhile (· ≠ 0) = s := by
  induction s with
  | nil => simp
  | cons c s ih =>
    simp only [NoNul, List.mem_cons, not_or] at h
    have hc : c ≠ 0 := fun e => h.1 e.symm
    simp only [List.cons_append, List.takeWhile_cons]
    rw [ih h.2]
    simp [hc]

theorem cstrAt_append {s r : List UInt8} (h : NoNul s) : cstrAt (s ++ 0 :: r) = .ok s := by
  unfold cstrAt
  rw [if_pos (by simp), takeWhile_nul h]

theorem headBytes_length (r : Rec) : (headBytes r).length = 18 := by simp [headBytes, leBytes_length]

theorem flags_round (f : Flags) : BitVec.ofNat 64 (leNat (leBytes f.toNat 8)) = f := by
  rw [leNat_leBytes (by have := f.isLt; omega)]
  simp

theorem scalarRec_bytes {r : Rec} {d : List UInt8} (ho : NoNul r.owner) (hs : r.seqnum < 2 ^ 64) (hg : r.gennum < 2 ^ 16) :
    scalarRec (scalarBytes r d) = .ok { r with val := .scalar d } := by
  have hl := headBytes_length r
  have e1 : scalarBytes r d = headBytes r ++ (r.owner ++ 0 :: (List.replicate (padding r.flags (r.owner.length + 1)) 0 ++ d)) := by
    simp [scalarBytes]
  have hb : headBytes r = leBytes r.seqnum 8 ++ (leBytes r.flags.toNat 8 ++ leBytes r.gennum 2) := by simp [headBytes]
  have d18 : (scalarBytes r d).drop 18 = r.owner ++ 0 :: (List.replicate (padding r.flags (r.owner.length + 1)) 0 ++ d) := by
    rw [e1, List.drop_append_of_le_length (by omega), List.drop_of_length_le (by omega)]
    rfl
  have dF : ((scalarBytes r d).drop 8).take 8 = leBytes r.flags.toNat 8 := by
    rw [e1, hb]
    simp only [List.append_assoc]
    rw [List.drop_append_of_le_length (by simp [leBytes_length]), List.drop_of_length_le (by simp [leBytes_length]),
      List.nil_append, List.take_append_of_le_length (by simp [leBytes_length]), List.take_of_length_le (by simp [leBytes_length])]
  have dS : (scalarBytes r d).take 8 = leBytes r.seqnum 8 := by
    rw [e1, hb]
    simp only [List.append_assoc]
    rw [List.take_append_of_le_length (by simp [leBytes_length]), List.take_of_length_le (by simp [leBytes_length])]
  have dG : ((scalarBytes r d).drop 16).take 2 = leBytes r.gennum 2 := by
    rw [e1, hb]
    simp only [List.append_assoc]
    rw [← List.append_assoc, List.drop_append_of_le_length (by simp [leBytes_length]),
      List.drop_of_length_le (by simp [leBytes_length]), List.nil_append,
      List.take_append_of_le_length (by simp [leBytes_length]), List.take_of_length_le (by simp [leBytes_length])]
  have dD : (scalarBytes r d).drop (18 + (r.owner.length + 1) + padding r.flags (r.owner.length + 1)) = d := by
    have : scalarBytes r d = (headBytes r ++ r.owner ++ [0] ++ List.replicate (padding r.flags (r.owner.length + 1)) 0) ++ d := rfl
    rw [this]
    have hlen : (headBytes r ++ r.owner ++ [0] ++ List.replicate (padding r.flags (r.owner.length + 1)) 0).length =
        18 + (r.owner.length + 1) + padding r.flags (r.owner.length + 1) := by
      simp [hl]; omega
    rw [← hlen, List.drop_left]
  have hlen : (scalarBytes r d).length = 18 + (r.owner.length + 1) + padding r.flags (r.owner.length + 1) + d.length := by
    simp [scalarBytes, hl]; omega
  unfold scalarRec
  rw [d18, cstrAt_append ho]
  simp only [Parsed.bind, dF, dS, dG, flags_round, dD]
  rw [if_neg (by omega), leNat_leBytes (by omega), leNat_leBytes (by omega)]

/-- the parts of a vector as they lie in memory -/
def suffixes : List (List UInt8) → List UInt8 → List (Nat × List UInt8)
  | [], _ => []
  | x :: l, rest => (x.length, x ++ (l.flatMap itemBytes ++ rest)) :: suffixes l rest

theorem readItems_bytes (l : List (List UInt8)) (rest : List UInt8) (h : ∀ x ∈ l, x.length < 2 ^ 64) :
    readItems l.length (l.flatMap itemBytes ++ rest) = .ok (suffixes l rest, rest) := by
  induction l with
  | nil => rfl
  | cons x l ih =>
    have hx := h x (by simp)
    simp only [List.length_cons, List.flatMap_cons, itemBytes, List.append_assoc]
    unfold readItems
    rw [takeB_append (leBytes_length _ _)]
    simp only [Parsed.bind]
    rw [leNat_leBytes (by omega), takeB_append rfl]
    simp only
    rw [ih fun y hy => h y (by simp [hy])]
    rfl

theorem itemStr_suffix {s rest : List UInt8} (h : NoNul s) : itemStr ((s ++ [0]).length, (s ++ [0]) ++ rest) = s := by
  unfold itemStr
  simp only [List.take_left]
  have := takeWhile_nul (r := []) h
  simpa using this

theorem suffixes_items (items : List Str) (rest : List UInt8) (h : ∀ i ∈ items, NoNul i) :
    (suffixes (items.map fun x => x ++ [0]) rest).map itemStr = items := by
  induction items with
  | nil => rfl
  | cons x l ih =>
    simp only [List.map_cons, suffixes]
    rw [ih fun i hi => h i (by simp [hi]), itemStr_suffix (h x (by simp))]

theorem readVector_bytes {r : Rec} {l : List Str} {rest : List UInt8} (ho : NoNul r.owner) (hs : r.seqnum < 2 ^ 64)
    (hg : r.gennum < 2 ^ 16) (hi : ∀ i ∈ l, NoNul i) (hl : ∀ x ∈ vectorItems r l, x.length < 2 ^ 64) :
    readVector (vectorItems r l).length ((vectorItems r l).flatMap itemBytes ++ rest) =
      .ok ({ r with val := .vector l }, rest) := by
  unfold readVector
  rw [if_neg (by simp [vectorItems]), readItems_bytes _ _ hl]
  simp only [Parsed.bind]
  simp only [vectorItems, List.cons_append, List.nil_append, suffixes, vectorRec]
  rw [takeB_append (leBytes_length _ _), takeB_append (leBytes_length _ _), takeB_append (leBytes_length _ _)]
  simp only [Parsed.bind]
  rw [List.append_assoc, List.singleton_append, cstrAt_append ho]
  simp only [flags_round, suffixes_items l rest hi]
  rw [leNat_leBytes (by omega), leNat_leBytes (by omega)]

theorem recBytes_pos (x : Str × Rec) : 20 ≤ (recBytes x).length := by
  unfold recBytes
  cases x.2.val <;> simp [leBytes_length] <;> omega

theorem readRec_bytes {x : Str × Rec} {rest : List UInt8} (hw : WfRec x) (hl : (recBytes x).length < 2 ^ 64) :
    readRec (recBytes x ++ rest) = .ok (x, rest) := by
  obtain ⟨key, r⟩ := x
  have hk := hw.key
  have ho := hw.owner
  have hs := hw.seqnum
  have hg := hw.gennum
  dsimp only at hk ho hs hg
  have hfin : ∀ (v : Value), r.val = v → ({ r with val := v } : Rec) = r := by
    rintro v rfl; rfl
  have hcom : ∀ (f n : Nat) (b : List UInt8), f < 2 ^ 32 → n < 2 ^ 64 → key.length + 1 < 2 ^ 64 →
      readRec (leBytes f 4 ++ leBytes (key.length + 1) 8 ++ leBytes n 8 ++ (key ++ [0]) ++ b ++ rest) =
      (if f % 2 = 1 then readVector n (b ++ rest) else readScalar n (b ++ rest)).bind fun x => .ok ((key, x.1), x.2) := by
    intro f n b hf hn hkl
    unfold readRec
    simp only [List.append_assoc]
    rw [takeB_append (leBytes_length _ _)]
    simp only [Parsed.bind]
    rw [takeB_append (leBytes_length _ _)]
    simp only
    rw [takeB_append (leBytes_length _ _)]
    simp only
    rw [List.singleton_append, cstrAt_append hk]
    simp only
    rw [leNat_leBytes (by omega), leNat_leBytes (by omega), leNat_leBytes (by omega)]
    rw [show key ++ 0 :: (b ++ rest) = (key ++ [0]) ++ (b ++ rest) by simp, takeB_append (by simp)]
  cases hv : r.val with
  | scalar d =>
    simp only [recBytes, hv] at hl ⊢
    simp only [List.length_append, List.length_singleton, leBytes_length] at hl
    rw [hcom 0 _ _ (by omega) (by omega) (by omega), if_neg (by decide)]
    unfold readScalar
    have hlen : (scalarBytes r d).length > 18 := by
      simp [scalarBytes, headBytes_length]; omega
    rw [if_neg (by omega), takeB_append rfl]
    simp only [Parsed.bind]
    rw [scalarRec_bytes ho hs hg, hfin _ hv]
  | vector l =>
    simp only [recBytes, hv] at hl ⊢
    simp only [List.length_append, List.length_singleton, leBytes_length] at hl
    have hsub : ∀ x ∈ vectorItems r l, x.length + 8 ≤ ((vectorItems r l).flatMap itemBytes).length := by
      intro x hx
      obtain ⟨s, t, e⟩ := List.append_of_mem hx
      rw [e]
      simp only [List.flatMap_append, List.flatMap_cons, itemBytes, List.length_append, leBytes_length]
      omega
    have hcnt : (vectorItems r l).length ≤ ((vectorItems r l).flatMap itemBytes).length := by
      rw [List.length_flatMap]
      generalize vectorItems r l = v
      induction v with
      | nil => simp
      | cons y v ih =>
        simp only [List.map_cons, List.sum_cons, List.length_cons, itemBytes, List.length_append, leBytes_length] at ih ⊢
        omega
    rw [hcom 1 _ _ (by omega) (by omega) (by omega), if_pos (by decide)]
    rw [readVector_bytes ho hs hg (hw.items l hv) (fun x hx => by have := hsub x hx; omega)]
    simp only [Parsed.bind]
    rw [hfin _ hv]

theorem readLoop_bytes (l : List (Str × Rec)) : ∀ fuel, (l.flatMap recBytes).length ≤ fuel →
    (l.flatMap recBytes).length < 2 ^ 64 → (∀ x ∈ l, WfRec x) → readLoop fuel (l.flatMap recBytes) = .ok l := by
  induction l with
  | nil => intro fuel _ _ _; cases fuel <;> rfl
  | cons x l ih =>
    intro fuel hf hl hw
    have hp := recBytes_pos x
    simp only [List.flatMap_cons, List.length_append] at hf hl
    have hne : recBytes x ≠ [] := by intro e; rw [e] at hp; simp at hp
    obtain ⟨f, rfl⟩ : ∃ f, fuel = f + 1 := ⟨fuel - 1, by omega⟩
    unfold readLoop
    rw [if_neg (by simp [hne])]
    rw [List.flatMap_cons, readRec_bytes (hw x (by simp)) (by omega)]
    simp only [Parsed.bind]
    rw [ih f (by omega) (by omega) fun y hy => hw y (by simp [hy])]

theorem readMsg_message {l : List (Str × Rec)} (hw : ∀ x ∈ l, WfRec x) (hsize : (message l).length ≤ 0x4000000) :
    readMsg (message l) = .ok l := by
  have hlen : (message l).length = 4 + (l.flatMap recBytes).length := by simp [message, leBytes_length]
  have htake : (message l).take 4 = leBytes (4 + (l.flatMap recBytes).length) 4 := by
    unfold message
    rw [List.take_append_of_le_length (by simp [leBytes_length]), List.take_of_length_le (by simp [leBytes_length])]
  have hnat : leNat ((message l).take 4) = (message l).length := by
    rw [htake, hlen, leNat_leBytes (by omega)]
  unfold readMsg
  rw [if_neg (by omega)]
  simp only [hnat]
  by_cases hl : l = []
  · subst hl
    rw [if_pos (by simp [hlen])]
  · rw [if_neg]
    · rw [if_neg (by omega), if_neg (by omega), List.take_length]
      have : (message l).drop 4 = l.flatMap recBytes := by
        unfold message
        rw [List.drop_append_of_le_length (by simp [leBytes_length]), List.drop_of_length_le (by simp [leBytes_length])]
        rfl
      rw [this]
      exact readLoop_bytes l _ (by omega) (by omega) hw
    · cases l with
      | nil => exact absurd rfl hl
      | cons x l =>
        have := recBytes_pos x
        simp only [List.flatMap_cons, List.length_append] at hlen
        omega

theorem wantsUnset_iff (r : Rec) : wantsUnset r = true ↔ Spec.Codec.Empty r := by
  unfold wantsUnset Spec.Codec.Empty
  cases hv : r.val with
  | scalar d => simp; exact and_comm
  | vector l => simp [hv]

/-! ### loading -/

theorem opFromKey_arch {k : Str} (h : k.head? = some 58) : opFromKey (archKey k) = .set := by
  obtain ⟨r, rfl⟩ := head58 h
  have : archKey (58 :: r) = 126 :: 58 :: r := rfl
  rw [this]
  simp [opFromKey, getKeyPart, skipParts, cut, join]
  decide

theorem archKey_inj {a b : Str} (h : archKey a = archKey b) : a = b := List.append_cancel_left h

theorem loadable_op {l : List (Str × Rec)} {x : Str × Rec} (h : Loadable l x) : recOp x.1 x.2 = .set := by
  unfold recOp
  cases x.2.val with
  | scalar => rfl
  | vector =>
    rcases h.2 with h | ⟨k, hk, e, -⟩
    · exact opFromKey_set h
    · dsimp only; rw [e]; exact opFromKey_arch hk

/-- what is in the store after a part of the records -/
structure Loaded (l dn : List (Str × Rec)) (t : Tx) : Prop where
  there : ∀ x ∈ dn, t.db.recs x.1 = some x.2
  rest : ∀ K, (∀ x ∈ dn, x.1 ≠ K) → t.db.recs K = none
  kept : ∀ K ∈ t.unsetRecs, ∀ x ∈ l, x.1 ≠ K
  idx : t.db.idx = fun _ => false

theorem loaded_step {l dn : List (Str × Rec)} {x : Str × Rec} {t : Tx} (h : Loaded l dn t) (hl : ∀ y ∈ l, Loadable l y)
    (hx : x ∈ l) (hn : ∀ y ∈ dn, y.1 ≠ x.1) : Loaded l (dn ++ [x]) (importSet t x.1 x.2) := by
  have hold : t.db.recs x.1 = none := h.rest _ hn
  have hset : ∀ a, mainSet t x.1 x.2 a = { t with db := t.db.put x.1 (some x.2) } := by
    intro a
    simp [mainSet, mainSetOk, hold]
  have hdb : ∀ t', t'.db = t.db.put x.1 (some x.2) → (∀ K ∈ t'.unsetRecs, ∀ x ∈ l, x.1 ≠ K) → Loaded l (dn ++ [x]) t' := by
    intro t' e hk
    refine ⟨?_, ?_, hk, by rw [e]; exact h.idx⟩
    · intro y hy
      rw [e]
      rcases List.mem_append.mp hy with hy | hy
      · simp only [Db.put, if_neg (hn y hy)]
        exact h.there y hy
      · rw [List.mem_singleton.mp hy]
        simp [Db.put]
    · intro K hK
      rw [e]
      have : K ≠ x.1 := fun e => hK x (by simp) e.symm
      simp only [Db.put, if_neg this]
      exact h.rest K fun y hy => hK y (by simp [hy])
  unfold importSet
  split
  · rw [hset]
    exact hdb _ rfl h.kept
  · next har =>
    rw [hset]
    unfold mainUnset
    split
    · refine hdb _ rfl ?_
      intro K hK y hy
      rcases List.mem_cons.mp hK with rfl | hK
      · intro e
        rcases (hl y hy).2 with h1 | ⟨k, hk, ek, hr⟩
        · exact ne_archKey h1 _ e
        · have e2 : k = x.1 := archKey_inj (ek.symm.trans e)
          subst e2
          exact har (hr x.2 hx)
      · exact h.kept K hK y hy
    · exact hdb _ rfl h.kept

theorem loaded_loop {l : List (Str × Rec)} (hl : ∀ y ∈ l, Loadable l y) (hnd : (l.map fun x => x.1).Nodup)
    (post : List (Str × Rec)) : ∀ (dn : List (Str × Rec)) (m : Main), l = dn ++ post → Loaded l dn m.tx →
    ∃ m', importLoop m post = some m' ∧ Loaded l l m'.tx := by
  induction post with
  | nil => intro dn m e h; exact ⟨m, rfl, by rw [e, List.append_nil] at h ⊢; exact h⟩
  | cons x post ih =>
    intro dn m e h
    have hx : x ∈ l := by rw [e]; simp
    have hn : ∀ y ∈ dn, y.1 ≠ x.1 := by
      intro y hy
      rw [e, List.map_append, List.map_cons, List.nodup_append] at hnd
      exact hnd.2.2 y.1 (List.mem_map.mpr ⟨y, hy, rfl⟩) x.1 (by simp)
    have hop := loadable_op (hl x hx)
    have hu : wantsUnset x.2 = false := by
      cases hw : wantsUnset x.2
      · rfl
      · exact absurd ((wantsUnset_iff _).mp hw) (hl x hx).1
    have e1 : importRec m x.1 x.2 = some ⟨importSet m.tx x.1 x.2, m.stale || !has x.2.flags flAr⟩ := by
      simp [importRec, importAs, mainKey, hop, hu]
    obtain ⟨m', e2, h2⟩ := ih (dn ++ [x]) ⟨importSet m.tx x.1 x.2, m.stale || !has x.2.flags flAr⟩ (by simp [e])
      (loaded_step h hl hx hn)
    exact ⟨m', by simp [importLoop, e1, e2], h2⟩

theorem load_ok {l : List (Str × Rec)} (hl : ∀ y ∈ l, Loadable l y) (hnd : (l.map fun x => x.1).Nodup) :
    ∃ db, syncMain Db.empty l = some db ∧ Contents db l := by
  obtain ⟨m, e, h⟩ := loaded_loop hl hnd l [] ⟨⟨Db.empty, [], []⟩, false⟩ rfl ⟨by simp, fun _ _ => rfl, by simp, rfl⟩
  refine ⟨m.tx.done, by simp [syncMain, e], ?_, ?_⟩
  · intro x hx
    have : x.1 ∉ m.tx.unsetRecs := fun hk => h.kept _ hk x hx rfl
    simp only [Tx.done, if_neg this]
    exact h.there x hx
  · intro K hK
    simp only [Tx.done]
    split
    · rfl
    · exact h.rest K hK

end Sid.Ubr
