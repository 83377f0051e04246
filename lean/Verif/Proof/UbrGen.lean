import Verif.Spec.UbrGen
import Verif.Proof.UbrCodec
import Verif.Proof.UbrGroup
/-
Proofs about the generation number.
-/
namespace Sid.Ubr
open Sid.Spec.Codec Sid.Spec.Sync Sid.Spec.Gen
open Sid.Ifc (txt leBytes leNat)

theorem genKey_eq : genKey = genName := by decide +kernel

theorem genName_head : genName.head? = some 58 := by decide

theorem leBytes_two (g : Nat) (h : g < 65536) : leBytes g 2 = twoBytes g := by
  have : g / 256 % 256 = g / 256 := Nat.mod_eq_of_lt (by omega)
  simp [leBytes, twoBytes, UInt8.ofNat_mod_size.symm]

theorem genRec_isGen {g : Nat} (h : g < 65536) : IsGen g (genRec g) :=
  ⟨by simp [genRec, leBytes_two g h], rfl, rfl, rfl, (by decide : has (flagsNoSync ||| flAlign) flPersist = true),
    (by decide : has (flagsNoSync ||| flAlign) flSync = false)⟩

theorem twoBytes_nat {g : Nat} (h : g < 65536) : leNat ((twoBytes g).take 2) = g := by
  have := leNat_leBytes (n := g) (k := 2) (by omega)
  rw [leBytes_two g h] at this
  exact this

theorem nextGen_gen {g : Nat} {r : Rec} (h : g < 65536) (hr : IsGen g r) : nextGen (some r) = some ((g + 1) % 65536) := by
  simp only [nextGen, hr.1]
  rw [if_neg (by simp [twoBytes]), twoBytes_nat h]

theorem setUpGen_holds {db db' : Db} {n : Nat} (h : setUpGen db = some (n, db')) (hn : n < 65536) : Holds db' n := by
  unfold setUpGen at h
  cases hx : nextGen (db.recs genKey) with
  | none => rw [hx] at h; cases h
  | some m =>
    rw [hx] at h
    simp only [Option.map_some, Option.some.injEq, Prod.mk.injEq] at h
    rw [← h.2, h.1]
    exact ⟨genRec n, by simp [Db.put, genKey_eq], genRec_isGen hn⟩

/-! ### loading -/

theorem plain_op {k : Str} (h : PlainKey k) (r : Rec) : recOp k r = .set := by
  unfold recOp
  cases r.val with
  | scalar => rfl
  | vector =>
    rcases h with h | ⟨k', hk, e⟩
    · exact opFromKey_set h
    · dsimp only
      rw [e]
      exact opFromKey_arch hk

theorem importRec_plain {m : Main} {k : Str} {r : Rec} (h : PlainKey k) : ∃ m', importRec m k r = some m' := by
  unfold importRec importAs
  rw [plain_op h]
  cases wantsUnset r <;> simp

theorem importRec_other {m m' : Main} {k K : Str} {r : Rec} (h : PlainKey k) (hK : K.head? = some 58) (hne : k ≠ K)
    (e : importRec m k r = some m') : Keeps m.tx m'.tx K := by
  unfold importRec importAs at e
  rw [plain_op h] at e
  have ha := ne_archKey hK k
  simp only [mainKey, if_true] at e
  split at e
  · cases e; exact importUnset_keeps _ hne.symm ha r
  · cases e; exact importSet_keeps _ hne.symm ha r

theorem importLoop_plain (l : List (Str × Rec)) : ∀ (m : Main), (∀ x ∈ l, PlainKey x.1) → ∃ m', importLoop m l = some m' ∧
    ∀ K, K.head? = some 58 → (∀ x ∈ l, x.1 ≠ K) → Keeps m.tx m'.tx K := by
  induction l with
  | nil => intro m _; exact ⟨m, rfl, fun K _ _ => Keeps.refl _ _⟩
  | cons x l ih =>
    intro m hp
    obtain ⟨m1, e1⟩ := importRec_plain (m := m) (r := x.2) (hp x (by simp))
    obtain ⟨m2, e2, h2⟩ := ih m1 fun y hy => hp y (by simp [hy])
    refine ⟨m2, by simp [importLoop, e1, e2], fun K hK hn => ?_⟩
    exact (importRec_other (hp x (by simp)) hK (hn x (by simp)) e1).trans (h2 K hK fun y hy => hn y (by simp [hy]))

theorem importLoop_append (l1 l2 : List (Str × Rec)) : ∀ (m : Main),
    importLoop m (l1 ++ l2) = (importLoop m l1).bind fun m => importLoop m l2 := by
  induction l1 with
  | nil => intro m; rfl
  | cons x l ih =>
    intro m
    simp only [List.cons_append, importLoop]
    cases importRec m x.1 x.2 with
    | none => rfl
    | some m' => simp [ih]

/-- a record with data under a plain key is there after loading, whatever the other records are -/
theorem load_one {l : List (Str × Rec)} (hp : ∀ x ∈ l, PlainKey x.1) (hnd : (l.map fun x => x.1).Nodup) {K : Str} {r : Rec}
    (hK : K.head? = some 58) (hr : (K, r) ∈ l) (hu : wantsUnset r = false) :
    ∃ db, syncMain Db.empty l = some db ∧ db.recs K = some r := by
  obtain ⟨l1, l2, rfl⟩ := List.append_of_mem hr
  rw [List.map_append, List.map_cons, List.nodup_append] at hnd
  obtain ⟨m1, e1, h1⟩ := importLoop_plain l1 ⟨⟨Db.empty, [], []⟩, false⟩ fun x hx => hp x (by simp [hx])
  have k1 := h1 K hK fun x hx e => hnd.2.2 x.1 (List.mem_map.mpr ⟨x, hx, rfl⟩) K (by simp) e
  have e2 := importRec_set (m := m1) hK hu
  obtain ⟨s1, s2⟩ := importSet_at (t := m1.tx) (r := r) hK
  obtain ⟨m3, e3, h3⟩ := importLoop_plain l2 ⟨importSet m1.tx K r, m1.stale || !has r.flags flAr⟩
    fun x hx => hp x (by simp [hx])
  have k3 := h3 K hK fun x hx e => (List.nodup_cons.mp hnd.2.1).1 (List.mem_map.mpr ⟨x, hx, e⟩)
  refine ⟨m3.tx.done, ?_, ?_⟩
  · simp [syncMain, importLoop_append, e1, importLoop, e2, e3]
  · have hn : K ∉ m3.tx.unsetRecs := by rw [k3.2, s2, k1.2]; simp
    simp only [Tx.done, if_neg hn]
    rw [k3.1]
    dsimp only
    rw [s1, k1.1]
    rfl

theorem savedRec_some {db : Db} {k : Str} {x : Str × Rec} (h : savedRec db k = some x) :
    x.1 = k ∧ db.recs k = some x.2 ∧ has x.2.flags flPersist = true := by
  unfold savedRec at h
  cases hr : db.recs k with
  | none => rw [hr] at h; cases h
  | some r =>
    rw [hr] at h
    simp only [Option.bind_some] at h
    split at h
    · next hp => cases h; exact ⟨rfl, rfl, hp⟩
    · cases h

theorem saved_map_sublist (db : Db) (keys : List Str) : ((keys.filterMap (savedRec db)).map fun x => x.1).Sublist keys := by
  induction keys with
  | nil => simp
  | cons k l ih =>
    rw [List.filterMap_cons]
    cases h : savedRec db k with
    | none => exact ih.cons k
    | some x =>
      rw [List.map_cons, (savedRec_some h).1]
      exact ih.cons_cons k

theorem start_saved {db : Db} {b : List UInt8} {g : Nat} (hs : Saved db b) (hh : Holds db g) (hg : g < 65535) :
    ∃ db', start (some b) = .ok (g + 1, db') ∧ Holds db' (g + 1) := by
  obtain ⟨⟨keys, hnd, hall, hk, hw⟩, hsize⟩ := hs
  obtain ⟨r, hr, hgen⟩ := hh
  unfold saveFile at hw
  split at hw
  · cases hw
  · cases hw
    have hmem : (genName, r) ∈ keys.filterMap (savedRec db) := by
      refine List.mem_filterMap.mpr ⟨genName, (hall _).mpr (by simp [hr]), ?_⟩
      simp [savedRec, hr, hgen.2.2.2.2.1]
    have hx : ∀ x ∈ keys.filterMap (savedRec db), PlainKey x.1 ∧ WfRec x := by
      intro x hx
      obtain ⟨k, hk1, e⟩ := List.mem_filterMap.mp hx
      obtain ⟨e1, e2, -⟩ := savedRec_some e
      have := hk k hk1
      rw [e1]
      refine ⟨this.1, ?_⟩
      have w := this.2 _ e2
      rwa [← e1] at w
    obtain ⟨db1, e1, e2⟩ := load_one (fun x h => (hx x h).1) ((saved_map_sublist db keys).nodup hnd) genName_head hmem
      (by simp [wantsUnset, hgen.1, twoBytes])
    have e3 : syncBytes Db.empty (message (keys.filterMap (savedRec db))) = .ok db1 := by
      unfold syncBytes
      rw [readMsg_message (fun x h => (hx x h).2) hsize]
      simp [Parsed.bind, e1]
    have e4 : setUpGen db1 = some (g + 1, db1.put genKey (some (genRec (g + 1)))) := by
      unfold setUpGen
      rw [genKey_eq, e2, nextGen_gen (by omega) hgen, Nat.mod_eq_of_lt (by omega)]
      rfl
    refine ⟨_, ?_, setUpGen_holds e4 (by omega)⟩
    simp only [start, loadFile, e3, Parsed.bind, e4]

theorem start_none : ∃ db, start none = .ok (1, db) ∧ Holds db 1 :=
  ⟨_, rfl, setUpGen_holds (db := Db.empty) rfl (by omega)⟩

theorem start_range {f : Option (List UInt8)} {g : Nat} {db : Db} (h : start f = .ok (g, db)) : g < 65536 ∧ Holds db g := by
  unfold start at h
  cases hl : loadFile f with
  | ub => rw [hl] at h; cases h
  | bad => rw [hl] at h; cases h
  | ok d =>
    rw [hl] at h
    simp only [Parsed.bind] at h
    cases hs : setUpGen d with
    | none => rw [hs] at h; cases h
    | some x =>
      rw [hs] at h
      cases h
      have hg : g < 65536 := by
        unfold setUpGen at hs
        cases hn : nextGen (d.recs genKey) with
        | none => rw [hn] at hs; cases hs
        | some n =>
          rw [hn] at hs
          simp only [Option.map_some, Option.some.injEq, Prod.mk.injEq] at hs
          rw [← hs.1]
          unfold nextGen at hn
          split at hn
          · cases hn; omega
          · split at hn
            · cases hn
            · split at hn
              · cases hn
              · cases hn; omega
      exact ⟨hg, setUpGen_holds hs hg⟩

/-! ### running -/

theorem cut_first {k a b : Str} (h : cut k = some (a, b)) : k = a ++ 58 :: b := by
  induction k generalizing a b with
  | nil => cases h
  | cons c k ih =>
    simp only [cut] at h
    split at h
    · next hc => cases h; rw [hc]; rfl
    · cases hk : cut k with
      | none => rw [hk] at h; cases h
      | some x =>
        rw [hk] at h
        cases h
        rw [ih hk]
        rfl

theorem mainKey_cases (k : Str) (r : Rec) :
    mainKey k (recOp k r) = k ∨ k = 43 :: mainKey k (recOp k r) ∨ k = 45 :: mainKey k (recOp k r) := by
  unfold recOp
  cases r.val with
  | scalar => exact Or.inl rfl
  | vector =>
    dsimp only
    unfold opFromKey
    cases hp : getKeyPart k 0 with
    | none => exact Or.inl rfl
    | some p =>
      have hk : ∀ c, p = [c] → k = c :: k.drop 1 := by
        intro c e
        simp only [getKeyPart, skipParts, Option.bind_some] at hp
        cases hc : cut k with
        | none => rw [hc] at hp; simp at hp
        | some x =>
          rw [hc] at hp
          simp only [Nat.reduceEqDiff, if_false, Option.map_some, Option.some.injEq] at hp
          rw [cut_first (a := x.1) (b := x.2) hc, hp, e]
          rfl
      dsimp only
      split
      · exact Or.inl rfl
      · split
        · exact Or.inl rfl
        · split
          · next h => exact Or.inr (Or.inl (by simpa [mainKey] using hk 43 h))
          · split
            · next h => exact Or.inr (Or.inr (by simpa [mainKey] using hk 45 h))
            · exact Or.inl rfl

theorem importRec_silent {m m' : Main} {key K : Str} {r : Rec} (hK : K.head? = some 58) (h1 : key ≠ K) (h2 : key ≠ 43 :: K)
    (h3 : key ≠ 45 :: K) (e : importRec m key r = some m') : Keeps m.tx m'.tx K := by
  unfold importRec importAs at e
  have hk : K ≠ mainKey key (recOp key r) := by
    intro h
    rcases mainKey_cases key r with hc | hc | hc <;> rw [← h] at hc
    · exact h1 hc.symm
    · exact h2 hc
    · exact h3 hc
  generalize mainKey key (recOp key r) = key' at hk e
  have ha := ne_archKey hK key'
  split at e
  · cases e; exact importUnset_keeps _ hk ha r
  · split at e
    · cases e; exact importSet_keeps _ hk ha r
    · split at e
      · exact importDelta_keeps hk e
      · simp at e

theorem silent_loop {K : Str} (hK : K.head? = some 58) (l : List (Str × Rec)) : ∀ (m m' : Main),
    (∀ x ∈ l, x.1 ≠ K ∧ x.1 ≠ 43 :: K ∧ x.1 ≠ 45 :: K) → importLoop m l = some m' → Keeps m.tx m'.tx K := by
  induction l with
  | nil => intro m m' _ e; cases e; exact Keeps.refl _ _
  | cons x l ih =>
    intro m m' hs e
    simp only [importLoop] at e
    cases e1 : importRec m x.1 x.2 with
    | none => rw [e1] at e; cases e
    | some m1 =>
      rw [e1] at e
      have hx := hs x (by simp)
      exact (importRec_silent hK hx.1 hx.2.1 hx.2.2 e1).trans (ih m1 m' (fun y hy => hs y (by simp [hy])) e)

theorem silent_sync {db db' : Db} {msg : List (Str × Rec)} (hs : Silent msg) (e : syncMain db msg = some db') :
    db'.recs genName = db.recs genName := by
  unfold syncMain at e
  cases h : importLoop ⟨⟨db, [], []⟩, false⟩ msg with
  | none => rw [h] at e; cases e
  | some m =>
    rw [h] at e
    cases e
    have k := silent_loop genName_head msg _ m hs h
    rw [k.done]
    simp [Tx.done]

theorem runs_keep {db db' : Db} (h : Runs db db') : db'.recs genName = db.recs genName := by
  induction h with
  | same => rfl
  | sync msg _ hs e ih => rw [silent_sync hs e, ih]

theorem runs_holds {db db' : Db} {g : Nat} (h : Runs db db') (hh : Holds db g) : Holds db' g := by
  obtain ⟨r, hr, hg⟩ := hh
  exact ⟨r, by rw [runs_keep h, hr], hg⟩

/-! ### workers -/

theorem gen_apart (ns : Ns) (rest : Str) : genName ≠ join :: (Spec.UbrKey.text (domOf ns) ++ join :: (Spec.UbrKey.nsLetter ns ++ join :: rest)) := by
  cases ns <;> simp [genName, txt, domOf, Spec.UbrKey.text, domUser, join, Spec.UbrKey.nsLetter]

theorem calls_stay (l : List (Str × Call)) : ∀ {db db' : Db}, calls true db l = some db' →
    ∀ k, k = genName ∨ k = 43 :: genName ∨ k = 45 :: genName → Stays db db' k := by
  induction l with
  | nil => intro db db' e k _; cases e; exact ⟨rfl, rfl⟩
  | cons x l ih =>
    intro db db' e k hk
    simp only [calls] at e
    cases e1 : call true db x.1 x.2 with
    | none => rw [e1] at e; cases e
    | some r =>
      rw [e1] at e
      have h1 : Stays db r.2 k := by
        refine call_stays (rc := r.1) e1 ?_ ?_
        · rcases hk with rfl | rfl | rfl <;> decide
        · intro ns rest he
          rcases hk with rfl | rfl | rfl
          · exact gen_apart ns rest he
          · simp [join] at he
          · simp [join] at he
      have h2 := ih e k hk
      exact ⟨h2.1.trans h1.1, h2.2.trans h1.2⟩

theorem export_silent {db : Db} {keys : List Str} {o : Out} {g : Nat} (he : keys.Nodup) (hx : exportLoop { db := db } keys = some o)
    (hh : Holds db g) (hp : db.recs (43 :: genName) = none) (hm : db.recs (45 :: genName) = none) : Silent o.recs := by
  obtain ⟨b1, -⟩ := exportLoop_ok keys he hx
  dsimp only at b1
  rw [List.nil_append] at b1
  intro x hx
  rw [b1, List.mem_filterMap] at hx
  obtain ⟨k, -, e⟩ := hx
  have hk : x.1 = k ∧ ∃ r, db.recs k = some r ∧ has r.flags flSync = true := by
    simp only [sent] at e
    cases hr : db.recs k with
    | none => rw [hr] at e; simp at e
    | some r =>
      rw [hr] at e
      simp only [Option.bind_some] at e
      split at e
      · next hc =>
        cases e
        exact ⟨rfl, r, rfl, by simp at hc; exact hc.1⟩
      · cases e
  obtain ⟨e1, r, hr, hf⟩ := hk
  obtain ⟨rg, hg, hgen⟩ := hh
  rw [e1]
  refine ⟨?_, ?_, ?_⟩ <;> intro e2
  · rw [e2, hg] at hr
    cases hr
    rw [hgen.2.2.2.2.2] at hf
    cases hf
  · rw [show (txt "+" ++ genName : Str) = 43 :: genName from rfl] at e2
    rw [e2, hp] at hr
    cases hr
  · rw [show (txt "-" ++ genName : Str) = 45 :: genName from rfl] at e2
    rw [e2, hm] at hr
    cases hr

/-! ### lives -/

theorem genLife_inv {f f' : Option (List UInt8)} {g : Nat} {db : Db} {s : Bool} (h : Life f g db f' s) :
    g < 65536 ∧ Holds db g ∧ (∃ db0, start f = .ok (g, db0)) ∧ (s = false → f' = f) ∧
    (s = true → ∃ d b, f' = some b ∧ Saved d b ∧ Holds d g) := by
  induction h with
  | start e => exact ⟨(start_range e).1, (start_range e).2, ⟨_, e⟩, fun _ => rfl, nofun⟩
  | runs _ hr ih => exact ⟨ih.1, runs_holds hr ih.2.1, ih.2.2.1, ih.2.2.2⟩
  | save _ hs ih => exact ⟨ih.1, ih.2.1, ih.2.2.1, nofun, fun _ => ⟨_, _, rfl, hs, ih.2.1⟩⟩

/-- what is in the file after `n` lives that saved -/
def FileOk (n : Nat) : Option (List UInt8) → Prop
  | none => n = 0
  | some b => ∃ d, Saved d b ∧ Holds d n

theorem start_fileOk {n : Nat} {f : Option (List UInt8)} (hf : FileOk n f) (hn : n < 65535) : ∃ db, start f = .ok (n + 1, db) := by
  cases f with
  | none => obtain ⟨db, h, -⟩ := start_none; exact ⟨db, by rw [show n = 0 from hf]; exact h⟩
  | some b => obtain ⟨d, hs, hh⟩ := hf; obtain ⟨db, h, -⟩ := start_saved hs hh hn; exact ⟨db, h⟩

theorem lives_inv {l : List (Nat × Bool)} {f : Option (List UInt8)} (h : Lives l f) (hn : l.countP (·.2) < 65536) :
    FileOk (l.countP (·.2)) f ∧ ∀ i x, l[i]? = some x → x.1 = (l.take i).countP (·.2) + 1 ∨ 65535 ≤ (l.take i).countP (·.2) := by
  induction h with
  | first => exact ⟨rfl, by simp⟩
  | @next l f g db f' s hl hlife ih =>
    have hc : (l ++ [(g, s)]).countP (·.2) = l.countP (·.2) + (if s then 1 else 0) := by
      rw [List.countP_append]; cases s <;> simp
    rw [hc] at hn
    obtain ⟨hf, hi⟩ := ih (by omega)
    obtain ⟨h1, h2, ⟨db0, h3⟩, h4, h5⟩ := genLife_inv hlife
    have hg : l.countP (·.2) < 65535 → g = l.countP (·.2) + 1 := by
      intro hlt
      obtain ⟨d, e⟩ := start_fileOk hf hlt
      rw [e] at h3
      cases h3
      rfl
    refine ⟨?_, ?_⟩
    · rw [hc]
      cases s with
      | false =>
        rw [h4 rfl]
        simpa using hf
      | true =>
        obtain ⟨d, b, e, hs, hh⟩ := h5 rfl
        rw [e]
        simp only [if_true] at hn ⊢
        exact ⟨d, hs, by rw [← hg (by omega)]; exact hh⟩
    · intro i x hx
      rcases Nat.lt_trichotomy i l.length with hlt | rfl | hgt
      · rw [List.getElem?_append_left hlt] at hx
        rw [List.take_append_of_le_length (by omega)]
        exact hi i x hx
      · simp only [List.getElem?_concat_length, Option.some.injEq] at hx
        subst hx
        simp only [List.take_left']
        by_cases hlt : l.countP (·.2) < 65535
        · exact Or.inl (by simpa using hg hlt)
        · exact Or.inr (by omega)
      · rw [List.getElem?_eq_none (by simp; omega)] at hx
        cases hx

end Sid.Ubr
