import Verif.Proof.Dump
import Verif.Proof.Restart
import Verif.Props.UbrGen
/-
C92 (what is kept over a restart of the daemon) and C93 (the database file while it is written).
-/
namespace Sid.Props
open Sid.Ubr Sid.Spec.Codec Sid.Spec.Gen Sid.Spec.Dump
open Sid.Ifc (txt leBytes)

/-! ### C92 -/

/-- C92: after a restart with the file saved from the store `db`, the store holds under every key just the record that was there
    when it was saved, if that was marked to be kept and holds something; other records are gone and no new ones are there.
    (The generation number is the exception, see C55.)  The same is true of archived copies, whose record, if it is kept, must
    still be marked for archiving.  Missing: records without data, that is reservations (`C92_counterexample_reserved`), and
    databases of more than 64 MiB, which `Saved` excludes (`C92_counterexample_size`). -/
theorem C92_restart_partial (db : Db) (b : List UInt8) (g : Nat) (hs : Saved db b) (hh : Holds db g) (hg : g < 65536) :
    ∃ db', start (some b) = .ok ((g + 1) % 65536, db') ∧
      (∀ K r, K.head? = some 58 → K ≠ genName → (db'.recs K = some r ↔ db.recs K = some r ∧ Kept r)) ∧
      (∀ K r, K.head? = some 58 → db'.recs (txt "~" ++ K) = some r → db.recs (txt "~" ++ K) = some r ∧ Kept r) ∧
      (∀ K r, K.head? = some 58 → db.recs (txt "~" ++ K) = some r → Kept r →
        (∀ r', db.recs K = some r' → has r'.flags flPersist = true → has r'.flags flAr = true) →
        db'.recs (txt "~" ++ K) = some r) := by
  obtain ⟨db', e, h1, h2⟩ := restart_all hs hh hg
  exact ⟨db', e, h1, fun K r hK => (h2 K r hK).1, fun K r hK => (h2 K r hK).2⟩

/-- C92: so every module reads after the restart what it read before, of all namespaces and modules and devices: the same values
    with the same flags, owners, generation and sequence numbers, if they were to be kept; and it reads nothing else.
    (`a.archive = 1` is the flag that asks for the archived copy.) -/
theorem C92_read_partial (db : Db) (b : List UInt8) (g : Nat) (hs : Saved db b) (hh : Holds db g) (hg : g < 65536) :
    ∃ db', start (some b) = .ok ((g + 1) % 65536, db') ∧
      ∀ (c : Ctx) (owner : Str) (a : GetArgs) (r : Rec), a.archive ≠ 1 →
        (kvGet db' c owner a = .ok r ↔ kvGet db c owner a = .ok r ∧ Kept r) := by
  obtain ⟨db', e, h1, -⟩ := restart_all hs hh hg
  refine ⟨db', e, fun c owner a r ha => ?_⟩
  obtain ⟨K, hK, hne, hk, -⟩ := getKey_form c owner a.ns a.key a.fmod a.fdev
  have h := h1 K
  unfold kvGet
  by_cases hargs : argsOk a.ns a.key = true
  · rw [if_pos hargs, if_pos hargs]
    unfold doKvGet getRec
    rw [hk a.archive ha]
    constructor
    · intro hr
      cases hd : db'.recs K with
      | none => rw [hd] at hr; cases hr
      | some r' =>
        rw [hd] at hr
        dsimp only at hr
        obtain ⟨x1, x2⟩ := (h r' hK hne).mp hd
        rw [x1]
        dsimp only
        by_cases hp : rdAllowed r' owner = true
        · rw [if_pos hp] at hr ⊢
          cases hr
          exact ⟨rfl, x2⟩
        · rw [if_neg hp] at hr; cases hr
    · rintro ⟨hr, hkept⟩
      cases hd : db.recs K with
      | none => rw [hd] at hr; cases hr
      | some r' =>
        rw [hd] at hr
        dsimp only at hr
        by_cases hp : rdAllowed r' owner = true
        · rw [if_pos hp] at hr
          cases hr
          rw [(h r hK hne).mpr ⟨hd, hkept⟩]
          dsimp only
          rw [if_pos hp]
        · rw [if_neg hp] at hr; cases hr
  · rw [if_neg hargs, if_neg hargs]
    constructor
    · intro hr; cases hr
    · rintro ⟨hr, -⟩; cases hr

/-- C92 is not true of records without data: whatever is reserved is free after the restart -/
theorem C92_counterexample_reserved (db : Db) (b : List UInt8) (g : Nat) (hs : Saved db b) (hh : Holds db g) (hg : g < 65536)
    (K : Str) (hK : K.head? = some 58) (hne : K ≠ genName) (r : Rec) (hr : db.recs K = some r) (he : Empty r) :
    ∃ db', start (some b) = .ok ((g + 1) % 65536, db') ∧ db'.recs K = none := by
  obtain ⟨db', e, h1, -⟩ := restart_all hs hh hg
  refine ⟨db', e, ?_⟩
  cases hd : db'.recs K with
  | none => rfl
  | some r' =>
    obtain ⟨x1, x2⟩ := (h1 K r' hK hne).mp hd
    rw [hr] at x1
    cases x1
    exact (x2.2 he).elim

/-- C92 is not true of databases of more than 64 MiB: they are written, but the next start does as if there was no file -/
theorem C92_counterexample_size (l : List (Str × Rec)) (h1 : (message l).length > 0x4000000) (h2 : (message l).length < 2 ^ 32) :
    start (some (message l)) = start none := by
  apply start_bad
  rw [message_length] at h1 h2
  have hs : (message l).take 4 = leBytes (4 + (l.flatMap recBytes).length) 4 := by
    rw [message, List.take_append_of_le_length (by simp [Ifc.leBytes_length]), List.take_of_length_le (by simp [Ifc.leBytes_length])]
  have hn : Ifc.leNat (leBytes (4 + (l.flatMap recBytes).length) 4) = 4 + (l.flatMap recBytes).length := leNat_leBytes h2
  unfold readMsg
  dsimp only
  rw [if_neg (by rw [message_length]; omega), hs, hn, if_neg (by omega), if_pos (by omega)]

namespace RestartExample
open GenExample

def keyK : Str := txt ":USR:G::::K"
def keyR : Str := txt ":USR:G::::R"
def keyT : Str := txt ":USR:G::::T"

def recK : Rec := ⟨7, flPersist, 3, txt "/type/m", .scalar (txt "value" ++ [0])⟩
def recR : Rec := ⟨0, flPersist ||| flRs, 3, txt "/type/m", .scalar []⟩
def recT : Rec := ⟨7, 0, 3, txt "/type/m", .scalar (txt "temporary" ++ [0])⟩

/-- a store with a value that is to be kept, a reservation, and a value that is not to be kept -/
def full : Db := (((store 3).put keyK (some recK)).put keyR (some recR)).put keyT (some recT)

theorem full_recs (k : Str) : full.recs k = if k = keyT then some recT else if k = keyR then some recR else
    if k = keyK then some recK else if k = genName then some (genRec 3) else none := by
  simp only [full, store, Db.put, Db.empty]

def fullFile : List UInt8 := message [(genName, genRec 3), (keyK, recK), (keyR, recR)]

theorem full_saved : Saved full fullFile := by
  refine ⟨⟨[genName, keyK, keyR, keyT], by decide +kernel, ?_, ?_, ?_⟩, by decide +kernel⟩
  · intro k
    rw [full_recs]
    simp only [List.mem_cons, List.not_mem_nil, or_false]
    split
    · simp_all
    · split
      · simp_all
      · split
        · simp_all
        · split <;> simp_all
  · have w : ∀ k r, (k, r) ∈ [(genName, genRec 3), (keyK, recK), (keyR, recR), (keyT, recT)] → WfRec (k, r) := by
      intro k r h
      simp only [List.mem_cons, List.not_mem_nil, or_false, Prod.mk.injEq] at h
      rcases h with ⟨rfl, rfl⟩ | ⟨rfl, rfl⟩ | ⟨rfl, rfl⟩ | ⟨rfl, rfl⟩
      · exact gen_wf 3 (by decide)
      · exact ⟨by unfold NoNul; decide, by unfold NoNul; decide, by decide, by decide, fun l h => by cases h⟩
      · exact ⟨by unfold NoNul; decide, by unfold NoNul; decide, by decide, by decide, fun l h => by cases h⟩
      · exact ⟨by unfold NoNul; decide, by unfold NoNul; decide, by decide, by decide, fun l h => by cases h⟩
    intro k hk
    simp only [List.mem_cons, List.not_mem_nil, or_false] at hk
    rcases hk with rfl | rfl | rfl | rfl
    · refine ⟨Or.inl (by decide), fun r hr => w _ _ ?_⟩
      rw [show full.recs genName = some (genRec 3) by rw [full_recs]; decide +kernel] at hr
      cases hr; simp
    · refine ⟨Or.inl (by decide), fun r hr => w _ _ ?_⟩
      rw [show full.recs keyK = some recK by rw [full_recs]; decide +kernel] at hr
      cases hr; simp
    · refine ⟨Or.inl (by decide), fun r hr => w _ _ ?_⟩
      rw [show full.recs keyR = some recR by rw [full_recs]; decide +kernel] at hr
      cases hr; simp
    · refine ⟨Or.inl (by decide), fun r hr => w _ _ ?_⟩
      rw [show full.recs keyT = some recT by rw [full_recs]; decide +kernel] at hr
      cases hr; simp
  · decide +kernel

theorem full_holds : Holds full 3 := ⟨genRec 3, by rw [full_recs]; decide +kernel, genRec_isGen (by decide)⟩

/-- the value that is to be kept is read after the restart, the others are not -/
example : Kept recK ∧ ∃ db', start (some fullFile) = .ok (4, db') ∧ db'.recs keyK = some recK ∧ db'.recs keyR = none ∧
    db'.recs keyT = none := by
  have hk : Kept recK := ⟨by decide, by rw [← wantsUnset_iff]; decide⟩
  refine ⟨hk, ?_⟩
  obtain ⟨db', e, h, -⟩ := C92_restart_partial full fullFile 3 full_saved full_holds (by decide)
  refine ⟨db', e, (h keyK recK (by decide) (by decide)).mpr ⟨by rw [full_recs]; decide +kernel, hk⟩, ?_, ?_⟩
  · obtain ⟨db2, e2, h2⟩ := C92_counterexample_reserved full fullFile 3 full_saved full_holds (by decide) keyR (by decide)
      (by decide) recR (by rw [full_recs]; decide +kernel) (by rw [← wantsUnset_iff]; decide)
    rw [e] at e2
    cases e2
    exact h2
  · cases hd : db'.recs keyT with
    | none => rfl
    | some r =>
      obtain ⟨x1, x2⟩ := (h keyT r (by decide) (by decide)).mp hd
      rw [show full.recs keyT = some recT by rw [full_recs]; decide +kernel] at x1
      cases x1
      exact absurd x2.1 (by decide)

/-- a module reads it -/
example : kvGet full {} (txt "/type/m") { ns := .global, key := txt "K" } = .ok recK := by rfl

/-- there are databases of more than 64 MiB: one value of 64 MiB is enough -/
example : ∃ l : List (Str × Rec), (message l).length > 0x4000000 ∧ (message l).length < 2 ^ 32 := by
  refine ⟨[(keyK, ⟨7, 0, 3, txt "/type/m", .scalar (List.replicate 0x4000000 1)⟩)], ?_⟩
  rw [message_length]
  simp only [recBytes, scalarBytes, List.flatMap_cons, List.flatMap_nil, List.append_nil, List.length_append,
    Ifc.leBytes_length, headBytes_length, List.length_replicate, List.length_cons, List.length_nil]
  have : keyK.length = 11 := by decide
  have : (txt "/type/m").length = 7 := by decide
  have : padding (0 : Flags) ((txt "/type/m").length + 1) = 0 := by decide
  omega

end RestartExample

/-! ### C93 -/

/-- C93: when the worker that saves the database is killed at any moment, or gives up, or is done, then the next start of the
    daemon gives what it would have given with the file as it was before, or what it gives without a file, or what it gives with
    the new database complete.  There is no start with a part of the database or with parts of both.
    Missing: "without a file" (see `C93_counterexample_lost`), more than one worker (`C93_counterexample_two`). -/
theorem C93_killed_partial (f0 f : Option (List UInt8)) (l : List (Str × Rec)) (h : Left f0 (dumpActs l) f) :
    start f = start f0 ∨ start f = start none ∨ start f = start (some (message l)) :=
  left_start h

/-- C93: with all done, the next start gives the database saved, whatever was in the file before; what is stored behind the
    records to fill up the file makes no difference -/
theorem C93_done (f0 : Option (List UInt8)) (db : Db) (keys : List Str) (b : List UInt8) (hs : saveFile db keys = some b) :
    ∃ f, acts f0 (dumpActs (keys.filterMap (savedRec db))) = some f ∧ start f = start (some b) := by
  obtain ⟨n, e⟩ := dump_file f0 (keys.filterMap (savedRec db))
  refine ⟨_, e, ?_⟩
  rw [start_dump f0 _ _ e]
  unfold saveFile at hs
  split at hs
  · cases hs
  · cases hs; rfl

/-- C93: the only worker that saves the database never stores behind the end of the file (what would kill it) -/
theorem C93_no_fault (f0 : Option (List UInt8)) (l : List (Str × Rec)) (before after : List Act)
    (h : dumpActs l = before ++ after) : ∃ f, acts f0 before = some f :=
  dump_alive f0 l before after h

/-- C93: a save that is not begun leaves the file -/
theorem C93_not_begun (f0 : Option (List UInt8)) (l : List (Str × Rec)) : Left f0 (dumpActs l) f0 :=
  .between (before := []) (after := dumpActs l) rfl rfl

/-- C93 "the old database or the new one" is not true: from the first action of the worker to the last but one all is lost,
    whatever was in the file before and whatever is to be written -/
theorem C93_counterexample_lost (f0 f : Option (List UInt8)) (l : List (Str × Rec)) (before after : List Act)
    (h : dumpActs l = before ++ after) (h1 : before ≠ []) (h2 : after ≠ []) (e : acts f0 before = some f) :
    start f = start none := by
  rcases dump_prefix f0 l before after f h e with ⟨h, -⟩ | ⟨-, rfl⟩ | ⟨b, rfl, hz, -⟩ | ⟨-, h⟩
  · exact (h1 h).elim
  · exact start_trunc
  · exact start_zero hz.1 hz.2
  · exact (h2 h).elim

namespace DumpExample
open RestartExample GenExample

def l3 : List (Str × Rec) := [(genName, genRec 3), (keyK, recK), (keyR, recR)]

/-- the save has 19 actions; killed after the first it leaves an empty file, and the generation is 1 again, though it was 4
    with the old file and is 4 with the new one -/
example : (dumpActs l3).length = 19 ∧ Left (some fullFile) (dumpActs l3) (some []) ∧
    (∃ db, start (some []) = .ok (1, db)) ∧ ∃ db, start (some fullFile) = .ok (4, db) := by
  refine ⟨by decide +kernel, .between (before := [.trunc]) (after := (dumpActs l3).drop 1) (by decide +kernel) rfl, ⟨_, rfl⟩, ?_⟩
  obtain ⟨db', e, -⟩ := C92_restart_partial full fullFile 3 full_saved full_holds (by decide)
  exact ⟨db', e⟩

/-- killed in the middle of copying the key of the first record: two of its bytes are there -/
example : ∃ f, Left none (dumpActs l3) (some f) ∧ (f.drop 24).take 5 = [58, 58, 0, 0, 0] := by
  obtain ⟨b, hb⟩ : ∃ b, acts none ((dumpActs l3).take 6) = some (some b) := by
    obtain ⟨f, hf⟩ := C93_no_fault none l3 ((dumpActs l3).take 6) ((dumpActs l3).drop 6) (List.take_append_drop _ _).symm
    rcases dump_prefix none l3 _ _ _ (List.take_append_drop 6 _).symm hf with ⟨h, -⟩ | ⟨h, -⟩ | ⟨b, rfl, -⟩ | ⟨-, h⟩
    · exact absurd h (by decide +kernel)
    · exact absurd h (by decide +kernel)
    · exact ⟨b, hf⟩
    · exact absurd h (by decide +kernel)
  have hlen : 24 + 14 ≤ b.length := by
    have : ((acts none ((dumpActs l3).take 6)).bind fun f => f.map fun b => decide (24 + 14 ≤ b.length)) = some true := by
      decide +kernel
    rw [hb] at this
    simpa using this
  refine ⟨(b.take 24 ++ (genName ++ [0]) ++ b.drop 38).take 26 ++ b.drop 26, .within (before := (dumpActs l3).take 6)
    (after := (dumpActs l3).drop 7) (pos := 24) (d := genName ++ [0]) (by decide +kernel) hb ?_ (partly_take ?_ 26), ?_⟩
  · simp only [act, storeAt]
    rw [show (genName ++ [0] : List UInt8).length = 14 from rfl, if_pos hlen]
    rfl
  · simp [show genName.length = 13 by decide]; omega
  · have : ((acts none ((dumpActs l3).take 6)).bind fun f => f.map fun b =>
        (((b.take 24 ++ (genName ++ [0]) ++ b.drop 38).take 26 ++ b.drop 26).drop 24).take 5) = some [58, 58, 0, 0, 0] := by
      decide +kernel
    rw [hb] at this
    simpa using this

/-- two databases with the same keys -/
def twoRecs (v : String) : List (Str × Rec) :=
  [(keyK, ⟨7, flPersist, 3, txt "/type/m", .scalar (txt v)⟩), (keyT, ⟨7, flPersist, 3, txt "/type/m", .scalar (txt v)⟩)]

/-- an order in which two workers may save: the second opens the file when the first has begun, then each of them is faster for
    one of the two records -/
def race : List Bool :=
  List.replicate 4 true ++ List.replicate 4 false ++ List.replicate 4 true ++ List.replicate 4 false ++
  List.replicate 5 false ++ List.replicate 5 true ++ [false, true]

/-- C93 is not true of two workers that save at the same time (the daemon got SIGUSR1 twice): both are done, and the file holds
    the first record of the one and the second record of the other, a database that never was -/
theorem C93_counterexample_two :
    (merge race (dumpActs (twoRecs "1")) (dumpActs (twoRecs "2"))).length =
      (dumpActs (twoRecs "1")).length + (dumpActs (twoRecs "2")).length ∧
    ∃ f, acts none (merge race (dumpActs (twoRecs "1")) (dumpActs (twoRecs "2"))) = some (some f) ∧
      readMsg f = .ok ((twoRecs "2").take 1 ++ (twoRecs "1").drop 1) := by
  refine ⟨by decide +kernel, ?_⟩
  have : ((acts none (merge race (dumpActs (twoRecs "1")) (dumpActs (twoRecs "2")))).bind fun f => f.map readMsg) =
      some (.ok ((twoRecs "2").take 1 ++ (twoRecs "1").drop 1)) := by decide +kernel
  cases h : acts none (merge race (dumpActs (twoRecs "1")) (dumpActs (twoRecs "2"))) with
  | none => rw [h] at this; cases this
  | some f =>
    cases f with
    | none => rw [h] at this; cases this
    | some f =>
      rw [h] at this
      simp only [Option.bind_some, Option.map_some, Option.some.injEq] at this
      exact ⟨f, rfl, this⟩

end DumpExample
end Sid.Props
