import Verif.Proof.UbrGen
/-
C55 (generation number of the database).
-/
namespace Sid.Props
open Sid.Ubr Sid.Spec.Codec Sid.Spec.Sync Sid.Spec.Gen
open Sid.Ifc (txt)

/-- C55: without a database file the daemon starts with generation 1 and notes it in its store -/
theorem C55_first : ∃ db, start none = .ok (1, db) ∧ Holds db 1 := start_none

/-- C55: a daemon started with a database file whose store held the generation `g` runs with generation `g + 1` and notes it in
    its store.  Missing: `g = 65535` (see `C55_counterexample_wrap`). -/
theorem C55_start_partial (db : Db) (b : List UInt8) (g : Nat) (hs : Saved db b) (hh : Holds db g) (hg : g < 65535) :
    ∃ db', start (some b) = .ok (g + 1, db') ∧ Holds db' (g + 1) := start_saved hs hh hg

/-- messages of workers do not change the generation number of a running daemon -/
theorem C55_kept (db db' : Db) (g : Nat) (hr : Runs db db') (hh : Holds db g) : Holds db' g := runs_holds hr hh

/-- and whatever modules do in a worker, the worker's store keeps it and the message to the main process is silent about it -/
theorem C55_workers (db db' : Db) (g : Nat) (l : List (Str × Call)) (keys : List Str) (o : Out) (hh : Holds db g)
    (hp : db.recs (txt "+" ++ genName) = none) (hm : db.recs (txt "-" ++ genName) = none)
    (hc : calls true db l = some db') (he : Entries db' keys) (hx : exportLoop { db := db' } keys = some o) :
    Holds db' g ∧ Silent o.recs := by
  have h := calls_stay l hc
  have hh' : Holds db' g := by
    obtain ⟨r, hr, hg⟩ := hh
    exact ⟨r, by rw [(h _ (Or.inl rfl)).1, hr], hg⟩
  exact ⟨hh', export_silent he.1 hx hh' (by rw [(h _ (Or.inr (Or.inl rfl))).1]; exact hp)
    (by rw [(h _ (Or.inr (Or.inr rfl))).1]; exact hm)⟩

/-- C55: over any history of lives of the daemon, each of which may save its database any number of times or never and may end
    at any time, every start uses 1 plus the number of the earlier lives that saved: one more than the generation stored.
    Missing: more than 65535 lives; files of more than 64 MiB; files written in part (`Saved` excludes both). -/
theorem C55_history_partial (l : List (Nat × Bool)) (f : Option (List UInt8)) (h : Lives l f) (hl : l.length ≤ 65535) (i : Nat)
    (hi : i < l.length) : (l[i]).1 = 1 + (l.take i).countP (·.2) := by
  have hc : l.countP (·.2) < 65536 := by
    have := List.countP_le_length (p := fun x : Nat × Bool => x.2) (l := l)
    omega
  have hi' : (l.take i).countP (·.2) < 65535 := by
    have := List.countP_le_length (p := fun x : Nat × Bool => x.2) (l := l.take i)
    rw [List.length_take] at this
    omega
  have := (lives_inv h hc).2 i l[i] (by simp [hi])
  omega

/-- so generation numbers never go down, and two lives have the same one only if none of them saved before the later began -/
theorem C55_increasing_partial (l : List (Nat × Bool)) (f : Option (List UInt8)) (h : Lives l f) (hl : l.length ≤ 65535)
    (i j : Nat) (hij : i < j) (hj : j < l.length) :
    (l[i]).1 ≤ (l[j]).1 ∧ ((∃ k, i ≤ k ∧ ∃ hk : k < j, (l[k]'(by omega)).2 = true) → (l[i]).1 < (l[j]).1) := by
  rw [C55_history_partial l f h hl i (by omega), C55_history_partial l f h hl j hj]
  have hsplit : l.take j = l.take i ++ (l.take j).drop i := by
    conv => lhs; rw [← List.take_append_drop i (l.take j)]
    rw [List.take_take, Nat.min_eq_left (by omega)]
  rw [hsplit, List.countP_append]
  refine ⟨by omega, ?_⟩
  rintro ⟨k, hik, hk, hs⟩
  have : 0 < ((l.take j).drop i).countP (·.2) := by
    refine List.countP_pos_iff.mpr ⟨l[k]'(by omega), ?_, hs⟩
    refine List.mem_iff_getElem.mpr ⟨k - i, by simp; omega, ?_⟩
    simp [List.getElem_drop, List.getElem_take, show i + (k - i) = k by omega]
  omega

namespace GenExample

/-- the store of a daemon that has just started with generation `g` -/
def store (g : Nat) : Db := Db.empty.put genName (some (genRec g))

theorem store_holds (g : Nat) (hg : g < 65536) : Holds (store g) g := ⟨genRec g, by simp [store, Db.put], genRec_isGen hg⟩

theorem gen_wf (g : Nat) (hg : g < 65536) : WfRec (genName, genRec g) :=
  ⟨(by unfold NoNul; decide : NoNul genName), (by unfold NoNul; decide : NoNul core), (by decide : 0 < 2 ^ 64), hg,
    fun l h => by simp [genRec] at h⟩

theorem gen_size (g : Nat) : (message [(genName, genRec g)]).length ≤ 0x4000000 := by
  simp only [message, recBytes, genRec, scalarBytes, List.flatMap_cons, List.flatMap_nil, List.append_nil, List.length_append,
    Ifc.leBytes_length, headBytes_length, List.length_replicate, List.length_cons, List.length_nil]
  decide

theorem gen_loads (g : Nat) (hg : g < 65536) : ∃ db, syncBytes Db.empty (message [(genName, genRec g)]) = .ok db ∧
    Contents db [(genName, genRec g)] ∧ db.idx = fun _ => false := by
  have hl : ∀ y ∈ [(genName, genRec g)], Loadable [(genName, genRec g)] y := by
    intro y hy
    rw [List.mem_singleton.mp hy]
    refine ⟨?_, Or.inl genName_head⟩
    rw [← wantsUnset_iff]
    simp [wantsUnset, genRec, Ifc.leBytes]
  obtain ⟨m, em, hm⟩ := loaded_loop hl (by simp) _ [] ⟨⟨Db.empty, [], []⟩, false⟩ rfl ⟨by simp, fun _ _ => rfl, by simp, rfl⟩
  obtain ⟨db, e, hc⟩ := load_ok hl (by simp)
  refine ⟨db, ?_, hc, ?_⟩
  · unfold syncBytes
    rw [readMsg_message (l := [(genName, genRec g)]) (by simpa using gen_wf g hg) (gen_size g)]
    simp only [Parsed.bind, e]
  · unfold syncMain at e
    rw [em] at e
    cases e
    funext k
    simp only [Tx.done, hm.idx]
    split <;> rfl

theorem store_saved (g : Nat) (hg : g < 65536) : Saved (store g) (message [(genName, genRec g)]) := by
  refine ⟨⟨[genName], by simp, ?_, ?_, ?_⟩, ?_⟩
  · intro k
    by_cases h : k = genName <;> simp [store, Db.put, Db.empty, h]
  · intro k hk
    rw [List.mem_singleton.mp hk]
    refine ⟨Or.inl (by decide), fun r hr => ?_⟩
    simp only [store, Db.put, if_true, Option.some.injEq] at hr
    subst hr
    exact gen_wf g hg
  · have : (List.filterMap (savedRec (store g)) [genName]) = [(genName, genRec g)] := by
      simp [savedRec, store, Db.put, genRec, show has (flagsNoSync ||| flAlign) flPersist = true by decide]
    unfold saveFile
    rw [this, if_neg]
    simp [udevVector, show nsFromKey genName = .global by decide +kernel]
  · exact gen_size g

/-- C55 is not true of generation 65535: the number has 16 bits, the next start uses generation 0 -/
theorem C55_counterexample_wrap : Saved (store 65535) (message [(genName, genRec 65535)]) ∧ Holds (store 65535) 65535 ∧
    ∃ db, start (some (message [(genName, genRec 65535)])) = .ok (0, db) := by
  refine ⟨store_saved _ (by decide), store_holds _ (by decide), ?_⟩
  obtain ⟨db, e, hc, -⟩ := gen_loads 65535 (by decide)
  refine ⟨db.put genKey (some (genRec 0)), ?_⟩
  simp only [start, loadFile, e, Parsed.bind, setUpGen]
  rw [genKey_eq, hc.1 (genName, genRec 65535) (by simp)]
  rfl

/-- A file the daemon refuses to read (here one that says it has more than 64 MiB) is as good as none: the failure is not looked
    at and the generation is 1 again, as in the first life. -/
theorem C55_counterexample_refused (b : List UInt8) (h : readMsg b = .bad) : ∃ db, start (some b) = .ok (1, db) := by
  refine ⟨(Db.empty.put genKey (some (genRec 1))), ?_⟩
  simp only [start, loadFile, syncBytes, h, Parsed.bind]
  rfl

example : readMsg [0, 0, 0, 8] = .bad := by decide +kernel

/-- three lives: the first saves, the second is killed before it saves, the third saves; the next one has generation 3 -/
example : ∃ f, Lives [(1, true), (2, false), (2, true), (3, false)] f := by
  have life1 : ∃ f', (∃ b, f' = some b) ∧ ∃ db, Life none 1 db f' true ∧ f' = some (message [(genName, genRec 1)]) := by
    refine ⟨_, ⟨_, rfl⟩, _, .save (.start (db := store 1) ?_) (store_saved 1 (by decide)), rfl⟩
    unfold store
    rw [← genKey_eq]
    rfl
  obtain ⟨f1, -, db1, l1, rfl⟩ := life1
  obtain ⟨db2, e2, -⟩ := C55_start_partial _ _ 1 (store_saved 1 (by decide)) (store_holds 1 (by decide)) (by decide)
  have hdb2 : db2 = store 2 := by
    have : start (some (message [(genName, genRec 1)])) = .ok (2, db2) := e2
    obtain ⟨db, e, hc, hi⟩ := gen_loads 1 (by decide)
    simp only [start, loadFile, e, Parsed.bind, setUpGen] at this
    rw [genKey_eq, hc.1 (genName, genRec 1) (by simp)] at this
    have hx : (2, db.put genName (some (genRec 2))) = (2, db2) := by injection this
    cases hx
    simp only [store, Db.put, Db.empty, hi, Db.mk.injEq, and_true]
    funext k
    by_cases h : k = genName
    · simp [h]
    · simp [h, hc.2 k (by simpa using fun e => h e.symm)]
  subst hdb2
  obtain ⟨db3, e3, -⟩ := C55_start_partial _ _ 2 (store_saved 2 (by decide)) (store_holds 2 (by decide)) (by decide)
  exact ⟨_, .next (.next (.next (.next .first l1) (.start e2)) (.save (.start e2) (store_saved 2 (by decide)))) (.start e3)⟩

/-- the hypotheses of `C55_workers` are met: a module sets a record of its own and the worker exports it -/
example : ∃ db' o, calls true (store 7) [(txt "/type/m", .set {} ⟨.global, txt "K", some (txt "v"), flSync⟩)] = some db' ∧
    Entries db' [txt ":USR:G::::K"] ∧ exportLoop { db := db' } [txt ":USR:G::::K"] = some o ∧ o.recs.length = 1 := by
  refine ⟨_, _, rfl, ⟨by decide, ?_⟩, rfl, by decide +kernel⟩
  intro k
  have : ∀ k' : Str, k' = txt ":USR:G::::K" ↔ (if k' = txt ":USR:G::::K" then true else false) = true := by
    intro k'; split <;> simp_all
  rw [List.mem_singleton, this]
  rfl

end GenExample
end Sid.Props
