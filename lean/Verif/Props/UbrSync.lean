import Verif.Proof.UbrSync
import Verif.Props.UbrDelta
/-
C35 (set records: synchronisation merges concurrent workers), C36 (newest event wins in the main store) and C38 (only changed
records are exported, once).
-/
namespace Sid.Props
open Sid.Ubr Sid.Spec.Delta Sid.Spec.Sync
open Sid.Ifc (txt)

/-! ### C35 -/

/-- C35: a message with changes of set-valued records is taken; every set in the main store loses exactly the items the
    message says were removed and gets those it says were added, whatever else is in it.  Missing: messages with two records
    of items without the flag RS (see `C35_counterexample`). -/
theorem C35_merge_partial (main : Db) (msg : List (Str × Rec)) (s : KeySpec) (hs : s.extraOp = none) (hm : Msg main msg) :
    ∃ main', syncMain main msg = some main' ∧ (NotReplaced msg s → IsSet (main.recs (opKey s .set)) →
      IsSet (main'.recs (opKey s .set)) ∧
      ∀ x, x ∈ mem main' s ↔ (x ∈ mem main s ∨ Sends msg s .plus x) ∧ ¬ Sends msg s .minus x) :=
  syncMain_merge hs hm

/-- what an export sends of a set-valued record are the accumulated differences -/
theorem C35_sent (S : KeySpec → Prop) (db0 db : Db) (hb : Synced S db0) (hh : Hist S db0 db) (keys : List Str) (o : Out)
    (he : Entries db keys) (hx : exportLoop { db := db } keys = some o) (s : KeySpec) (hs : S s) (op : KvOp)
    (hop : op = .plus ∨ op = .minus) (x : Str) :
    Sends o.recs s op x ↔ x ∈ members (db.recs (opKey s op)) := by
  exact export_sends (hb.unmarked s hs) (hist_ok hb hh s hs) he hx hop x

/-- C35: a worker started with the main store's set, changed it (any updates of any sets) and exported; nobody else changed
    it: the main store then holds the worker's set. -/
theorem C35_converge_partial (S : KeySpec → Prop) (db0 db main : Db) (hb : Synced S db0) (hh : Hist S db0 db) (keys : List Str)
    (o : Out) (he : Entries db keys) (hx : exportLoop { db := db } keys = some o) (hm : Msg main o.recs) (s : KeySpec)
    (hs : S s) (hset : IsSet (main.recs (opKey s .set))) (hnr : NotReplaced o.recs s) (h0 : mem main s = mem db0 s) :
    ∃ main', syncMain main o.recs = some main' ∧ mem main' s = mem db s := by
  obtain ⟨main', e, h⟩ := C35_merge_partial main o.recs s (hb.unmarked s hs) hm
  obtain ⟨i, hi⟩ := h hnr hset
  refine ⟨main', e, Asc.ext (members_asc i) (members_asc (hist_ok hb hh s hs).set) fun x => ?_⟩
  change x ∈ mem main' s ↔ x ∈ mem db s
  obtain ⟨-, -, hp, hmi, -⟩ := C34_accumulated S db0 db hb hh s hs
  rw [hi x, C35_sent S db0 db hb hh keys o he hx s hs .plus (Or.inl rfl) x,
    C35_sent S db0 db hb hh keys o he hx s hs .minus (Or.inr rfl) x, hp x, hmi x, h0]
  by_cases h1 : x ∈ mem db s <;> by_cases h2 : x ∈ mem db0 s <;> simp [h1, h2]

/-- C35: two workers' messages that touch different items of a set give the same set in either order. -/
theorem C35_commute_partial (main : Db) (m1 m2 : List (Str × Rec)) (s : KeySpec) (hs : s.extraOp = none)
    (h1 : Msg main m1) (h2 : Msg main m2)
    (n12 : ∀ x ∈ m1, ∀ s op, DeltaRec x s op → NotReplaced m2 s) (n21 : ∀ x ∈ m2, ∀ s op, DeltaRec x s op → NotReplaced m1 s)
    (hset : IsSet (main.recs (opKey s .set))) (hr1 : NotReplaced m1 s) (hr2 : NotReplaced m2 s)
    (hdis : ∀ x op op', Sends m1 s op x → ¬ Sends m2 s op' x) :
    ∃ a b, syncAll main [m1, m2] = some a ∧ syncAll main [m2, m1] = some b ∧ mem a s = mem b s ∧
      ∀ x, x ∈ mem a s ↔ (x ∈ mem main s ∨ Sends m1 s .plus x ∨ Sends m2 s .plus x) ∧
        ¬ Sends m1 s .minus x ∧ ¬ Sends m2 s .minus x := by
  have main2 : ∀ (p q : List (Str × Rec)), Msg main p → Msg main q →
      (∀ x ∈ q, ∀ s op, DeltaRec x s op → NotReplaced p s) → NotReplaced p s → NotReplaced q s →
      (∀ x op op', Sends p s op x → ¬ Sends q s op' x) →
      ∃ a, syncAll main [p, q] = some a ∧ IsSet (a.recs (opKey s .set)) ∧
        ∀ x, x ∈ mem a s ↔ (x ∈ mem main s ∨ Sends p s .plus x ∨ Sends q s .plus x) ∧
        ¬ Sends p s .minus x ∧ ¬ Sends q s .minus x := by
    intro p q hp hq hn np nq hd
    obtain ⟨c, ec, hc⟩ := syncMain_merge hs hp
    obtain ⟨ic, mc⟩ := hc np hset
    have hq' : Msg c q := by
      refine ⟨hq.sorted, ?_, hq.reserved⟩
      intro x hx
      rcases hq.kinds x hx with ⟨s', op, hd', hset'⟩ | hp'
      · obtain ⟨c', ec', hc'⟩ := syncMain_merge hd'.unmarked hp
        rw [ec] at ec'
        cases ec'
        exact Or.inl ⟨s', op, hd', (hc' (hn x hx s' op hd') hset').1⟩
      · exact Or.inr hp'
    obtain ⟨a, ea, ha⟩ := syncMain_merge hs hq'
    obtain ⟨ia, ma⟩ := ha nq ic
    refine ⟨a, by simp [syncAll, ec, ea], ia, fun x => ?_⟩
    rw [ma x, mc x]
    have d1 := hd x .minus .plus
    have d2 := hd x .plus .minus
    constructor
    · rintro ⟨⟨h1, h2⟩ | h1, h3⟩
      · exact ⟨by rcases h1 with h | h <;> simp [h], h2, h3⟩
      · exact ⟨by simp [h1], fun h => d1 h h1, h3⟩
    · rintro ⟨h1, h2, h3⟩
      refine ⟨?_, h3⟩
      rcases h1 with h | h | h
      · exact Or.inl ⟨Or.inl h, h2⟩
      · exact Or.inl ⟨Or.inr h, h2⟩
      · exact Or.inr h
  obtain ⟨a, ea, ia, ma⟩ := main2 m1 m2 h1 h2 n21 hr1 hr2 hdis
  obtain ⟨b, eb, ib, mb⟩ := main2 m2 m1 h2 h1 n12 hr2 hr1 (fun x op op' h h' => hdis x op' op h' h)
  refine ⟨a, b, ea, eb, Asc.ext (members_asc ia) (members_asc ib) fun x => ?_, ma⟩
  change x ∈ mem a s ↔ x ∈ mem b s
  rw [ma x, mb x]
  grind

/-- C36: a record of an event that is not older, from a module that may write it, unsets the record in the main store.  With the
    flag for archives the record is kept as the archive, otherwise the archive goes as well (if the module may write it and it
    is not newer). -/
theorem C36_unset (s : KeySpec) (hs : s.extraOp = none) (db : Db) (o r : Rec) (ho : db.recs (opKey s .set) = some o)
    (hw : wantsUnset r = true) (hset : recOp (opKey s .set) r = .set) (hseq : o.seqnum ≤ r.seqnum)
    (hwr : 0 ≤ wrAllowed (some o) r.owner) :
    ∃ db', syncMain db [(opKey s .set, r)] = some db' ∧ db'.recs (opKey s .set) = none ∧
      (has r.flags flAr = true → db'.recs (archKey (opKey s .set)) = some o) ∧
      (has r.flags flAr = false →
        (∀ a, db.recs (archKey (opKey s .set)) = some a → a.seqnum ≤ r.seqnum ∧ 0 ≤ wrAllowed (some a) r.owner) →
        db'.recs (archKey (opKey s .set)) = none) := by
  have hok : mainUnsetOk (db.recs (opKey s .set)) r.seqnum r.owner = true := by
    rw [ho]
    simp [mainUnsetOk, hseq, Int.not_lt.mpr hwr]
  have hne : opKey s .set ≠ archKey (opKey s .set) := ne_archKey (opKey_head s hs) _
  have e : syncMain db [(opKey s .set, r)] = some (importUnset ⟨db, [], []⟩ (opKey s .set) r).done := by
    simp [syncMain, importLoop, importRec, hset, mainKey, importAs, hw]
  refine ⟨_, e, ?_, ?_, ?_⟩
  · unfold importUnset
    split
    · unfold mainUnsetAr
      simp [hok, Tx.done]
    · unfold mainUnset
      simp only [hok, if_true]
      split <;> simp [Tx.done]
  · intro h
    unfold importUnset
    rw [if_pos h]
    unfold mainUnsetAr
    simp only [hok, if_true]
    simp [Tx.done, hne.symm, ho, Db.put]
  · intro h ha
    have hok2 : mainUnsetOk (db.recs (archKey (opKey s .set))) r.seqnum r.owner = true := by
      cases hr : db.recs (archKey (opKey s .set)) with
      | none => rfl
      | some a =>
        obtain ⟨h1, h2⟩ := ha a hr
        simp [mainUnsetOk, h1, Int.not_lt.mpr h2]
    unfold importUnset
    rw [if_neg (by simp [h])]
    unfold mainUnset
    simp [hok, hok2, Tx.done]

namespace SyncExample
open DeltaExample

def g (n : String) : KeySpec := { ns := .module, nsPart := some (txt "m"), ident := some (txt n), core := some (txt "M") }
def destroyed (n : String) : Str × Rec := (opKey (g n) .minus, ⟨5, flPersist, 1, core, .vector [txt "d"]⟩)
def two : Db := ⟨fun k => if k = opKey (g "a") .set ∨ k = opKey (g "b") .set then some (hdr.vec [txt "d"]) else none, fun _ => false⟩

/-- C35 is not true of all messages: a worker that destroys two groups which are not empty sends two records of removed
    items without the flag RS.  The first empties and so unsets its group; the second is then read through a pointer that no
    longer is one to a description of a change. -/
theorem C35_counterexample :
    (∀ x ∈ [destroyed "a", destroyed "b"], ∃ s, DeltaRec x s .minus ∧ IsSet (two.recs (opKey s .set))) ∧
    syncMain two [destroyed "a", destroyed "b"] = none := by
  refine ⟨?_, ?_⟩
  · intro x hx
    simp only [List.mem_cons, List.not_mem_nil, or_false] at hx
    rcases hx with rfl | rfl
    · exact ⟨g "a", ⟨Or.inr rfl, rfl, rfl, rfl, [txt "d"], rfl, by decide, by decide⟩,
        by rw [(by decide +kernel : two.recs (opKey (g "a") .set) = some (hdr.vec [txt "d"]))]; exact isSet_vec _ (by decide)⟩
    · exact ⟨g "b", ⟨Or.inr rfl, rfl, rfl, rfl, [txt "d"], rfl, by decide, by decide⟩,
        by rw [(by decide +kernel : two.recs (opKey (g "b") .set) = some (hdr.vec [txt "d"]))]; exact isSet_vec _ (by decide)⟩
  · have : (syncMain two [destroyed "a", destroyed "b"]).isNone = true := by decide +kernel
    simpa using this

/-- messages that meet the hypotheses: two workers add a device each to a group -/
def adds (d : String) : List (Str × Rec) := [(opKey (g "a") .plus, ⟨5, flagsNoSync, 1, core, .vector [txt d]⟩)]

theorem adds_msg (d : String) : Msg two (adds d) := by
  refine ⟨List.pairwise_singleton _ _, ?_, ?_⟩
  · intro x hx
    simp only [adds, List.mem_singleton] at hx
    subst hx
    exact Or.inl ⟨g "a", .plus, ⟨Or.inl rfl, rfl, rfl, rfl, [txt d], rfl, List.pairwise_singleton _ _, by simp⟩,
      by rw [(by decide +kernel : two.recs (opKey (g "a") .set) = some (hdr.vec [txt "d"]))]; exact isSet_vec _ (by decide)⟩
  · intro pre x post e _ _ y hy
    have : post = [] := by
      have := congrArg List.length e
      simp [adds] at this
      exact List.length_eq_zero_iff.mp (by omega)
    subst this
    cases hy

example : ∃ a b, syncAll two [adds "x", adds "y"] = some a ∧ syncAll two [adds "y", adds "x"] = some b ∧
    mem a (g "a") = mem b (g "a") ∧ txt "d" ∈ mem a (g "a") ∧ txt "x" ∈ mem a (g "a") ∧ txt "y" ∈ mem a (g "a") := by
  have hn : ∀ d, ∀ x ∈ adds d, x.1 = opKey (g "a") .plus := by
    intro d x hx
    simp only [adds, List.mem_singleton] at hx
    rw [hx]
  have hnr : ∀ d s, s.extraOp = none → NotReplaced (adds d) s := by
    intro d s hs x hx e
    have h1 := opKey_head s hs
    rw [← e, hn d x hx] at h1
    exact absurd h1 (by decide +kernel)
  have hse : ∀ d op x, Sends (adds d) (g "a") op x → op = .plus ∧ x = txt d := by
    rintro d op x ⟨r, hr, hx⟩
    simp only [adds, List.mem_singleton, Prod.mk.injEq] at hr
    obtain ⟨h1, rfl⟩ := hr
    refine ⟨?_, by simpa [members] using hx⟩
    revert h1
    cases op <;> decide +kernel
  have hs : ∀ d, Sends (adds d) (g "a") .plus (txt d) := fun d =>
    ⟨⟨5, flagsNoSync, 1, core, .vector [txt d]⟩, by simp [adds], by simp [members]⟩
  obtain ⟨a, b, ea, eb, hab, hm⟩ := C35_commute_partial two (adds "x") (adds "y") (g "a") rfl (adds_msg _) (adds_msg _)
    (fun _ _ _ _ h => hnr _ _ h.unmarked) (fun _ _ _ _ h => hnr _ _ h.unmarked)
    (by rw [(by decide +kernel : two.recs (opKey (g "a") .set) = some (hdr.vec [txt "d"]))]; exact isSet_vec _ (by decide))
    (hnr _ _ rfl) (hnr _ _ rfl)
    (fun x op op' h h' => by
      have h1 := (hse _ _ _ h).2
      have h2 := (hse _ _ _ h').2
      rw [h1] at h2
      exact absurd h2 (by decide))
  have hno : ∀ d x, ¬ Sends (adds d) (g "a") .minus x := fun d x h => by cases (hse _ _ _ h).1
  refine ⟨a, b, ea, eb, hab, ?_, ?_, ?_⟩
  · exact (hm _).mpr ⟨Or.inl (by decide +kernel), hno _ _, hno _ _⟩
  · exact (hm _).mpr ⟨Or.inr (Or.inl (hs _)), hno _ _, hno _ _⟩
  · exact (hm _).mpr ⟨Or.inr (Or.inr (hs _)), hno _ _, hno _ _⟩

end SyncExample

/-! ### C36 -/

/-- C36: writes of a record by its module, in any messages and in any order: the main store ends up with the one with the
    highest sequence number (of those with the same the last).  Missing: records that unset the key (see
    `C36_counterexample`), records of other owners (C30 decides about those). -/
theorem C36_newest_partial (s : KeySpec) (hs : s.extraOp = none) (owner : Str) (msgs : List (List (Str × Rec))) (db db' : Db)
    (hsets : ∀ x ∈ msgs.flatten, x.1 = opKey s .set → wantsUnset x.2 = false)
    (hplain : ∀ x ∈ msgs.flatten, x.1.drop 1 ≠ opKey s .set)
    (howner : ∀ r ∈ (db.recs (opKey s .set)).toList ++ arrived (opKey s .set) msgs, r.owner = owner)
    (hseq : ∀ r ∈ arrived (opKey s .set) msgs, r.seqnum ≠ 0)
    (e : syncAll db msgs = some db') :
    match db'.recs (opKey s .set) with
    | some r => Newest ((db.recs (opKey s .set)).toList ++ arrived (opKey s .set) msgs) r
    | none => (db.recs (opKey s .set)).toList ++ arrived (opKey s .set) msgs = [] := by
  have hK := opKey_head s hs
  rw [syncAll_sets hK msgs hsets hplain e]
  generalize arrived (opKey s .set) msgs = l at *
  cases hr : db.recs (opKey s .set) with
  | some r =>
    rw [hr] at howner
    obtain ⟨r', e', hn⟩ := foldl_accept_newest owner l [] r [] (howner r (by simp))
      (fun x hx => ⟨howner x (by simp [hx]), hseq x hx⟩) (by simp) (by simp)
    rw [e']
    simpa using hn
  | none =>
    cases l with
    | nil => rfl
    | cons x l =>
      have hx : accept none x = some x := by simp [accept, mainSetOk]
      rw [List.foldl_cons, hx]
      rw [hr] at howner
      obtain ⟨r', e', hn⟩ := foldl_accept_newest owner l [] x [] (howner x (by simp))
        (fun y hy => ⟨howner y (by simp [hy]), hseq y (by simp [hy])⟩) (by simp) (by simp)
      rw [e']
      simpa using hn

/-- C36: if all sequence numbers differ the order of arrival does not matter. -/
theorem C36_any_order_partial (s : KeySpec) (hs : s.extraOp = none) (owner : Str) (msgs msgs' : List (List (Str × Rec)))
    (db db1 db2 : Db) (hsets : ∀ x ∈ msgs.flatten, x.1 = opKey s .set → wantsUnset x.2 = false)
    (hplain : ∀ x ∈ msgs.flatten, x.1.drop 1 ≠ opKey s .set) (hperm : ∀ x, x ∈ msgs'.flatten ↔ x ∈ msgs.flatten)
    (howner : ∀ r ∈ (db.recs (opKey s .set)).toList ++ arrived (opKey s .set) msgs, r.owner = owner)
    (hseq : ∀ r ∈ arrived (opKey s .set) msgs, r.seqnum ≠ 0)
    (hdist : (((db.recs (opKey s .set)).toList ++ arrived (opKey s .set) msgs).map fun r => r.seqnum).Nodup)
    (e1 : syncAll db msgs = some db1) (e2 : syncAll db msgs' = some db2) :
    db1.recs (opKey s .set) = db2.recs (opKey s .set) := by
  have harr : ∀ r, r ∈ arrived (opKey s .set) msgs' ↔ r ∈ arrived (opKey s .set) msgs := by
    intro r
    simp only [arrived, List.mem_map, List.mem_filter, hperm]
  have n1 := C36_newest_partial s hs owner msgs db db1 hsets hplain howner hseq e1
  have n2 := C36_newest_partial s hs owner msgs' db db2 (fun x hx => hsets x ((hperm x).mp hx))
    (fun x hx => hplain x ((hperm x).mp hx)) (fun r hr => howner r (by
      rcases List.mem_append.mp hr with h | h
      · simp only [List.mem_append]; exact Or.inl h
      · simp only [List.mem_append]; exact Or.inr ((harr r).mp h)))
    (fun r hr => hseq r ((harr r).mp hr)) e2
  have hmem : ∀ r, r ∈ (db.recs (opKey s .set)).toList ++ arrived (opKey s .set) msgs' ↔
      r ∈ (db.recs (opKey s .set)).toList ++ arrived (opKey s .set) msgs := by
    intro r; simp only [List.mem_append, harr]
  cases r1 : db1.recs (opKey s .set) with
  | none =>
    rw [r1] at n1
    dsimp only at n1
    cases r2 : db2.recs (opKey s .set) with
    | none => rfl
    | some b =>
      rw [r2] at n2
      have := (hmem b).mp (newest_max n2).1
      rw [n1] at this
      cases this
  | some a =>
    rw [r1] at n1
    obtain ⟨a1, a2⟩ := newest_max n1
    cases r2 : db2.recs (opKey s .set) with
    | none =>
      rw [r2] at n2
      dsimp only at n2
      have := (hmem a).mpr a1
      rw [n2] at this
      cases this
    | some b =>
      rw [r2] at n2
      obtain ⟨b1, b2⟩ := newest_max n2
      have h1 := b2 a ((hmem a).mpr a1)
      have h2 := a2 b ((hmem b).mp b1)
      rw [eq_of_seqnum hdist a1 ((hmem b).mp b1) (Nat.le_antisymm h1 h2)]

/-- C36: whoever writes, the sequence number of the record in the main store never gets smaller. -/
theorem C36_never_older (s : KeySpec) (hs : s.extraOp = none) (msgs : List (List (Str × Rec))) (db db' : Db) (r : Rec)
    (hsets : ∀ x ∈ msgs.flatten, x.1 = opKey s .set → wantsUnset x.2 = false)
    (hplain : ∀ x ∈ msgs.flatten, x.1.drop 1 ≠ opKey s .set)
    (hseq : ∀ r ∈ arrived (opKey s .set) msgs, r.seqnum ≠ 0)
    (hr : db.recs (opKey s .set) = some r) (e : syncAll db msgs = some db') :
    ∃ r', db'.recs (opKey s .set) = some r' ∧ r.seqnum ≤ r'.seqnum ∧ (r' = r ∨ r' ∈ arrived (opKey s .set) msgs) := by
  rw [syncAll_sets (opKey_head s hs) msgs hsets hplain e, hr]
  exact foldl_accept_never_older _ r hseq

/-- C36: records with an older sequence number, whether they set the key or unset it, change nothing. -/
theorem C36_old_ignored (s : KeySpec) (hs : s.extraOp = none) (msgs : List (List (Str × Rec))) (db db' : Db) (r : Rec)
    (hplain : ∀ x ∈ msgs.flatten, x.1.drop 1 ≠ opKey s .set)
    (hseq : ∀ x ∈ msgs.flatten, x.1 = opKey s .set → x.2.seqnum ≠ 0 ∧ x.2.seqnum < r.seqnum)
    (hr : db.recs (opKey s .set) = some r) (e : syncAll db msgs = some db') : db'.recs (opKey s .set) = some r :=
  syncAll_old (opKey_head s hs) msgs hr hseq hplain e

namespace SyncExample
open DeltaExample

def prop : KeySpec := { ns := .device, dom := some (txt "USR"), nsPart := some (txt "d"), core := some (txt "K") }
def wr (n : Nat) (d : String) : Str × Rec := (opKey prop .set, ⟨n, flPersist, 1, txt "/type/m", .scalar (txt d)⟩)

/-- C36 is not true with unsets: the event 7 unsets the record of event 5; event 3, which comes last, then is taken. -/
theorem C36_counterexample :
    ∃ db1 db2, syncAll Db.empty [[wr 5 "a"], [wr 7 ""]] = some db1 ∧ db1.recs (opKey prop .set) = none ∧
      syncAll Db.empty [[wr 5 "a"], [wr 7 ""], [wr 3 "b"]] = some db2 ∧
      (db2.recs (opKey prop .set)).map (fun r => r.seqnum) = some 3 :=
  ⟨_, _, rfl, by decide +kernel, rfl, by decide +kernel⟩

/-- the hypotheses of `C36_unset` can be met -/
example : ∃ (db : Db) (o : Rec), db.recs (opKey prop .set) = some o ∧ wantsUnset (wr 7 "").2 = true ∧
    recOp (opKey prop .set) (wr 7 "").2 = .set ∧ o.seqnum ≤ (wr 7 "").2.seqnum ∧ 0 ≤ wrAllowed (some o) (wr 7 "").2.owner := by
  refine ⟨Db.empty.put (opKey prop .set) (some (wr 5 "a").2), (wr 5 "a").2, by simp [Db.put], ?_, ?_, ?_, ?_⟩ <;> decide +kernel

/-- the hypotheses of C36 can be met: three events out of order -/
example : ∃ db', syncAll Db.empty [[wr 5 "a"], [wr 7 "c"], [wr 3 "b"]] = some db' ∧
    (∀ x ∈ ([[wr 5 "a"], [wr 7 "c"], [wr 3 "b"]] : List (List (Str × Rec))).flatten,
      (x.1 = opKey prop .set → wantsUnset x.2 = false) ∧ x.1.drop 1 ≠ opKey prop .set) ∧
    (arrived (opKey prop .set) [[wr 5 "a"], [wr 7 "c"], [wr 3 "b"]]).map (fun r => r.seqnum) = [5, 7, 3] ∧
    (db'.recs (opKey prop .set)).map (fun r => r.seqnum) = some 7 :=
  ⟨_, rfl, by decide +kernel, by decide +kernel, by decide +kernel⟩

end SyncExample

/-! ### C38 -/

/-- C38: at any point of what a worker does, an export hands exactly the records marked to be synchronised (properties for
    udev apart, they go to the client), each once and with the mark cleared.  This is so for every record that was properly
    indexed when the worker started.  Missing: reservations made by the main process (`C38_counterexample`); set-valued
    records themselves (what is exported of them are the differences: C35); archives. -/
theorem C38_export_partial (S : KeySpec → Prop) (db0 db : Db) (hb : Synced S db0) (hw : Work S db0 db) (keys : List Str) (o : Out)
    (he : Entries db keys) (hx : exportLoop { db := db } keys = some o) :
    (o.recs.map fun x => x.1).Nodup ∧
    ∀ k, Indexed db0 k → k.head? ≠ some 126 → (∀ s, S s → k ≠ opKey s .set) → ∀ r',
      ((k, r') ∈ o.recs ↔ ∃ r, db.recs k = some r ∧ has r.flags flSync = true ∧ nsFromKey k ≠ .udev ∧ r' = r.clear) := by
  obtain ⟨b1, -⟩ := exportLoop_ok keys he.1 hx
  dsimp only at b1
  rw [List.nil_append] at b1
  have hfst : ∀ {k : Str} {x : Str × Rec}, sent db k = some x → x.1 = k := by
    intro k x h
    simp only [sent] at h
    cases hr : db.recs k with
    | none => rw [hr] at h; simp at h
    | some r =>
      rw [hr] at h
      simp only [Option.bind_some] at h
      split at h
      · cases h; rfl
      · cases h
  refine ⟨?_, ?_⟩
  · rw [b1]
    have : (keys.filterMap (sent db)).map (fun x => x.1) = keys.filter fun k => (sent db k).isSome := by
      generalize keys = l
      induction l with
      | nil => rfl
      | cons k l ih =>
        rw [List.filterMap_cons, List.filter_cons]
        cases hk : sent db k with
        | none => simp [ih]
        | some x => simp [ih, hfst hk]
    rw [this]
    exact he.1.filter _
  · intro k h0 hk hS r'
    have hi : Indexed db k := work_indexed hb hw h0 hk hS
    rw [b1, List.mem_filterMap]
    constructor
    · rintro ⟨k', -, h⟩
      have := hfst h
      dsimp only at this
      subst this
      simp only [sent] at h
      cases hr : db.recs k with
      | none => rw [hr] at h; simp at h
      | some r =>
        rw [hr] at h
        simp only [Option.bind_some] at h
        split at h
        · next hc =>
          cases h
          exact ⟨r, rfl, hc.1, hc.2, rfl⟩
        · cases h
    · rintro ⟨r, hr, hf, hu, rfl⟩
      refine ⟨k, (he.2 k).mpr ?_, ?_⟩
      · rw [hi, hr]; exact hf
      · simp [sent, hr, hf, hu]

/-- C38: what was exported once is not exported again unless the record changes. -/
theorem C38_once_partial (S : KeySpec → Prop) (db0 db db2 : Db) (hb : Synced S db0) (hw : Work S db0 db) (keys : List Str) (o : Out)
    (he : Entries db keys) (hx : exportLoop { db := db } keys = some o) (hw2 : Work S (endStage o) db2)
    (keys2 : List Str) (o2 : Out) (he2 : Entries db2 keys2) (hx2 : exportLoop { db := db2 } keys2 = some o2)
    (k : Str) (h0 : Indexed db0 k) (hk : k.head? ≠ some 126) (hS : ∀ s, S s → k ≠ opKey s .set)
    (hsame : db2.recs k = (endStage o).recs k) : ∀ r, (k, r) ∉ o2.recs := by
  intro r hr
  have hcat : Work S db0 db2 := by
    have hw1 : Work S db0 (endStage o) := .export hw he hx
    clear hsame he2 hx2
    induction hw2 with
    | start => exact hw1
    | call _ h1 h2 ih => exact .call ih h1 h2
    | update _ h1 h2 ih => exact .update ih h1 h2
    | «export» _ h1 h2 ih => exact .export ih h1 h2
  obtain ⟨r0, e0, hf, -⟩ := ((C38_export_partial S db0 db2 hb hcat keys2 o2 he2 hx2).2 k h0 hk hS r).mp hr
  have hi : Indexed db k := work_indexed hb hw h0 hk hS
  obtain ⟨r1, -⟩ := endStage_ok he hx
  have : flagged ((endStage o).recs k) = false := by
    rw [r1, hi]
    cases h : flagged (db.recs k)
    · simpa using h
    · simp only [and_self, if_true]
      split
      · rfl
      · exact flagged_clear _
  rw [← hsame, e0] at this
  have h' : has r0.flags flSync = false := this
  rw [hf] at h'
  cases h'

/-- C38: the export does not fail, unless a property for udev is set-valued. -/
theorem C38_succeeds (db : Db) (keys : List Str) (he : Entries db keys)
    (hu : ∀ k r l, db.recs k = some r → nsFromKey k = .udev → r.val ≠ .vector l) :
    ∃ o, exportLoop { db := db } keys = some o :=
  exportLoop_some keys he.1 fun k _ r l hr _ hn => hu k r l hr hn

namespace SyncExample
open DeltaExample

def ctx : Ctx := { gennum := 1, seqnum := 9, num := some (txt "8_0"), uid := some (txt "d") }
def m : Str := txt "/type/m"

/-- the main process's store after a module reserved a name, and what a worker makes of it by reserving it again for others
    to write -/
def mainRes : Option Db := (kvReserve Db.empty ctx false m .udev (txt "N") flFrgRd).map fun r => r.2
def workRes : Option Db := mainRes.bind fun db => (kvReserve db ctx true m .udev (txt "N") flFrgWr).map fun r => r.2

/-- C38 is not true of a name reserved by the main process and changed in a worker: the record is marked to be synchronised,
    but not in the index. -/
theorem C38_counterexample :
    ∃ db0 db, mainRes = some db0 ∧ workRes = some db ∧
      (db0.recs (Kvs.canon (composeKey (rsvSpec (domOf .udev) .udev (txt "N"))))).map (fun r => has r.flags flFrgWr) = some false ∧
      (db.recs (Kvs.canon (composeKey (rsvSpec (domOf .udev) .udev (txt "N"))))).map
        (fun r => (has r.flags flFrgWr, has r.flags flSync)) = some (true, true) ∧
      Entries db [] ∧ exportLoop { db := db } [] = some { db := db } := by
  refine ⟨_, _, rfl, rfl, by decide +kernel, by decide +kernel, ⟨List.nodup_nil, ?_⟩, rfl⟩
  intro k
  simp only [List.not_mem_nil, false_iff]
  intro h
  cases h

/-- a worker that set a property, and its export -/
def setProp (d : String) : Call := .set ctx ⟨.device, txt "K", some (txt d ++ [0]), flSyncP⟩
def propKey : Str := (composeKey (setSpec ctx m (domOf .device) .device (txt "K"))).drop 1

example : ∃ db o, call true Db.empty m (setProp "x") = some (0, db) ∧ Work S Db.empty db ∧ Entries db [propKey] ∧
    exportLoop { db := db } [propKey] = some o ∧ o.recs.map (fun x => (x.1, x.2.val)) = [(propKey, .scalar (txt "x" ++ [0]))] := by
  have e : ∃ db, call true Db.empty m (setProp "x") = some (0, db) ∧
      db = writeRec Db.empty propKey ⟨9, flSyncP, 1, m, .scalar (txt "x" ++ [0])⟩ := ⟨_, rfl, rfl⟩
  obtain ⟨db, e, hdb⟩ := e
  have hidx : ∀ k, db.idx k = decide (k = propKey) := by
    intro k
    subst hdb
    rw [writeRec, manageIndex_idx]
    have h1 : flagged (Db.empty.recs propKey) = false := rfl
    have h2 : flagged (some (⟨9, flSyncP, 1, m, .scalar (txt "x" ++ [0])⟩ : Rec)) = true := by decide
    rw [h1, h2]
    by_cases h : k = propKey <;> simp [h, Db.empty, Db.put]
  have hoth : ∀ k, k ≠ propKey → db.recs k = none := by
    intro k hk
    subst hdb
    simp [writeRec, manageIndex_recs, Db.put, hk, Db.empty]
  have hent : Entries db [propKey] := ⟨by simp, fun k => by rw [hidx]; simp⟩
  have ho : ∃ o, exportLoop { db := db } [propKey] = some o ∧
      o.recs.map (fun x => (x.1, x.2.val)) = [(propKey, .scalar (txt "x" ++ [0]))] := by
    subst hdb
    exact ⟨_, rfl, by decide +kernel⟩
  obtain ⟨o, ho1, ho2⟩ := ho
  refine ⟨db, o, e, .call .start e ?_, hent, ho1, ho2⟩
  · intro s hs op
    have hne : opKey s op ≠ propKey := by
      simp only [S, List.mem_cons, List.not_mem_nil, or_false] at hs
      rcases hs with rfl | rfl | rfl <;> cases op <;> decide +kernel
    rw [hoth _ hne, hidx]
    simp [hne, Db.empty]

end SyncExample

end Sid.Props
