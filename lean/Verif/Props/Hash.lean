import Verif.Proof.Hash
/-
C12, C13, C56: the hash table.
-/
namespace Sid.Props
open Sid.Hash Sid.Spec

/-! ### relation between a table and the map of its user -/

/-- each key has the one entry the map says -/
def HashRep (t : Table) (m : HashMap.Map) : Prop :=
  WF t ∧ ∀ k, bag t k = ((m k).map fun v => (⟨k, v.1, v.2⟩ : Node)).toList

theorem HashRep.lookup {t m} (R : HashRep t m) (k) : lookup t k = HashMap.get m k := by
  rw [lookup_eq, R.2 k]
  simp only [HashMap.get]
  cases m k <;> rfl

theorem HashRep.step {t m} (R : HashRep t m) (c : HashMap.Call) (hs : HashMap.SafeAdd m c) :
    HashRep (Hash.step t c.toOp) (HashMap.step m c) := by
  obtain ⟨w, hb⟩ := R
  cases c with
  | add k v =>
    have hc := add_change w k v.1 v.2
    refine ⟨hc.wf, fun k' => ?_⟩
    by_cases e : k' = k
    · subst e
      simp only [HashMap.Call.toOp, Hash.step, HashMap.step, HashMap.put, if_true]
      rw [hc.here, hb k']
      simp only [HashMap.SafeAdd] at hs
      cases hm : m k' with
      | none => rfl
      | some u =>
        simp [hm, HashMap.get] at hs
        simp [bagAdd, hs]
    · simp only [HashMap.Call.toOp, Hash.step, HashMap.step, HashMap.put, if_neg e]
      rw [hc.there k' e, hb k']
  | update k f =>
    have hc := update_change (fn := fun old => (f old, [])) w (k := k) (Or.inr rfl)
    have hold : oldValue t k = HashMap.get m k := HashRep.lookup ⟨w, hb⟩ k
    rw [hold] at hc
    have hst : Hash.step t (HashMap.Call.toOp (.update k f)) = update t k (fun old => (f old, [])) := rfl
    rw [hst]
    refine ⟨hc.wf, fun k' => ?_⟩
    have hbk : bag (addMany t []) k = ((m k).map fun v => (⟨k, v.1, v.2⟩ : Node)).toList := hb k
    have hh := hc.here
    rw [hbk] at hh
    by_cases e : k' = k
    · subst e
      rw [hh]
      simp only [HashMap.step]
      rcases hf : f (HashMap.get m k') with ⟨d, l⟩ | _ | _
      · cases hm : m k' <;> simp [HashMap.put, bagAct]
      · cases hm : m k' <;> simp [HashMap.erase, bagAct]
      · rfl
    · rw [hc.there k' e]
      have : bag (addMany t []) k' = ((m k').map fun v => (⟨k', v.1, v.2⟩ : Node)).toList := hb k'
      rw [this]
      simp only [HashMap.step]
      rcases hf : f (HashMap.get m k) with ⟨d, l⟩ | _ | _
      · simp [HashMap.put, e]
      · simp [HashMap.erase, e]
      · rfl
  | del k =>
    have hc := del_change w k
    refine ⟨hc.wf, fun k' => ?_⟩
    by_cases e : k' = k
    · subst e
      simp only [HashMap.Call.toOp, Hash.step, HashMap.step, HashMap.erase, if_true]
      rw [hc.here, hb k']
      cases m k' <;> rfl
    · simp only [HashMap.Call.toOp, Hash.step, HashMap.step, HashMap.erase, if_neg e]
      rw [hc.there k' e, hb k']
  | wipe =>
    obtain ⟨h1, _, h3⟩ := wipe_spec w
    exact ⟨h1, fun k => h3 k⟩

theorem HashRep.run {t m} (R : HashRep t m) (cs : List HashMap.Call) (hs : HashMap.Safe m cs) :
    HashRep (Hash.run t (cs.map HashMap.Call.toOp)) (cs.foldl HashMap.step m) := by
  induction cs generalizing t m with
  | nil => exact R
  | cons c cs ih => exact ih (R.step c hs.1) hs.2

theorem HashRep.keys {t m} (R : HashRep t m) :
    HashMap.Lists m ((iter t).map fun n => (n.key, n.data, n.len)) := by
  obtain ⟨w, hb⟩ := R
  have hone : ∀ k, (sel k (iter t)).length ≤ 1 := by
    intro k; rw [bag_iter w, hb k]; cases m k <;> simp
  refine ⟨?_, ?_⟩
  · rw [List.map_map, List.nodup_iff_count]
    intro k
    have : List.count k ((iter t).map ((fun x : HashMap.Key × HashMap.Val => x.1) ∘ fun n : Node => (n.key, n.data, n.len)))
        = (sel k (iter t)).length := by
      rw [List.count, List.countP_map, List.countP_eq_length_filter]; rfl
    rw [this]; exact hone k
  · intro k v
    simp only [List.mem_map]
    have hmem : ∀ n, (n ∈ iter t ∧ n.key = k) ↔ n ∈ bag t k := by
      intro n; rw [← bag_iter w]; simp [sel]
    constructor
    · rintro ⟨n, hn, e⟩
      simp only [Prod.mk.injEq] at e
      obtain ⟨e1, e2⟩ := e
      have := (hmem n).1 ⟨hn, e1⟩
      rw [hb k] at this
      simp only [Option.mem_toList, Option.map_eq_some_iff] at this
      obtain ⟨u, hu, rfl⟩ := this
      rw [hu, ← e2]
    · intro hm
      have : (⟨k, v.1, v.2⟩ : Node) ∈ bag t k := by rw [hb k, hm]; simp
      exact ⟨_, ((hmem _).2 this).1, rfl⟩

theorem Lists.hasSize {m l} (h : HashMap.Lists m l) : HashMap.HasSize m l.length := by
  refine ⟨l.map (·.1), h.1, by simp, fun k => ?_⟩
  constructor
  · intro hk
    obtain ⟨⟨k', v⟩, hx, rfl⟩ := List.mem_map.1 hk
    rw [(h.2 k' v).1 hx]; rfl
  · intro hk
    obtain ⟨v, hv⟩ := Option.isSome_iff_exists.1 hk
    exact List.mem_map.2 ⟨(k, v), (h.2 k v).2 hv, rfl⟩

/-- creation leaves no entry -/
theorem HashRep.create {hint t} (h : Hash.create hint = some t) : HashRep t HashMap.empty := by
  obtain ⟨w, hb⟩ := create_wf h
  exact ⟨w, fun k => by simpa [HashMap.empty] using hb k⟩

/-! ### C12 -/

/-- C12 (partial).  For every size hint up to 2^31 and every history of add, update (with any callback), delete and wipe
    calls whose adds are of new keys or keep the stored length: a lookup of any key returns the data and length most
    recently stored for it (NULL, 0 if absent), and the entry count is the number of distinct keys present.
    Missing: an add over an existing key with another length (see `C12_add_keeps_old_length_counterexample`), a callback that adds
    entries to the same table (see `C12_nested_add_counterexample`), size hints above 2^31 (see `C12_huge_hint_never_returns`). -/
theorem C12_hash_is_finite_map_partial (hint : Nat) (hh : hint ≤ 2 ^ 31) (calls : List HashMap.Call)
    (hs : HashMap.Safe HashMap.empty calls) :
    ∃ t0, Hash.create hint = some t0 ∧
      (∀ k, Hash.lookup (Hash.run t0 (calls.map HashMap.Call.toOp)) k = HashMap.get (HashMap.after calls) k) ∧
      HashMap.HasSize (HashMap.after calls) (Hash.entryCount (Hash.run t0 (calls.map HashMap.Call.toOp))) := by
  obtain ⟨n, hn⟩ := roundSize_exists (fuel := 29) (e := 4) hh (by decide) (by decide)
  have hc : ∃ t0, Hash.create hint = some t0 := by
    unfold Hash.create; rw [show (16 : Nat) = 2 ^ 4 from rfl, hn]; exact ⟨_, rfl⟩
  obtain ⟨t0, h0⟩ := hc
  have R := (HashRep.create h0).run calls hs
  refine ⟨t0, h0, R.lookup, ?_⟩
  have := Lists.hasSize R.keys
  rw [List.length_map, ← numNodes_iter R.1] at this
  exact this

/-- C12.  What any single call does to any table reached by any calls at all (adds with other lengths and several values
    per key included): only the called key is affected. -/
theorem C12_other_keys_untouched (hint : Nat) (t0 : Table) (h0 : Hash.create hint = some t0) (calls : List HashMap.Call)
    (c : HashMap.Call) (k : HashMap.Key)
    (hk : match c with | .add k' _ => k ≠ k' | .update k' _ => k ≠ k' | .del k' => k ≠ k' | .wipe => False) :
    Hash.lookup (Hash.step (Hash.run t0 (calls.map HashMap.Call.toOp)) c.toOp) k =
      Hash.lookup (Hash.run t0 (calls.map HashMap.Call.toOp)) k := by
  have w : WF (Hash.run t0 (calls.map HashMap.Call.toOp)) := by
    have w0 := (create_wf h0).1
    clear h0
    induction calls generalizing t0 with
    | nil => exact w0
    | cons c cs ih =>
      refine ih _ ?_
      cases c with
      | add k v => exact (add_change w0 k v.1 v.2).wf
      | update k f => exact (update_change (fn := fun old => (f old, [])) w0 (Or.inr rfl)).wf
      | del k => exact (del_change w0 k).wf
      | wipe => exact (wipe_spec w0).1
  generalize Hash.run t0 (calls.map HashMap.Call.toOp) = t at *
  cases c with
  | add k' v => rw [lookup_eq, lookup_eq]; exact congrArg _ (congrArg _ ((add_change w k' v.1 v.2).there k hk))
  | update k' f =>
    rw [lookup_eq, lookup_eq]
    exact congrArg _ (congrArg _ ((update_change (fn := fun old => (f old, [])) w (Or.inr rfl)).there k hk))
  | del k' => rw [lookup_eq, lookup_eq]; exact congrArg _ (congrArg _ ((del_change w k').there k hk))
  | wipe => exact hk.elim

/-- C12.  Where the claim fails: adding over an existing key stores the new data but reports the old length. -/
theorem C12_add_keeps_old_length_counterexample (hint : Nat) (t0 : Table) (h0 : Hash.create hint = some t0)
    (k : HashMap.Key) (d1 l1 d2 l2 : Nat) :
    Hash.lookup (Hash.run t0 [.add k d1 l1, .add k d2 l2]) k = (d2, l1) := by
  obtain ⟨w, hb⟩ := create_wf h0
  have h1 := add_change w k d1 l1
  have h2 := add_change h1.wf k d2 l2
  rw [lookup_eq]
  simp only [Hash.run, List.foldl, Hash.step]
  rw [h2.here, h1.here, hb k]; rfl

/-- C12.  Where the claim fails: an update callback that adds another key which happens to share the slot makes the
    update of an absent key overwrite that other entry instead of storing its own. -/
theorem C12_nested_add_counterexample :
    ∃ t0, Hash.create 16 = some t0 ∧
      Hash.lookup (Hash.update t0 [0] fun _ => (.write 7 1, [([18], 5, 1)])) [0] = (0, 0) ∧
      Hash.lookup (Hash.update t0 [0] fun _ => (.write 7 1, [([18], 5, 1)])) [18] = (7, 1) :=
  ⟨_, rfl, by decide, by decide⟩

/-- C12.  With callbacks that add entries, the update still behaves as "the additions, then the update" whenever the key
    existed or no addition created an entry in its slot. -/
theorem C12_update_with_additions (hint : Nat) (t0 : Table) (h0 : Hash.create hint = some t0) (calls : List HashMap.Call)
    (k : HashMap.Key) (fn : UpdateFn) (d l : Nat)
    (hw : (fn (Hash.lookup (Hash.run t0 (calls.map HashMap.Call.toOp)) k)).1 = .write d l)
    (hg : NoClash (Hash.run t0 (calls.map HashMap.Call.toOp)) k fn) :
    Hash.lookup (Hash.update (Hash.run t0 (calls.map HashMap.Call.toOp)) k fn) k = (d, l) ∧
    ∀ k', k' ≠ k → Hash.lookup (Hash.update (Hash.run t0 (calls.map HashMap.Call.toOp)) k fn) k' =
      Hash.lookup (addMany (Hash.run t0 (calls.map HashMap.Call.toOp))
        (fn (Hash.lookup (Hash.run t0 (calls.map HashMap.Call.toOp)) k)).2) k' := by
  have w : WF (Hash.run t0 (calls.map HashMap.Call.toOp)) := by
    have w0 := (create_wf h0).1
    clear h0 hg hw
    induction calls generalizing t0 with
    | nil => exact w0
    | cons c cs ih =>
      refine ih _ ?_
      cases c with
      | add k v => exact (add_change w0 k v.1 v.2).wf
      | update k f => exact (update_change (fn := fun old => (f old, [])) w0 (Or.inr rfl)).wf
      | del k => exact (del_change w0 k).wf
      | wipe => exact (wipe_spec w0).1
  generalize Hash.run t0 (calls.map HashMap.Call.toOp) = t at *
  have hc := update_change w hg
  have hold : oldValue t k = Hash.lookup t k := rfl
  rw [hold, hw] at hc
  refine ⟨?_, fun k' hk' => ?_⟩
  · rw [lookup_eq, hc.here]
    cases bag (addMany t (fn (Hash.lookup t k)).2) k <;> rfl
  · rw [lookup_eq, lookup_eq, hc.there k' hk']

/-- C12.  The table has a power of two of slots, at least 16 and at least the hint; above 2^31 creation never returns. -/
theorem C12_created_size (hint : Nat) (t : Table) (h : Hash.create hint = some t) :
    hint ≤ t.slots.length ∧ ∃ e, 4 ≤ e ∧ t.slots.length = 2 ^ e := by
  unfold Hash.create at h
  rcases hr : roundSize 29 16 hint with _ | n
  · simp [hr] at h
  · simp only [hr, Option.map_some, Option.some.injEq] at h
    subst h
    obtain ⟨e, h1, h2⟩ := roundSize_pow (e := 4) hr (by decide) (by decide)
    exact ⟨by simpa using roundSize_bounds hr, e, h2, by simpa using h1⟩

theorem C12_huge_hint_never_returns (hint : Nat) (hh : 2 ^ 31 < hint) : Hash.create hint = none := by
  have key : ∀ fuel n, (n = 0 ∨ ∃ e, e ≤ 31 ∧ n = 2 ^ e) → roundSize fuel n hint = none := by
    intro fuel
    induction fuel with
    | zero => intro n _; rfl
    | succ fuel ih =>
      rintro n (rfl | ⟨e, he, rfl⟩)
      · rw [roundSize, if_pos (by omega)]; exact ih _ (Or.inl rfl)
      · rw [roundSize, if_pos (Nat.lt_of_le_of_lt (Nat.pow_le_pow_right (by decide) he) hh), ← Nat.pow_succ]
        by_cases h31 : e = 31
        · subst h31; exact ih _ (Or.inl rfl)
        · refine ih _ (Or.inr ⟨e + 1, by omega, Nat.mod_eq_of_lt (Nat.pow_lt_pow_right (by decide) (by omega))⟩)
  unfold Hash.create
  rw [key 29 16 (Or.inr ⟨4, by decide, rfl⟩)]; rfl

/-! ### C13 -/

/-- C13.  After any such history, both ways of iterating visit the same entries: every key of the map, with its data
    and length, exactly once; and the first/next loop ends after as many rounds as there are entries. -/
theorem C13_iteration_complete (hint : Nat) (t0 : Table) (h0 : Hash.create hint = some t0) (calls : List HashMap.Call)
    (hs : HashMap.Safe HashMap.empty calls) :
    ∃ seen, Hash.walk (Hash.run t0 (calls.map HashMap.Call.toOp))
        (Hash.entryCount (Hash.run t0 (calls.map HashMap.Call.toOp)))
        (Hash.getFirst (Hash.run t0 (calls.map HashMap.Call.toOp))) = some seen ∧
      seen = Hash.iter (Hash.run t0 (calls.map HashMap.Call.toOp)) ∧
      HashMap.Lists (HashMap.after calls) (seen.map fun n => (n.key, n.data, n.len)) := by
  have R := (HashRep.create h0).run calls hs
  exact ⟨_, walk_all R.1 (Nat.le_refl _), rfl, R.keys⟩

/-! ### C56 -/

/-- each key has the entries the multimap says -/
def HashMultiRep (t : Table) (m : HashMap.Multi) : Prop :=
  WF t ∧ ∀ k, bag t k = (m k).map fun v => (⟨k, v.1, v.2⟩ : Node)

theorem HashMultiRep.step {t m} (R : HashMultiRep t m) (c : HashMap.MCall) :
    HashMultiRep (Hash.step t c.toOp) (HashMap.mstep m c) := by
  obtain ⟨w, hb⟩ := R
  have main : ∀ {t' k vs}, Change t t' k (vs.map fun v : HashMap.Val => (⟨k, v.1, v.2⟩ : Node)) →
      HashMultiRep t' (HashMap.setKey m k vs) := by
    intro t' k vs hc
    refine ⟨hc.wf, fun k' => ?_⟩
    by_cases e : k' = k
    · subst e; simp only [HashMap.setKey, if_true]; exact hc.here
    · simp only [HashMap.setKey, if_neg e]; rw [hc.there k' e]; exact hb k'
  cases c with
  | addMultiple k v =>
    have := addMultiple_change w k v.1 v.2
    rw [hb k] at this
    exact main (vs := v :: m k) this
  | delWithData mem k c =>
    have := delWithData_change w mem k c
    rw [hb k, List.eraseP_map] at this
    exact main this
  | del k =>
    have := del_change w k
    rw [hb k, ← List.map_tail] at this
    exact main this
  | wipe =>
    obtain ⟨h1, _, h3⟩ := wipe_spec w
    exact ⟨h1, h3⟩

/-- C56.  For every history of calls that keep several values per key: a plain lookup gives the newest value, a lookup
    with data gives the newest value with those contents, a lookup with count (of a C string key) gives the newest value
    and how many there are, and the entry count is the length of the list of all entries, which iteration visits. -/
theorem C56_multi_values (hint : Nat) (t0 : Table) (h0 : Hash.create hint = some t0) (calls : List HashMap.MCall) :
    let t := Hash.run t0 (calls.map HashMap.MCall.toOp)
    let m := HashMap.mafter calls
    (∀ k, Hash.lookup t k = (m k).head?.getD (0, 0)) ∧
    (∀ mem k c, Hash.lookupWithData mem t k c = (((m k).find? (HashMap.holds mem c)).map Prod.fst).getD 0) ∧
    (∀ s, Hash.lookupWithCount t s =
      (((m (s ++ [0])).head?.getD (0, 0)).1, ((m (s ++ [0])).head?.getD (0, 0)).2, (m (s ++ [0])).length)) ∧
    (∃ seen, Hash.walk t (Hash.entryCount t) (Hash.getFirst t) = some seen ∧ seen.length = Hash.entryCount t ∧
      ∀ k, (seen.filter fun n => n.key == k).map (fun n => (n.data, n.len)) = m k) := by
  intro t m
  have R : HashMultiRep t m := by
    have R0 : HashMultiRep t0 (fun _ => []) := ⟨(create_wf h0).1, by simpa using (create_wf h0).2⟩
    show HashMultiRep (Hash.run t0 (calls.map HashMap.MCall.toOp)) (calls.foldl HashMap.mstep fun _ => [])
    generalize (fun _ => [] : HashMap.Multi) = m0 at R0
    clear t m
    clear h0
    induction calls generalizing t0 m0 with
    | nil => exact R0
    | cons c cs ih => exact ih _ _ (R0.step c)
  refine ⟨fun k => ?_, fun mem k c => ?_, fun s => ?_, ?_⟩
  · rw [lookup_eq, R.2 k]; cases m k <;> rfl
  · rw [lookupWithData_eq, R.2 k, List.find?_map, Option.map_map]; rfl
  · rw [lookupWithCount_eq, R.2]; cases m (s ++ [0]) <;> simp
  · refine ⟨_, walk_all R.1 (Nat.le_refl _), (numNodes_iter R.1).symm, fun k => ?_⟩
    have : (iter t).filter (fun n => n.key == k) = bag t k := bag_iter R.1 k
    rw [this, R.2 k]; simp [Function.comp_def]

/-! ### instances -/

example : HashMap.Safe HashMap.empty [.add [1, 2] (10, 3), .add [9] (11, 4), .add [1, 2] (12, 3),
    .update [9] (fun old => if old.2 = 4 then .write 20 5 else .skip), .del [1, 2]] := by
  simp [HashMap.Safe, HashMap.SafeAdd, HashMap.step, HashMap.put, HashMap.get, HashMap.empty]

example : ∃ t0, Hash.create 100 = some t0 ∧ t0.slots.length = 128 := ⟨_, rfl, by simp⟩

example : ∃ t0, Hash.create 16 = some t0 ∧ NoClash t0 [0] (fun _ => (.write 7 1, [([1], 5, 1)])) :=
  ⟨_, rfl, Or.inr (by decide)⟩

end Sid.Props
