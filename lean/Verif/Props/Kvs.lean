import Verif.Proof.KvsFree
import Verif.Proof.BpRefine
import Verif.Props.Hash
/-
C19 to C23, C60, C74: the key-value store.
-/
namespace Sid.Props
open Sid.Kvs Sid.Spec Sid.Spec.KvStore

/-! ### both backends are maps -/

/-- A new B+ tree, whatever its order, is an empty map. -/
theorem C19_backend_bptree {order : Nat} {b : Bpt.Bpt} (h : Bpt.create order = some b) : EmptyMap bptBackend b := by
  refine ⟨fun b m => ∃ S, Bpt.BInv b ∧ Bpt.Rep b S ∧ Bpt.Single S m,
    ⟨_, Bpt.create_binv h, Bpt.create_rep h, Bpt.single_empty⟩, ?_⟩
  rintro b m ⟨S, hb, R, hs⟩ k
  refine ⟨?_, fun f _ => ?_⟩
  · obtain ⟨o, h1, h2⟩ := R.lookup hb k
    simp only [bptBackend, h1, Option.map_some, Option.some.injEq]
    rw [← hs.look k, ← h2, Option.map_map]
    cases o <;> rfl
  · obtain ⟨b', h1, h2, h3⟩ := R.step hb (Bpt.toAlias (.update k f)) (hs.safe _)
    refine ⟨b', ?_, _, h2, h3, hs.step _⟩
    rw [← h1]
    simp only [bptBackend, Bpt.toAlias, Bpt.toOp, Bpt.step]
    congr 1
    funext o
    have : (o.map Bpt.view).map (fun v => (v.1, v.2.1)) = o.map fun x => (x.data, x.size) := by cases o <;> rfl
    rw [this]
    cases f (o.map fun x => (x.data, x.size)) <;> rfl

theorem ofNull_getD (o : Option (Nat × Nat)) (h : ∀ v, o = some v → v.1 ≠ 0) : ofNull (o.getD (0, 0)) = o := by
  cases o with
  | none => rfl
  | some v => simp [ofNull, h v rfl]

/-- A new hash table, whatever its size, is an empty map. -/
theorem C19_backend_hash {hint : Nat} {t : Hash.Table} (h : Hash.create hint = some t) : EmptyMap hashBackend t := by
  refine ⟨fun t m => ∃ m', HashRep t m' ∧ (∀ k v, m' k = some v → v.1 ≠ 0) ∧ ∀ k, m k = m' (k ++ [0]),
    ⟨_, HashRep.create h, by simp [HashMap.empty], by simp [HashMap.empty]⟩, ?_⟩
  rintro t m ⟨m', R, hnz, hm⟩ k
  have hget : ∀ k, ofNull (HashMap.get m' (k ++ [0])) = m k := by
    intro k
    rw [hm k]
    exact ofNull_getD (m' (k ++ [0])) (hnz _)
  refine ⟨?_, fun f hf => ⟨_, rfl, ?_⟩⟩
  · simp only [hashBackend, R.lookup, hget]
  · have hs := R.step (.update (k ++ [0]) fun v => match f (ofNull v) with
      | .skip => .skip
      | .write d n => .write d n
      | .remove => .remove) trivial
    have hinj : ∀ k', k' ++ [(0 : UInt8)] = k ++ [0] ↔ k' = k := fun k' => by simp
    refine ⟨_, hs, ?_, ?_⟩
    · intro k' v e
      simp only [HashMap.step, hget] at e
      cases hfm : f (m k) with
      | skip => rw [hfm] at e; exact hnz k' v e
      | write d n =>
        rw [hfm] at e
        simp only [HashMap.put] at e
        split at e
        · cases e; exact hf _ _ _ hfm
        · exact hnz k' v e
      | remove =>
        rw [hfm] at e
        simp only [HashMap.erase] at e
        split at e
        · cases e
        · exact hnz k' v e
    · intro k'
      simp only [HashMap.step, hget, StrMap.step]
      cases hfm : f (m k) with
      | skip => exact hm k'
      | write d n => simp only [HashMap.put, StrMap.put, hinj, hm]
      | remove => simp only [HashMap.erase, StrMap.put, hinj, hm]

example : ∃ b, Bpt.create 4 = some b ∧ EmptyMap bptBackend b := ⟨_, rfl, C19_backend_bptree (order := 4) rfl⟩

variable {σ : Type} {B : Backend σ} {b : σ}

theorem emptyMap_lawful (h : EmptyMap B b) : ∃ Rb, Lawful B Rb ∧ Rb b fun _ => none := by
  obtain ⟨R, h0, h1⟩ := h
  exact ⟨R, ⟨fun k hb => (h1 _ _ hb k).1, fun k f hb hf => (h1 _ _ hb k).2 f hf⟩, h0⟩

/-- states reached outside of transactions -/
theorem reached (hB : EmptyMap B b) (ops : List Op) : ∃ Rb s m L, Lawful B Rb ∧ run B (init b) ops = some s ∧
    Inv Rb s m free L ∧ s.trans = none ∧ cont s m = after ops ∧ (YesNo ops → L = []) := by
  obtain ⟨Rb, BL, h0⟩ := emptyMap_lawful hB
  obtain ⟨s, m, L, h1, h2, h3, h4, h5⟩ := run_free BL ops (init_inv h0) rfl
  exact ⟨Rb, s, m, L, BL, h1, h2, h3, h4, h5⟩

/-! ### C19 -/

/-- C19: whatever was done, a get reports what the history says, for every key. -/
theorem C19_get_reports_history (hB : EmptyMap B b) (ops : List Op) :
    ∃ s, run B (init b) ops = some s ∧ ∀ k, k ≠ [] → kvsGet B s k = some (after ops (trim k)) := by
  obtain ⟨Rb, s, m, L, BL, h1, h2, h3, h4, h5⟩ := reached hB ops
  refine ⟨s, h1, fun k hk => ?_⟩
  rw [get_cont BL h2 hk (notFree _), h4]

/-- C19: after a set the get returns the value as specified, and nothing else changed. -/
theorem C19_get_after_set (hB : EmptyMap B b) (ops : List Op) (k : Str) (hk : k ≠ []) (i : Input) :
    ∃ s s', run B (init b) ops = some s ∧ kvsSet B s k none none i = some (0, s') ∧
      kvsGet B s' k = some (some (valueOf i)) ∧ ∀ k', k' ≠ [] → trim k' ≠ trim k → kvsGet B s' k' = kvsGet B s k' := by
  obtain ⟨Rb, s, m, L, BL, h1, h2, h3, h4, h5⟩ := reached hB ops
  obtain ⟨s', m', g1, g2, g3, g4⟩ := set_free BL h2 h3 k none none i
  rw [if_neg hk] at g1
  refine ⟨s, s', h1, g1, ?_, fun k' hk' hne => ?_⟩
  · rw [get_cont BL g2 hk (notFree _), g4]
    simp [KvStore.step, hk, verdict, keep, KvStore.put]
  · rw [get_cont BL g2 hk' (notFree _), get_cont BL h2 hk' (notFree _), g4]
    simp [KvStore.step, hk, verdict, keep, KvStore.put, hne]

/-- C19: after an unset there is nothing under the key, and nothing else changed. -/
theorem C19_get_after_unset (hB : EmptyMap B b) (ops : List Op) (k : Str) (hk : k ≠ []) :
    ∃ s s', run B (init b) ops = some s ∧ kvsUnset B s k none none = some (0, s') ∧
      kvsGet B s' k = some none ∧ ∀ k', k' ≠ [] → trim k' ≠ trim k → kvsGet B s' k' = kvsGet B s k' := by
  obtain ⟨Rb, s, m, L, BL, h1, h2, h3, h4, h5⟩ := reached hB ops
  obtain ⟨s', m', L', g1, g2, g3, g4, g5⟩ := unset_free BL h2 h3 k none none
  rw [if_neg hk] at g1
  refine ⟨s, s', h1, g1, ?_, fun k' hk' hne => ?_⟩
  · rw [get_cont BL g2 hk (notFree _), g4]
    simp [KvStore.step, hk, unsetVerdict, keep, KvStore.put]
  · rw [get_cont BL g2 hk' (notFree _), get_cont BL h2 hk' (notFree _), g4]
    simp [KvStore.step, hk, unsetVerdict, keep, KvStore.put, hne]

/-- what a copied, a merged and a referenced value look like -/
example : valueOf { ptr := 7, items := [[1, 2, 3]] } = ⟨.copied [[1, 2, 3]], 3, false, false, false⟩ ∧
    valueOf { vec := true, ptr := 7, items := [[1], [2, 3]] } = ⟨.copied [[1], [2, 3]], 2, true, false, false⟩ ∧
    valueOf { vec := true, merge := true, ptr := 7, items := [[1], [2, 3]] } = ⟨.copied [[1, 2, 3]], 3, false, false, false⟩ ∧
    valueOf { vec := true, ref := true, ptr := 7, items := [[1], [2, 3]] } = ⟨.refd 7, 2, true, true, false⟩ := by
  refine ⟨rfl, rfl, rfl, rfl⟩

/-! ### C20 -/

/-- C20: a set whose callback, shown the stored value and the new one, refuses changes nothing. -/
theorem C20_refused_set (hB : EmptyMap B b) (ops : List Op) (k : Str) (hk : k ≠ []) (a : Option Str) (f : SetFn) (i : Input) :
    ∃ s, run B (init b) ops = some s ∧ ∀ old, kvsGet B s k = some old → (f old (valueOf i)).1 = 0 →
      ∃ s', kvsSet B s k a (some f) i = some (0, s') ∧ ∀ k', kvsGet B s' k' = kvsGet B s k' := by
  obtain ⟨Rb, s, m, L, BL, h1, h2, h3, h4, h5⟩ := reached hB ops
  refine ⟨s, h1, fun old ho hf => ?_⟩
  rw [get_cont BL h2 hk (notFree _), Option.some.injEq] at ho
  obtain ⟨s', m', g1, g2, g3, g4⟩ := set_free BL h2 h3 k a (some f) i
  rw [if_neg hk] at g1
  have hv : (verdict (some f) (cont s m (trim k)) (valueOf i)).1 = 0 := by
    rw [ho]
    simp only [verdict]
    rcases e : f old (valueOf i) with ⟨r, _ | j⟩ <;> rw [e] at hf <;> exact hf
  refine ⟨s', g1, fun k' => ?_⟩
  by_cases hk' : k' = []
  · simp [kvsGet, hk']
  · rw [get_cont BL g2 hk' (notFree _), get_cont BL h2 hk' (notFree _), g4]
    simp only [KvStore.step, if_neg hk, if_pos hv]

/-- C20: a set whose callback accepts stores what the callback leaves in place: the new value, or what it was replaced by
    (if the callback answers positively). -/
theorem C20_accepted_set (hB : EmptyMap B b) (ops : List Op) (k : Str) (hk : k ≠ []) (f : SetFn) (i : Input) :
    ∃ s, run B (init b) ops = some s ∧ ∀ old r e, kvsGet B s k = some old → f old (valueOf i) = (r, e) → r > 0 →
      ∃ s', kvsSet B s k none (some f) i = some (0, s') ∧ kvsGet B s' k = some (some (valueOf (e.getD i))) ∧
        ∀ k', k' ≠ [] → trim k' ≠ trim k → kvsGet B s' k' = kvsGet B s k' := by
  obtain ⟨Rb, s, m, L, BL, h1, h2, h3, h4, h5⟩ := reached hB ops
  refine ⟨s, h1, fun old r e ho hf hr => ?_⟩
  rw [get_cont BL h2 hk (notFree _), Option.some.injEq] at ho
  obtain ⟨s', m', g1, g2, g3, g4⟩ := set_free BL h2 h3 k none (some f) i
  rw [if_neg hk] at g1
  have hv : verdict (some f) (cont s m (trim k)) (valueOf i) = (r, valueOf (e.getD i)) := by
    rw [ho]
    simp only [verdict, hf]
    cases e with
    | none => rfl
    | some j => simp [hr]
  have hr0 : r ≠ 0 := by omega
  refine ⟨s', g1, ?_, fun k' hk' hne => ?_⟩
  · rw [get_cont BL g2 hk (notFree _), g4]
    simp [KvStore.step, hk, hv, hr0, keep, KvStore.put]
  · rw [get_cont BL g2 hk' (notFree _), get_cont BL h2 hk' (notFree _), g4]
    simp [KvStore.step, hk, hv, hr0, keep, KvStore.put, hne]

/-- C20: an unset whose callback, shown the stored value, refuses changes nothing; otherwise the key is gone. -/
theorem C20_unset (hB : EmptyMap B b) (ops : List Op) (k : Str) (hk : k ≠ []) (f : UnsetFn) :
    ∃ s, run B (init b) ops = some s ∧ ∀ old, kvsGet B s k = some old →
      ∃ s', kvsUnset B s k none (some f) = some (0, s') ∧
        ((f old = 0 → ∀ k', kvsGet B s' k' = kvsGet B s k') ∧
         (f old ≠ 0 → kvsGet B s' k = some none ∧ ∀ k', k' ≠ [] → trim k' ≠ trim k → kvsGet B s' k' = kvsGet B s k')) := by
  obtain ⟨Rb, s, m, L, BL, h1, h2, h3, h4, h5⟩ := reached hB ops
  refine ⟨s, h1, fun old ho => ?_⟩
  rw [get_cont BL h2 hk (notFree _), Option.some.injEq] at ho
  obtain ⟨s', m', L', g1, g2, g3, g4, g5⟩ := unset_free BL h2 h3 k none (some f)
  rw [if_neg hk] at g1
  refine ⟨s', g1, fun hf k' => ?_, fun hf => ⟨?_, fun k' hk' hne => ?_⟩⟩
  · by_cases hk' : k' = []
    · simp [kvsGet, hk']
    · rw [get_cont BL g2 hk' (notFree _), get_cont BL h2 hk' (notFree _), g4]
      simp [KvStore.step, hk, unsetVerdict, ho, hf]
  · rw [get_cont BL g2 hk (notFree _), g4]
    simp only [KvStore.step, if_neg hk, unsetVerdict, ho, if_neg hf]
    split <;> simp [keep, KvStore.put]
  · rw [get_cont BL g2 hk' (notFree _), get_cont BL h2 hk' (notFree _), g4]
    simp only [KvStore.step, if_neg hk, unsetVerdict, ho, if_neg hf]
    split <;> simp [keep, KvStore.put, hne]

/-- C20 within a transaction: gets and callbacks see exactly what the calls so far left, for keys not unset in it (`after`
    includes refusals and edits by callbacks). -/
theorem C20_seen_in_transaction (hB : EmptyMap B b) (ops ops' : List Op) (hl : UnsetLast ops') :
    ∃ s s', run B (init b) ops = some s ∧ run B (transBegin s).2 ops' = some s' ∧
      ∀ k, k ≠ [] → (∀ k' a f, Op.unset k' a f ∈ ops' → trim k' ≠ trim k) →
        kvsGet B s' k = some (after (ops ++ ops') (trim k)) := by
  obtain ⟨Rb, s, m, L, BL, h1, h2, h3, h4, h5⟩ := reached hB ops
  obtain ⟨e, x⟩ := begin_tx h2 h3
  have hrun : ∀ (l : List Op) {s : Store σ} {m t F c}, Tx Rb s m t F c → (∀ op ∈ l, ∀ k ∈ touches op, k ∉ t.unsets.map (·.key)) →
      UnsetLast l → ∃ s' m' t' F', run B s l = some s' ∧ Tx Rb s' m' t' F' (l.foldl KvStore.step c) ∧
      ∀ k, k ∈ t'.unsets.map (·.key) → k ∈ t.unsets.map (·.key) ∨ ∃ k' a f, Op.unset k' a f ∈ l ∧ k = trim k' := by
    intro l
    induction l with
    | nil => intro s m t F c x _ _; exact ⟨s, m, t, F, rfl, x, fun k hk => .inl hk⟩
    | cons op l ih =>
      intro s m t F c x hn hl
      have hl' : UnsetLast l ∧ ∀ k a f, op = .unset k a f → a.map trim ≠ some (trim k) ∧ ∀ op ∈ l, trim k ∉ touches op := by
        cases op with
        | set => exact ⟨hl, fun _ _ _ e => by cases e⟩
        | unset k a f => exact ⟨hl.2.2, fun _ _ _ e => by cases e; exact ⟨hl.1, hl.2.1⟩⟩
      obtain ⟨s1, m1, t1, F1, h1, h2, h3, -⟩ := x.step BL op (hn op List.mem_cons_self) fun k a f e => (hl'.2 k a f e).1
      obtain ⟨s2, m2, t2, F2, g1, g2, g3⟩ := ih h2 (by
        intro op' hop' k hk hm
        rcases h3 k hm with h | ⟨k', a, f, e, rfl⟩
        · exact hn op' (List.mem_cons_of_mem _ hop') k hk h
        · exact (hl'.2 k' a f e).2 op' hop' hk) hl'.1
      refine ⟨s2, m2, t2, F2, by simp only [run, h1, Option.bind_some, g1], g2, fun k hk => ?_⟩
      rcases g3 k hk with hk | ⟨k', a, f, e1, e2⟩
      · rcases h3 k hk with hk | ⟨k', a, f, e1, e2⟩
        · exact .inl hk
        · exact .inr ⟨k', a, f, by rw [e1]; exact List.mem_cons_self, e2⟩
      · exact .inr ⟨k', a, f, List.mem_cons_of_mem _ e1, e2⟩
  obtain ⟨s', m', t', F', g1, g2, g3⟩ := hrun ops' x (by simp) hl
  refine ⟨s, s', h1, g1, fun k hk hu => ?_⟩
  have hkn : trim k ∉ t'.unsets.map (·.key) := by
    intro hm
    rcases g3 _ hm with hm | ⟨k', a, f, e1, e2⟩
    · simp at hm
    · exact hu k' a f e1 e2.symm
  rw [get_cont BL g2.inv hk (by rw [← trim_eq]; exact pend_mem hkn)]
  have := g2.cc (trim k)
  rw [if_neg hkn] at this
  rw [← this, h4]
  simp [after]

/-- a callback that lets only shorter values in, and one that replaces the value -/
example : (KvStore.step (after [.set [97] none none { ptr := 1, items := [[1, 2]] }])
      (.set [97] none (some fun o n => (if (o.map (·.size)).getD 0 < n.size then 0 else 1, none)) { ptr := 1, items := [[1, 2, 3]] })) [97]
    = some ⟨.copied [[1, 2]], 2, false, false, false⟩ := by
  rfl

/-! ### C23 -/

/-- C23: when a set that has an archive key is accepted, the previous value, if there was one, is under the archive key, and
    the new one under the key; without a previous value the archive key stays as it was. -/
theorem C23_set_archives (hB : EmptyMap B b) (ops : List Op) (k a : Str) (hk : k ≠ []) (ha : a ≠ []) (hne : trim a ≠ trim k)
    (f : Option SetFn) (i : Input) :
    ∃ s, run B (init b) ops = some s ∧ ∀ old, kvsGet B s k = some old → (verdict f old (valueOf i)).1 ≠ 0 →
      ∃ s', kvsSet B s k (some a) f i = some (0, s') ∧
        kvsGet B s' k = some (some (verdict f old (valueOf i)).2) ∧
        (∀ v, old = some v → kvsGet B s' a = some (some v)) ∧ (old = none → kvsGet B s' a = kvsGet B s a) ∧
        ∀ k', k' ≠ [] → trim k' ≠ trim k → trim k' ≠ trim a → kvsGet B s' k' = kvsGet B s k' := by
  obtain ⟨Rb, s, m, L, BL, h1, h2, h3, h4, h5⟩ := reached hB ops
  refine ⟨s, h1, fun old ho hv => ?_⟩
  rw [get_cont BL h2 hk (notFree _), Option.some.injEq] at ho
  obtain ⟨s', m', g1, g2, g3, g4⟩ := set_free BL h2 h3 k (some a) f i
  rw [if_neg hk] at g1
  refine ⟨s', g1, ?_, ?_, ?_, ?_⟩
  · rw [get_cont BL g2 hk (notFree _), g4]
    simp only [KvStore.step, if_neg hk, ho, if_neg hv]
    cases old <;> simp [keep, KvStore.put, Ne.symm hne]
  · rintro v rfl
    rw [get_cont BL g2 ha (notFree _), g4]
    simp only [KvStore.step, if_neg hk, ho, if_neg hv]
    simp [keep, KvStore.put]
  · rintro rfl
    rw [get_cont BL g2 ha (notFree _), get_cont BL h2 ha (notFree _), g4]
    simp only [KvStore.step, if_neg hk, ho, if_neg hv]
    simp [keep, KvStore.put, hne]
  · intro k' hk' n1 n2
    rw [get_cont BL g2 hk' (notFree _), get_cont BL h2 hk' (notFree _), g4]
    simp only [KvStore.step, if_neg hk, ho, if_neg hv]
    cases old <;> simp [keep, KvStore.put, n1, n2]

/-- C23: the same for an unset (that its callback, if any, answers with 1). -/
theorem C23_unset_archives (hB : EmptyMap B b) (ops : List Op) (k a : Str) (hk : k ≠ []) (ha : a ≠ []) (hne : trim a ≠ trim k)
    (f : Option UnsetFn) :
    ∃ s, run B (init b) ops = some s ∧ ∀ old, kvsGet B s k = some old → unsetVerdict f old = 1 →
      ∃ s', kvsUnset B s k (some a) f = some (0, s') ∧
        kvsGet B s' k = some none ∧
        (∀ v, old = some v → kvsGet B s' a = some (some v)) ∧ (old = none → kvsGet B s' a = kvsGet B s a) ∧
        ∀ k', k' ≠ [] → trim k' ≠ trim k → trim k' ≠ trim a → kvsGet B s' k' = kvsGet B s k' := by
  obtain ⟨Rb, s, m, L, BL, h1, h2, h3, h4, h5⟩ := reached hB ops
  refine ⟨s, h1, fun old ho hv => ?_⟩
  rw [get_cont BL h2 hk (notFree _), Option.some.injEq] at ho
  obtain ⟨s', m', L', g1, g2, g3, g4, g5⟩ := unset_free BL h2 h3 k (some a) f
  rw [if_neg hk] at g1
  have hstep : KvStore.step (cont s m) (.unset k (some a) f) = keep (KvStore.put (cont s m) (trim k) none) (some a) old := by
    simp only [KvStore.step, if_neg hk, ho, hv]
    simp
  refine ⟨s', g1, ?_, ?_, ?_, ?_⟩
  · rw [get_cont BL g2 hk (notFree _), g4, hstep]
    cases old <;> simp [keep, KvStore.put, Ne.symm hne]
  · rintro v rfl
    rw [get_cont BL g2 ha (notFree _), g4, hstep]
    simp [keep, KvStore.put]
  · rintro rfl
    rw [get_cont BL g2 ha (notFree _), get_cont BL h2 ha (notFree _), g4, hstep]
    simp [keep, KvStore.put, hne]
  · intro k' hk' n1 n2
    rw [get_cont BL g2 hk' (notFree _), get_cont BL h2 hk' (notFree _), g4, hstep]
    cases old <;> simp [keep, KvStore.put, n1, n2]

example : (after [.set [97] none none { ptr := 1, items := [[1]] }, .set [97] (some [98]) none { ptr := 1, items := [[2]] },
    .unset [97] (some [99]) none]) [98] = some ⟨.copied [[1]], 1, false, false, false⟩ ∧
    (after [.set [97] none none { ptr := 1, items := [[1]] }, .set [97] (some [98]) none { ptr := 1, items := [[2]] },
    .unset [97] (some [99]) none]) [99] = some ⟨.copied [[2]], 1, false, false, false⟩ := ⟨rfl, rfl⟩

/-! ### C22 -/

/-- C22 (partial: a key that is unset is not used again in the transaction): begin, calls and commit leave the same content
    as the calls without transaction. -/
theorem C22_commit_partial (hB : EmptyMap B b) (ops ops' : List Op) (hl : UnsetLast ops') :
    ∃ s s1 s2 d, run B (init b) ops = some s ∧ (transBegin s).1 = 0 ∧ run B (transBegin s).2 ops' = some s1 ∧
      transEnd B s1 false = some s2 ∧ run B s ops' = some d ∧ s2.trans = none ∧ ∀ k, kvsGet B s2 k = kvsGet B d k := by
  obtain ⟨Rb, s, m, L, BL, h1, h2, h3, h4, h5⟩ := reached hB ops
  obtain ⟨e, x⟩ := begin_tx h2 h3
  obtain ⟨s1, m1, t1, F1, g1, g2, -⟩ := x.run BL ops' (by simp) hl
  obtain ⟨s2, m2, k1, k2, k3, k4⟩ := g2.commit BL
  obtain ⟨d, md, Ld, d1, d2, d3, d4, d5⟩ := run_free BL ops' h2 h3
  refine ⟨s, s1, s2, d, h1, e, g1, k1, d1, k3, fun k => ?_⟩
  by_cases hk : k = []
  · simp [kvsGet, hk]
  · rw [get_cont BL k2 hk (notFree _), get_cont BL d2 hk (notFree _), k4, d4]

example : UnsetLast [.set [97] (some [98]) none { ptr := 1, items := [[2]] }, .unset [97] (some [99]) none,
    .set [98] none none { ptr := 1, items := [[3]] }] := by
  refine ⟨by simp [trim], ?_, trivial⟩
  intro op hop
  simp at hop
  subst hop
  simp [touches, trim]

/-- hash table with 16 slots for the counterexamples -/
def t16 : Hash.Table := ⟨0, List.replicate 16 []⟩

/-- C22 does not hold without the guard: unset then set of one key; after the commit the key is gone, without transaction
    it has the new value. -/
theorem C22_unset_then_set_counterexample :
    let ops : List Op := [.unset [97] none none, .set [97] none none { ptr := 1, items := [[2]] }]
    let s := run hashBackend (init t16) [.set [97] none none { ptr := 1, items := [[1]] }]
    (s.bind fun s => (run hashBackend (transBegin s).2 ops).bind fun s1 => (transEnd hashBackend s1 false).bind fun s2 =>
      kvsGet hashBackend s2 [97]) = some none ∧
    (s.bind fun s => (run hashBackend s ops).bind fun d => kvsGet hashBackend d [97])
      = some (some ⟨.copied [[2]], 1, false, false, false⟩) := by
  refine ⟨?_, ?_⟩ <;> decide +kernel

/-! ### C21 -/

/-- C21 (partial: no key is written twice in the transaction, and unsets in it have no archive and callbacks that answer
    yes or no): begin, calls and rollback leave the content as it was at the begin. -/
theorem C21_rollback_partial (hB : EmptyMap B b) (ops ops' : List Op) (hy : YesNo ops) (hw : WriteOnce ops') :
    ∃ s s1 s2, run B (init b) ops = some s ∧ run B (transBegin s).2 ops' = some s1 ∧
      transEnd B s1 true = some s2 ∧ s2.trans = none ∧ ∀ k, kvsGet B s2 k = kvsGet B s k := by
  obtain ⟨Rb, s, m, L, BL, h1, h2, h3, h4, h5⟩ := reached hB ops
  rw [h5 hy] at h2
  obtain ⟨s1, m1, t1, g1, g2⟩ := (begin_once h2 h3).run BL ops' hw.1 (by simp) hw.2
  obtain ⟨s2, k1, k2, k3, k4⟩ := g2.rollback BL h2
  refine ⟨s, s1, s2, h1, g1, k1, k3, fun k => ?_⟩
  by_cases hk : k = []
  · simp [kvsGet, hk]
  · rw [get_cont BL k2 hk (notFree _), get_cont BL h2 hk (notFree _), k4]

example : WriteOnce [.set [97] (some [98]) none { ptr := 1, items := [[2]] }, .unset [97] none none,
    .set [99] none none { ptr := 1, items := [[3]] }] := by
  refine ⟨by decide, ?_⟩
  intro op hop
  simp at hop
  rcases hop with rfl | rfl | rfl
  · trivial
  · exact ⟨rfl, fun _ => .inr rfl⟩
  · trivial

/-- C21 does not hold without the guard: a key set twice gets the first of the two new values, not the one it had. -/
theorem C21_set_twice_counterexample :
    let s := run hashBackend (init t16) [.set [97] none none { ptr := 1, items := [[1]] }]
    (s.bind fun s => (run hashBackend (transBegin s).2 [.set [97] none none { ptr := 1, items := [[2]] },
        .set [97] none none { ptr := 1, items := [[3]] }]).bind fun s1 =>
      (transEnd hashBackend s1 true).bind fun s2 => kvsGet hashBackend s2 [97])
      = some (some ⟨.copied [[2]], 1, false, false, false⟩) := by
  decide +kernel

/-- and with archiving a value is destroyed twice (undefined behaviour) -/
theorem C21_archive_twice_counterexample :
    let s1 := (run hashBackend (init t16) [.set [97] none none { ptr := 1, items := [[1]] }]).bind fun s =>
      run hashBackend (transBegin s).2 [.set [97] (some [98]) none { ptr := 1, items := [[2]] },
        .set [97] (some [98]) none { ptr := 1, items := [[3]] }]
    s1.isSome = true ∧ (s1.map fun s1 => (transEnd hashBackend s1 true).isSome) = some false := by
  decide +kernel

/-- nor does it hold for an unset with archive: the archive key keeps the value after the rollback -/
theorem C21_unset_archive_counterexample :
    let s := run hashBackend (init t16) [.set [97] none none { ptr := 1, items := [[1]] }]
    (s.bind fun s => (run hashBackend (transBegin s).2 [.unset [97] (some [98]) none]).bind fun s1 =>
      (transEnd hashBackend s1 true).bind fun s2 => kvsGet hashBackend s2 [98])
      = some (some ⟨.copied [[1]], 1, false, false, false⟩) ∧
    (s.bind fun s => kvsGet hashBackend s [98]) = some none := by
  refine ⟨?_, ?_⟩ <;> decide +kernel

/-! ### C60 -/

/-- the values in memory are exactly those under the keys, each under one key -/
def NoLeak (B : Backend σ) (s : Store σ) : Prop :=
  (∀ id v, s.vals id = some v → ∃ k n, B.look s.back k = some (some (id, n))) ∧
  (∀ k id n, B.look s.back k = some (some (id, n)) → ∃ v, s.vals id = some v) ∧
  (∀ k k' id n n', B.look s.back k = some (some (id, n)) → B.look s.back k' = some (some (id, n')) → k = k')

theorem noLeak {Rb} (BL : Lawful B Rb) {s : Store σ} {m} (h : Inv Rb s m free []) : NoLeak B s := by
  refine ⟨?_, ?_, ?_⟩
  · intro id v e
    rcases h.cov id v e with h1 | ⟨k, p, e1, _, e2⟩
    · simp at h1
    · refine ⟨k, p.2, ?_⟩
      rw [BL.look k h.back, e1, ← e2]
  · intro k id n e
    rw [BL.look k h.back, Option.some.injEq] at e
    exact h.live k _ e (notFree _)
  · intro k k' id n n' e e'
    rw [BL.look k h.back, Option.some.injEq] at e
    rw [BL.look k' h.back, Option.some.injEq] at e'
    exact h.inj k k' _ _ e e' (notFree _) (notFree _) rfl

/-- C60: outside of transactions, with callbacks that answer yes or no: the store neither loses a value nor destroys one
    that is stored nor destroys one twice (that would be undefined: `run` would be `none`). -/
theorem C60_values_released_once (hB : EmptyMap B b) (ops : List Op) (hy : YesNo ops) :
    ∃ s, run B (init b) ops = some s ∧ NoLeak B s := by
  obtain ⟨Rb, s, m, L, BL, h1, h2, h3, h4, h5⟩ := reached hB ops
  rw [h5 hy] at h2
  exact ⟨s, h1, noLeak BL h2⟩

/-- C60: the same after a rollback. -/
theorem C60_after_rollback (hB : EmptyMap B b) (ops ops' : List Op) (hy : YesNo ops) (hw : WriteOnce ops') :
    ∃ s s1 s2, run B (init b) ops = some s ∧ run B (transBegin s).2 ops' = some s1 ∧
      transEnd B s1 true = some s2 ∧ NoLeak B s2 := by
  obtain ⟨Rb, s, m, L, BL, h1, h2, h3, h4, h5⟩ := reached hB ops
  rw [h5 hy] at h2
  obtain ⟨s1, m1, t1, g1, g2⟩ := (begin_once h2 h3).run BL ops' hw.1 (by simp) hw.2
  obtain ⟨s2, k1, k2, k3, k4⟩ := g2.rollback BL h2
  exact ⟨s, s1, s2, h1, g1, k1, noLeak BL k2⟩

/-- C60: the same after a commit. -/
theorem C60_after_commit (hB : EmptyMap B b) (ops ops' : List Op) (hy : YesNo (ops ++ ops')) (hl : UnsetLast ops') :
    ∃ s s1 s2, run B (init b) ops = some s ∧ run B (transBegin s).2 ops' = some s1 ∧
      transEnd B s1 false = some s2 ∧ NoLeak B s2 := by
  obtain ⟨Rb, s, m, L, BL, h1, h2, h3, h4, h5⟩ := reached hB ops
  rw [h5 fun k a f hm => hy k a f (by simp [hm])] at h2
  obtain ⟨e, x⟩ := begin_tx h2 h3
  obtain ⟨s1, m1, t1, F1, g1, g2, g3⟩ := x.run BL ops' (by simp) hl
  rw [g3 fun k a f hm => hy k a f (by simp [hm])] at g2
  obtain ⟨s2, m2, k1, k2, k3, k4⟩ := g2.commit BL
  exact ⟨s, s1, s2, h1, g1, k1, noLeak BL k2⟩

example : YesNo [.set [97] none none { ptr := 1, items := [[1]] }, .unset [97] none (some fun o => if o.isSome then 1 else 0)] := by
  intro k a f hm o
  simp at hm
  obtain ⟨_, _, rfl⟩ := hm
  simp only [unsetVerdict]
  cases o <;> simp

/-! ### C74 -/

/-- C74: memory passed by reference and to be freed by the store (each time other memory) is freed exactly when no key
    holds it any more, once; a set that is refused counts as a value that is gone.  Nothing else is freed. -/
theorem C74_handed_over_memory_freed_once (hB : EmptyMap B b) (ops : List Op) (hy : YesNo ops) (ha : OnlyAnswer ops)
    (hd : ((handed ops).map (·.ptr)).Nodup) :
    ∃ s, run B (init b) ops = some s ∧ FreedOnce (after ops) (handed ops) s.freed := by
  obtain ⟨Rb, s, m, L, BL, h1, h2, h3, h4, h5⟩ := reached hB ops
  rw [h5 hy] at h2
  exact ⟨s, h1, ((Cons.init b).run ha h1).freedOnce h2 h4 handed_flags hd⟩

/-- C74: the same after a transaction that is rolled back: what was handed over in it is freed, what the keys hold again is
    not. -/
theorem C74_freed_once_after_rollback (hB : EmptyMap B b) (ops ops' : List Op) (hy : YesNo ops) (ha : OnlyAnswer (ops ++ ops'))
    (hw : WriteOnce ops') (hd : ((handed (ops ++ ops')).map (·.ptr)).Nodup) :
    ∃ s s1 s2, run B (init b) ops = some s ∧ run B (transBegin s).2 ops' = some s1 ∧
      transEnd B s1 true = some s2 ∧ FreedOnce (after ops) (handed (ops ++ ops')) s2.freed := by
  obtain ⟨Rb, s, m, L, BL, h1, h2, h3, h4, h5⟩ := reached hB ops
  rw [h5 hy] at h2
  obtain ⟨s1, m1, t1, g1, g2⟩ := (begin_once h2 h3).run BL ops' hw.1 (by simp) hw.2
  obtain ⟨s2, k1, k2, k3, k4⟩ := g2.rollback BL h2
  refine ⟨s, s1, s2, h1, g1, k1, ?_⟩
  have c1 := (Cons.init b).run (fun k a f i hm => ha k a f i (by simp [hm])) h1
  have c2 := c1.transBegin.run (fun k a f i hm => ha k a f i (by simp [hm])) g1
  have c3 := c2.transEnd k1
  have e : [] ++ handed ops ++ handed ops' = handed (ops ++ ops') := by simp [handed]
  rw [e] at c3
  exact c3.freedOnce k2 (k4.trans h4) handed_flags hd

/-- C74: the same after a transaction that is committed. -/
theorem C74_freed_once_after_commit (hB : EmptyMap B b) (ops ops' : List Op) (hy : YesNo (ops ++ ops'))
    (ha : OnlyAnswer (ops ++ ops')) (hl : UnsetLast ops') (hd : ((handed (ops ++ ops')).map (·.ptr)).Nodup) :
    ∃ s s1 s2, run B (init b) ops = some s ∧ run B (transBegin s).2 ops' = some s1 ∧
      transEnd B s1 false = some s2 ∧ FreedOnce (after (ops ++ ops')) (handed (ops ++ ops')) s2.freed := by
  obtain ⟨Rb, s, m, L, BL, h1, h2, h3, h4, h5⟩ := reached hB ops
  rw [h5 fun k a f hm => hy k a f (by simp [hm])] at h2
  obtain ⟨e, x⟩ := begin_tx h2 h3
  obtain ⟨s1, m1, t1, F1, g1, g2, g3⟩ := x.run BL ops' (by simp) hl
  rw [g3 fun k a f hm => hy k a f (by simp [hm])] at g2
  obtain ⟨s2, m2, k1, k2, k3, k4⟩ := g2.commit BL
  refine ⟨s, s1, s2, h1, g1, k1, ?_⟩
  have c1 := (Cons.init b).run (fun k a f i hm => ha k a f i (by simp [hm])) h1
  have c2 := c1.transBegin.run (fun k a f i hm => ha k a f i (by simp [hm])) g1
  have c3 := c2.transEnd k1
  have e : [] ++ handed ops ++ handed ops' = handed (ops ++ ops') := by simp [handed]
  rw [e] at c3
  refine c3.freedOnce k2 (k4.trans ?_) handed_flags hd
  rw [h4]
  simp [after]

/-- two calls that hand over memory, one of them an iovec, the first value is replaced by the second -/
example : let ops : List Op := [.set [97] none none { ref := true, auto := true, ptr := 1, items := [[1]] },
      .set [97] none none { vec := true, ref := true, auto := true, ptr := 2, items := [[1], [2]] },
      .unset [98] none none]
    YesNo ops ∧ OnlyAnswer ops ∧ ((handed ops).map (·.ptr)).Nodup ∧ handed ops ≠ [] := by
  refine ⟨?_, ?_, by decide, by decide⟩
  · intro k a f hm o
    simp at hm
    obtain ⟨_, _, rfl⟩ := hm
    simp [unsetVerdict]
  · intro k a f i hm
    simp at hm

end Sid.Props
