import Verif.Spec.Kvs
/-
The key-value store: ownership of values.
-/
namespace Sid.Kvs
open Sid.Spec Sid.Spec.KvStore

variable {σ : Type} {B : Backend σ} {Rb : σ → StrMap.Map → Prop}

/-- the backend is a map -/
structure Lawful (B : Backend σ) (Rb : σ → StrMap.Map → Prop) : Prop where
  look : ∀ {b m} k, Rb b m → B.look b k = some (m k)
  update : ∀ {b m} k f, Rb b m → (∀ o d n, f o = .write d n → d ≠ 0) →
    ∃ b', B.update b k f = some b' ∧ Rb b' (StrMap.step m (.update k f))

theorem trim_eq (k : Str) : trim k = canon k := by
  simp only [trim, canon]
  congr 1
  funext c
  rw [Bool.eq_iff_iff]
  simp only [isSpace, decide_eq_true_eq, List.mem_cons, List.not_mem_nil, or_false, Bool.or_eq_true, Bool.and_eq_true,
    beq_iff_eq, UInt8.le_iff_toNat_le, ← UInt8.toNat_inj]
  simp only [UInt8.reduceToNat]
  omega

theorem createVal_got (i : Input) : (createVal i).got = valueOf i := by
  simp only [createVal, valueOf, Input.bytes]
  cases i.vec <;> cases i.ref <;> cases i.merge <;> rfl

/-- what is stored under a key -/
def cont (s : Store σ) (m : StrMap.Map) : Content := fun k => (m k).bind fun p => (s.vals p.1).map Val.got

/-- Every live value has one owner: a key that is not waiting to be removed without its value (`PH`), or the list `L`. -/
structure Inv (Rb : σ → StrMap.Map → Prop) (s : Store σ) (m : StrMap.Map) (PH : Str → Prop) (L : List Nat) : Prop where
  back : Rb s.back m
  pos : 0 < s.next
  live : ∀ k p, m k = some p → ¬ PH k → ∃ v, s.vals p.1 = some v
  inj : ∀ k k' p p', m k = some p → m k' = some p' → ¬ PH k → ¬ PH k' → p.1 = p'.1 → k = k'
  nodup : L.Nodup
  llive : ∀ i ∈ L, ∃ v, s.vals i = some v
  sep : ∀ k p, m k = some p → ¬ PH k → p.1 ∉ L
  bound : ∀ i v, s.vals i = some v → 0 < i ∧ i < s.next
  cov : ∀ i v, s.vals i = some v → i ∈ L ∨ ∃ k p, m k = some p ∧ ¬ PH k ∧ p.1 = i

variable {s s' : Store σ} {m : StrMap.Map} {PH : Str → Prop} {L : List Nat}

theorem Inv.perm {L' : List Nat} (h : Inv Rb s m PH L) (e : L.Perm L') : Inv Rb s m PH L' :=
  ⟨h.back, h.pos, h.live, h.inj, e.nodup_iff.mp h.nodup, fun i hi => h.llive i (e.mem_iff.mpr hi),
   fun k p a b c => h.sep k p a b (e.mem_iff.mpr c), h.bound, fun i v hv => (h.cov i v hv).imp e.mem_iff.mp id⟩

theorem Inv.congr (h : Inv Rb s m PH L) (e1 : s'.back = s.back) (e2 : s'.vals = s.vals) (e3 : s'.next = s.next) :
    Inv Rb s' m PH L := by
  refine ⟨by rw [e1]; exact h.back, by rw [e3]; exact h.pos, ?_, h.inj, h.nodup, ?_, h.sep, ?_, ?_⟩
  · rw [e2]; exact h.live
  · rw [e2]; exact h.llive
  · rw [e2, e3]; exact h.bound
  · rw [e2]; exact h.cov

theorem Inv.lt (h : Inv Rb s m PH L) {k p} (e : m k = some p) (hk : ¬ PH k) : p.1 < s.next := by
  obtain ⟨v, hv⟩ := h.live k p e hk
  exact (h.bound _ v hv).2

theorem Inv.ne0 (h : Inv Rb s m PH L) {k p} (e : m k = some p) (hk : ¬ PH k) : p.1 ≠ 0 := by
  obtain ⟨v, hv⟩ := h.live k p e hk
  have := (h.bound _ v hv).1
  omega

theorem cont_congr {k} (e : ∀ p, m k = some p → s'.vals p.1 = s.vals p.1) : cont s' m k = cont s m k := by
  simp only [cont]
  cases hk : m k with
  | none => rfl
  | some p => simp [e p hk]

theorem Inv.create (h : Inv Rb s m PH L) (i : Input) : Inv Rb (create s i) m PH (s.next :: L) := by
  have hf : s.vals s.next = none := by
    cases e : s.vals s.next with
    | none => rfl
    | some v => have := (h.bound _ v e).2; omega
  have hv : ∀ j, (Kvs.create s i).vals j = if j = s.next then some (createVal i) else s.vals j := fun _ => rfl
  refine ⟨h.back, Nat.succ_pos _, ?_, h.inj, ?_, ?_, ?_, ?_, ?_⟩
  · intro k p e hk
    have := h.lt e hk
    rw [hv, if_neg (by omega)]
    exact h.live k p e hk
  · refine List.nodup_cons.mpr ⟨fun hm => ?_, h.nodup⟩
    obtain ⟨v, e⟩ := h.llive _ hm
    rw [hf] at e; cases e
  · intro j hj
    rw [hv]
    rcases List.mem_cons.mp hj with rfl | hj
    · exact ⟨_, if_pos rfl⟩
    · split
      · exact ⟨_, rfl⟩
      · exact h.llive j hj
  · intro k p e hk hm
    have := h.lt e hk
    rcases List.mem_cons.mp hm with e' | hm
    · omega
    · exact h.sep k p e hk hm
  · intro j v e
    rw [hv] at e
    have hn : (Kvs.create s i).next = s.next + 1 := rfl
    rw [hn]
    split at e
    · have := h.pos; omega
    · have := h.bound j v e; omega
  · intro j v e
    rw [hv] at e
    split at e
    · left; simp [*]
    · exact (h.cov j v e).imp (List.mem_cons_of_mem _) id

theorem Inv.destroy {i : Nat} (h : Inv Rb s m PH (i :: L)) :
    ∃ s', destroy s i = some s' ∧ Inv Rb s' m PH L ∧ s'.trans = s.trans ∧ s'.back = s.back ∧ s'.next = s.next ∧
      ∀ j, j ≠ i → s'.vals j = s.vals j := by
  obtain ⟨v, hv⟩ := h.llive i List.mem_cons_self
  have hn := List.nodup_cons.mp h.nodup
  refine ⟨{ s with vals := fun j => if j = i then none else s.vals j, freed := s.freed ++ freedBy v },
    by simp only [Kvs.destroy, hv], ?_, rfl, rfl, rfl, fun j hj => if_neg hj⟩
  refine ⟨h.back, h.pos, ?_, h.inj, hn.2, ?_, ?_, ?_, ?_⟩
  · intro k p e hk
    have := h.sep k p e hk
    simp only [List.mem_cons, not_or] at this
    simp only [this.1, if_false]
    exact h.live k p e hk
  · intro j hj
    have : j ≠ i := fun e => hn.1 (e ▸ hj)
    simp only [this, if_false]
    exact h.llive j (List.mem_cons_of_mem _ hj)
  · intro k p e hk hm
    exact h.sep k p e hk (List.mem_cons_of_mem _ hm)
  · intro j w e
    simp only at e
    split at e
    · cases e
    · exact h.bound j w e
  · intro j w e
    simp only at e
    split at e
    · cases e
    · rename_i hj
      rcases h.cov j w e with h1 | h1
      · exact .inl ((List.mem_cons.mp h1).resolve_left hj)
      · exact .inr h1

theorem Inv.destroy? {o : Option Nat} (h : Inv Rb s m PH (o.toList ++ L)) :
    ∃ s', destroy? s o = some s' ∧ Inv Rb s' m PH L ∧ s'.trans = s.trans ∧ s'.back = s.back ∧ s'.next = s.next ∧
      ∀ j, some j ≠ o → s'.vals j = s.vals j := by
  cases o with
  | none => exact ⟨s, rfl, h, rfl, rfl, rfl, fun _ _ => rfl⟩
  | some i =>
    obtain ⟨s', h1, h2, h3, h4, h5, h6⟩ := Inv.destroy (L := L) h
    exact ⟨s', h1, h2, h3, h4, h5, fun j hj => h6 j (fun e => hj (by rw [e]))⟩

/-- a value of the list goes under a key; the old one of the key goes to the list -/
theorem Inv.store {i n : Nat} {k : Str} {b'} (h : Inv Rb s m PH (i :: L)) (hk : ¬ PH k)
    (hb : Rb b' (StrMap.put m k (some (i, n)))) :
    Inv Rb (withBack s b') (StrMap.put m k (some (i, n))) PH (((m k).map (·.1)).toList ++ L) := by
  have hn := List.nodup_cons.mp h.nodup
  have old : ∀ j, j ∈ ((m k).map (·.1)).toList → ∃ p, m k = some p ∧ p.1 = j := by
    intro j hj
    cases e : m k with
    | none => rw [e] at hj; simp at hj
    | some p => rw [e] at hj; simp at hj; exact ⟨p, rfl, hj.symm⟩
  refine ⟨hb, h.pos, ?_, ?_, ?_, ?_, ?_, h.bound, ?_⟩
  · intro k' p e hk'
    simp only [StrMap.put] at e
    split at e
    · cases e; exact h.llive i List.mem_cons_self
    · exact h.live k' p e hk'
  · intro k1 k2 p1 p2 e1 e2 hk1 hk2 hp
    simp only [StrMap.put] at e1 e2
    split at e1 <;> split at e2
    · rename_i a b; rw [a, b]
    · cases e1
      exact absurd (hp ▸ List.mem_cons_self) (h.sep k2 p2 e2 hk2)
    · cases e2
      exact absurd (hp ▸ List.mem_cons_self) (h.sep k1 p1 e1 hk1)
    · exact h.inj k1 k2 p1 p2 e1 e2 hk1 hk2 hp
  · refine List.nodup_append.mpr ⟨?_, hn.2, ?_⟩
    · cases m k <;> simp
    · intro a ha b hb' e
      obtain ⟨p, e1, e2⟩ := old a ha
      exact h.sep k p e1 hk (List.mem_cons_of_mem _ (by rw [e2, e]; exact hb'))
  · intro j hj
    rcases List.mem_append.mp hj with hj | hj
    · obtain ⟨p, e1, e2⟩ := old j hj
      rw [← e2]; exact h.live k p e1 hk
    · exact h.llive j (List.mem_cons_of_mem _ hj)
  · intro k' p e hk' hm
    simp only [StrMap.put] at e
    split at e
    · cases e
      rcases List.mem_append.mp hm with hj | hj
      · obtain ⟨p, e1, e2⟩ := old _ hj
        exact h.sep k p e1 hk (by rw [e2]; exact List.mem_cons_self)
      · exact hn.1 hj
    · rename_i hne
      rcases List.mem_append.mp hm with hj | hj
      · obtain ⟨q, e1, e2⟩ := old _ hj
        exact hne (h.inj k' k p q e e1 hk' hk e2.symm)
      · exact h.sep k' p e hk' (List.mem_cons_of_mem _ hj)
  · intro j v e
    have e : s.vals j = some v := e
    rcases h.cov j v e with h1 | ⟨k', p, e1, hk', e2⟩
    · rcases List.mem_cons.mp h1 with h1 | h1
      · right; exact ⟨k, (i, n), by simp [StrMap.put], hk, h1.symm⟩
      · left; exact List.mem_append_right _ h1
    · by_cases hkk : k' = k
      · left; subst hkk
        rw [e1]; simp [e2]
      · right; exact ⟨k', p, by simp only [StrMap.put, if_neg hkk]; exact e1, hk', e2⟩

/-- a key is removed; its value goes to the list -/
theorem Inv.remove {k : Str} {b'} (h : Inv Rb s m PH L) (hk : ¬ PH k) (hb : Rb b' (StrMap.put m k none)) :
    Inv Rb (withBack s b') (StrMap.put m k none) PH (((m k).map (·.1)).toList ++ L) := by
  have old : ∀ j, j ∈ ((m k).map (·.1)).toList → ∃ p, m k = some p ∧ p.1 = j := by
    intro j hj
    cases e : m k with
    | none => rw [e] at hj; simp at hj
    | some p => rw [e] at hj; simp at hj; exact ⟨p, rfl, hj.symm⟩
  refine ⟨hb, h.pos, ?_, ?_, ?_, ?_, ?_, h.bound, ?_⟩
  · intro k' p e hk'
    simp only [StrMap.put] at e
    split at e
    · cases e
    · exact h.live k' p e hk'
  · intro k1 k2 p1 p2 e1 e2 hk1 hk2 hp
    simp only [StrMap.put] at e1 e2
    split at e1 <;> split at e2
    · cases e1
    · cases e1
    · cases e2
    · exact h.inj k1 k2 p1 p2 e1 e2 hk1 hk2 hp
  · refine List.nodup_append.mpr ⟨?_, h.nodup, ?_⟩
    · cases m k <;> simp
    · intro a ha b hb' e
      obtain ⟨p, e1, e2⟩ := old a ha
      exact h.sep k p e1 hk (by rw [e2, e]; exact hb')
  · intro j hj
    rcases List.mem_append.mp hj with hj | hj
    · obtain ⟨p, e1, e2⟩ := old j hj
      rw [← e2]; exact h.live k p e1 hk
    · exact h.llive j hj
  · intro k' p e hk' hm
    simp only [StrMap.put] at e
    split at e
    · cases e
    · rename_i hne
      rcases List.mem_append.mp hm with hj | hj
      · obtain ⟨q, e1, e2⟩ := old _ hj
        exact hne (h.inj k' k p q e e1 hk' hk e2.symm)
      · exact h.sep k' p e hk' hj
  · intro j v e
    have e : s.vals j = some v := e
    rcases h.cov j v e with h1 | ⟨k', p, e1, hk', e2⟩
    · left; exact List.mem_append_right _ h1
    · by_cases hkk : k' = k
      · left; subst hkk
        rw [e1]; simp [e2]
      · right; exact ⟨k', p, by simp only [StrMap.put, if_neg hkk]; exact e1, hk', e2⟩

end Sid.Kvs
