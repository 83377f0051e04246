import Verif.Proof.KvsOps
/-
The key-value store: transactions.
-/
namespace Sid.Kvs
open Sid.Spec Sid.Spec.KvStore

variable {σ : Type} {B : Backend σ} {Rb : σ → StrMap.Map → Prop}
variable {s : Store σ} {m : StrMap.Map} {PH : Str → Prop} {L : List Nat}

/-- the values a tracked change owns -/
def ownOf (a : RbArg) : List Nat := if a.hasArch then [] else (a.val.map (·.1)).toList

def own (R : List RbArg) : List Nat := R.flatMap ownOf

theorem own_append (R R' : List RbArg) : own (R ++ R') = own R ++ own R' := by simp [own]

/-- what a set within a transaction does to the map and what it tracks -/
def Did (next : Nat) (m m' : StrMap.Map) (R' : List RbArg) (k : Str) (arch : Option Str) : Prop :=
  (R' = [] ∧ m' = m) ∨
  (∃ id n has, next ≤ id ∧ R' = [⟨k, m k, has, false⟩] ∧ m' = StrMap.put m k (some (id, n))) ∨
  (∃ id n a p, next ≤ id ∧ arch = some a ∧ m k = some p ∧
    R' = [⟨k, m k, true, false⟩, ⟨a, StrMap.put m k (some (id, n)) a, false, true⟩] ∧
    m' = StrMap.put (StrMap.put m k (some (id, n))) a (some p))

theorem archive_trans (BL : Lawful B Rb) {t : Trans} {a : Str} {p : Nat × Nat} (h : Inv Rb s m PH (p.1 :: L))
    (ht : s.trans = some t) (ha : ¬ PH a) :
    ∃ s', archive B s (some a) (some p) true = some s' ∧
      Inv Rb s' (StrMap.put m a (some p)) PH (((m a).map (·.1)).toList ++ L) ∧
      s'.trans = some { t with rollbacks := t.rollbacks ++ [⟨a, m a, false, true⟩] } ∧ s'.vals = s.vals ∧ s'.next = s.next := by
  obtain ⟨v, hv⟩ := h.llive p.1 List.mem_cons_self
  have hid : p.1 ≠ 0 := by have := (h.bound p.1 v hv).1; omega
  obtain ⟨b, e1, e2⟩ := BL.update a (fun _ => StrMap.Act.write p.1 p.2) h.back (by intro o d n e; cases e; exact hid)
  have hst := h.store ha e2
  refine ⟨withBack { s with trans := some { t with rollbacks := t.rollbacks ++ [⟨a, m a, false, true⟩] } } b,
    ?_, ?_, rfl, rfl, rfl⟩
  · simp only [archive, setValue, BL.look _ h.back, Option.bind_some, callSet, dropOld, ht, e1, Option.map_some]
    rfl
  · exact hst.congr rfl rfl rfl

theorem set_trans (BL : Lawful B Rb) {t : Trans} (h : Inv Rb s m PH L) (ht : s.trans = some t) (k : Str) (a f i)
    (hk : ¬ PH (canon k)) (ha : ∀ a', a = some a' → ¬ PH (canon a')) :
    ∃ s' m' R', kvsSet B s k a f i = some (if k = [] then -22 else 0, s') ∧ Inv Rb s' m' PH (own R' ++ L) ∧
      s'.trans = some { t with rollbacks := t.rollbacks ++ R' } ∧
      (∀ k', ¬ PH k' → cont s' m' k' = KvStore.step (cont s m) (.set k a f i) k') ∧
      (∀ j, j < s.next → s'.vals j = s.vals j) ∧ s.next ≤ s'.next ∧ Did s.next m m' R' (canon k) (a.map canon) := by
  simp only [kvsSet, KvStore.step]
  by_cases hk0 : k = []
  · simp only [if_pos hk0]
    exact ⟨s, m, [], rfl, h, by simp [ht], fun _ _ => rfl, fun _ _ => rfl, Nat.le_refl _, .inl ⟨rfl, rfl⟩⟩
  simp only [if_neg hk0, trim_eq]
  have hc := h.create i
  have hv : (create s i).vals s.next = some (createVal i) := if_pos rfl
  have hct : (create s i).trans = s.trans := rfl
  have hcn : (create s i).next = s.next + 1 := rfl
  have hcv : ∀ j, j < s.next → (create s i).vals j = s.vals j := fun j hj => if_neg (Nat.ne_of_lt hj)
  have hcc : ∀ k', ¬ PH k' → cont (create s i) m k' = cont s m k' := by
    intro k' hk'
    apply cont_congr
    intro p e
    exact hcv _ (h.lt e hk')
  have hcck := hcc _ hk
  by_cases hr : (verdict f (cont s m (canon k)) (valueOf i)).1 = 0
  · rw [if_pos hr]
    obtain ⟨s', h1, h2, h3, h4, h5⟩ := hc.setRefused BL (n := valSize i) hv hk f a.isSome false true
      (by rw [hcck, createVal_got]; exact hr)
    refine ⟨s', m, [], ?_, h2, by rw [h3, hct, ht]; simp, ?_, ?_, by omega, .inl ⟨rfl, rfl⟩⟩
    · rw [h1]; simp only [Option.bind_some, archive]
      cases a.map canon <;> rfl
    · intro k' hk'
      rw [← hcc k' hk']
      exact cont_frame hc h4 hk'
    · intro j hj
      rw [h4 j (by omega) (by omega), hcv j hj]
  · rw [if_neg hr]
    obtain ⟨s1, id', n', h1, h2, h3, h4, h5, h6, w, h7, h8⟩ := hc.setKeep BL (n := valSize i) hv hk f a.isSome false true
      (by rw [hcck, createVal_got]; exact hr) (.inr ⟨rfl, by rw [hct, ht]; rfl⟩)
    rw [hct, ht] at h3
    simp only [if_true, Option.map_some] at h3
    have hid : s.next ≤ id' := by rcases h5 with e | e <;> omega
    have hfr : ∀ j, j < s.next → s1.vals j = s.vals j := fun j hj => by
      rw [h4 j (by omega) (by omega), hcv j hj]
    have hcont : ∀ k', ¬ PH k' → cont s1 (StrMap.put m (canon k) (some (id', n'))) k' =
        KvStore.put (cont s m) (canon k) (some (verdict f (cont s m (canon k)) (valueOf i)).2) k' := by
      intro k' hk'
      rw [cont_put (s := s) ?_ h7, h8, hcck, createVal_got]
      intro hne q hq
      exact hfr _ (h.lt hq hk')
    cases a with
    | none =>
      refine ⟨s1, _, [⟨canon k, m (canon k), false, false⟩], ?_, ?_, h3, hcont, hfr, by omega,
        .inr (.inl ⟨id', n', false, hid, rfl, rfl⟩)⟩
      · simp only [Option.isSome_none] at h1 ⊢
        rw [h1]; rfl
      · simpa [own, ownOf] using h2
    | some a =>
      simp only [Option.isSome_some, if_true] at h1 h2 h3 ⊢
      cases e : m (canon k) with
      | none =>
        rw [e] at h1 h2 h3
        have hnone : cont s m (canon k) = none := by simp [cont, e]
        refine ⟨s1, _, [⟨canon k, m (canon k), true, false⟩], ?_, ?_, ?_, ?_, hfr, by omega,
          .inr (.inl ⟨id', n', true, hid, rfl, rfl⟩)⟩
        · rw [h1]; rfl
        · simpa [own, ownOf] using h2
        · rw [h3, e]
        · rw [hnone] at hcont ⊢
          exact hcont
      | some p =>
        rw [e] at h1 h2 h3
        obtain ⟨s2, g1, g2, g3, g4, g5⟩ := archive_trans BL h2 h3 (ha a rfl)
        have hpl := h.lt e hk
        obtain ⟨u, hu⟩ := h.live _ p e hk
        refine ⟨s2, _, [⟨canon k, m (canon k), true, false⟩,
          ⟨canon a, StrMap.put m (canon k) (some (id', n')) (canon a), false, true⟩], ?_, ?_, ?_, ?_, ?_, by omega,
          .inr (.inr ⟨id', n', canon a, p, hid, rfl, e, rfl, rfl⟩)⟩
        · rw [h1]
          simp only [Option.bind_some, Option.map_some]
          rw [g1]; rfl
        · simpa [own, ownOf] using g2
        · rw [g3, e]; simp
        · intro k' hk'
          have hold : cont s m (canon k) = some u.got := by simp [cont, e, hu]
          rw [hold] at hcont ⊢
          simp only [keep]
          rw [cont_put (s := s1) (w := u) (fun _ q _ => by rw [g4]) (by rw [g4, hfr _ hpl, hu]), trim_eq]
          simp only [KvStore.put]
          split
          · rfl
          · have := hcont k' hk'
            simp only [KvStore.put] at this
            exact this
        · intro j hj; rw [g4, hfr j hj]

/-! ### commit -/

/-- a key is to be removed without its value -/
theorem Inv.pend {k : Str} (h : Inv Rb s m PH L) (hk : ¬ PH k) :
    Inv Rb s m (fun k' => PH k' ∨ k' = k) (((m k).map (·.1)).toList ++ L) := by
  have old : ∀ j, j ∈ ((m k).map (·.1)).toList → ∃ p, m k = some p ∧ p.1 = j := by
    intro j hj
    cases e : m k with
    | none => rw [e] at hj; simp at hj
    | some p => rw [e] at hj; simp at hj; exact ⟨p, rfl, hj.symm⟩
  refine ⟨h.back, h.pos, ?_, ?_, ?_, ?_, ?_, h.bound, ?_⟩
  · intro k' p e hk'
    exact h.live k' p e fun hh => hk' (.inl hh)
  · intro k1 k2 p1 p2 e1 e2 hk1 hk2 hp
    exact h.inj k1 k2 p1 p2 e1 e2 (fun hh => hk1 (.inl hh)) (fun hh => hk2 (.inl hh)) hp
  · refine List.nodup_append.mpr ⟨?_, h.nodup, ?_⟩
    · cases m k <;> simp
    · intro a ha b hb' e
      obtain ⟨p, e1, e2⟩ := old a ha
      exact h.sep k p e1 hk (by rw [e2, e]; exact hb')
  · intro j hj
    rcases List.mem_append.mp hj with hj | hj
    · obtain ⟨p, e1, e2⟩ := old j hj
      rw [← e2]; exact h.live k p e1 hk
    · exact h.llive j hj
  · intro k' p e hk' hm
    rcases List.mem_append.mp hm with hj | hj
    · obtain ⟨q, e1, e2⟩ := old _ hj
      exact hk' (.inr (h.inj k' k p q e e1 (fun hh => hk' (.inl hh)) hk e2.symm))
    · exact h.sep k' p e (fun hh => hk' (.inl hh)) hj
  · intro j v e
    rcases h.cov j v e with h1 | ⟨k', p, e1, hk', e2⟩
    · left; exact List.mem_append_right _ h1
    · by_cases hkk : k' = k
      · left; subst hkk
        rw [e1]; simp [e2]
      · right; exact ⟨k', p, e1, fun hh => hh.elim hk' hkk, e2⟩

theorem Inv.ph {PH' : Str → Prop} (h : Inv Rb s m PH L) (e : ∀ k, PH' k ↔ PH k) : Inv Rb s m PH' L := by
  have : PH' = PH := funext fun k => propext (e k)
  rw [this]; exact h

theorem unset_trans (BL : Lawful B Rb) {t : Trans} (h : Inv Rb s m PH L) (ht : s.trans = some t) (k : Str) (a f)
    (hk : ¬ PH (canon k)) (ha : ∀ a', a = some a' → ¬ PH (canon a') ∧ canon a' ≠ canon k) :
    ∃ s' m' U' L' PH', kvsUnset B s k a f = some (if k = [] then -22 else 0, s') ∧
      Inv Rb s' m' PH' (L' ++ L) ∧
      s'.trans = some { t with unsets := t.unsets ++ U' } ∧
      (∀ k', PH' k' ↔ PH k' ∨ ∃ u ∈ U', u.key = k' ∧ u.hasArch = true) ∧
      (∀ u ∈ U', u.key = canon k) ∧ U'.length ≤ 1 ∧
      (∀ k', k' ∉ U'.map (·.key) → ¬ PH k' → cont s' m' k' = KvStore.step (cont s m) (.unset k a f) k') ∧
      (∀ u ∈ U', KvStore.step (cont s m) (.unset k a f) u.key = none) ∧
      ((a = none ∧ ∀ o, unsetVerdict f o = 0 ∨ unsetVerdict f o = 1) →
        m' = m ∧ s'.vals = s.vals ∧ s'.next = s.next ∧ L' = [] ∧ ∀ k', PH' k' ↔ PH k') ∧
      ((∀ o, unsetVerdict f o = 0 ∨ unsetVerdict f o = 1) → L' = []) := by
  simp only [kvsUnset, KvStore.step]
  by_cases hk0 : k = []
  · simp only [if_pos hk0]
    exact ⟨s, m, [], [], PH, rfl, h, by simp [ht], by simp, by simp, by simp, fun _ _ _ => rfl, by simp, by simp, fun _ => rfl⟩
  simp only [if_neg hk0, trim_eq]
  have hu := h.callUnset hk f
  by_cases h0 : unsetVerdict f (cont s m (canon k)) = 0
  · obtain ⟨b, e1, e2⟩ := BL.update (canon k) (fun _ => StrMap.Act.skip) h.back (by simp)
    refine ⟨withBack s b, m, [], [], PH, ?_, ?_, by simp [withBack, ht], by simp, by simp, by simp, ?_, by simp, ?_, fun _ => rfl⟩
    · simp only [unsetValue, BL.look _ h.back, Option.bind_some, hu, h0, e1, Option.map_some]
      simp only [Int.zero_ne_one, if_false, if_true, Option.bind_some, archive]
      cases a.map canon <;> rfl
    · exact ⟨e2, h.pos, h.live, h.inj, h.nodup, h.llive, h.sep, h.bound, h.cov⟩
    · intro k' _ _; rw [if_pos h0]; rfl
    · intro _; exact ⟨rfl, rfl, rfl, rfl, fun _ => Iff.rfl⟩
  · by_cases h1 : unsetVerdict f (cont s m (canon k)) = 1
    · obtain ⟨b, e1, e2⟩ := BL.update (canon k) (fun _ => StrMap.Act.skip) h.back (by simp)
      have e2 : Rb b m := e2
      cases a with
      | none =>
        refine ⟨withBack { s with trans := some { t with unsets := t.unsets ++ [⟨canon k, false⟩] } } b, m, [⟨canon k, false⟩],
          [], PH, ?_, ?_, rfl, by simp, by simp, by simp, ?_, ?_, ?_, fun _ => rfl⟩
        · simp only [unsetValue, BL.look _ h.back, Option.bind_some, hu, h1, ht, Option.isSome_none, if_true, e1,
            Option.map_some]
          rfl
        · exact ⟨e2, h.pos, h.live, h.inj, h.nodup, h.llive, h.sep, h.bound, h.cov⟩
        · intro k' hk' _
          simp only [List.map_cons, List.map_nil, List.mem_singleton] at hk'
          rw [if_neg h0, if_pos h1]
          simp only [keep, KvStore.put, if_neg hk']
          rfl
        · intro u hu'
          simp only [List.mem_singleton] at hu'
          rw [if_neg h0, if_pos h1, hu']
          simp [keep, KvStore.put]
        · intro _; exact ⟨rfl, rfl, rfl, rfl, fun _ => Iff.rfl⟩
      | some a =>
        obtain ⟨ha1, ha2⟩ := ha a rfl
        have hp := h.pend hk
        let s1 : Store σ := withBack { s with trans := some { t with unsets := t.unsets ++ [⟨canon k, true⟩] } } b
        have hp1 : Inv Rb s1 m (fun k' => PH k' ∨ k' = canon k) (((m (canon k)).map (·.1)).toList ++ L) :=
          ⟨e2, hp.pos, hp.live, hp.inj, hp.nodup, hp.llive, hp.sep, hp.bound, hp.cov⟩
        have hcall : unsetValue B s (canon k) f true true = some (s1, m (canon k)) := by
          simp only [unsetValue, BL.look _ h.back, Option.bind_some, hu, h1, ht, if_true, e1, Option.map_some]
          rfl
        have hPH : ∀ k', (PH k' ∨ k' = canon k) ↔ PH k' ∨ ∃ u ∈ [(⟨canon k, true⟩ : UnsetArg)], u.key = k' ∧ u.hasArch = true := by
          intro k'
          constructor
          · rintro (hh | hh)
            · exact .inl hh
            · exact .inr ⟨_, List.mem_singleton.mpr rfl, hh.symm, rfl⟩
          · rintro (hh | ⟨u, hu', hh, _⟩)
            · exact .inl hh
            · rw [List.mem_singleton] at hu'; subst hu'; exact .inr hh.symm
        cases e : m (canon k) with
        | none =>
          rw [e] at hp1 hcall
          refine ⟨s1, m, [⟨canon k, true⟩], [], _, ?_, hp1, rfl, hPH, by simp, by simp, ?_, ?_, by simp, fun _ => rfl⟩
          · simp only [Option.isSome_some, hcall, Option.bind_some]; rfl
          · intro k' hk' _
            simp only [List.map_cons, List.map_nil, List.mem_singleton] at hk'
            rw [if_neg h0, if_pos h1]
            have : cont s m (canon k) = none := by simp [cont, e]
            simp only [this, keep, KvStore.put, if_neg hk']
            rfl
          · intro u hu'
            simp only [List.mem_singleton] at hu'
            rw [if_neg h0, if_pos h1, hu']
            have : cont s m (canon k) = none := by simp [cont, e]
            simp [this, keep, KvStore.put]
        | some p =>
          rw [e] at hp1 hcall
          obtain ⟨v, hv⟩ := h.live _ p e hk
          have hp1 : Inv Rb s1 m (fun k' => PH k' ∨ k' = canon k) (p.1 :: L) := hp1
          obtain ⟨s2, id', n', g1, g2, g3, g4, g5, g6, w, g7, g8⟩ := hp1.setDrop BL (n := p.2) (v := v) hv
            (fun hh => hh.elim ha1 ha2) none true false (by simp [verdict]) (.inl rfl)
          refine ⟨s2, _, [⟨canon k, true⟩], [], _, ?_, g2, by rw [g3]; rfl, hPH, by simp, by simp, ?_, ?_, by simp, fun _ => rfl⟩
          · simp only [Option.isSome_some, hcall, Option.bind_some, Option.map_some, archive, g1]
          · intro k' hk' hk''
            simp only [List.map_cons, List.map_nil, List.mem_singleton] at hk'
            rw [if_neg h0, if_pos h1]
            have hold : cont s m (canon k) = some v.got := by simp [cont, e, hv]
            simp only [hold, keep]
            rw [cont_put (s := s1) ?_ g7, g8, trim_eq]
            · simp only [KvStore.put, if_neg hk', verdict]
              rfl
            · intro hne q hq
              have hnp : ¬ (PH k' ∨ k' = canon k) := fun hh => hh.elim hk'' hk'
              apply g4 _ _ (hp1.lt hq hnp)
              · cases e' : m (canon a) with
                | none => simp
                | some r =>
                  simp only [Option.map_some, ne_eq, Option.some.injEq]
                  exact fun e2 => hne (h.inj _ _ _ _ hq e' hk'' ha1 e2)
              · intro e'
                exact hp1.sep _ _ hq hnp (by rw [e']; exact List.mem_cons_self)
          · intro u hu'
            simp only [List.mem_singleton] at hu'
            rw [if_neg h0, if_pos h1, hu']
            have hold : cont s m (canon k) = some v.got := by simp [cont, e, hv]
            simp only [hold, keep, KvStore.put, trim_eq]
            rw [if_neg (Ne.symm ha2)]; simp
    · obtain ⟨b, e1, e2⟩ := BL.update (canon k) (fun _ => StrMap.Act.remove) h.back (by simp)
      have hr := h.remove hk e2
      refine ⟨withBack s b, _, [], _, PH, ?_, hr, by simp [withBack, ht], by simp, by simp, by simp, ?_, by simp, ?_, ?_⟩
      · simp only [unsetValue, BL.look _ h.back, Option.bind_some, hu, if_neg h1, if_neg h0, e1, Option.map_some]
        simp only [archive]
        cases a.map canon <;> rfl
      · intro k' _ _
        rw [if_neg h0, if_neg h1, cont_remove]
      · rintro ⟨_, hh⟩
        rcases hh (cont s m (canon k)) with e | e
        · exact absurd e h0
        · exact absurd e h1
      · intro hh
        rcases hh (cont s m (canon k)) with e | e
        · exact absurd e h0
        · exact absurd e h1

end Sid.Kvs
