import Verif.Proof.Kvs
/-
The key-value store: set and unset of one value.
-/
namespace Sid.Kvs
open Sid.Spec Sid.Spec.KvStore

variable {σ : Type} {B : Backend σ} {Rb : σ → StrMap.Map → Prop}
variable {s : Store σ} {m : StrMap.Map} {PH : Str → Prop} {L : List Nat}

theorem Inv.seen (h : Inv Rb s m PH L) {k} (hk : ¬ PH k) : Kvs.seen s ((m k).map (·.1)) = some (cont s m k) := by
  cases e : m k with
  | none => simp [Kvs.seen, cont, e]
  | some p =>
    obtain ⟨v, hv⟩ := h.live k p e hk
    simp [Kvs.seen, cont, e, hv]

theorem Inv.setVal {id : Nat} (h : Inv Rb s m PH (id :: L)) (v : Val) :
    Inv Rb { s with vals := fun j => if j = id then some v else s.vals j } m PH (id :: L) := by
  obtain ⟨w, hw⟩ := h.llive id List.mem_cons_self
  refine ⟨h.back, h.pos, ?_, h.inj, h.nodup, ?_, h.sep, ?_, ?_⟩
  · intro k p e hk
    obtain ⟨u, hu⟩ := h.live k p e hk
    by_cases hj : p.1 = id
    · exact ⟨v, if_pos hj⟩
    · exact ⟨u, by simp only [if_neg hj]; exact hu⟩
  · intro j hj
    obtain ⟨u, hu⟩ := h.llive j hj
    by_cases hj : j = id
    · exact ⟨v, if_pos hj⟩
    · exact ⟨u, by simp only [if_neg hj]; exact hu⟩
  · intro j u e
    by_cases hj : j = id
    · rw [hj]; exact h.bound id w hw
    · simp only [if_neg hj] at e; exact h.bound j u e
  · intro j u e
    by_cases hj : j = id
    · left; simp [hj]
    · simp only [if_neg hj] at e; exact h.cov j u e

theorem inPlace_got {v : Val} {i : Input} (e : inPlace v i = true) :
    ({ v with payload := .refd i.ptr } : Val).got = valueOf i := by
  simp only [inPlace, Bool.and_eq_true, beq_iff_eq, Bool.not_eq_true', Input.bytes] at e
  obtain ⟨⟨⟨⟨⟨h1, h2⟩, h3⟩, h4⟩, h5⟩, h6⟩ := e
  simp only [Val.got, valueOf, h1, h2, h3, ← h5, h4, h6]
  cases i.vec <;> rfl

/-- effect of the callback on the new value `id` -/
theorem Inv.edit {id n : Nat} {v : Val} (h : Inv Rb s m PH (id :: L)) (hv : s.vals id = some v) (i : Input) :
    ∃ s' id' n', edit s id n v i = some (s', id', n') ∧ Inv Rb s' m PH (id' :: L) ∧ s'.trans = s.trans ∧ s'.back = s.back ∧
      (∀ j, j ≠ id → j < s.next → s'.vals j = s.vals j) ∧ (id' = id ∨ s.next ≤ id') ∧ s.next ≤ s'.next ∧
      ∃ w, s'.vals id' = some w ∧ w.got = valueOf i := by
  simp only [Kvs.edit]
  by_cases hp : inPlace v i = true
  · rw [if_pos hp]
    exact ⟨_, _, _, rfl, h.setVal _, rfl, rfl, fun j hj _ => if_neg hj, .inl rfl, Nat.le_refl _,
      { v with payload := .refd i.ptr }, if_pos rfl, inPlace_got hp⟩
  · rw [if_neg hp]
    have hlt := (h.bound id v hv).2
    obtain ⟨s', h1, h2, h3, h4, h5, h6⟩ := Inv.destroy ((h.create i).perm (List.Perm.swap ..))
    refine ⟨s', s.next, valSize i, by rw [h1]; rfl, h2, by rw [h3]; rfl, by rw [h4]; rfl, ?_, .inr (Nat.le_refl _), ?_, ?_⟩
    · intro j hj hlt
      rw [h6 j hj]
      exact if_neg (by omega)
    · rw [h5]; exact Nat.le_succ _
    · refine ⟨createVal i, ?_, createVal_got i⟩
      rw [h6 _ (by omega)]; exact if_pos rfl

theorem Inv.callSet {id n : Nat} {v : Val} {k : Str} (h : Inv Rb s m PH (id :: L)) (hv : s.vals id = some v) (hk : ¬ PH k)
    (fn : Option SetFn) :
    ∃ s' r id' n', callSet s fn ((m k).map (·.1)) id n = some (s', r, id', n') ∧ Inv Rb s' m PH (id' :: L) ∧
      s'.trans = s.trans ∧ s'.back = s.back ∧
      (∀ j, j ≠ id → j < s.next → s'.vals j = s.vals j) ∧ (id' = id ∨ s.next ≤ id') ∧ s.next ≤ s'.next ∧
      r = (verdict fn (cont s m k) v.got).1 ∧
      ∃ w, s'.vals id' = some w ∧ w.got = (verdict fn (cont s m k) v.got).2 := by
  simp only [Kvs.callSet, verdict]
  cases fn with
  | none => exact ⟨s, 1, id, n, rfl, h, rfl, rfl, fun _ _ _ => rfl, .inl rfl, Nat.le_refl _, rfl, v, hv, rfl⟩
  | some f =>
    simp only [h.seen hk, hv]
    rcases hf : f (cont s m k) v.got with ⟨r, _ | i⟩
    · exact ⟨s, r, id, n, rfl, h, rfl, rfl, fun _ _ _ => rfl, .inl rfl, Nat.le_refl _, rfl, v, hv, rfl⟩
    · by_cases hr : r > 0
      · obtain ⟨s', id', n', h1, h2, h3, h4, h5, h6, h7, h8⟩ := h.edit (n := n) hv i
        refine ⟨s', r, id', n', ?_, h2, h3, h4, h5, h6, h7, rfl, ?_⟩
        · simp only [if_pos hr, h1, Option.map_some]
        · simp only [if_pos hr]; exact h8
      · refine ⟨s, r, id, n, ?_, h, rfl, rfl, fun _ _ _ => rfl, .inl rfl, Nat.le_refl _, rfl, v, hv, ?_⟩
        · simp only [if_neg hr]
        · simp only [if_neg hr]

theorem cont_frame {s' : Store σ} {id : Nat} (h : Inv Rb s m PH (id :: L))
    (hf : ∀ j, j ≠ id → j < s.next → s'.vals j = s.vals j) {k} (hk : ¬ PH k) : cont s' m k = cont s m k := by
  apply cont_congr
  intro p e
  apply hf _ _ (h.lt e hk)
  intro e'
  exact h.sep k p e hk (by rw [e']; exact List.mem_cons_self)

/-- the callback refuses -/
theorem Inv.setRefused (BL : Lawful B Rb) {id n : Nat} {v : Val} {k : Str} (h : Inv Rb s m PH (id :: L))
    (hv : s.vals id = some v) (hk : ¬ PH k) (fn : Option SetFn) (hasArch isArch useRb : Bool)
    (hr : (verdict fn (cont s m k) v.got).1 = 0) :
    ∃ s', setValue B s k id n fn hasArch isArch useRb = some (s', none, none) ∧ Inv Rb s' m PH L ∧ s'.trans = s.trans ∧
      (∀ j, j ≠ id → j < s.next → s'.vals j = s.vals j) ∧ s.next ≤ s'.next := by
  obtain ⟨s1, r, id', n', h1, h2, h3, h4, h5, h6, h7, h8, w, h9, h10⟩ := h.callSet (n := n) hv hk fn
  obtain ⟨s2, g1, g2, g3, g4, g5, g6⟩ := h2.destroy
  obtain ⟨b, e1, e2⟩ := BL.update k (fun _ => StrMap.Act.skip) g2.back (by simp)
  refine ⟨withBack s2 b, ?_, ?_, ?_, ?_, ?_⟩
  · simp only [setValue, BL.look k h.back, Option.bind_some, h1, h8, hr, if_true, g1, e1, Option.map_some]
  · exact ⟨e2, g2.pos, g2.live, g2.inj, g2.nodup, g2.llive, g2.sep, g2.bound, g2.cov⟩
  · simp only [withBack]; rw [g3, h3]
  · intro j hj hlt
    have : j ≠ id' := by rcases h6 with rfl | h6 <;> omega
    simp only [withBack]
    rw [g6 j this, h5 j hj hlt]
  · simp only [withBack]; omega

/-- the callback accepts: the old value is tracked or to be archived -/
theorem Inv.setKeep (BL : Lawful B Rb) {id n : Nat} {v : Val} {k : Str} (h : Inv Rb s m PH (id :: L))
    (hv : s.vals id = some v) (hk : ¬ PH k) (fn : Option SetFn) (hasArch isArch useRb : Bool)
    (hr : (verdict fn (cont s m k) v.got).1 ≠ 0) (hkeep : hasArch = true ∨ (useRb = true ∧ s.trans.isSome = true)) :
    ∃ s' id' n', setValue B s k id n fn hasArch isArch useRb = some (s', some id', if hasArch then m k else none) ∧
      Inv Rb s' (StrMap.put m k (some (id', n'))) PH (((m k).map (·.1)).toList ++ L) ∧
      s'.trans = (if useRb then s.trans.map fun t => { t with rollbacks := t.rollbacks ++ [⟨k, m k, hasArch, isArch⟩] } else s.trans) ∧
      (∀ j, j ≠ id → j < s.next → s'.vals j = s.vals j) ∧ (id' = id ∨ s.next ≤ id') ∧ s.next ≤ s'.next ∧
      ∃ w, s'.vals id' = some w ∧ w.got = (verdict fn (cont s m k) v.got).2 := by
  obtain ⟨s1, r, id', n', h1, h2, h3, h4, h5, h6, h7, h8, w, h9, h10⟩ := h.callSet (n := n) hv hk fn
  have hid : id' ≠ 0 := by have := (h2.bound id' w h9).1; omega
  obtain ⟨b, e1, e2⟩ := BL.update k (fun _ => StrMap.Act.write id' n') h2.back (by intro o d n e; cases e; exact hid)
  have hst := h2.store hk e2
  have hd : ∃ s2, dropOld s1 k (m k) hasArch isArch useRb = some s2 ∧ s2.back = s1.back ∧ s2.vals = s1.vals ∧
      s2.next = s1.next ∧ s2.trans = (if useRb then s.trans.map fun t => { t with rollbacks := t.rollbacks ++ [⟨k, m k, hasArch, isArch⟩] } else s.trans) := by
    simp only [dropOld, h3]
    cases ht : s.trans with
    | none =>
      have : hasArch = true := by
        rcases hkeep with e | e
        · exact e
        · rw [ht] at e; simp at e
      refine ⟨s1, by simp [this], rfl, rfl, rfl, ?_⟩
      rw [h3, ht]; cases useRb <;> rfl
    | some t =>
      cases useRb with
      | true => exact ⟨_, rfl, rfl, rfl, rfl, rfl⟩
      | false =>
        have : hasArch = true := by
          rcases hkeep with e | e
          · exact e
          · simp at e
        exact ⟨s1, by simp [this], rfl, rfl, rfl, by rw [h3, ht]; rfl⟩
  obtain ⟨s2, d1, d2, d3, d4, d5⟩ := hd
  refine ⟨withBack s2 b, id', n', ?_, ?_, d5, ?_, h6, by simp only [withBack]; omega, w, ?_, h10⟩
  · simp only [setValue, BL.look k h.back, Option.bind_some, h1, h8, if_neg hr, d1, d2, e1, Option.map_some]
  · exact hst.congr rfl (by simp only [withBack]; exact d3) (by simp only [withBack]; exact d4)
  · intro j hj hlt
    simp only [withBack]
    rw [d3, h5 j hj hlt]
  · simp only [withBack]; rw [d3, h9]

/-- the callback accepts and the old value is destroyed -/
theorem Inv.setDrop (BL : Lawful B Rb) {id n : Nat} {v : Val} {k : Str} (h : Inv Rb s m PH (id :: L))
    (hv : s.vals id = some v) (hk : ¬ PH k) (fn : Option SetFn) (isArch useRb : Bool)
    (hr : (verdict fn (cont s m k) v.got).1 ≠ 0) (hdrop : useRb = false ∨ s.trans = none) :
    ∃ s' id' n', setValue B s k id n fn false isArch useRb = some (s', some id', none) ∧
      Inv Rb s' (StrMap.put m k (some (id', n'))) PH L ∧ s'.trans = s.trans ∧
      (∀ j, j ≠ id → j < s.next → some j ≠ (m k).map (·.1) → s'.vals j = s.vals j) ∧ (id' = id ∨ s.next ≤ id') ∧
      s.next ≤ s'.next ∧ ∃ w, s'.vals id' = some w ∧ w.got = (verdict fn (cont s m k) v.got).2 := by
  obtain ⟨s1, r, id', n', h1, h2, h3, h4, h5, h6, h7, h8, w, h9, h10⟩ := h.callSet (n := n) hv hk fn
  have hid : id' ≠ 0 := by have := (h2.bound id' w h9).1; omega
  obtain ⟨b, e1, e2⟩ := BL.update k (fun _ => StrMap.Act.write id' n') h2.back (by intro o d n e; cases e; exact hid)
  have hst := h2.store hk e2
  obtain ⟨s2, g1, g2, g3, g4, g5, g6⟩ := hst.destroy?
  -- destroying before or after the update is the same
  have hne : ∀ p, m k = some p → p.1 ≠ id' := fun p e e' => h2.sep k p e hk (by rw [e']; exact List.mem_cons_self)
  have hcom : ∃ s3, Kvs.destroy? s1 ((m k).map (·.1)) = some s3 ∧ s3.back = s1.back ∧ withBack s3 b = s2 := by
    cases e : m k with
    | none =>
      rw [e] at g1
      simp only [Option.map_none, Kvs.destroy?] at g1 ⊢
      cases g1
      exact ⟨s1, rfl, rfl, rfl⟩
    | some p =>
      rw [e] at g1
      simp only [Option.map_some, Kvs.destroy?, Kvs.destroy, withBack] at g1 ⊢
      cases hv' : s1.vals p.1 with
      | none => rw [hv'] at g1; cases g1
      | some u =>
        rw [hv'] at g1
        cases g1
        exact ⟨{ s1 with vals := fun j => if j = p.1 then none else s1.vals j, freed := s1.freed ++ freedBy u }, rfl, rfl, rfl⟩
  obtain ⟨s3, c1, c2, c3⟩ := hcom
  have hd : dropOld s1 k (m k) false isArch useRb = some s3 := by
    simp only [dropOld, h3]
    rcases hdrop with e | e
    · subst e; cases s.trans <;> simpa using c1
    · rw [e]; cases useRb <;> simpa using c1
  refine ⟨s2, id', n', ?_, g2, ?_, ?_, h6, ?_, w, ?_, h10⟩
  · simp only [setValue, BL.look k h.back, Option.bind_some, h1, h8, if_neg hr, hd, c2, e1, Option.map_some, c3]
    rfl
  · rw [g3]; simp only [withBack]; exact h3
  · intro j hj hlt hjo
    rw [g6 j hjo]
    simp only [withBack]
    exact h5 j hj hlt
  · rw [g5]; simp only [withBack]; exact h7
  · rw [g6]
    · exact h9
    · cases e : m k with
      | none => simp
      | some p => simp only [Option.map_some]; intro e'; cases e'; exact hne p e rfl

theorem cont_put {s' : Store σ} {k : Str} {id' n' : Nat} {w : Val} {k' : Str}
    (hf : k' ≠ k → ∀ p, m k' = some p → s'.vals p.1 = s.vals p.1) (hw : s'.vals id' = some w) :
    cont s' (StrMap.put m k (some (id', n'))) k' = KvStore.put (cont s m) k (some w.got) k' := by
  simp only [KvStore.put]
  by_cases e : k' = k
  · simp [cont, StrMap.put, e, hw]
  · rw [if_neg e]
    simp only [cont, StrMap.put, if_neg e]
    cases hk : m k' with
    | none => rfl
    | some p => simp [hf e p hk]

/-- what a set callback decides does not depend on where the value is kept -/
theorem verdict_none (o : Option Got) (g : Got) : verdict none o g = (1, g) := rfl

/-! ### outside of transactions -/

/-- no key waits for its removal -/
abbrev free : Str → Prop := fun _ => False

theorem notFree (k : Str) : ¬ free k := fun h => h

/-- old value under the archive key -/
theorem archive_free (BL : Lawful B Rb) {a : Option Str} {o : Option (Nat × Nat)} {useRb : Bool}
    (h : Inv Rb s m free ((o.map (·.1)).toList ++ L)) (ha : a.isSome = true ∨ o = none) (ht : s.trans = none ∨ useRb = false) :
    ∃ s' m', archive B s (a.map canon) o useRb = some s' ∧ Inv Rb s' m' free L ∧ s'.trans = s.trans ∧
      ∀ g, (o.bind fun p => (s.vals p.1).map Val.got) = g → cont s' m' = keep (cont s m) a g := by
  cases o with
  | none =>
    refine ⟨s, m, by cases a <;> rfl, h, rfl, ?_⟩
    rintro g rfl
    simp [keep]
  | some p =>
    cases a with
    | none => simp at ha
    | some a =>
      obtain ⟨v, hv⟩ := h.llive p.1 (by simp)
      have h' : Inv Rb s m free (p.1 :: L) := h
      obtain ⟨s', id', n', h1, h2, h3, h4, h5, h6, w, h7, h8⟩ :=
        h'.setDrop BL (n := p.2) hv (notFree (canon a)) none true useRb (by simp [verdict]) ht.symm
      refine ⟨s', _, ?_, h2, h3, ?_⟩
      · simp only [archive, Option.map_some, h1]
      · rintro g rfl
        simp only [Option.bind_some, hv, Option.map_some, keep]
        funext k'
        rw [cont_put (s := s) ?_ h7, h8, trim_eq]
        · rfl
        · intro hne q hq
          apply h4 _ _ (h'.lt hq (notFree _))
          · cases e : m (canon a) with
            | none => simp
            | some r =>
              simp only [Option.map_some, ne_eq, Option.some.injEq]
              exact fun e' => hne (h'.inj _ _ _ _ hq e (notFree _) (notFree _) e')
          · intro e'
            exact h'.sep _ _ hq (notFree _) (by rw [e']; exact List.mem_cons_self)

theorem set_free (BL : Lawful B Rb) (h : Inv Rb s m free L) (ht : s.trans = none) (k : Str) (a f i) :
    ∃ s' m' , kvsSet B s k a f i = some (if k = [] then -22 else 0, s') ∧ Inv Rb s' m' free L ∧ s'.trans = none ∧
      cont s' m' = KvStore.step (cont s m) (.set k a f i) := by
  simp only [kvsSet, KvStore.step]
  by_cases hk : k = []
  · simp only [if_pos hk]
    exact ⟨s, m, rfl, h, ht, rfl⟩
  · simp only [if_neg hk, trim_eq]
    have hc := h.create i
    have hv : (create s i).vals s.next = some (createVal i) := if_pos rfl
    have hct : (create s i).trans = s.trans := rfl
    have hcc : cont (create s i) m = cont s m := by
      funext k'
      apply cont_congr
      intro p e
      exact if_neg (Nat.ne_of_lt (h.lt e (notFree _)))
    have hval : ∀ k', k' ≠ canon k → ∀ p, m k' = some p → p.1 ≠ s.next ∧ p.1 < (create s i).next :=
      fun k' _ p e => ⟨Nat.ne_of_lt (h.lt e (notFree _)), Nat.lt_succ_of_lt (h.lt e (notFree _))⟩
    by_cases hr : (verdict f (cont s m (canon k)) (valueOf i)).1 = 0
    · rw [if_pos hr]
      obtain ⟨s', h1, h2, h3, h4, h5⟩ := hc.setRefused BL (n := valSize i) hv (notFree (canon k)) f a.isSome false true
        (by rw [hcc, createVal_got]; exact hr)
      refine ⟨s', m, ?_, h2, by rw [h3, hct, ht], ?_⟩
      · rw [h1]; simp only [Option.bind_some, archive]
        cases a.map canon <;> rfl
      · rw [← hcc]
        funext k'
        exact cont_frame hc h4 (notFree _)
    · rw [if_neg hr]
      cases a with
      | none =>
        obtain ⟨s', id', n', h1, h2, h3, h4, h5, h6, w, h7, h8⟩ := hc.setDrop BL (n := valSize i) hv (notFree (canon k)) f false
          true (by rw [hcc, createVal_got]; exact hr) (.inr (by rw [hct, ht]))
        refine ⟨s', _, ?_, h2, by rw [h3, hct, ht], ?_⟩
        · simp only [Option.isSome_none]
          rw [h1]; rfl
        · simp only [keep]
          funext k'
          rw [cont_put (s := create s i) ?_ h7, h8, hcc, createVal_got]
          intro hne q hq
          apply h4 _ (hval k' hne q hq).1 (hval k' hne q hq).2
          cases e : m (canon k) with
          | none => simp
          | some r =>
            simp only [Option.map_some, ne_eq, Option.some.injEq]
            exact fun e' => hne (h.inj _ _ _ _ hq e (notFree _) (notFree _) e')
      | some a =>
        obtain ⟨s1, id', n', h1, h2, h3, h4, h5, h6, w, h7, h8⟩ := hc.setKeep BL (n := valSize i) hv (notFree (canon k)) f true
          false true (by rw [hcc, createVal_got]; exact hr) (.inl rfl)
        have ht1 : s1.trans = none := by rw [h3, hct, ht]; rfl
        obtain ⟨s2, m2, g1, g2, g3, g4⟩ := archive_free BL (a := some a) h2 (.inl rfl) (useRb := true) (.inl ht1)
        refine ⟨s2, m2, ?_, g2, by rw [g3, ht1], ?_⟩
        · simp only [Option.isSome_some]
          rw [h1]
          simp only [if_true, Option.bind_some]
          rw [g1]; rfl
        · rw [g4 (cont s m (canon k))]
          · congr 1
            funext k'
            rw [cont_put (s := create s i) ?_ h7, h8, hcc, createVal_got]
            intro hne q hq
            exact h4 _ (hval k' hne q hq).1 (hval k' hne q hq).2
          · simp only [cont]
            cases e : m (canon k) with
            | none => rfl
            | some r =>
              have hl := h.lt e (notFree _)
              have hne : r.1 ≠ s.next := Nat.ne_of_lt hl
              simp only [Option.bind_some]
              rw [h4 r.1 hne (Nat.lt_succ_of_lt hl)]
              have : (create s i).vals r.1 = s.vals r.1 := if_neg hne
              rw [this]

theorem Inv.callUnset (h : Inv Rb s m PH L) {k} (hk : ¬ PH k) (fn : Option UnsetFn) :
    callUnset s fn ((m k).map (·.1)) = some (unsetVerdict fn (cont s m k)) := by
  cases fn with
  | none => rfl
  | some f => simp only [Kvs.callUnset, h.seen hk, Option.map_some, unsetVerdict]

theorem cont_remove {k : Str} {b' : σ} : cont (withBack s b') (StrMap.put m k none) = KvStore.put (cont s m) k none := by
  funext k'
  simp only [cont, KvStore.put, StrMap.put, withBack]
  split <;> rfl

/-- the value of a removed key is destroyed -/
theorem Inv.drop (BL : Lawful B Rb) (h : Inv Rb s m PH L) {k} (hk : ¬ PH k) :
    ∃ s2 b, Kvs.destroy? s ((m k).map (·.1)) = some s2 ∧ B.update s2.back k (fun _ => .remove) = some b ∧
      Inv Rb (withBack s2 b) (StrMap.put m k none) PH L ∧ s2.trans = s.trans ∧ s2.next = s.next ∧
      (∀ j, some j ≠ (m k).map (·.1) → s2.vals j = s.vals j) := by
  obtain ⟨b, e1, e2⟩ := BL.update k (fun _ => StrMap.Act.remove) h.back (by simp)
  have hr := h.remove hk e2
  obtain ⟨s2, g1, g2, g3, g4, g5, g6⟩ := hr.destroy?
  cases e : m k with
  | none =>
    rw [e] at g1
    simp only [Option.map_none, Kvs.destroy?] at g1
    cases g1
    exact ⟨s, b, rfl, e1, g2, rfl, rfl, fun _ _ => rfl⟩
  | some p =>
    rw [e] at g1
    simp only [Option.map_some, Kvs.destroy?, Kvs.destroy, withBack] at g1 ⊢
    cases hv' : s.vals p.1 with
    | none => rw [hv'] at g1; cases g1
    | some u =>
      rw [hv'] at g1
      cases g1
      refine ⟨{ s with vals := fun j => if j = p.1 then none else s.vals j, freed := s.freed ++ freedBy u }, b, rfl, e1, g2,
        rfl, rfl, fun j hj => if_neg fun e' => hj (by rw [e'])⟩

theorem cont_drop {s2 : Store σ} (h : Inv Rb s m PH L) {k : Str} (hk : ¬ PH k) {b' : σ}
    (hf : ∀ j, some j ≠ (m k).map (·.1) → s2.vals j = s.vals j) {k'} (hk' : ¬ PH k') :
    cont (withBack s2 b') (StrMap.put m k none) k' = KvStore.put (cont s m) k none k' := by
  simp only [cont, KvStore.put, StrMap.put, withBack]
  split
  · rfl
  · rename_i hne
    cases e : m k' with
    | none => rfl
    | some p =>
      simp only [Option.bind_some]
      rw [hf]
      cases e' : m k with
      | none => simp
      | some q =>
        simp only [Option.map_some, ne_eq, Option.some.injEq]
        exact fun e2 => hne (h.inj _ _ _ _ e e' hk' hk e2)

/-- `L` grows only if a callback answers neither yes nor no -/
theorem unset_free (BL : Lawful B Rb) (h : Inv Rb s m free L) (ht : s.trans = none) (k : Str) (a f) :
    ∃ s' m' L', kvsUnset B s k a f = some (if k = [] then -22 else 0, s') ∧ Inv Rb s' m' free L' ∧ s'.trans = none ∧
      cont s' m' = KvStore.step (cont s m) (.unset k a f) ∧
      ((∀ o, unsetVerdict f o = 0 ∨ unsetVerdict f o = 1) → L' = L) := by
  simp only [kvsUnset, KvStore.step]
  by_cases hk : k = []
  · simp only [if_pos hk]
    exact ⟨s, m, L, rfl, h, ht, rfl, fun _ => rfl⟩
  · simp only [if_neg hk, trim_eq]
    have hu := h.callUnset (notFree (canon k)) f
    by_cases h0 : unsetVerdict f (cont s m (canon k)) = 0
    · obtain ⟨b, e1, e2⟩ := BL.update (canon k) (fun _ => StrMap.Act.skip) h.back (by simp)
      refine ⟨withBack s b, m, L, ?_, ?_, ht, ?_, fun _ => rfl⟩
      · simp only [unsetValue, BL.look _ h.back, Option.bind_some, hu, h0, e1, Option.map_some]
        simp only [Int.zero_ne_one, if_false, if_true, Option.bind_some, archive]
        cases a.map canon <;> rfl
      · exact ⟨e2, h.pos, h.live, h.inj, h.nodup, h.llive, h.sep, h.bound, h.cov⟩
      · rw [if_pos h0]; rfl
    · rw [if_neg h0]
      by_cases h1 : unsetVerdict f (cont s m (canon k)) = 1
      · rw [if_pos h1]
        cases a with
        | none =>
          obtain ⟨s2, b, g1, g2, g3, g4, g5, g6⟩ := h.drop BL (notFree (canon k))
          refine ⟨withBack s2 b, _, L, ?_, g3, by simp only [withBack]; rw [g4, ht], ?_, fun _ => rfl⟩
          · simp only [unsetValue, BL.look _ h.back, Option.bind_some, hu, h1, ht, Option.isSome_none, if_true]
            simp only [Bool.false_eq_true, if_false, g1, Option.bind_some, g2, Option.map_some]
            rfl
          · funext k'
            rw [cont_drop h (notFree _) g6 (notFree _)]
            rfl
        | some a =>
          obtain ⟨b, e1, e2⟩ := BL.update (canon k) (fun _ => StrMap.Act.remove) h.back (by simp)
          have hr := h.remove (notFree _) e2
          obtain ⟨s2, m2, g1, g2, g3, g4⟩ := archive_free BL (a := some a) hr (.inl rfl) (useRb := false) (.inr rfl)
          refine ⟨s2, m2, L, ?_, g2, by rw [g3]; exact ht, ?_, fun _ => rfl⟩
          · simp only [unsetValue, BL.look _ h.back, Option.bind_some, hu, h1, ht, Option.isSome_some, if_true, e1,
              Option.map_some]
            have g1' : archive B (withBack s b) (some (canon a)) (m (canon k)) false = some s2 := g1
            rw [g1']; rfl
          · rw [g4 _ rfl, cont_remove]; rfl
      · rw [if_neg h1]
        obtain ⟨b, e1, e2⟩ := BL.update (canon k) (fun _ => StrMap.Act.remove) h.back (by simp)
        have hr := h.remove (notFree _) e2
        refine ⟨withBack s b, _, _, ?_, hr, ht, cont_remove, ?_⟩
        · simp only [unsetValue, BL.look _ h.back, Option.bind_some, hu, if_neg h1, if_neg h0, e1, Option.map_some]
          simp only [archive]
          cases a.map canon <;> rfl
        · intro hh
          rcases hh (cont s m (canon k)) with e | e
          · exact absurd e h0
          · exact absurd e h1

end Sid.Kvs
