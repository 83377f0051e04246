import Verif.Proof.KvsTrans
/-
The key-value store: runs, commit and rollback.
-/
namespace Sid.Kvs
open Sid.Spec Sid.Spec.KvStore

variable {σ : Type} {B : Backend σ} {Rb : σ → StrMap.Map → Prop}
variable {s : Store σ} {m : StrMap.Map} {PH : Str → Prop} {L : List Nat}

/-! ### outside of transactions -/

theorem step_free (BL : Lawful B Rb) (h : Inv Rb s m free L) (ht : s.trans = none) (op : Op) :
    ∃ s' m' L', step B s op = some s' ∧ Inv Rb s' m' free L' ∧ s'.trans = none ∧ cont s' m' = KvStore.step (cont s m) op ∧
      ((∀ k a f, op = .unset k a f → ∀ o, unsetVerdict f o = 0 ∨ unsetVerdict f o = 1) → L' = L) := by
  cases op with
  | set k a f i =>
    obtain ⟨s', m', h1, h2, h3, h4⟩ := set_free BL h ht k a f i
    exact ⟨s', m', L, by simp only [step, h1, Option.map_some], h2, h3, h4, fun _ => rfl⟩
  | unset k a f =>
    obtain ⟨s', m', L', h1, h2, h3, h4, h5⟩ := unset_free BL h ht k a f
    exact ⟨s', m', L', by simp only [step, h1, Option.map_some], h2, h3, h4, fun hh => h5 (hh k a f rfl)⟩

/-- all unset callbacks answer yes or no -/
def YesNo (ops : List Op) : Prop := ∀ k a f, Op.unset k a f ∈ ops → ∀ o, unsetVerdict f o = 0 ∨ unsetVerdict f o = 1

theorem run_free (BL : Lawful B Rb) (ops : List Op) : ∀ {s : Store σ} {m L}, Inv Rb s m free L → s.trans = none →
    ∃ s' m' L', run B s ops = some s' ∧ Inv Rb s' m' free L' ∧ s'.trans = none ∧
      cont s' m' = ops.foldl KvStore.step (cont s m) ∧ (YesNo ops → L' = L) := by
  induction ops with
  | nil => intro s m L h ht; exact ⟨s, m, L, rfl, h, ht, rfl, fun _ => rfl⟩
  | cons op ops ih =>
    intro s m L h ht
    obtain ⟨s1, m1, L1, h1, h2, h3, h4, h5⟩ := step_free BL h ht op
    obtain ⟨s2, m2, L2, g1, g2, g3, g4, g5⟩ := ih h2 h3
    refine ⟨s2, m2, L2, by simp only [run, h1, Option.bind_some, g1], g2, g3, by rw [g4, h4]; rfl, fun hy => ?_⟩
    rw [g5 fun k a f hm => hy k a f (List.mem_cons_of_mem _ hm)]
    exact h5 fun k a f e => hy k a f (by rw [e]; exact List.mem_cons_self)

theorem init_inv {b : σ} (hb : Rb b fun _ => none) : Inv Rb (init b) (fun _ => none) free [] :=
  ⟨hb, Nat.one_pos, by simp, by simp, List.nodup_nil, by simp, by simp, by simp [init], by simp [init]⟩

theorem get_cont (BL : Lawful B Rb) (h : Inv Rb s m PH L) {k} (hk : k ≠ []) (hp : ¬ PH (canon k)) :
    kvsGet B s k = some (cont s m (trim k)) := by
  simp only [kvsGet, if_neg hk, BL.look _ h.back, Option.bind_some, h.seen hp, trim_eq]

/-! ### runs in a transaction -/

theorem step_untouched {c : Content} {op : Op} {k : Str} (h : k ∉ touches op) : KvStore.step c op k = c k := by
  have hput : ∀ (c : Content) (k' : Str) v, k ≠ k' → KvStore.put c k' v k = c k := fun c k' v hne => by
    simp only [KvStore.put, if_neg hne]
  have hkeep : ∀ (c : Content) (a : Option Str) o, k ∉ (a.map trim).toList → keep c a o k = c k := by
    intro c a o hn
    cases a with
    | none => rfl
    | some a =>
      cases o with
      | none => rfl
      | some o => exact hput _ _ _ (by simpa using hn)
  cases op with
  | set k' a f i =>
    simp only [touches, List.mem_cons, not_or] at h
    simp only [KvStore.step]
    split
    · rfl
    · split
      · rfl
      · rw [hkeep _ _ _ h.2, hput _ _ _ h.1]
  | unset k' a f =>
    simp only [touches, List.mem_cons, not_or] at h
    simp only [KvStore.step]
    split
    · rfl
    · split
      · rfl
      · split
        · rw [hkeep _ _ _ h.2, hput _ _ _ h.1]
        · rw [hput _ _ _ h.1]

theorem step_congr {c c' : Content} {op : Op} {k : Str} (h : ∀ k ∈ touches op, c k = c' k) (hk : c k = c' k) :
    KvStore.step c op k = KvStore.step c' op k := by
  have hkeep : ∀ (a : Option Str) (o : Option Got) (k' : Str) v,
      keep (KvStore.put c k' v) a o k = keep (KvStore.put c' k' v) a o k := by
    intro a o k' v
    have : KvStore.put c k' v k = KvStore.put c' k' v k := by simp only [KvStore.put, hk]
    cases a with
    | none => exact this
    | some a =>
      cases o with
      | none => exact this
      | some o =>
        simp only [keep]
        show (if k = trim a then some o else KvStore.put c k' v k) = if k = trim a then some o else KvStore.put c' k' v k
        rw [this]
  cases op with
  | set k' a f i =>
    have e := h (trim k') (by simp [touches])
    simp only [KvStore.step, e]
    split
    · exact hk
    · split
      · exact hk
      · exact hkeep _ _ _ _
  | unset k' a f =>
    have e := h (trim k') (by simp [touches])
    simp only [KvStore.step, e]
    split
    · exact hk
    · split
      · exact hk
      · split
        · exact hkeep _ _ _ _
        · simp only [KvStore.put, hk]

def pendOf (U : List UnsetArg) : Str → Prop := fun k => ∃ u ∈ U, u.key = k ∧ u.hasArch = true

/-- state of a transaction: `c` is what the store would contain without transaction -/
structure Tx (Rb : σ → StrMap.Map → Prop) (s : Store σ) (m : StrMap.Map) (t : Trans) (F : List Nat) (c : Content) : Prop where
  tr : s.trans = some t
  inv : Inv Rb s m (pendOf t.unsets) (own t.rollbacks ++ F)
  uk : (t.unsets.map (·.key)).Nodup
  cc : ∀ k, c k = if k ∈ t.unsets.map (·.key) then none else cont s m k

theorem pend_mem {U : List UnsetArg} {k} (h : k ∉ U.map (·.key)) : ¬ pendOf U k := by
  rintro ⟨u, hu, e, _⟩
  exact h (List.mem_map.mpr ⟨u, hu, e⟩)

theorem Tx.step (BL : Lawful B Rb) {t F c} (x : Tx Rb s m t F c) (op : Op)
    (hn : ∀ k ∈ touches op, k ∉ t.unsets.map (·.key)) (ha : ∀ k a f, op = .unset k a f → a.map trim ≠ some (trim k)) :
    ∃ s' m' t' F', Kvs.step B s op = some s' ∧ Tx Rb s' m' t' F' (KvStore.step c op) ∧
      (∀ k, k ∈ t'.unsets.map (·.key) → k ∈ t.unsets.map (·.key) ∨ ∃ k' a f, op = .unset k' a f ∧ k = trim k') ∧ (YesNo [op] → F' = F) := by
  have hagree : ∀ k, k ∉ t.unsets.map (·.key) → KvStore.step c op k = KvStore.step (cont s m) op k := by
    intro k hk
    apply step_congr
    · intro k' hk'
      rw [x.cc, if_neg (hn k' hk')]
    · rw [x.cc, if_neg hk]
  cases op with
  | set k a f i =>
    have hk : canon k ∉ t.unsets.map (·.key) := by
      have := hn (trim k) (by simp [touches])
      rwa [trim_eq] at this
    have hka : ∀ a', a = some a' → canon a' ∉ t.unsets.map (·.key) := by
      intro a' e
      have := hn (trim a') (by simp [touches, e])
      rwa [trim_eq] at this
    obtain ⟨s', m', R', h1, h2, h3, h4, h5, h6, h7⟩ := set_trans BL x.inv x.tr k a f i (pend_mem hk)
      fun a' e => pend_mem (hka a' e)
    refine ⟨s', m', _, F, by simp only [Kvs.step, h1, Option.map_some], ⟨h3, ?_, x.uk, ?_⟩, fun k hk => .inl hk, fun _ => rfl⟩
    · refine h2.perm ?_
      simp only [own_append]
      rw [List.append_assoc, ← List.append_assoc, ← List.append_assoc]
      exact List.Perm.append_right _ List.perm_append_comm
    · intro k'
      by_cases hk' : k' ∈ t.unsets.map (·.key)
      · rw [if_pos hk', step_untouched fun hh => hn k' hh hk', x.cc, if_pos hk']
      · rw [if_neg hk', hagree k' hk', h4 k' (pend_mem hk')]
  | unset k a f =>
    have hk : canon k ∉ t.unsets.map (·.key) := by
      have := hn (trim k) (by simp [touches])
      rwa [trim_eq] at this
    have hka : ∀ a', a = some a' → ¬ pendOf t.unsets (canon a') ∧ canon a' ≠ canon k := by
      intro a' e
      have := hn (trim a') (by simp [touches, e])
      rw [trim_eq] at this
      refine ⟨pend_mem this, fun e' => ha k a f rfl ?_⟩
      rw [e]; simp [trim_eq, e']
    obtain ⟨s', m', U', L', PH', h1, h2, h3, h4, h5, h6, h7, h8, h9, h10⟩ := unset_trans BL x.inv x.tr k a f (pend_mem hk) hka
    refine ⟨s', m', _, L' ++ F, by simp only [Kvs.step, h1, Option.map_some], ⟨h3, ?_, ?_, ?_⟩, ?_, fun hy => by rw [h10 (hy k a f (by simp)), List.nil_append]⟩
    · refine (h2.ph ?_).perm ?_
      · intro k'
        rw [h4 k']
        simp only [pendOf, List.mem_append]
        constructor
        · rintro ⟨u, h | h, e⟩
          · exact .inl ⟨u, h, e⟩
          · exact .inr ⟨u, h, e⟩
        · rintro (⟨u, h, e⟩ | ⟨u, h, e⟩)
          · exact ⟨u, .inl h, e⟩
          · exact ⟨u, .inr h, e⟩
      · simp only
        rw [← List.append_assoc, ← List.append_assoc]
        exact List.Perm.append_right _ List.perm_append_comm
    · simp only [List.map_append]
      refine List.nodup_append.mpr ⟨x.uk, ?_, ?_⟩
      · match U', h6 with
        | [], _ => simp
        | [u], _ => simp
      · intro p hp q hq e
        obtain ⟨u, hu, e'⟩ := List.mem_map.mp hq
        rw [h5 u hu] at e'
        rw [e, ← e'] at hp
        exact hk hp
    · intro k'
      simp only [List.map_append, List.mem_append]
      by_cases hk' : k' ∈ t.unsets.map (·.key)
      · rw [if_pos (.inl hk'), step_untouched fun hh => hn k' hh hk', x.cc, if_pos hk']
      · rw [hagree k' hk']
        by_cases hu : k' ∈ U'.map (·.key)
        · rw [if_pos (.inr hu)]
          obtain ⟨u, hu, e'⟩ := List.mem_map.mp hu
          rw [← e']; exact h8 u hu
        · rw [if_neg fun hh => hh.elim hk' hu, h7 k' hu (pend_mem hk')]
    · intro k' hk'
      simp only [List.map_append, List.mem_append] at hk'
      refine hk'.imp id fun hu => ⟨k, a, f, rfl, ?_⟩
      obtain ⟨u, hu, e'⟩ := List.mem_map.mp hu
      rw [← e', h5 u hu, trim_eq]

theorem Tx.run (BL : Lawful B Rb) (ops : List Op) : ∀ {s : Store σ} {m t F c}, Tx Rb s m t F c →
    (∀ op ∈ ops, ∀ k ∈ touches op, k ∉ t.unsets.map (·.key)) → UnsetLast ops →
    ∃ s' m' t' F', Kvs.run B s ops = some s' ∧ Tx Rb s' m' t' F' (ops.foldl KvStore.step c) ∧ (YesNo ops → F' = F) := by
  induction ops with
  | nil => intro s m t F c x _ _; exact ⟨s, m, t, F, rfl, x, fun _ => rfl⟩
  | cons op ops ih =>
    intro s m t F c x hn hl
    have hl' : UnsetLast ops ∧ ∀ k a f, op = .unset k a f → a.map trim ≠ some (trim k) ∧ ∀ op ∈ ops, trim k ∉ touches op := by
      cases op with
      | set => exact ⟨hl, fun _ _ _ e => by cases e⟩
      | unset k a f => exact ⟨hl.2.2, fun _ _ _ e => by cases e; exact ⟨hl.1, hl.2.1⟩⟩
    obtain ⟨s1, m1, t1, F1, h1, h2, h3, h4⟩ := x.step BL op (hn op List.mem_cons_self) fun k a f e => (hl'.2 k a f e).1
    obtain ⟨s2, m2, t2, F2, g1, g2, g3⟩ := ih h2 (by
      intro op' hop' k hk hm
      rcases h3 k hm with h | ⟨k', a, f, e, rfl⟩
      · exact hn op' (List.mem_cons_of_mem _ hop') k hk h
      · exact (hl'.2 k' a f e).2 op' hop' hk) hl'.1
    exact ⟨s2, m2, t2, F2, by simp only [Kvs.run, h1, Option.bind_some, g1], g2, fun hy => by
      rw [g3 fun k a f hm => hy k a f (by simp [hm]),
        h4 fun k a f hm => hy k a f (by simp only [List.mem_singleton] at hm; simp [hm])]⟩

/-! ### commit -/

theorem Inv.unpend {k : Str} {PH' : Str → Prop} {b'} (h : Inv Rb s m PH L) (hp : PH k)
    (hb : Rb b' (StrMap.put m k none)) (hP : ∀ k', k' ≠ k → (PH' k' ↔ PH k')) :
    Inv Rb (withBack s b') (StrMap.put m k none) PH' L := by
  have hm : ∀ k' p, StrMap.put m k none k' = some p → k' ≠ k ∧ m k' = some p := by
    intro k' p e
    simp only [StrMap.put] at e
    split at e
    · cases e
    · exact ⟨by assumption, e⟩
  refine ⟨hb, h.pos, ?_, ?_, h.nodup, h.llive, ?_, h.bound, ?_⟩
  · intro k' p e hk'
    obtain ⟨e1, e2⟩ := hm k' p e
    exact h.live k' p e2 (by rwa [hP k' e1] at hk')
  · intro k1 k2 p1 p2 e1 e2 hk1 hk2
    obtain ⟨a1, a2⟩ := hm _ _ e1
    obtain ⟨b1, b2⟩ := hm _ _ e2
    exact h.inj k1 k2 p1 p2 a2 b2 (by rwa [hP _ a1] at hk1) (by rwa [hP _ b1] at hk2)
  · intro k' p e hk'
    obtain ⟨e1, e2⟩ := hm k' p e
    exact h.sep k' p e2 (by rwa [hP k' e1] at hk')
  · intro j v e
    rcases h.cov j v e with h1 | ⟨k', p, e1, e2, e3⟩
    · exact .inl h1
    · have hne : k' ≠ k := fun e' => e2 (e' ▸ hp)
      exact .inr ⟨k', p, by simp only [StrMap.put, if_neg hne]; exact e1, by rwa [hP _ hne], e3⟩

theorem commitUnsets_spec (BL : Lawful B Rb) (U : List UnsetArg) : ∀ {s : Store σ} {m L}, Inv Rb s m (pendOf U) L →
    (U.map (·.key)).Nodup →
    ∃ s' m', commitUnsets B s U = some s' ∧ Inv Rb s' m' free L ∧
      ∀ k, cont s' m' k = if k ∈ U.map (·.key) then none else cont s m k := by
  induction U with
  | nil =>
    intro s m L h _
    exact ⟨s, m, rfl, h.ph (by simp [pendOf, free]), fun k => rfl⟩
  | cons u U ih =>
    intro s m L h hn
    simp only [List.map_cons, List.nodup_cons] at hn
    have hcall : callUnset s none ((m u.key).map (·.1)) = some 1 := rfl
    have hmem : ∀ k, k ∈ (u :: U).map (·.key) ↔ k = u.key ∨ k ∈ U.map (·.key) := by simp
    cases ha : u.hasArch with
    | true =>
      obtain ⟨b, e1, e2⟩ := BL.update u.key (fun _ => StrMap.Act.remove) h.back (by simp)
      have h1 := h.unpend (PH' := pendOf U) (k := u.key) ⟨u, List.mem_cons_self, rfl, ha⟩ e2 (by
        intro k' hne
        simp only [pendOf]
        constructor
        · rintro ⟨w, hw, e⟩; exact ⟨w, List.mem_cons_of_mem _ hw, e⟩
        · rintro ⟨w, hw, e⟩
          rcases List.mem_cons.mp hw with rfl | hw
          · exact absurd e.1.symm hne
          · exact ⟨w, hw, e⟩)
      obtain ⟨s', m', g1, g2, g3⟩ := ih h1 hn.2
      refine ⟨s', m', ?_, g2, ?_⟩
      · simp only [commitUnsets, unsetValue, BL.look _ h.back, Option.bind_some, hcall, ha, if_true]
        cases s.trans <;> simp only [Option.bind_some, e1, Option.map_some, g1]
      · intro k
        rw [g3 k, cont_remove]
        simp only [hmem, KvStore.put]
        by_cases hk : k ∈ U.map (·.key)
        · rw [if_pos hk, if_pos (.inr hk)]
        · rw [if_neg hk]
          by_cases e : k = u.key
          · rw [if_pos e, if_pos (.inl e)]
          · rw [if_neg e, if_neg fun hh => hh.elim e hk]
    | false =>
      have hP : ∀ k', pendOf U k' ↔ pendOf (u :: U) k' := by
        intro k'
        simp only [pendOf]
        constructor
        · rintro ⟨w, hw, e⟩; exact ⟨w, List.mem_cons_of_mem _ hw, e⟩
        · rintro ⟨w, hw, e⟩
          rcases List.mem_cons.mp hw with rfl | hw
          · rw [ha] at e; simp at e
          · exact ⟨w, hw, e⟩
      have h' := h.ph hP
      have hku : ¬ pendOf U u.key := pend_mem hn.1
      obtain ⟨s2, b, d1, d2, d3, d4, d5, d6⟩ := h'.drop BL hku
      obtain ⟨s', m', g1, g2, g3⟩ := ih d3 hn.2
      refine ⟨s', m', ?_, g2, ?_⟩
      · simp only [commitUnsets, unsetValue, BL.look _ h.back, Option.bind_some, hcall, ha, if_true]
        cases s.trans <;> simp only [Bool.false_eq_true, if_false, d1, Option.bind_some, d2, Option.map_some, g1]
      · intro k
        rw [g3 k]
        simp only [hmem]
        by_cases hk : k ∈ U.map (·.key)
        · rw [if_pos hk, if_pos (.inr hk)]
        · rw [if_neg hk, cont_drop h' hku d6 (pend_mem hk)]
          simp only [KvStore.put]
          by_cases e : k = u.key
          · rw [if_pos e, if_pos (.inl e)]
          · rw [if_neg e, if_neg fun hh => hh.elim e hk]

theorem commitAll_spec (R : List RbArg) : ∀ {s : Store σ} {F}, Inv Rb s m free (own R ++ F) →
    ∃ s', commitAll s R = some s' ∧ Inv Rb s' m free F ∧ cont s' m = cont s m := by
  induction R with
  | nil => intro s F h; exact ⟨s, rfl, h, rfl⟩
  | cons a R ih =>
    intro s F h
    simp only [own, List.flatMap_cons] at h
    cases ha : a.hasArch with
    | true =>
      simp only [ownOf, ha, if_true, List.nil_append] at h
      obtain ⟨s', g1, g2, g3⟩ := ih h
      exact ⟨s', by simp only [commitAll, ha, if_true, Option.bind_some, g1], g2, g3⟩
    | false =>
      simp only [ownOf, ha, Bool.false_eq_true, if_false, List.append_assoc] at h
      obtain ⟨s1, d1, d2, d3, d4, d5, d6⟩ := h.destroy?
      obtain ⟨s', g1, g2, g3⟩ := ih d2
      refine ⟨s', by simp only [commitAll, ha, Bool.false_eq_true, if_false, d1, Option.bind_some, g1], g2, ?_⟩
      rw [g3]
      funext k
      apply cont_congr
      intro p e
      apply d6
      intro e'
      apply h.sep k p e (notFree _)
      rw [← e']; simp

theorem Tx.commit (BL : Lawful B Rb) {t F c} (x : Tx Rb s m t F c) :
    ∃ s' m', transEnd B s false = some s' ∧ Inv Rb s' m' free F ∧ s'.trans = none ∧ cont s' m' = c := by
  obtain ⟨s1, m1, h1, h2, h3⟩ := commitUnsets_spec BL t.unsets x.inv x.uk
  obtain ⟨s2, g1, g2, g3⟩ := commitAll_spec t.rollbacks h2
  refine ⟨{ s2 with trans := none }, m1, ?_, g2.congr rfl rfl rfl, rfl, ?_⟩
  · simp only [transEnd, x.tr, Bool.false_eq_true, if_false, h1, Option.bind_some, g1, Option.map_some]
  · have : cont { s2 with trans := none } m1 = cont s2 m1 := rfl
    rw [this, g3]
    funext k
    rw [h3, x.cc]

theorem begin_tx (h : Inv Rb s m free L) (ht : s.trans = none) :
    (transBegin s).1 = 0 ∧ Tx Rb (transBegin s).2 m {} L (cont s m) := by
  simp only [transBegin, ht]
  refine ⟨trivial, rfl, ?_, List.nodup_nil, fun k => ?_⟩
  · have h1 : Inv Rb s m (pendOf []) (own [] ++ L) :=
      (h.ph (PH' := pendOf []) (by simp [pendOf, free])).perm (by simp [own])
    exact Inv.congr h1 rfl rfl rfl
  · simp only [List.map_nil, List.not_mem_nil, if_false]; rfl

/-! ### rollback -/

/-- state while rolling back: what is left to do restores the map `m0`, values before `next0` are untouched -/
structure Rolling (Rb : σ → StrMap.Map → Prop) (s : Store σ) (m m0 : StrMap.Map) (vals0 : Nat → Option Val) (next0 : Nat)
    (R : List RbArg) : Prop where
  back : Rb s.back m
  le : next0 ≤ s.next
  keys : (R.map (·.key)).Nodup
  same : ∀ k, k ∉ R.map (·.key) → m k = m0 k
  val : ∀ a ∈ R, a.val = m0 a.key
  fresh : ∀ a ∈ R, a.isArch = false → ∃ p v, m a.key = some p ∧ next0 ≤ p.1 ∧ s.vals p.1 = some v
  inj : ∀ a ∈ R, ∀ b ∈ R, a.isArch = false → b.isArch = false → (m a.key).map (·.1) = (m b.key).map (·.1) → a.key = b.key
  arch : ∀ a ∈ R, a.isArch = true → ∃ k p, k ≠ a.key ∧ m a.key = some p ∧ m0 k = some p
  frame : ∀ j, j < next0 → s.vals j = vals0 j
  cov : ∀ j v, s.vals j = some v → next0 ≤ j → ∃ a ∈ R, a.isArch = false ∧ (m a.key).map (·.1) = some j

theorem rollbackAll_spec (BL : Lawful B Rb) {m0 : StrMap.Map} {vals0 : Nat → Option Val} {next0 : Nat}
    (h0 : ∀ k p, m0 k = some p → 0 < p.1 ∧ p.1 < next0)
    (hi : ∀ k k' p p', m0 k = some p → m0 k' = some p' → p.1 = p'.1 → k = k') (R : List RbArg) :
    ∀ {s : Store σ} {m}, Rolling Rb s m m0 vals0 next0 R →
    ∃ s', rollbackAll B s R = some s' ∧ Rb s'.back m0 ∧ next0 ≤ s'.next ∧ (∀ j, j < next0 → s'.vals j = vals0 j) ∧
      ∀ j, next0 ≤ j → s'.vals j = none := by
  induction R with
  | nil =>
    intro s m h
    refine ⟨s, rfl, ?_, h.le, h.frame, ?_⟩
    · have : m = m0 := funext fun k => h.same k (by simp)
      rw [← this]; exact h.back
    · intro j hj
      cases e : s.vals j with
      | none => rfl
      | some v =>
        obtain ⟨a, ha, _⟩ := h.cov j v e hj
        simp at ha
  | cons a R ih =>
    intro s m h
    have hn := h.keys
    simp only [List.map_cons, List.nodup_cons] at hn
    have hak : ∀ b ∈ R, b.key ≠ a.key := fun b hb e => hn.1 (List.mem_map.mpr ⟨b, hb, e⟩)
    have hval := h.val a List.mem_cons_self
    -- current value differs from the one to restore
    have hcur : ∃ p, m a.key = some p ∧ ∀ q, a.val = some q → p.1 ≠ q.1 := by
      cases hA : a.isArch with
      | false =>
        obtain ⟨p, v, e1, e2, e3⟩ := h.fresh a List.mem_cons_self hA
        refine ⟨p, e1, fun q hq => ?_⟩
        rw [hval] at hq
        have := (h0 _ _ hq).2
        omega
      | true =>
        obtain ⟨k, p, e1, e2, e3⟩ := h.arch a List.mem_cons_self hA
        refine ⟨p, e2, fun q hq e => ?_⟩
        rw [hval] at hq
        exact e1 (hi _ _ _ _ e3 hq e)
    obtain ⟨p, hp, hpq⟩ := hcur
    have hact : rbAct (some p) a.val = match a.val with | none => .remove | some q => .write q.1 q.2 := by
      simp only [rbAct]
      cases e : a.val with
      | none => rfl
      | some q => simp only [if_neg (hpq q e)]
    have hdrop : rbDrop (some p) a.val a.isArch = if a.isArch then none else some p.1 := by
      simp only [rbDrop]
      cases e : a.val with
      | none => rfl
      | some q => simp [hpq q e]
    -- destruction
    have hd : ∃ s2, Kvs.destroy? s (if a.isArch then none else some p.1) = some s2 ∧ s2.back = s.back ∧ s2.next = s.next ∧
        s2.vals = if a.isArch then s.vals else fun j => if j = p.1 then none else s.vals j := by
      cases hA : a.isArch with
      | true => exact ⟨s, rfl, rfl, rfl, rfl⟩
      | false =>
        obtain ⟨p', v, e1, e2, e3⟩ := h.fresh a List.mem_cons_self hA
        rw [hp] at e1; cases e1
        simp only [Bool.false_eq_true, if_false, Kvs.destroy?, Kvs.destroy, e3]
        exact ⟨{ s with vals := fun j => if j = p.1 then none else s.vals j, freed := s.freed ++ freedBy v }, rfl, rfl, rfl, rfl⟩
    obtain ⟨s2, d1, d2, d3, d4⟩ := hd
    obtain ⟨b, e1, e2⟩ := BL.update a.key (fun _ => rbAct (some p) a.val) h.back (by
      intro o d n e
      rw [hact] at e
      cases e' : a.val with
      | none => rw [e'] at e; cases e
      | some q =>
        rw [e'] at e; cases e
        rw [hval] at e'
        have := (h0 _ _ e').1
        omega)
    have e2 : Rb b (StrMap.put m a.key (m0 a.key)) := by
      have : StrMap.step m (.update a.key fun _ => rbAct (some p) a.val) = StrMap.put m a.key (m0 a.key) := by
        simp only [StrMap.step]
        rw [hact, hval]
        cases m0 a.key <;> rfl
      rw [← this]; exact e2
    have hput : ∀ c ∈ R, StrMap.put m a.key (m0 a.key) c.key = m c.key := fun c hc => by
      simp only [StrMap.put, if_neg (hak c hc)]
    have hv2 : ∀ j, j ≠ p.1 → s2.vals j = s.vals j := by
      intro j hj
      rw [d4]
      split
      · rfl
      · simp only [if_neg hj]
    have hnew : Rolling Rb (withBack s2 b) (StrMap.put m a.key (m0 a.key)) m0 vals0 next0 R := by
      refine ⟨e2, by simp only [withBack]; rw [d3]; exact h.le, hn.2, ?_, fun c hc => h.val c (List.mem_cons_of_mem _ hc), ?_,
        ?_, ?_, ?_, ?_⟩
      · intro k hk
        simp only [StrMap.put]
        split
        · rename_i e; rw [e]
        · rename_i e
          exact h.same k (by simp only [List.map_cons, List.mem_cons, not_or]; exact ⟨e, hk⟩)
      · intro c hc hA
        obtain ⟨q, v, f1, f2, f3⟩ := h.fresh c (List.mem_cons_of_mem _ hc) hA
        rw [hput c hc]
        refine ⟨q, v, f1, f2, ?_⟩
        simp only [withBack]
        cases hA' : a.isArch with
        | true => rw [d4, hA']; exact f3
        | false =>
          rw [hv2 _ ?_]
          · exact f3
          · intro e
            exact hak c hc (h.inj c (List.mem_cons_of_mem _ hc) a List.mem_cons_self hA hA' (by rw [f1, hp]; simp [e]))
      · intro c hc d hd hA hA' e
        rw [hput c hc, hput d hd] at e
        exact h.inj c (List.mem_cons_of_mem _ hc) d (List.mem_cons_of_mem _ hd) hA hA' e
      · intro c hc hA
        rw [hput c hc]
        exact h.arch c (List.mem_cons_of_mem _ hc) hA
      · intro j hj
        simp only [withBack]
        rw [← h.frame j hj]
        cases hA : a.isArch with
        | true => rw [d4, hA]; rfl
        | false =>
          obtain ⟨p', v, f1, f2, f3⟩ := h.fresh a List.mem_cons_self hA
          rw [hp] at f1; cases f1
          exact hv2 j (by omega)
      · intro j v e hj
        simp only [withBack] at e
        have hs : s.vals j = some v := by
          rw [d4] at e
          split at e
          · exact e
          · simp only at e
            split at e
            · cases e
            · exact e
        obtain ⟨c, hc, hA, hm⟩ := h.cov j v hs hj
        rcases List.mem_cons.mp hc with rfl | hc
        · rw [d4, hA] at e
          rw [hp] at hm
          simp only [Option.map_some, Option.some.injEq] at hm
          simp [hm] at e
        · exact ⟨c, hc, hA, by rw [hput c hc]; exact hm⟩
    obtain ⟨s', g1, g2⟩ := ih hnew
    refine ⟨s', ?_, g2⟩
    simp only [rollbackAll, rollbackValue, BL.look _ h.back, Option.bind_some, hp, hdrop, d1, d2, e1, Option.map_some, g1]

/-- state of a transaction that writes no key twice -/
structure Once (Rb : σ → StrMap.Map → Prop) (s : Store σ) (m : StrMap.Map) (t : Trans) (s0 : Store σ) (m0 : StrMap.Map) : Prop where
  tr : s.trans = some t
  inv : Inv Rb s m free (own t.rollbacks)
  le : s0.next ≤ s.next
  keys : (t.rollbacks.map (·.key)).Nodup
  same : ∀ k, k ∉ t.rollbacks.map (·.key) → m k = m0 k
  val : ∀ a ∈ t.rollbacks, a.val = m0 a.key
  fresh : ∀ a ∈ t.rollbacks, a.isArch = false → ∃ p, m a.key = some p ∧ s0.next ≤ p.1
  arch : ∀ a ∈ t.rollbacks, a.isArch = true → ∃ k p, k ≠ a.key ∧ m a.key = some p ∧ m0 k = some p
  frame : ∀ j, j < s0.next → s.vals j = s0.vals j

theorem Once.step (BL : Lawful B Rb) {t s0 m0} (x : Once Rb s m t s0 m0) (op : Op)
    (hw : (writes op).Nodup) (hn : ∀ k ∈ writes op, k ∉ t.rollbacks.map (·.key)) (hp : PlainUnset op) :
    ∃ s' m' t', Kvs.step B s op = some s' ∧ Once Rb s' m' t' s0 m0 ∧
      ∀ k, k ∈ t'.rollbacks.map (·.key) → k ∈ t.rollbacks.map (·.key) ∨ k ∈ writes op := by
  cases op with
  | set k a f i =>
    obtain ⟨s', m', R', h1, h2, h3, h4, h5, h6, h7⟩ := set_trans BL x.inv x.tr k a f i (notFree _) fun _ _ => notFree _
    have hk : canon k ∉ t.rollbacks.map (·.key) := by
      have := hn (trim k) (by simp [writes])
      rwa [trim_eq] at this
    have hfr : ∀ j, j < s0.next → s'.vals j = s0.vals j := fun j hj => by
      rw [h5 j (Nat.lt_of_lt_of_le hj x.le), x.frame j hj]
    have hinv : Inv Rb s' m' free (own (t.rollbacks ++ R')) := h2.perm (by
      rw [own_append]; exact List.perm_append_comm)
    have hle : s0.next ≤ s'.next := Nat.le_trans x.le h6
    refine ⟨s', m', { t with rollbacks := t.rollbacks ++ R' }, by simp only [Kvs.step, h1, Option.map_some], ?_⟩
    rcases h7 with ⟨rfl, rfl⟩ | ⟨id, n, has, e1, rfl, rfl⟩ | ⟨id, n, a', p, e1, e2, e3, rfl, rfl⟩
    · simp only [List.append_nil] at h3 hinv ⊢
      exact ⟨⟨h3, hinv, hle, x.keys, x.same, x.val, x.fresh, x.arch, hfr⟩, fun k hk => .inl hk⟩
    · have hoth : ∀ b ∈ t.rollbacks, StrMap.put m (canon k) (some (id, n)) b.key = m b.key := by
        intro b hb
        have : b.key ≠ canon k := fun e => hk (List.mem_map.mpr ⟨b, hb, e⟩)
        simp only [StrMap.put, if_neg this]
      refine ⟨⟨h3, hinv, hle, ?_, ?_, ?_, ?_, ?_, hfr⟩, ?_⟩
      · simp only [List.map_append, List.map_cons, List.map_nil]
        refine List.nodup_append.mpr ⟨x.keys, by simp, ?_⟩
        intro p hp q hq e
        simp only [List.mem_singleton] at hq
        rw [e, hq] at hp; exact hk hp
      · intro k' hk'
        simp only [List.map_append, List.map_cons, List.map_nil, List.mem_append, List.mem_singleton, not_or] at hk'
        simp only [StrMap.put, if_neg hk'.2]
        exact x.same k' hk'.1
      · intro b hb
        rcases List.mem_append.mp hb with hb | hb
        · exact x.val b hb
        · rw [List.mem_singleton] at hb; subst hb; exact x.same _ hk
      · intro b hb hA
        rcases List.mem_append.mp hb with hb | hb
        · rw [hoth b hb]; exact x.fresh b hb hA
        · rw [List.mem_singleton] at hb; subst hb
          exact ⟨(id, n), by simp [StrMap.put], Nat.le_trans x.le e1⟩
      · intro b hb hA
        rcases List.mem_append.mp hb with hb | hb
        · rw [hoth b hb]; exact x.arch b hb hA
        · rw [List.mem_singleton] at hb; subst hb; cases hA
      · intro k' hk'
        simp only [List.map_append, List.map_cons, List.map_nil, List.mem_append, List.mem_singleton] at hk'
        refine hk'.imp (fun h => h) ?_
        rintro rfl
        simp [writes, trim_eq]
    · cases a with
      | none => simp at e2
      | some a =>
        simp only [Option.map_some, Option.some.injEq] at e2
        subst e2
        simp only [writes, Option.map_some, Option.toList, List.nodup_cons, List.mem_singleton, trim_eq] at hw
        have hka := hw.1
        have hak : canon a ∉ t.rollbacks.map (·.key) := by
          have := hn (trim a) (by simp [writes])
          rwa [trim_eq] at this
        have hoth : ∀ k', k' ≠ canon k → k' ≠ canon a →
            StrMap.put (StrMap.put m (canon k) (some (id, n))) (canon a) (some p) k' = m k' := by
          intro k' h1 h2
          simp only [StrMap.put, if_neg h1, if_neg h2]
        have hothb : ∀ b ∈ t.rollbacks, StrMap.put (StrMap.put m (canon k) (some (id, n))) (canon a) (some p) b.key = m b.key :=
          fun b hb => hoth _ (fun e => hk (List.mem_map.mpr ⟨b, hb, e⟩)) (fun e => hak (List.mem_map.mpr ⟨b, hb, e⟩))
        have hma : StrMap.put m (canon k) (some (id, n)) (canon a) = m (canon a) := by
          simp only [StrMap.put, if_neg (Ne.symm hka)]
        have hkk : StrMap.put (StrMap.put m (canon k) (some (id, n))) (canon a) (some p) (canon k) = some (id, n) := by
          simp [StrMap.put, hka]
        refine ⟨⟨h3, hinv, hle, ?_, ?_, ?_, ?_, ?_, hfr⟩, ?_⟩
        · simp only [List.map_append, List.map_cons, List.map_nil]
          refine List.nodup_append.mpr ⟨x.keys, by simp [hka], ?_⟩
          intro p hp q hq e
          simp only [List.mem_cons, List.not_mem_nil, or_false] at hq
          rw [e] at hp
          rcases hq with rfl | rfl
          · exact hk hp
          · exact hak hp
        · intro k' hk'
          simp only [List.map_append, List.map_cons, List.map_nil, List.mem_append, List.mem_cons, List.not_mem_nil,
            or_false, not_or] at hk'
          rw [hoth k' hk'.2.1 hk'.2.2]
          exact x.same k' hk'.1
        · intro b hb
          rcases List.mem_append.mp hb with hb | hb
          · exact x.val b hb
          · simp only [List.mem_cons, List.not_mem_nil, or_false] at hb
            rcases hb with rfl | rfl
            · exact x.same _ hk
            · simp only [hma]; exact x.same _ hak
        · intro b hb hA
          rcases List.mem_append.mp hb with hb | hb
          · rw [hothb b hb]; exact x.fresh b hb hA
          · simp only [List.mem_cons, List.not_mem_nil, or_false] at hb
            rcases hb with rfl | rfl
            · exact ⟨(id, n), hkk, Nat.le_trans x.le e1⟩
            · cases hA
        · intro b hb hA
          rcases List.mem_append.mp hb with hb | hb
          · rw [hothb b hb]; exact x.arch b hb hA
          · simp only [List.mem_cons, List.not_mem_nil, or_false] at hb
            rcases hb with rfl | rfl
            · cases hA
            · refine ⟨canon k, p, hka, by simp [StrMap.put], ?_⟩
              rw [← x.same _ hk]; exact e3
        · intro k' hk'
          simp only [List.map_append, List.map_cons, List.map_nil, List.mem_append, List.mem_cons, List.not_mem_nil,
            or_false] at hk'
          refine hk'.imp (fun h => h) ?_
          rintro (rfl | rfl) <;> simp [writes, trim_eq]
  | unset k a f =>
    obtain ⟨s', m', U', L', PH', h1, h2, h3, h4, h5, h6, h7, h8, h9, h10⟩ := unset_trans BL x.inv x.tr k a f (notFree _)
      (by intro a' e; rw [hp.1] at e; cases e)
    obtain ⟨rfl, e2, e3, rfl, e5⟩ := h9 hp
    refine ⟨s', m', _, by simp only [Kvs.step, h1, Option.map_some], ⟨h3, ?_, by rw [e3]; exact x.le, x.keys, x.same, x.val,
      x.fresh, x.arch, ?_⟩, fun k hk => .inl hk⟩
    · exact h2.ph fun k' => (e5 k').symm
    · intro j hj; rw [e2]; exact x.frame j hj

theorem Once.run (BL : Lawful B Rb) (ops : List Op) : ∀ {s : Store σ} {m t s0 m0}, Once Rb s m t s0 m0 →
    (ops.flatMap writes).Nodup → (∀ k ∈ ops.flatMap writes, k ∉ t.rollbacks.map (·.key)) → (∀ op ∈ ops, PlainUnset op) →
    ∃ s' m' t', Kvs.run B s ops = some s' ∧ Once Rb s' m' t' s0 m0 := by
  induction ops with
  | nil => intro s m t s0 m0 x _ _ _; exact ⟨s, m, t, rfl, x⟩
  | cons op ops ih =>
    intro s m t s0 m0 x hw hn hp
    simp only [List.flatMap_cons] at hw hn
    obtain ⟨w1, w2, w3⟩ := List.nodup_append.mp hw
    obtain ⟨s1, m1, t1, h1, h2, h3⟩ := x.step BL op w1 (fun k hk => hn k (List.mem_append_left _ hk)) (hp op List.mem_cons_self)
    obtain ⟨s2, m2, t2, g1, g2⟩ := ih h2 w2 (by
      intro k hk hm
      rcases h3 k hm with h | h
      · exact hn k (List.mem_append_right _ hk) h
      · exact w3 k h k hk rfl) fun op' ho => hp op' (List.mem_cons_of_mem _ ho)
    exact ⟨s2, m2, t2, by simp only [Kvs.run, h1, Option.bind_some, g1], g2⟩

theorem begin_once (h : Inv Rb s m free []) (ht : s.trans = none) : Once Rb (transBegin s).2 m {} s m := by
  simp only [transBegin, ht]
  exact ⟨rfl, Inv.congr h rfl rfl rfl, Nat.le_refl _, by simp, fun _ _ => rfl, by simp, by simp, by simp, fun _ _ => rfl⟩

theorem Once.rollback (BL : Lawful B Rb) {t s0 m0} (x : Once Rb s m t s0 m0) (h0 : Inv Rb s0 m0 free []) :
    ∃ s', transEnd B s true = some s' ∧ Inv Rb s' m0 free [] ∧ s'.trans = none ∧ cont s' m0 = cont s0 m0 := by
  have hb : ∀ k p, m0 k = some p → 0 < p.1 ∧ p.1 < s0.next := by
    intro k p e
    obtain ⟨v, hv⟩ := h0.live k p e (notFree _)
    exact h0.bound _ v hv
  have hroll : Rolling Rb s m m0 s0.vals s0.next t.rollbacks := by
    refine ⟨x.inv.back, x.le, x.keys, x.same, x.val, ?_, ?_, x.arch, x.frame, ?_⟩
    · intro a ha hA
      obtain ⟨p, e1, e2⟩ := x.fresh a ha hA
      obtain ⟨v, hv⟩ := x.inv.live _ p e1 (notFree _)
      exact ⟨p, v, e1, e2, hv⟩
    · intro a ha b hb hA hB e
      obtain ⟨p, e1, e2⟩ := x.fresh a ha hA
      obtain ⟨q, f1, f2⟩ := x.fresh b hb hB
      rw [e1, f1] at e
      simp only [Option.map_some, Option.some.injEq] at e
      exact x.inv.inj _ _ _ _ e1 f1 (notFree _) (notFree _) e
    · intro j v e hj
      rcases x.inv.cov j v e with h1 | ⟨k, p, e1, _, e2⟩
      · exfalso
        simp only [own, List.mem_flatMap, ownOf] at h1
        obtain ⟨a, ha, h1⟩ := h1
        split at h1
        · simp at h1
        · rw [x.val a ha] at h1
          cases e' : m0 a.key with
          | none => rw [e'] at h1; simp at h1
          | some q =>
            rw [e'] at h1; simp at h1
            have := (hb _ _ e').2
            omega
      · by_cases hk : k ∈ t.rollbacks.map (·.key)
        · obtain ⟨a, ha, rfl⟩ := List.mem_map.mp hk
          cases hA : a.isArch with
          | false => exact ⟨a, ha, hA, by rw [e1]; simp [e2]⟩
          | true =>
            exfalso
            obtain ⟨k', p', _, f2, f3⟩ := x.arch a ha hA
            rw [e1] at f2; cases f2
            have := (hb _ _ f3).2
            omega
        · exfalso
          rw [x.same k hk] at e1
          have := (hb _ _ e1).2
          omega
  obtain ⟨s', h1, h2, h3, h4, h5⟩ := rollbackAll_spec BL hb (fun k k' p p' e1 e2 e => h0.inj k k' p p' e1 e2 (notFree _) (notFree _) e)
    t.rollbacks hroll
  refine ⟨{ s' with trans := none }, ?_, ?_, rfl, ?_⟩
  · simp only [transEnd, x.tr, if_true, h1, Option.map_some]
  · have hv : ∀ j v, s'.vals j = some v → s0.vals j = some v := by
      intro j v e
      by_cases hj : j < s0.next
      · rw [← h4 j hj]; exact e
      · rw [h5 j (by omega)] at e; cases e
    refine ⟨h2, Nat.lt_of_lt_of_le h0.pos h3, ?_, h0.inj, List.nodup_nil, by simp, by simp, ?_, ?_⟩
    · intro k p e hk
      obtain ⟨v, hv'⟩ := h0.live k p e hk
      exact ⟨v, by simp only; rw [h4 _ (hb k p e).2]; exact hv'⟩
    · intro j v e
      have := h0.bound j v (hv j v e)
      simp only; omega
    · intro j v e; exact h0.cov j v (hv j v e)
  · funext k
    apply cont_congr
    intro p e
    exact h4 _ (hb k p e).2

end Sid.Kvs
