import Verif.Proof.KvsIter
/-
Helper lemmas for the statistics of a store: the size a value was stored with is the size of what is in memory.
-/
namespace Sid.Kvs
open Sid.Spec Sid.Spec.KvStore Sid.Spec.Shape Sid.Props

/-! ### values -/

/-- the memory the store has for a value -/
def intSz (v : Val) : Nat :=
  if v.ref then 24
  else match v.payload with
    | .copied items => 16 + (if v.vec then 16 * items.length else 0) + total items
    | _ => 0

/-- a value that is not a merged reference -/
def WfVal (v : Val) : Prop :=
  if v.ref then (∃ p, v.payload = .refd p) ∧ v.alloc = false
  else ∃ items, v.payload = .copied items ∧ v.alloc = true ∧ v.size = if v.vec then items.length else total items

/-- an input that makes such a value -/
def OkIn (i : Input) : Prop := ¬ (i.vec = true ∧ i.ref = true ∧ i.merge = true)

theorem total_one (b : Bytes) : total [b] = b.length := by simp [total]

theorem createVal_wf {i : Input} (h : OkIn i) : WfVal (createVal i) := by
  obtain ⟨vec, ref, auto, merge, ptr, items⟩ := i
  cases vec <;> cases ref <;> cases merge <;> simp_all [OkIn, createVal, WfVal, total_one]

theorem valSize_eq (i : Input) : valSize i = intSz (createVal i) := by
  obtain ⟨vec, ref, auto, merge, ptr, items⟩ := i
  cases vec <;> cases ref <;> cases merge <;> simp [createVal, valSize, intSz, total, Nat.mul_comm]

theorem size_memory (mem : Nat → List Bytes) {v : Val} (h : WfVal v) : currentSize mem v = memoryOf mem v.got := by
  obtain ⟨size, al, vec, ref, auto, pl⟩ := v
  simp only [WfVal] at h
  cases ref
  · simp only [Bool.false_eq_true, if_false] at h
    obtain ⟨items, rfl, rfl, hz⟩ := h
    cases vec <;> simp only [Bool.false_eq_true, if_false, if_true] at hz <;> subst hz <;> simp [currentSize, dataSizes, memoryOf, Val.got, itemsOf, total, List.length_flatten] <;> omega
  · simp only [if_true] at h
    obtain ⟨⟨p, rfl⟩, rfl⟩ := h
    cases vec <;> simp [currentSize, dataSizes, memoryOf, Val.got, itemsOf, total, List.length_flatten] <;> omega

theorem int_memory (mem : Nat → List Bytes) {v : Val} (h : WfVal v) : (memoryOf mem v.got).int = intSz v := by
  obtain ⟨size, al, vec, ref, auto, pl⟩ := v
  simp only [WfVal] at h
  cases ref
  · simp only [Bool.false_eq_true, if_false] at h
    obtain ⟨items, rfl, rfl, hz⟩ := h
    cases vec <;> simp [memoryOf, Val.got, intSz]
  · simp only [if_true] at h
    obtain ⟨⟨p, rfl⟩, rfl⟩ := h
    cases vec <;> simp [memoryOf, Val.got, intSz]

/-! ### the sizes given to the backend -/

variable {σ : Type} {B : Backend σ} {Rb : σ → StrMap.Map → Prop} {s s' s'' : Store σ} {m : StrMap.Map}

/-- the values in memory -/
structure Good (s : Store σ) : Prop where
  pos : 0 < s.next
  vals : ∀ i v, s.vals i = some v → i < s.next ∧ WfVal v

/-- an address and the size of what is there, if it is still there -/
def Fits (s : Store σ) (p : Nat × Nat) : Prop :=
  p.1 ≠ 0 ∧ p.1 < s.next ∧ ∀ v, s.vals p.1 = some v → p.2 = intSz v

/-- values may go, may come, and keep their size -/
def Ext (s s' : Store σ) : Prop :=
  s.next ≤ s'.next ∧ ∀ i, i < s.next → ∀ v', s'.vals i = some v' → ∃ v, s.vals i = some v ∧ intSz v = intSz v'

theorem Ext.refl : Ext s s := ⟨Nat.le_refl _, fun _ _ v h => ⟨v, h, rfl⟩⟩

theorem Ext.trans (h : Ext s s') (h' : Ext s' s'') : Ext s s'' := by
  refine ⟨Nat.le_trans h.1 h'.1, fun i hi v hv => ?_⟩
  obtain ⟨v1, h1, e1⟩ := h'.2 i (Nat.lt_of_lt_of_le hi h.1) v hv
  obtain ⟨v2, h2, e2⟩ := h.2 i hi v1 h1
  exact ⟨v2, h2, e2.trans e1⟩

theorem Fits.ext {p} (h : Fits s p) (e : Ext s s') : Fits s' p := by
  refine ⟨h.1, Nat.lt_of_lt_of_le h.2.1 e.1, fun v hv => ?_⟩
  obtain ⟨v1, h1, e1⟩ := e.2 _ h.2.1 v hv
  rw [h.2.2 v1 h1, e1]

theorem Good.create (h : Good s) {i : Input} (hi : OkIn i) :
    Good (create s i) ∧ Ext s (create s i) ∧ Fits (create s i) (s.next, valSize i) := by
  have hv : ∀ j, (Kvs.create s i).vals j = if j = s.next then some (createVal i) else s.vals j := fun _ => rfl
  have hn : (Kvs.create s i).next = s.next + 1 := rfl
  refine ⟨⟨Nat.succ_pos _, ?_⟩, ⟨by omega, ?_⟩, by have := h.pos; simp; omega, by simp [hn], ?_⟩
  · intro j v e
    rw [hv] at e
    split at e
    · cases e; exact ⟨by omega, createVal_wf hi⟩
    · have := h.vals j v e; exact ⟨by omega, this.2⟩
  · intro j hj v e
    rw [hv, if_neg (by omega)] at e
    exact ⟨v, e, rfl⟩
  · intro v e
    simp only [hv, if_true, Option.some.injEq] at e
    subst e
    exact valSize_eq i

theorem Good.destroy (h : Good s) {i : Nat} (e : destroy s i = some s') : Good s' ∧ Ext s s' ∧ s'.back = s.back := by
  simp only [Kvs.destroy] at e
  split at e
  · cases e
  · simp only [Option.some.injEq] at e
    subst e
    refine ⟨⟨h.pos, ?_⟩, ⟨Nat.le_refl _, ?_⟩, rfl⟩
    · intro j v e
      simp only at e
      split at e
      · cases e
      · exact h.vals j v e
    · intro j _ v e
      simp only at e
      split at e
      · cases e
      · exact ⟨v, e, rfl⟩

theorem Good.destroy? (h : Good s) {o : Option Nat} (e : destroy? s o = some s') : Good s' ∧ Ext s s' ∧ s'.back = s.back := by
  cases o with
  | none =>
    simp only [Kvs.destroy?, Option.some.injEq] at e
    subst e
    exact ⟨h, Ext.refl, rfl⟩
  | some i => exact h.destroy e

theorem Good.edit (h : Good s) {id size : Nat} (hf : Fits s (id, size)) {v : Val} (hv : s.vals id = some v) {i : Input} (hi : OkIn i) {c}
    (e : edit s id size v i = some c) : Good c.1 ∧ Ext s c.1 ∧ c.1.back = s.back ∧ Fits c.1 c.2 := by
  simp only [Kvs.edit] at e
  split at e
  · rename_i hp
    simp only [Option.some.injEq] at e
    subst e
    have hw := (h.vals id v hv).2
    have hr : v.ref = true := by
      simp only [inPlace, Bool.and_eq_true, beq_iff_eq] at hp
      rw [hp.1.1.1.1.2, hp.1.1.2]
    have hsz : intSz v = intSz { v with payload := .refd i.ptr } := by simp [intSz, hr]
    have hex : Ext s { s with vals := fun j => if j = id then some { v with payload := .refd i.ptr } else s.vals j } := by
      refine ⟨Nat.le_refl _, fun j _ w e => ?_⟩
      simp only at e
      split at e
      · cases e; rename_i ej; subst ej; exact ⟨v, hv, hsz⟩
      · exact ⟨w, e, rfl⟩
    refine ⟨⟨h.pos, ?_⟩, hex, rfl, hf.ext hex⟩
    intro j w e
    simp only at e
    split at e
    · cases e; rename_i ej; subst ej
      refine ⟨hf.2.1, ?_⟩
      simp only [WfVal, hr, if_true] at hw ⊢
      exact ⟨⟨_, rfl⟩, hw.2⟩
    · exact h.vals j w e
  · simp only [Option.map_eq_some_iff] at e
    obtain ⟨s1, e1, rfl⟩ := e
    obtain ⟨g1, g2, g3⟩ := h.create hi
    obtain ⟨k1, k2, k3⟩ := g1.destroy e1
    exact ⟨k1, g2.trans k2, k3, g3.ext k2⟩

/-- the values a callback may put -/
def OkFn (fn : Option SetFn) : Prop := ∀ g old new i, fn = some g → (g old new).2 = some i → OkIn i

theorem Good.callSet (h : Good s) {id size : Nat} (hf : Fits s (id, size)) {fn : Option SetFn} (hfn : OkFn fn) {old c}
    (e : callSet s fn old id size = some c) : Good c.1 ∧ Ext s c.1 ∧ c.1.back = s.back ∧ Fits c.1 (c.2.2.1, c.2.2.2) := by
  cases fn with
  | none =>
    simp only [Kvs.callSet, Option.some.injEq] at e
    subst e
    exact ⟨h, Ext.refl, rfl, hf⟩
  | some f =>
    simp only [Kvs.callSet] at e
    split at e
    · rename_i o v ho hv
      split at e
      · rename_i r i hr
        split at e
        · simp only [Option.map_eq_some_iff] at e
          obtain ⟨x, e1, rfl⟩ := e
          exact h.edit hf hv (hfn f o v.got i rfl (by rw [hr])) e1
        · simp only [Option.some.injEq] at e
          subst e
          exact ⟨h, Ext.refl, rfl, hf⟩
      · simp only [Option.some.injEq] at e
        subst e
        exact ⟨h, Ext.refl, rfl, hf⟩
    · cases e

/-- every size in the backend is that of the value -/
structure Sz (Rb : σ → StrMap.Map → Prop) (s : Store σ) (m : StrMap.Map) : Prop where
  back : Rb s.back m
  good : Good s
  fits : ∀ k p, m k = some p → Fits s p

theorem Sz.upd (BL : Lawful B Rb) (h : Sz Rb s m) (k : Str) (a : StrMap.Act) (ha : ∀ d n, a = .write d n → Fits s (d, n)) {b'}
    (e : B.update s.back k (fun _ => a) = some b') : ∃ m', Sz Rb (withBack s b') m' := by
  obtain ⟨b2, e2, h2⟩ := BL.update k (fun _ => a) h.back fun _ d n hd => (ha d n hd).1
  rw [e] at e2
  cases e2
  refine ⟨_, h2, ⟨h.good.pos, h.good.vals⟩, ?_⟩
  intro k' p hp
  show Fits s p
  cases a with
  | skip => exact h.fits k' p hp
  | write d n =>
    simp only [StrMap.step, StrMap.put] at hp
    split at hp
    · cases hp; exact ha d n rfl
    · exact h.fits k' p hp
  | remove =>
    simp only [StrMap.step, StrMap.put] at hp
    split at hp
    · cases hp
    · exact h.fits k' p hp

theorem Sz.ext (h : Sz Rb s m) (hg : Good s') (he : Ext s s') (hb : s'.back = s.back) : Sz Rb s' m :=
  ⟨by rw [hb]; exact h.back, hg, fun k p e => (h.fits k p e).ext he⟩

theorem Sz.dropOld (h : Sz Rb s m) {k : Str} {old : Option (Nat × Nat)} {a b c : Bool} (e : dropOld s k old a b c = some s') :
    Sz Rb s' m ∧ Ext s s' := by
  simp only [Kvs.dropOld] at e
  split at e
  · simp only [Option.some.injEq] at e
    subst e
    exact ⟨⟨h.back, ⟨h.good.pos, h.good.vals⟩, h.fits⟩, Ext.refl⟩
  · split at e
    · simp only [Option.some.injEq] at e
      subst e
      exact ⟨h, Ext.refl⟩
    · obtain ⟨g1, g2, g3⟩ := h.good.destroy? e
      exact ⟨h.ext g1 g2 g3, g2⟩

theorem Sz.setValue (BL : Lawful B Rb) (h : Sz Rb s m) {k : Str} {id size : Nat} (hf : Fits s (id, size)) {fn : Option SetFn} (hfn : OkFn fn)
    {ha ia ur : Bool} {c} (e : setValue B s k id size fn ha ia ur = some c) :
    ∃ m', Sz Rb c.1 m' ∧ ∀ p, c.2.2 = some p → Fits c.1 p := by
  simp only [Kvs.setValue, BL.look k h.back, Option.bind_some, Option.bind_eq_some_iff] at e
  obtain ⟨x, e1, e⟩ := e
  obtain ⟨g1, g2, g3, g4⟩ := h.good.callSet hf hfn e1
  have h1 := h.ext g1 g2 g3
  split at e
  · simp only [Option.bind_eq_some_iff, Option.map_eq_some_iff] at e
    obtain ⟨s2, e2, b, e3, rfl⟩ := e
    obtain ⟨k1, k2, k3⟩ := h1.good.destroy e2
    obtain ⟨m', h2⟩ := (h1.ext k1 k2 k3).upd BL k .skip (by simp) e3
    exact ⟨m', h2, by simp⟩
  · simp only [Option.bind_eq_some_iff, Option.map_eq_some_iff] at e
    obtain ⟨s2, e2, b, e3, rfl⟩ := e
    obtain ⟨k1, k2⟩ := h1.dropOld e2
    obtain ⟨m', h2⟩ := k1.upd BL k (.write x.2.2.1 x.2.2.2) (by rintro d n ⟨⟩; exact g4.ext k2) e3
    refine ⟨m', h2, ?_⟩
    intro p hp
    show Fits s2 p
    simp only at hp
    split at hp
    · exact ((h.fits k p hp).ext g2).ext k2
    · cases hp

theorem Sz.archive (BL : Lawful B Rb) (h : Sz Rb s m) {a : Option Str} {old : Option (Nat × Nat)} (ho : ∀ p, old = some p → Fits s p)
    {ur : Bool} (e : archive B s a old ur = some s') : ∃ m', Sz Rb s' m' := by
  simp only [Kvs.archive] at e
  split at e
  · simp only [Option.map_eq_some_iff] at e
    obtain ⟨c, e1, rfl⟩ := e
    obtain ⟨m', h1, -⟩ := h.setValue BL (ho _ rfl) (by simp [OkFn]) e1
    exact ⟨m', h1⟩
  · simp only [Option.some.injEq] at e
    subst e
    exact ⟨m, h⟩

theorem Sz.unsetValue (BL : Lawful B Rb) (h : Sz Rb s m) {k : Str} {fn : Option UnsetFn} {ha ub : Bool} {c}
    (e : unsetValue B s k fn ha ub = some c) : ∃ m', Sz Rb c.1 m' ∧ ∀ p, c.2 = some p → Fits c.1 p := by
  simp only [Kvs.unsetValue, BL.look k h.back, Option.bind_some, Option.bind_eq_some_iff] at e
  obtain ⟨r, -, e⟩ := e
  split at e
  · split at e
    · rename_i t ht
      simp only [Option.map_eq_some_iff] at e
      obtain ⟨b, e3, rfl⟩ := e
      have h0 : Sz Rb { s with trans := some { t with unsets := t.unsets ++ [⟨k, ha⟩] } } m :=
        ⟨h.back, ⟨h.good.pos, h.good.vals⟩, h.fits⟩
      obtain ⟨m', h2⟩ := h0.upd BL k .skip (by simp) e3
      refine ⟨m', h2, fun p hp => ?_⟩
      show Fits s p
      simp only at hp
      split at hp
      · exact h.fits k p hp
      · cases hp
    · simp only [Option.bind_eq_some_iff, Option.map_eq_some_iff] at e
      obtain ⟨s2, e2, b, e3, rfl⟩ := e
      have h1 : Sz Rb s2 m ∧ Ext s s2 := by
        split at e2
        · cases e2; exact ⟨h, Ext.refl⟩
        · obtain ⟨g1, g2, g3⟩ := h.good.destroy? e2
          exact ⟨h.ext g1 g2 g3, g2⟩
      obtain ⟨m', h2⟩ := h1.1.upd BL k .remove (by simp) e3
      refine ⟨m', h2, fun p hp => ?_⟩
      show Fits s2 p
      simp only at hp
      split at hp
      · exact (h.fits k p hp).ext h1.2
      · cases hp
  · split at e <;>
    · simp only [Option.map_eq_some_iff] at e
      obtain ⟨b, e3, rfl⟩ := e
      obtain ⟨m', h2⟩ := h.upd BL k _ (by simp) e3
      exact ⟨m', h2, by simp⟩

theorem Sz.step (BL : Lawful B Rb) (h : Sz Rb s m) {op : Op} (ho : ∀ i, Gives op i → OkIn i) (e : step B s op = some s') :
    ∃ m', Sz Rb s' m' := by
  cases op with
  | set k a f i =>
    simp only [Kvs.step, kvsSet, Option.map_eq_some_iff] at e
    obtain ⟨x, e, rfl⟩ := e
    split at e
    · cases e; exact ⟨m, h⟩
    · simp only [Option.bind_eq_some_iff, Option.map_eq_some_iff] at e
      obtain ⟨c, e1, s2, e2, rfl⟩ := e
      obtain ⟨g1, g2, g3⟩ := h.good.create (ho i (.inl rfl))
      obtain ⟨m1, h1, h2⟩ := (h.ext g1 g2 rfl).setValue BL g3
        (fun g old new j hg hj => ho j (.inr ⟨g, old, new, hg, hj⟩)) e1
      exact h1.archive BL h2 e2
  | unset k a f =>
    simp only [Kvs.step, kvsUnset, Option.map_eq_some_iff] at e
    obtain ⟨x, e, rfl⟩ := e
    split at e
    · cases e; exact ⟨m, h⟩
    · simp only [Option.bind_eq_some_iff, Option.map_eq_some_iff] at e
      obtain ⟨c, e1, s2, e2, rfl⟩ := e
      obtain ⟨m1, h1, h2⟩ := h.unsetValue BL e1
      exact h1.archive BL h2 e2

theorem Sz.run (BL : Lawful B Rb) {ops : List Op} : ∀ {s : Store σ} {m}, Sz Rb s m → NoMergedRefs ops → run B s ops = some s' →
    ∃ m', Sz Rb s' m' := by
  induction ops with
  | nil => intro s m h _ e; simp only [Kvs.run, Option.some.injEq] at e; subst e; exact ⟨m, h⟩
  | cons op ops ih =>
    intro s m h hn e
    simp only [Kvs.run, Option.bind_eq_some_iff] at e
    obtain ⟨s1, e1, e2⟩ := e
    obtain ⟨m1, h1⟩ := h.step BL (hn op (by simp)) e1
    exact ih h1 (fun o ho => hn o (by simp [ho])) e2

theorem sz_init {b : σ} (hb : Rb b fun _ => none) : Sz Rb (init b) fun _ => none :=
  ⟨hb, ⟨Nat.one_pos, by simp [init]⟩, by simp⟩

/-! ### sums -/

theorem stats_foldl (mem : Nat → List Bytes) : ∀ (l : List (Str × Val)) (st : DbStats), (∀ x ∈ l, WfVal x.2) →
    l.foldl (addStats mem) st =
      ⟨st.pairs + (statsOf mem (gots l)).pairs, st.keySize + (statsOf mem (gots l)).keySize, st.int + (statsOf mem (gots l)).int,
       st.intData + (statsOf mem (gots l)).intData, st.ext + (statsOf mem (gots l)).ext, st.extData + (statsOf mem (gots l)).extData⟩
  | [], st, _ => by simp [statsOf, gots]
  | x :: l, st, h => by
    rw [List.foldl_cons, stats_foldl mem l _ fun y hy => h y (by simp [hy])]
    simp only [addStats, size_memory mem (h x (by simp))]
    simp only [statsOf, gots, List.map_cons, List.sum_cons, List.length_cons, DbStats.mk.injEq]
    refine ⟨?_, ?_, ?_, ?_, ?_, ?_⟩ <;> omega

theorem tree_size {b : Bpt.Bpt} (h : BptR b m) {out : List (Str × Bpt.Rec)} (ha : Ascending out)
    (hm : ∀ k x, (k, x) ∈ out ↔ Bpt.lookup b k = some (some x)) : b.dataSize = (out.map fun y => y.2.size).sum := by
  obtain ⟨S, hb, R, hs⟩ := h
  obtain ⟨rs, hn, hrs, -, hd⟩ := binv_accounting hb
  rw [hd]
  have hrec : ∀ k x, Bpt.lookup b k = some (some x) → ∃ r, recordOf b k = some r := by
    intro k x hx
    simp only [Bpt.lookup] at hx
    simp only [recordOf]
    split at hx
    · cases hx
    · cases hx
    · rename_i f hf; simp [hf]
  have hmem : ∀ k r, recordOf b k = some r → (k, r) ∈ S.names := by
    intro k r hr
    rcases Bpt.find_spec hb k with ⟨e, _⟩ | ⟨f, t, LA, LB, A, B, PA, PB, e, hit⟩
    · simp [recordOf, e] at hr
    · have : f.rc = r := by simpa [recordOf, e] using hr
      have h2 : (k, f.rc) ∈ Bpt.ents b := by rw [hit.ents hb.tree]; simp
      rw [this] at h2
      exact R.names.mem_iff.mp h2
  have hperm : rs.Perm (out.filterMap fun y => (recordOf b y.1).map fun r => (r, y.2)) := by
    refine (List.perm_ext_iff_of_nodup (List.Pairwise.of_map Prod.fst (fun a b h e => h (e ▸ rfl)) hn) ?_).mpr ?_
    · have hno : out.Nodup := by
        refine List.Pairwise.imp (fun {x y} hxy e => ?_) ha
        subst e
        rw [strLt_irrefl] at hxy
        cases hxy
      refine List.pairwise_filterMap.mpr (hno.imp ?_)
      rintro y y' hne z hz z' hz' rfl
      simp only [Option.map_eq_some_iff] at hz hz'
      obtain ⟨r, h1, rfl⟩ := hz
      obtain ⟨r', h1', e⟩ := hz'
      simp only [Prod.mk.injEq] at e
      obtain ⟨rfl, e⟩ := e
      have := hs.inj _ _ _ (hmem _ _ h1) (hmem _ _ h1')
      exact hne (Prod.ext this e.symm)
    · rintro ⟨r, x⟩
      rw [hrs, List.mem_filterMap]
      constructor
      · rintro ⟨k, h1, h2⟩
        exact ⟨(k, x), (hm k x).mpr h2, by simp [h1]⟩
      · rintro ⟨⟨k, y⟩, h1, h2⟩
        simp only [Option.map_eq_some_iff, Prod.mk.injEq] at h2
        obtain ⟨r', h2, rfl, rfl⟩ := h2
        exact ⟨k, h2, (hm k _).mp h1⟩
  rw [(hperm.map fun p => p.2.size).sum_nat]
  congr 1
  clear hperm ha hn hrs hd
  have : ∀ y ∈ out, ∃ r, recordOf b y.1 = some r := fun y hy => hrec y.1 y.2 ((hm _ _).mp hy)
  clear hm
  induction out with
  | nil => rfl
  | cons y out ih =>
    obtain ⟨r, hr⟩ := this y (by simp)
    simp only [List.filterMap_cons, hr, Option.map_some, List.map_cons]
    rw [ih fun z hz => this z (by simp [hz])]

end Sid.Kvs
