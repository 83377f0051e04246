import Verif.Proof.KvsEnd
/-
Memory of the caller freed by the key-value store: what was handed over is either held by a live value or was freed.
-/
namespace Sid.Kvs
open Sid.Spec Sid.Spec.KvStore
variable {σ : Type} {B : Backend σ} {Rb : σ → StrMap.Map → Prop}

theorem flatMap_same {α β} {l : List α} {f g : α → List β} (h : ∀ x ∈ l, f x = g x) : l.flatMap f = l.flatMap g := by
  induction l with
  | nil => rfl
  | cons a l ih => rw [List.flatMap_cons, List.flatMap_cons, h a (by simp), ih fun x hx => h x (by simp [hx])]

theorem same_of_ptr {G : List Input} (hn : (G.map (·.ptr)).Nodup) {i i' : Input} (h : i ∈ G) (h' : i' ∈ G)
    (e : i'.ptr = i.ptr) : i' = i := by
  induction G with
  | nil => simp at h
  | cons a G ih =>
    rw [List.map_cons, List.nodup_cons] at hn
    rcases List.mem_cons.mp h with h1 | h1 <;> rcases List.mem_cons.mp h' with h2 | h2
    · rw [h1, h2]
    · exact absurd (h1 ▸ e ▸ List.mem_map_of_mem h2) hn.1
    · exact absurd (h2 ▸ e.symm ▸ List.mem_map_of_mem h1) hn.1
    · exact ih hn.2 h1 h2

/-- what a live value will free -/
def willFree (s : Store σ) (j : Nat) : List Freed := ((s.vals j).map freedBy).getD []

/-- what all live values will free -/
def heldMem (s : Store σ) : List Freed := (List.range s.next).flatMap (willFree s)

/-- what is freed for a value from its creation to its destruction -/
def gives (i : Input) : List Freed := freedByCreate i ++ freedBy (createVal i)

/-- what is freed in all for the calls -/
def givesAll (l : List Input) : List Freed := l.flatMap gives

/-- what was handed over is held or was freed -/
structure Cons (s : Store σ) (G : List Input) : Prop where
  bound : ∀ j v, s.vals j = some v → j < s.next
  count : ∀ c, s.freed.count c + (heldMem s).count c = (givesAll G).count c
  src : ∀ j v, s.vals j = some v → v.ref = true → v.auto = true → ∃ i ∈ G, v = createVal i

variable {s s' : Store σ} {G : List Input}

theorem Cons.congr (h : Cons s G) (e1 : s'.vals = s.vals) (e2 : s'.next = s.next) (e3 : s'.freed = s.freed) : Cons s' G := by
  have : heldMem s' = heldMem s := by simp only [heldMem, e2]; congr 1; funext j; simp only [willFree, e1]
  exact ⟨by rw [e1, e2]; exact h.bound, by rw [e3, this]; exact h.count, by rw [e1]; exact h.src⟩

theorem Cons.withBack (h : Cons s G) (b : σ) : Cons (withBack s b) G := h.congr rfl rfl rfl

/-- what the given value hands over -/
def handedVal (i : Input) : List Input := if i.ref = true ∧ i.auto = true then [i] else []

theorem gives_plain {i : Input} (h : ¬ (i.ref = true ∧ i.auto = true)) : gives i = [] := by
  cases h1 : i.ref <;> cases h2 : i.auto <;> simp_all [gives, freedByCreate, freedBy, createVal] <;>
    cases i.vec <;> cases i.merge <;> simp

theorem create_flags {i : Input} (h1 : (createVal i).ref = true) (h2 : (createVal i).auto = true) :
    i.ref = true ∧ i.auto = true := by
  revert h1 h2
  simp only [createVal]
  cases i.vec <;> cases i.ref <;> cases i.merge <;> simp

theorem givesAll_append (G H : List Input) : givesAll (G ++ H) = givesAll G ++ givesAll H := by simp [givesAll]

theorem givesAll_handedVal (i : Input) : givesAll (handedVal i) = gives i := by
  simp only [handedVal]
  split
  · simp [givesAll]
  · rename_i h; simp [givesAll, gives_plain h]

theorem heldMem_alloc (s : Store σ) (v : Val) (fr) : heldMem { alloc s v with freed := fr } = heldMem s ++ freedBy v := by
  simp only [heldMem, alloc, List.range_succ, List.flatMap_append, List.flatMap_cons, List.flatMap_nil, List.append_nil]
  congr 1
  · apply flatMap_same
    intro j hj
    have : j ≠ s.next := by have := List.mem_range.mp hj; omega
    simp [willFree, this]
  · simp [willFree]

theorem Cons.create (h : Cons s G) (i : Input) : Cons (create s i) (G ++ handedVal i) := by
  refine ⟨?_, ?_, ?_⟩
  · intro j v hv
    simp only [Kvs.create, alloc] at hv ⊢
    split at hv
    · omega
    · have := h.bound j v hv; omega
  · intro c
    have e := h.count c
    rw [Kvs.create, heldMem_alloc, givesAll_append, givesAll_handedVal]
    simp only [List.count_append, gives]
    omega
  · intro j v hv h1 h2
    simp only [Kvs.create, alloc] at hv
    split at hv
    · cases hv
      have h3 := create_flags h1 h2
      exact ⟨i, by simp [handedVal, h3], rfl⟩
    · obtain ⟨i', h3, h4⟩ := h.src j v hv h1 h2
      exact ⟨i', by simp [h3], h4⟩

theorem count_clear (f g : Nat → List Freed) (c : Freed) (j n : Nat) (hj : j < n) (h1 : g j = []) (h2 : ∀ x, x ≠ j → g x = f x) :
    ((List.range n).flatMap f).count c = ((List.range n).flatMap g).count c + (f j).count c := by
  induction n with
  | zero => omega
  | succ n ih =>
    simp only [List.range_succ, List.flatMap_append, List.flatMap_cons, List.flatMap_nil, List.append_nil, List.count_append]
    by_cases e : j = n
    · subst e
      have : (List.range j).flatMap g = (List.range j).flatMap f :=
        flatMap_same fun x hx => h2 x (by have := List.mem_range.mp hx; omega)
      rw [this, h1]
      simp
    · rw [ih (by omega), h2 n (by omega)]
      omega

theorem Cons.destroy {j : Nat} (h : Cons s G) (e : destroy s j = some s') : Cons s' G := by
  simp only [Kvs.destroy] at e
  cases hv : s.vals j with
  | none => simp [hv] at e
  | some v =>
    simp only [hv, Option.some.injEq] at e
    subst e
    refine ⟨?_, ?_, ?_⟩
    · intro x w hw
      simp only at hw ⊢
      split at hw
      · simp at hw
      · exact h.bound x w hw
    · intro c
      have e1 := h.count c
      have e2 := count_clear (willFree s) (willFree { s with
        vals := fun i => if i = j then none else s.vals i, freed := s.freed ++ freedBy v }) c j s.next (h.bound j v hv)
        (by simp [willFree]) (by intro x hx; simp [willFree, hx])
      simp only [heldMem, List.count_append] at e1 ⊢
      have e3 : willFree s j = freedBy v := by simp [willFree, hv]
      rw [e3] at e2
      omega
    · intro x w hw
      simp only at hw
      split at hw
      · simp at hw
      · exact h.src x w hw

theorem Cons.destroy? {o : Option Nat} (h : Cons s G) (e : destroy? s o = some s') : Cons s' G := by
  cases o with
  | none => cases e; exact h
  | some j => exact h.destroy e

/-- the callback of a set only answers -/
def Answers (fn : Option SetFn) : Prop := ∀ f, fn = some f → ∀ o g, (f o g).2 = none

theorem callSet_same {fn : Option SetFn} (ha : Answers fn) {old : Option Nat} {j n : Nat} {c}
    (e : callSet s fn old j n = some c) : c.1 = s ∧ c.2.2 = (j, n) := by
  cases fn with
  | none => cases e; exact ⟨rfl, rfl⟩
  | some f =>
    simp only [callSet] at e
    split at e
    · rename_i o v h1 h2
      have := ha f rfl o v.got
      cases hf : f o v.got with
      | mk r x =>
        rw [hf] at this e
        simp only at this
        subst this
        simp only [Option.some.injEq] at e
        subst e
        exact ⟨rfl, rfl⟩
    · cases e

theorem Cons.dropOld (h : Cons s G) {k old hasArch isArch useRb} (e : dropOld s k old hasArch isArch useRb = some s') :
    Cons s' G := by
  simp only [Kvs.dropOld] at e
  split at e
  · cases e; exact h.congr rfl rfl rfl
  · split at e
    · cases e; exact h
    · exact h.destroy? e

theorem Cons.setValue (h : Cons s G) {k j n fn hasArch isArch useRb c} (ha : Answers fn)
    (e : setValue B s k j n fn hasArch isArch useRb = some c) : Cons c.1 G := by
  simp only [Kvs.setValue, Option.bind_eq_some_iff] at e
  obtain ⟨old, -, x, hx, e⟩ := e
  obtain ⟨h1, h2⟩ := callSet_same ha hx
  split at e
  · simp only [Option.bind_eq_some_iff, Option.map_eq_some_iff] at e
    obtain ⟨s2, e2, b, -, rfl⟩ := e
    rw [h1] at e2
    exact (h.destroy e2).withBack b
  · simp only [Option.bind_eq_some_iff, Option.map_eq_some_iff] at e
    obtain ⟨s2, e2, b, -, rfl⟩ := e
    rw [h1] at e2
    exact (h.dropOld e2).withBack b

theorem Cons.archive (h : Cons s G) {a old useRb} (e : archive B s a old useRb = some s') : Cons s' G := by
  simp only [Kvs.archive] at e
  split at e
  · simp only [Option.map_eq_some_iff] at e
    obtain ⟨c, e1, rfl⟩ := e
    exact h.setValue (by intro f hf; cases hf) e1
  · cases e; exact h

theorem Cons.unsetValue (h : Cons s G) {k fn hasArch useBuf c} (e : unsetValue B s k fn hasArch useBuf = some c) : Cons c.1 G := by
  simp only [Kvs.unsetValue, Option.bind_eq_some_iff] at e
  obtain ⟨old, -, r, -, e⟩ := e
  split at e
  · split at e
    · simp only [Option.map_eq_some_iff] at e
      obtain ⟨b, -, rfl⟩ := e
      exact h.congr rfl rfl rfl
    · simp only [Option.bind_eq_some_iff, Option.map_eq_some_iff] at e
      obtain ⟨s2, e2, b, -, rfl⟩ := e
      refine Cons.withBack ?_ b
      split at e2
      · cases e2; exact h
      · exact h.destroy? e2
  · split at e
    all_goals
      simp only [Option.map_eq_some_iff] at e
      obtain ⟨b, -, rfl⟩ := e
      exact h.withBack b

theorem Cons.step (h : Cons s G) {op : Op} (ha : OnlyAnswer [op]) (e : step B s op = some s') : Cons s' (G ++ handedBy op) := by
  cases op with
  | set k a f i =>
    simp only [Kvs.step, kvsSet, Option.map_eq_some_iff] at e
    obtain ⟨c, e, rfl⟩ := e
    by_cases hk : k = []
    · rw [if_pos hk] at e
      cases e
      simpa [handedBy, hk] using h
    · rw [if_neg hk] at e
      simp only [Option.bind_eq_some_iff, Option.map_eq_some_iff] at e
      obtain ⟨x, e1, y, e2, rfl⟩ := e
      have : handedBy (.set k a f i) = handedVal i := by simp [handedBy, handedVal, hk]
      rw [this]
      refine (((h.create i).setValue ?_ e1).archive e2)
      rintro f' rfl o g
      exact ha k a f' i (by simp) o g
  | unset k a f =>
    simp only [Kvs.step, kvsUnset, Option.map_eq_some_iff] at e
    obtain ⟨c, e, rfl⟩ := e
    have : handedBy (.unset k a f) = [] := rfl
    rw [this, List.append_nil]
    by_cases hk : k = []
    · rw [if_pos hk] at e
      cases e
      exact h
    · rw [if_neg hk] at e
      simp only [Option.bind_eq_some_iff, Option.map_eq_some_iff] at e
      obtain ⟨x, e1, y, e2, rfl⟩ := e
      exact (h.unsetValue e1).archive e2

theorem Cons.run : ∀ {ops : List Op} {s : Store σ} {G}, Cons s G → OnlyAnswer ops → Kvs.run B s ops = some s' →
    Cons s' (G ++ handed ops)
  | [], s, G, h, _, e => by cases e; simpa [handed] using h
  | op :: ops, s, G, h, ha, e => by
    simp only [Kvs.run, Option.bind_eq_some_iff] at e
    obtain ⟨s1, e1, e2⟩ := e
    have := (h.step (fun k a f i hm => ha k a f i (by simp only [List.mem_singleton] at hm; simp [hm])) e1).run
      (fun k a f i hm => ha k a f i (by simp [hm])) e2
    simpa [handed] using this

theorem Cons.init (b : σ) : Cons (init b) [] := by
  refine ⟨?_, ?_, ?_⟩ <;> simp [Kvs.init, heldMem, willFree, givesAll]

/-! ### transactions -/

theorem Cons.rollbackAll : ∀ {l : List RbArg} {s : Store σ}, Cons s G → Kvs.rollbackAll B s l = some s' → Cons s' G
  | [], s, h, e => by cases e; exact h
  | a :: l, s, h, e => by
    simp only [Kvs.rollbackAll, rollbackValue, Option.bind_eq_some_iff, Option.map_eq_some_iff] at e
    obtain ⟨s1, ⟨c, -, s2, e2, b, -, rfl⟩, e3⟩ := e
    exact ((h.destroy? e2).withBack b).rollbackAll e3

theorem Cons.commitUnsets : ∀ {l : List UnsetArg} {s : Store σ}, Cons s G → Kvs.commitUnsets B s l = some s' → Cons s' G
  | [], s, h, e => by cases e; exact h
  | a :: l, s, h, e => by
    simp only [Kvs.commitUnsets, Option.bind_eq_some_iff] at e
    obtain ⟨s1, e1, e2⟩ := e
    exact (h.unsetValue e1).commitUnsets e2

theorem Cons.commitAll : ∀ {l : List RbArg} {s : Store σ}, Cons s G → Kvs.commitAll s l = some s' → Cons s' G
  | [], s, h, e => by cases e; exact h
  | a :: l, s, h, e => by
    simp only [Kvs.commitAll, Option.bind_eq_some_iff] at e
    obtain ⟨s1, e1, e2⟩ := e
    split at e1
    · cases e1; exact h.commitAll e2
    · exact (h.destroy? e1).commitAll e2

theorem Cons.transBegin (h : Cons s G) : Cons (transBegin s).2 G := by
  simp only [Kvs.transBegin]
  split
  · exact h
  · exact h.congr rfl rfl rfl

theorem Cons.transEnd (h : Cons s G) {rb : Bool} (e : transEnd B s rb = some s') : Cons s' G := by
  simp only [Kvs.transEnd] at e
  split at e
  · cases e; exact h
  · simp only [Option.map_eq_some_iff] at e
    obtain ⟨s1, e1, rfl⟩ := e
    refine Cons.congr (s := s1) ?_ rfl rfl rfl
    split at e1
    · exact h.rollbackAll e1
    · simp only [Option.bind_eq_some_iff] at e1
      obtain ⟨s2, e2, e3⟩ := e1
      exact (h.commitUnsets e2).commitAll e3

/-! ### what this means under the keys -/

theorem createVal_ptr {i : Input} (h : i.ref = true) : (createVal i).payload.ptr = i.ptr := by
  simp only [createVal, h]
  cases i.vec <;> cases i.merge <;> rfl

theorem cell_mem {v : Val} {p : Nat} : Freed.cell p ∈ freedBy v ↔ v.ref = true ∧ v.auto = true ∧ v.payload.ptr = p := by
  simp only [freedBy]
  cases v.ref <;> cases v.auto <;> cases v.vec <;> cases v.alloc <;> simp [eq_comm]

theorem items_cell {v : Val} {p : Nat} (h : Freed.items p ∈ freedBy v) : Freed.cell p ∈ freedBy v := by
  revert h
  simp only [freedBy]
  cases v.ref <;> cases v.auto <;> cases v.vec <;> cases v.alloc <;> simp

theorem heldMem_mem (h : Cons s G) {c : Freed} : c ∈ heldMem s ↔ ∃ j v, s.vals j = some v ∧ c ∈ freedBy v := by
  simp only [heldMem, List.mem_flatMap, List.mem_range, willFree]
  constructor
  · rintro ⟨j, -, hc⟩
    cases hv : s.vals j with
    | none => simp [hv] at hc
    | some v => exact ⟨j, v, hv, by simpa [hv] using hc⟩
  · rintro ⟨j, v, hv, hc⟩
    exact ⟨j, h.bound j v hv, by simpa [hv] using hc⟩

theorem count_gives {i : Input} (h1 : i.ref = true) (h2 : i.auto = true) (p : Nat) :
    (gives i).count (.cell p) = (if p = i.ptr then 1 else 0) ∧
    (gives i).count (.items p) = (if p = i.ptr ∧ i.vec = true then 1 else 0) := by
  simp only [gives, freedByCreate, freedBy, createVal, h1, h2]
  by_cases hp : p = i.ptr
  · subst hp
    cases i.vec <;> cases i.merge <;> simp [Payload.ptr]
  · cases i.vec <;> cases i.merge <;> simp [Payload.ptr, hp, Ne.symm hp]

theorem count_givesAll {G : List Input} (hG : ∀ i ∈ G, i.ref = true ∧ i.auto = true) (hn : (G.map (·.ptr)).Nodup) :
    (∀ i ∈ G, (givesAll G).count (.cell i.ptr) = 1 ∧ (givesAll G).count (.items i.ptr) = if i.vec then 1 else 0) ∧
    (∀ p, p ∉ G.map (·.ptr) → (givesAll G).count (.cell p) = 0 ∧ (givesAll G).count (.items p) = 0) := by
  induction G with
  | nil => simp [givesAll]
  | cons a G ih =>
    obtain ⟨ih1, ih2⟩ := ih (fun i hi => hG i (by simp [hi])) (List.nodup_cons.mp hn).2
    have hna : a.ptr ∉ G.map (·.ptr) := (List.nodup_cons.mp hn).1
    obtain ⟨ha1, ha2⟩ := hG a (by simp)
    have e : givesAll (a :: G) = gives a ++ givesAll G := rfl
    refine ⟨?_, ?_⟩
    · intro i hi
      have c := count_gives ha1 ha2 i.ptr
      rw [e, List.count_append, List.count_append, c.1, c.2]
      rcases List.mem_cons.mp hi with rfl | hi
      · simp [ih2 _ hna]
      · have : i.ptr ≠ a.ptr := fun x => hna (x ▸ List.mem_map_of_mem hi)
        simp [ih1 i hi, this]
    · intro p hp
      have c := count_gives ha1 ha2 p
      simp only [List.map_cons, List.mem_cons, not_or] at hp
      rw [e, List.count_append, List.count_append, c.1, c.2]
      simp [ih2 p hp.2, hp.1]

theorem handed_flags {ops : List Op} : ∀ i ∈ handed ops, i.ref = true ∧ i.auto = true := by
  intro i hi
  simp only [handed, List.mem_flatMap] at hi
  obtain ⟨op, -, h⟩ := hi
  cases op with
  | set k a f j =>
    simp only [handedBy] at h
    split at h
    · rename_i hh; simp only [List.mem_singleton] at h; subst h; exact hh.2
    · simp at h
  | unset => simp [handedBy] at h

theorem Cons.freedOnce {m : StrMap.Map} {c : Content} (h : Cons s G) (hI : Inv Rb s m free []) (hc : cont s m = c)
    (hG : ∀ i ∈ G, i.ref = true ∧ i.auto = true) (hn : (G.map (·.ptr)).Nodup) : FreedOnce c G s.freed := by
  obtain ⟨c1, c2⟩ := count_givesAll hG hn
  have hown : ∀ p, Owned c p ↔ Freed.cell p ∈ heldMem s := by
    intro p
    rw [heldMem_mem h, ← hc]
    constructor
    · rintro ⟨k, g, h1, h2, h3, h4⟩
      simp only [cont, Option.bind_eq_some_iff, Option.map_eq_some_iff] at h1
      obtain ⟨q, -, v, hv, rfl⟩ := h1
      exact ⟨q.1, v, hv, cell_mem.mpr ⟨h2, h3, h4⟩⟩
    · rintro ⟨j, v, hv, hm⟩
      obtain ⟨h2, h3, h4⟩ := cell_mem.mp hm
      rcases hI.cov j v hv with h1 | ⟨k, q, e1, -, e2⟩
      · simp at h1
      · refine ⟨k, v.got, ?_, h2, h3, h4⟩
        simp [cont, e1, e2, hv]
  refine ⟨?_, ?_, ?_⟩
  · intro i hi ho
    rw [hown] at ho
    have e1 := h.count (.cell i.ptr)
    have e2 := h.count (.items i.ptr)
    rw [(c1 i hi).1, List.count_eq_zero.mpr ho] at e1
    have hz : Freed.items i.ptr ∉ heldMem s := by
      intro hm
      obtain ⟨j, v, hv, hm⟩ := (heldMem_mem h).mp hm
      exact ho ((heldMem_mem h).mpr ⟨j, v, hv, items_cell hm⟩)
    rw [(c1 i hi).2, List.count_eq_zero.mpr hz] at e2
    exact ⟨by omega, by omega⟩
  · intro i hi ho
    rw [hown] at ho
    have e1 := h.count (.cell i.ptr)
    have e2 := h.count (.items i.ptr)
    rw [(c1 i hi).1] at e1
    rw [(c1 i hi).2] at e2
    have hp := List.count_pos_iff.mpr ho
    obtain ⟨j, v, hv, hm⟩ := (heldMem_mem h).mp ho
    have same : ∀ j v, s.vals j = some v → Freed.cell i.ptr ∈ freedBy v → v = createVal i := by
      intro j v hv hm
      obtain ⟨f1, f2, f3⟩ := cell_mem.mp hm
      obtain ⟨i', g1, rfl⟩ := h.src j v hv f1 f2
      rw [createVal_ptr (hG i' g1).1] at f3
      rw [same_of_ptr hn hi g1 f3]
    refine ⟨List.count_eq_zero.mp (by omega), ?_⟩
    by_cases hm' : i.vec = true ∧ i.merge = true
    · have hz : Freed.items i.ptr ∉ heldMem s := by
        intro hm2
        obtain ⟨j, v, hv, hm2⟩ := (heldMem_mem h).mp hm2
        rw [same j v hv (items_cell hm2)] at hm2
        simp [freedBy, createVal, hm', (hG i hi).1, (hG i hi).2] at hm2
      rw [List.count_eq_zero.mpr hz] at e2
      simp only [hm', Bool.and_self, if_true] at e2 ⊢
      omega
    · by_cases hv' : i.vec = true
      · have hmerge : i.merge = false := by simpa [hv'] using hm'
        have hpos : 0 < (heldMem s).count (.items i.ptr) := by
          refine List.count_pos_iff.mpr ((heldMem_mem h).mpr ⟨j, v, hv, ?_⟩)
          rw [same j v hv hm]
          simp [freedBy, createVal, hv', hmerge, (hG i hi).1, (hG i hi).2, Payload.ptr]
        simp only [hv', if_true] at e2
        simp only [hmerge, Bool.and_false, Bool.false_eq_true, if_false]
        omega
      · simp only [hv'] at e2 ⊢
        simp at e2 ⊢
        exact e2.1
  · intro p hp
    have e1 := h.count (.cell p)
    have e2 := h.count (.items p)
    rw [(c2 p hp).1] at e1
    rw [(c2 p hp).2] at e2
    exact ⟨List.count_eq_zero.mp (by omega), List.count_eq_zero.mp (by omega)⟩

end Sid.Kvs
