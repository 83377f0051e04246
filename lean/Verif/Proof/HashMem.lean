import Verif.Spec.HashMem
import Verif.Proof.Hash
/-
Lemmas on the memory of a hash table.
-/
namespace Sid.Hash
open Sid.Spec.HashMem

/-- sum of a weight over a chain -/
def wsum (w : Node → Int) (c : List Node) : Int := (c.map w).sum

/-- sum over all nodes -/
def total (w : Node → Int) (t : Table) : Int := wsum w t.slots.flatten

theorem wsum_append (w : Node → Int) (a b : List Node) : wsum w (a ++ b) = wsum w a + wsum w b := by simp [wsum]

theorem wsum_erase (w : Node → Int) {c : List Node} {i : Nat} {n : Node} (h : c[i]? = some n) : wsum w (c.eraseIdx i) = wsum w c - w n := by
  induction c generalizing i with
  | nil => simp at h
  | cons a c ih =>
    cases i with
    | zero => simp at h; subst h; simp [wsum]; omega
    | succ i =>
      simp at h
      have := ih h
      simp [wsum] at this ⊢
      omega

theorem wsum_modify (w : Node → Int) (g : Node → Node) (hg : ∀ n, w (g n) = w n) (c : List Node) (i : Nat) :
    wsum w (c.modify i g) = wsum w c := by
  induction c generalizing i with
  | nil => simp [wsum]
  | cons a c ih =>
    cases i with
    | zero => simp [wsum, hg]
    | succ i =>
      have := ih i
      simp [wsum] at this ⊢
      exact this

theorem wsum_set (w : Node → Int) {l : List (List Node)} {s : Nat} (h : s < l.length) (c : List Node) :
    wsum w (l.set s c).flatten = wsum w l.flatten - wsum w (l.getD s []) + wsum w c := by
  induction l generalizing s with
  | nil => simp at h
  | cons a l ih =>
    cases s with
    | zero => simp [wsum_append]; omega
    | succ s =>
      have := ih (s := s) (by simpa using h)
      simp [wsum_append] at this ⊢
      omega

theorem total_setChain (w : Node → Int) {t : Table} {s : Nat} (h : s < t.slots.length) (c : List Node) (k : Nat) :
    total w { setChain t s c with numNodes := k } = total w t - wsum w (chain t s) + wsum w c := wsum_set w h c

/-- the weight that counts -/
def one : Node → Int := fun _ => 1

/-- the weight that measures -/
def byt (z : Sizes) : Node → Int := fun n => nodeSize z n

theorem total_one (t : Table) : total one t = (iter t).length := by
  unfold total iter
  generalize t.slots.flatten = l
  induction l with
  | nil => rfl
  | cons a l ih => simp [wsum, one] at ih ⊢; omega

theorem total_byt (z : Sizes) (t : Table) :
    ((getSize z.table z.ptr z.node t).1 : Int) = z.table + z.ptr * t.slots.length + total (byt z) t := by
  unfold total getSize
  dsimp only
  generalize t.slots.flatten = l
  have : (((l.map fun n => z.node + n.key.length).sum : Nat) : Int) = wsum (byt z) l := by
    induction l with
    | nil => rfl
    | cons a l ih => simp [wsum, byt, nodeSize] at ih ⊢; omega
  push_cast
  rw [← this]

/-- table and memory fit -/
structure Fits (z : Sizes) (b : Heap) (t : Table) (m : Heap) : Prop where
  pos : 0 < t.slots.length
  num : (t.numNodes : Int) = total one t
  blocks : m.blocks = b.blocks + 2 + total one t
  bytes : m.bytes = b.bytes + z.table + z.ptr * t.slots.length + total (byt z) t

theorem Fits.holds {z : Sizes} {b m : Heap} {t : Table} (h : Fits z b t m) : Holds z b m t := by
  refine ⟨?_, ?_, ?_⟩
  · have := h.blocks; have := h.num; unfold entryCount; omega
  · have := h.bytes; rw [total_byt]; omega
  · have := h.num; rw [total_one] at this; unfold entryCount; omega

/-- what a step may do: nothing fails for another reason than memory -/
structure Did (z : Sizes) (b : Heap) (r : Int) (t t' u : Table) (m m' : Heap) : Prop where
  fits : Fits z b t' m'
  len : t'.slots.length = t.slots.length
  res : (r = 0 ∧ (t' = u ∨ false ∈ m.answers)) ∨ (r = -1 ∧ false ∈ m.answers)
  suffix : m'.answers <:+ m.answers

theorem malloc_cases (size : Nat) (m : Heap) :
    ((malloc size m).1 = true ∧ (malloc size m).2.blocks = m.blocks + 1 ∧ (malloc size m).2.bytes = m.bytes + size ∧
      (malloc size m).2.answers <:+ m.answers) ∨
    ((malloc size m).1 = false ∧ (malloc size m).2.blocks = m.blocks ∧ (malloc size m).2.bytes = m.bytes ∧
      (malloc size m).2.answers <:+ m.answers ∧ false ∈ m.answers) := by
  unfold malloc
  split
  · rename_i h; left; simp [h]
  · rename_i h; left; simp [h]
  · rename_i h; right; simp [h]

theorem Fits.change {z : Sizes} {b m m' : Heap} {t : Table} (h : Fits z b t m) {s : Nat} (hs : s < t.slots.length) (c : List Node) (k : Nat)
    (h1 : (k : Int) = t.numNodes - wsum one (chain t s) + wsum one c)
    (h2 : m'.blocks = m.blocks - wsum one (chain t s) + wsum one c)
    (h3 : m'.bytes = m.bytes - wsum (byt z) (chain t s) + wsum (byt z) c) : Fits z b { setChain t s c with numNodes := k } m' := by
  have e1 := total_setChain one hs c k
  have e2 := total_setChain (byt z) hs c k
  have hl : ({ setChain t s c with numNodes := k } : Table).slots.length = t.slots.length := by simp [setChain]
  refine ⟨by rw [hl]; exact h.pos, ?_, ?_, ?_⟩
  · have := h.num; rw [e1]; dsimp only; omega
  · have := h.blocks; rw [e1]; omega
  · have := h.bytes; rw [hl, e2]; omega

theorem insert_did {z : Sizes} {b m : Heap} {t : Table} (h : Fits z b t m) {s : Nat} (hs : s < t.slots.length) (n : Node) :
    Did z b (doInsertMem z t s n m).1 t (doInsertMem z t s n m).2.1 (doInsert t s n) m (doInsertMem z t s n m).2.2 ∧
      ((doInsertMem z t s n m).1 = -1 → (doInsertMem z t s n m).2.1 = t ∧ SameUse m (doInsertMem z t s n m).2.2) ∧
      ((doInsertMem z t s n m).1 = 0 → (doInsertMem z t s n m).2.1 = doInsert t s n) := by
  unfold doInsertMem
  have hm := malloc_cases (nodeSize z n) m
  generalize malloc (nodeSize z n) m = x at hm
  obtain ⟨a, m'⟩ := x
  rcases hm with ⟨e1, e2, e3, e4⟩ | ⟨e1, e2, e3, e4, e5⟩
  · dsimp only at e1 e2 e3 e4
    subst e1
    refine ⟨⟨?_, by simp [doInsert, setChain], .inl ⟨rfl, .inl rfl⟩, e4⟩, fun hh => by simp at hh, fun _ => rfl⟩
    refine h.change hs _ _ ?_ ?_ ?_
    · rw [wsum_append]; simp [wsum, one]; omega
    · rw [wsum_append]; dsimp only; simp [wsum, one, e2]; omega
    · rw [wsum_append]; dsimp only; simp [wsum, byt, e3]; omega
  · dsimp only at e1 e2 e3 e4
    subst e1
    refine ⟨⟨⟨h.pos, h.num, ?_, ?_⟩, rfl, .inr ⟨rfl, e5⟩, e4⟩, fun _ => ⟨rfl, e2, e3⟩, fun hh => by simp at hh⟩
    · dsimp only; rw [e2]; exact h.blocks
    · dsimp only; rw [e3]; exact h.bytes

theorem Fits.modify {z : Sizes} {b m : Heap} {t : Table} (h : Fits z b t m) {s : Nat} (hs : s < t.slots.length) (i : Nat) (g : Node → Node)
    (hg : ∀ n, (g n).key = n.key) : Fits z b (setChain t s ((chain t s).modify i g)) m := by
  have := h.change (m' := m) hs ((chain t s).modify i g) t.numNodes
    (by rw [wsum_modify]; omega; intro n; rfl)
    (by rw [wsum_modify]; omega; intro n; rfl)
    (by rw [wsum_modify]; omega; intro n; simp [byt, nodeSize, hg])
  exact this

theorem add_did {z : Sizes} {b m : Heap} {t : Table} (h : Fits z b t m) (k : List UInt8) (d l : Nat) :
    Did z b (addMem z t k d l m).1 t (addMem z t k d l m).2.1 (add t k d l) m (addMem z t k d l m).2.2 ∧
      ((addMem z t k d l m).1 = -1 → (addMem z t k d l m).2.1 = t ∧ SameUse m (addMem z t k d l m).2.2) ∧
      ((addMem z t k d l m).1 = 0 → (addMem z t k d l m).2.1 = add t k d l) := by
  unfold addMem
  cases e : (find t k).2 with
  | none =>
    have : add t k d l = doInsert t (find t k).1 ⟨k, d, l⟩ := by unfold add; rw [e]
    rw [this]
    exact insert_did h (slotOf_lt h.pos k) _
  | some i =>
    refine ⟨⟨?_, ?_, .inl ⟨rfl, .inl rfl⟩, List.suffix_refl _⟩, fun hh => by simp at hh, fun _ => rfl⟩
    · unfold add
      rw [e]
      exact h.modify (slotOf_lt h.pos k) i (fun n => { n with data := d }) (fun n => rfl)
    · unfold add
      rw [e]
      simp [setChain]

theorem doDel_did {z : Sizes} {b m : Heap} {t : Table} (h : Fits z b t m) {s i : Nat} (hs : s < t.slots.length) (hi : i < (chain t s).length) :
    ∃ m', doDelMem z t s i m = some (0, doDel t s i, m') ∧ Did z b 0 t (doDel t s i) (doDel t s i) m m' := by
  unfold doDelMem
  have hg : (chain t s)[i]? = some (chain t s)[i] := List.getElem?_eq_getElem hi
  rw [hg]
  refine ⟨_, rfl, ?_, by simp [doDel, setChain], .inl ⟨rfl, .inl rfl⟩, List.suffix_refl _⟩
  have hle : 1 ≤ t.numNodes := by
    have h1 := h.num
    rw [total_one] at h1
    have : (chain t s)[i] ∈ iter t := by
      unfold iter
      refine List.mem_flatten.2 ⟨chain t s, ?_, List.getElem_mem hi⟩
      unfold chain
      rw [List.getD_eq_getElem?_getD, List.getElem?_eq_getElem hs]
      exact List.getElem_mem hs
    have := List.length_pos_of_mem this
    omega
  refine h.change hs _ _ ?_ ?_ ?_
  · rw [wsum_erase one hg]; simp only [one]; omega
  · rw [wsum_erase one hg]; simp only [one, free]; omega
  · rw [wsum_erase (byt z) hg]; simp only [byt, free]; omega

theorem freeNodes_spec (z : Sizes) (t : Table) (m : Heap) :
    (freeNodes z t m).blocks = m.blocks - total one t ∧ (freeNodes z t m).bytes = m.bytes - total (byt z) t ∧
      (freeNodes z t m).answers = m.answers := by
  unfold freeNodes total
  generalize t.slots.flatten = l
  induction l generalizing m with
  | nil => simp [wsum]
  | cons a l ih =>
    obtain ⟨h1, h2, h3⟩ := ih (free (nodeSize z a) m)
    rw [List.foldl_cons]
    refine ⟨?_, ?_, ?_⟩
    · rw [h1]; simp [wsum, one, free]; omega
    · rw [h2]; simp [wsum, byt, free]; omega
    · rw [h3]; rfl

theorem wipe_did {z : Sizes} {b m : Heap} {t : Table} (h : Fits z b t m) : Did z b 0 t (wipe t) (wipe t) m (freeNodes z t m) := by
  obtain ⟨h1, h2, h3⟩ := freeNodes_spec z t m
  have hz : ∀ w, total w (wipe t) = 0 := by
    intro w
    unfold total wipe
    dsimp only
    generalize t.slots = l
    induction l with
    | nil => rfl
    | cons a l ih => simpa using ih
  have hl : (wipe t).slots.length = t.slots.length := by simp [wipe]
  refine ⟨⟨by rw [hl]; exact h.pos, by rw [hz]; rfl, ?_, ?_⟩, hl, .inl ⟨rfl, .inl rfl⟩, by rw [h3]; exact List.suffix_refl _⟩
  · have := h.blocks; rw [hz]; omega
  · have := h.bytes; rw [hz, hl]; omega

theorem addMultiple_did {z : Sizes} {b m : Heap} {t : Table} (h : Fits z b t m) (k : List UInt8) (d l : Nat) :
    Did z b (addMultipleMem z t k d l m).1 t (addMultipleMem z t k d l m).2.1 (addMultiple t k d l) m (addMultipleMem z t k d l m).2.2 ∧
      ((addMultipleMem z t k d l m).1 = -1 → (addMultipleMem z t k d l m).2.1 = t ∧ SameUse m (addMultipleMem z t k d l m).2.2) ∧
      ((addMultipleMem z t k d l m).1 = 0 → (addMultipleMem z t k d l m).2.1 = addMultiple t k d l) := by
  unfold addMultipleMem
  have hm := malloc_cases (nodeSize z ⟨k, d, l⟩) m
  generalize malloc (nodeSize z ⟨k, d, l⟩) m = x at hm
  obtain ⟨a, m'⟩ := x
  rcases hm with ⟨e1, e2, e3, e4⟩ | ⟨e1, e2, e3, e4, e5⟩
  · dsimp only at e1 e2 e3 e4
    subst e1
    refine ⟨⟨?_, by simp [addMultiple, setChain], .inl ⟨rfl, .inl rfl⟩, e4⟩, fun hh => by simp at hh, fun _ => rfl⟩
    refine h.change (slotOf_lt h.pos k) _ _ ?_ ?_ ?_
    · simp [wsum, one]; omega
    · dsimp only; simp [wsum, one, e2]; omega
    · dsimp only; simp [wsum, byt, e3]; omega
  · dsimp only at e1 e2 e3 e4
    subst e1
    refine ⟨⟨⟨h.pos, h.num, ?_, ?_⟩, rfl, .inr ⟨rfl, e5⟩, e4⟩, fun _ => ⟨rfl, e2, e3⟩, fun hh => by simp at hh⟩
    · dsimp only; rw [e2]; exact h.blocks
    · dsimp only; rw [e3]; exact h.bytes

theorem addMany_did {z : Sizes} {b : Heap} (l : List (List UInt8 × Nat × Nat)) {t : Table} {m : Heap} (h : Fits z b t m) :
    Did z b 0 t (addManyMem z t l m).1 (addMany t l) m (addManyMem z t l m).2 := by
  unfold addManyMem addMany
  induction l generalizing t m with
  | nil => exact ⟨h, rfl, .inl ⟨rfl, .inl rfl⟩, List.suffix_refl _⟩
  | cons a l ih =>
    rw [List.foldl_cons, List.foldl_cons]
    obtain ⟨d, hf⟩ := add_did h a.1 a.2.1 a.2.2
    dsimp only
    generalize hx : addMem z t a.1 a.2.1 a.2.2 m = x at d hf
    obtain ⟨r, t1, m1⟩ := x
    dsimp only at d hf ⊢
    have i := ih d.fits
    refine ⟨i.fits, i.len.trans d.len, .inl ⟨rfl, ?_⟩, i.suffix.trans d.suffix⟩
    rcases d.res with ⟨-, e | e⟩ | ⟨-, e⟩
    · subst e
      rcases i.res with ⟨-, e | e⟩ | ⟨e, -⟩
      · exact .inl e
      · exact .inr (d.suffix.subset e)
      · simp at e
    · exact .inr e
    · exact .inr e

theorem apply_did {z : Sizes} {b m : Heap} {t : Table} (h : Fits z b t m) (k : List UInt8) {s : Nat} (hs : s < t.slots.length) (i : Nat)
    (a : Action) : ∃ r t' m', applyMem z t k s i m a = some (r, t', m') ∧ Did z b r t t' (applyAction t k s i a) m m' ∧
      (r = -1 → t' = t ∧ SameUse m m') ∧ (r = 0 → t' = applyAction t k s i a) := by
  cases a with
  | write d l =>
    unfold applyMem
    dsimp only
    by_cases hi : i < (chain t s).length
    · rw [if_pos hi]
      refine ⟨_, _, _, rfl, ⟨?_, ?_, .inl ⟨rfl, .inl rfl⟩, List.suffix_refl _⟩, fun hh => by simp at hh, fun _ => rfl⟩
      · unfold applyAction
        dsimp only
        rw [if_pos hi]
        exact h.modify hs i (fun n => { n with data := d, len := l }) (fun n => rfl)
      · unfold applyAction
        dsimp only
        rw [if_pos hi]
        simp [setChain]
    · rw [if_neg hi]
      have e : applyAction t k s i (.write d l) = doInsert t s ⟨k, d, l⟩ := by unfold applyAction; dsimp only; rw [if_neg hi]
      rw [e]
      obtain ⟨x1, x2, x3⟩ := insert_did h hs ⟨k, d, l⟩
      exact ⟨_, _, _, rfl, x1, x2, x3⟩
  | remove =>
    unfold applyMem applyAction
    dsimp only
    by_cases hi : i < (chain t s).length
    · rw [if_pos hi]
      simp only [if_pos hi]
      obtain ⟨m', e, x⟩ := doDel_did h hs hi
      exact ⟨_, _, _, e, x, fun hh => by simp at hh, fun _ => rfl⟩
    · rw [if_neg hi]
      simp only [if_neg hi]
      exact ⟨_, _, _, rfl, ⟨h, rfl, .inl ⟨rfl, .inl rfl⟩, List.suffix_refl _⟩, fun hh => by simp at hh, fun _ => rfl⟩
  | skip => exact ⟨_, _, _, rfl, ⟨h, rfl, .inl ⟨rfl, .inl rfl⟩, List.suffix_refl _⟩, fun hh => by simp at hh, fun _ => rfl⟩

theorem findIdx_lt {c : List Node} {q : Node → Bool} {i : Nat} (h : c.findIdx? q = some i) : i < c.length := by
  rw [List.findIdx?_eq_some_iff_getElem] at h
  exact h.1

theorem step_did {z : Sizes} {b m : Heap} {t : Table} (h : Fits z b t m) (op : Op) :
    ∃ r t' m', stepMem z t m op = some (r, t', m') ∧ Did z b r t t' (step t op) m m' ∧ (r = -1 → Plain op → t' = t ∧ SameUse m m') ∧
      (r = 0 → Plain op → t' = step t op) := by
  cases op with
  | add k d l => exact ⟨_, _, _, rfl, (add_did h k d l).1, fun hr _ => (add_did h k d l).2.1 hr, fun hr _ => (add_did h k d l).2.2 hr⟩
  | addMultiple k d l => exact ⟨_, _, _, rfl, (addMultiple_did h k d l).1, fun hr _ => (addMultiple_did h k d l).2.1 hr, fun hr _ => (addMultiple_did h k d l).2.2 hr⟩
  | wipe => exact ⟨_, _, _, rfl, wipe_did h, fun hh => by simp at hh, fun _ _ => rfl⟩
  | del k =>
    show ∃ r t' m', delMem z t k m = _ ∧ Did z b r t t' (del t k) m m' ∧ _ ∧ (r = 0 → _ → t' = del t k)
    unfold delMem del
    cases e : (find t k).2 with
    | none => exact ⟨_, _, _, rfl, ⟨h, rfl, .inl ⟨rfl, .inl rfl⟩, List.suffix_refl _⟩, fun hh => by simp at hh, fun _ _ => rfl⟩
    | some i =>
      obtain ⟨m', e, x⟩ := doDel_did h (slotOf_lt h.pos k) (findIdx_lt e)
      exact ⟨_, _, _, e, x, fun hh => by simp at hh, fun _ _ => rfl⟩
  | delWithData mem k c =>
    show ∃ r t' m', delWithDataMem z mem t k c m = _ ∧ Did z b r t t' (delWithData mem t k c) m m' ∧ _ ∧ (r = 0 → _ → t' = delWithData mem t k c)
    unfold delWithDataMem delWithData
    cases e : findWithData mem t k c with
    | none => exact ⟨_, _, _, rfl, ⟨h, rfl, .inl ⟨rfl, .inl rfl⟩, List.suffix_refl _⟩, fun hh => by simp at hh, fun _ _ => rfl⟩
    | some i =>
      obtain ⟨m', e, x⟩ := doDel_did h (slotOf_lt h.pos k) (findIdx_lt e)
      exact ⟨_, _, _, e, x, fun hh => by simp at hh, fun _ _ => rfl⟩
  | update k fn =>
    show ∃ r t' m', updateMem z t k fn m = _ ∧ Did z b r t t' (update t k fn) m m' ∧ _ ∧ (r = 0 → _ → t' = update t k fn)
    unfold updateMem update
    have d := addMany_did (fn (oldValue t k)).2 h
    have hplain : Plain (.update k fn) → addManyMem z t (fn (oldValue t k)).2 m = (t, m) := by
      intro hp
      rw [show (fn (oldValue t k)).2 = [] from hp _]
      rfl
    dsimp only
    generalize addManyMem z t (fn (oldValue t k)).2 m = x at d hplain
    obtain ⟨t1, m1⟩ := x
    dsimp only at d ⊢
    obtain ⟨r, t', m', e, d2, hf, hok⟩ := apply_did d.fits k (s := slotOf t k) (by rw [d.len]; exact slotOf_lt h.pos k) (cursor t k) (fn (oldValue t k)).1
    refine ⟨r, t', m', e, ⟨d2.fits, d2.len.trans d.len, ?_, d2.suffix.trans d.suffix⟩, fun hr hp => ?_, fun hr hp => ?_⟩
    · rcases d2.res with ⟨hr, e2 | e2⟩ | ⟨hr, e2⟩
      · rcases d.res with ⟨-, e3 | e3⟩ | ⟨e3, -⟩
        · subst e3
          exact .inl ⟨hr, .inl e2⟩
        · exact .inl ⟨hr, .inr e3⟩
        · simp at e3
      · exact .inl ⟨hr, .inr (d.suffix.subset e2)⟩
      · exact .inr ⟨hr, d.suffix.subset e2⟩
    · have := hplain hp
      cases this
      exact hf hr
    · have := hplain hp
      cases this
      rw [hok hr, show (fn (oldValue t k)).2 = [] from hp _]
      rfl

theorem create_fits {z : Sizes} {hint : Nat} {m m' : Heap} {t : Table} (h : createMem z hint m = some (some t, m')) :
    Fits z m t m' ∧ create hint = some t ∧ m'.answers <:+ m.answers := by
  unfold createMem at h
  have h1 := malloc_cases z.table m
  generalize malloc z.table m = x at h h1
  obtain ⟨a, m1⟩ := x
  rcases h1 with ⟨e1, e2, e3, e4⟩ | ⟨e1, e2, e3, e4, e5⟩
  · dsimp only at e1 e2 e3 e4
    subst e1
    dsimp only at h
    cases hc : create hint with
    | none => rw [hc] at h; cases h
    | some t0 =>
      rw [hc] at h
      dsimp only at h
      have h2 := malloc_cases (z.ptr * t0.slots.length) m1
      generalize malloc (z.ptr * t0.slots.length) m1 = y at h h2
      obtain ⟨a2, m2⟩ := y
      rcases h2 with ⟨f1, f2, f3, f4⟩ | ⟨f1, f2, f3, f4, f5⟩
      · dsimp only at f1 f2 f3 f4
        subst f1
        cases h
        have hz : ∀ w, total w t = 0 := by
          intro w
          unfold create at hc
          cases hn : roundSize 29 16 hint with
          | none => rw [hn] at hc; cases hc
          | some n =>
            rw [hn] at hc
            cases hc
            unfold total
            dsimp only
            simp [wsum]
        have hnum : t.numNodes = 0 := by
          unfold create at hc
          cases hn : roundSize 29 16 hint with
          | none => rw [hn] at hc; cases hc
          | some n => rw [hn] at hc; cases hc; rfl
        refine ⟨⟨(create_wf hc).1.pos, ?_, ?_, ?_⟩, rfl, f4.trans e4⟩
        · rw [hz, hnum]; rfl
        · rw [hz]; omega
        · rw [hz]; push_cast at f3; omega
      · dsimp only at f1
        subst f1
        cases h
  · dsimp only at e1
    subst e1
    cases h

end Sid.Hash
