import Verif.Model.Hash
import Verif.Spec.Hash
namespace Sid.Hash

/-! ### chains -/

/-- nodes of a chain with a given key -/
def sel (k : List UInt8) (c : List Node) : List Node := c.filter fun n => n.key == k

theorem findIn_none {c : List Node} {k} : findIn c k = none ↔ sel k c = [] := by
  simp [findIn, sel, List.findIdx?_eq_none_iff, List.filter_eq_nil_iff]

theorem findIn_some {c : List Node} {k i} (h : findIn c k = some i) :
    ∃ n rest, c[i]? = some n ∧ n.key = k ∧ sel k c = n :: rest ∧ i < c.length ∧
      (∀ g : Node → Node, (∀ n, (g n).key = n.key) → sel k (c.modify i g) = g n :: rest) ∧
      (∀ g : Node → Node, (∀ n, (g n).key = n.key) → ∀ k', k' ≠ k → sel k' (c.modify i g) = sel k' c) ∧
      sel k (c.eraseIdx i) = rest ∧ (∀ k', k' ≠ k → sel k' (c.eraseIdx i) = sel k' c) := by
  induction c generalizing i with
  | nil => simp [findIn] at h
  | cons a c ih =>
    simp only [findIn, List.findIdx?_cons] at h
    by_cases ha : a.key = k
    · simp [ha] at h
      subst h
      refine ⟨a, sel k c, by simp, ha, by simp [sel, ha], by simp, ?_, ?_, by simp, ?_⟩
      · intro g hg; simp [sel, hg, ha]
      · intro g hg k' hk'
        have : ¬ k = k' := fun h => hk' h.symm
        simp [sel, hg, ha, this]
      · intro k' hk'
        have : ¬ k = k' := fun h => hk' h.symm
        simp [sel, ha, this]
    · simp [ha] at h
      obtain ⟨j, hj, rfl⟩ := h
      obtain ⟨n, rest, h1, h2, h3, h4, h5, h6, h7, h8⟩ := ih (by simpa [findIn] using hj)
      refine ⟨n, rest, by simpa using h1, h2, by simpa [sel, ha] using h3, by simpa using h4, ?_, ?_, ?_, ?_⟩
      · intro g hg; simpa [sel, ha] using h5 g hg
      · intro g hg k' hk'
        have := h6 g hg k' hk'
        simp only [sel] at this
        simp [sel, List.filter_cons, this]
      · simpa [sel, ha] using h7
      · intro k' hk'
        have := h8 k' hk'
        simp only [sel] at this
        simp [sel, List.filter_cons, this]

theorem sel_append (k) (c d : List Node) : sel k (c ++ d) = sel k c ++ sel k d := by simp [sel]

/-- removing the first node of a key that satisfies a test -/
theorem findIdx_erase {c : List Node} {k i} {q : Node → Bool}
    (h : c.findIdx? (fun n => n.key == k && q n) = some i) :
    i < c.length ∧ sel k (c.eraseIdx i) = (sel k c).eraseP q ∧ (∀ k', k' ≠ k → sel k' (c.eraseIdx i) = sel k' c) ∧
    (c[i]?) = (sel k c).find? q := by
  induction c generalizing i with
  | nil => simp at h
  | cons a c ih =>
    simp only [List.findIdx?_cons] at h
    by_cases ha : (a.key == k && q a) = true
    · rw [if_pos ha] at h
      simp at h; subst h
      simp at ha
      refine ⟨by simp, by simp [sel, ha], ?_, by simp [sel, ha]⟩
      intro k' hk'
      have : ¬ k = k' := fun h => hk' h.symm
      simp [sel, ha, this]
    · rw [if_neg ha] at h
      simp only [Option.map_eq_some_iff] at h
      obtain ⟨j, hj, rfl⟩ := h
      obtain ⟨h1, h2, h3, h4⟩ := ih hj
      refine ⟨by simpa using h1, ?_, ?_, ?_⟩
      · by_cases hk : a.key = k
        · have hq : q a = false := by simpa [hk] using ha
          simp only [sel] at h2
          simp [sel, List.filter_cons, hk, hq, h2]
        · simpa [sel, hk] using h2
      · intro k' hk'
        have := h3 k' hk'
        simp only [sel] at this
        simp [sel, List.filter_cons, this]
      · by_cases hk : a.key = k
        · have hq : q a = false := by simpa [hk] using ha
          simp [sel, hk, hq]; simpa [sel] using h4
        · simp [sel, hk]; simpa [sel] using h4

theorem findIdx_none {c : List Node} {k} {q : Node → Bool}
    (h : c.findIdx? (fun n => n.key == k && q n) = none) : (sel k c).find? q = none ∧ (sel k c).eraseP q = sel k c := by
  have : ∀ x ∈ sel k c, ¬ q x = true := by
    intro x hx
    simp only [sel, List.mem_filter] at hx
    have := List.findIdx?_eq_none_iff.1 h x hx.1
    simpa [hx.2] using this
  exact ⟨by simpa using this, List.eraseP_of_forall_not this⟩

/-! ### tables -/

/-- every node sits in the slot its key hashes to, and the count is right -/
structure WF (t : Table) : Prop where
  pos : 0 < t.slots.length
  home : ∀ s n, n ∈ chain t s → slotOf t n.key = s
  cnt : t.numNodes = (t.slots.map List.length).sum

/-- the entries of a key -/
def bag (t : Table) (k : List UInt8) : List Node := sel k (chain t (slotOf t k))

theorem slotOf_lt {t : Table} (h : 0 < t.slots.length) (k) : slotOf t k < t.slots.length := by
  unfold slotOf
  rw [BitVec.toNat_and]
  refine Nat.lt_of_le_of_lt Nat.and_le_right ?_
  rw [BitVec.toNat_ofNat]
  have := Nat.mod_le (t.slots.length - 1) (2 ^ 64)
  omega

theorem slotOf_setChain (t : Table) (s c k) : slotOf (setChain t s c) k = slotOf t k := by
  simp [slotOf, setChain]

theorem slotOf_congr {t t' : Table} (h : t'.slots.length = t.slots.length) (k) : slotOf t' k = slotOf t k := by
  simp [slotOf, h]

theorem chain_setChain {t : Table} {s : Nat} (h : s < t.slots.length) (c s') :
    chain (setChain t s c) s' = if s' = s then c else chain t s' := by
  simp only [chain, setChain, List.getD_eq_getElem?_getD, List.getElem?_set]
  by_cases e : s = s'
  · subst e; simp [h]
  · rw [if_neg e, if_neg (fun h => e h.symm)]

theorem sum_set {l : List (List Node)} {s : Nat} (h : s < l.length) (c : List Node) :
    ((l.set s c).map List.length).sum + (l.getD s []).length = (l.map List.length).sum + c.length := by
  induction l generalizing s with
  | nil => simp at h
  | cons a l ih =>
    cases s with
    | zero => simp; omega
    | succ s =>
      have := ih (s := s) (by simpa using h)
      simp [List.getD_eq_getElem?_getD] at this ⊢
      omega

/-- Replacing the chain of a slot: a well-formed result and the entries of each key -/
theorem replace_wf {t : Table} (w : WF t) {k : List UInt8} {c : List Node} {m : Nat}
    (hc : ∀ n ∈ c, slotOf t n.key = slotOf t k)
    (hm : m + (chain t (slotOf t k)).length = t.numNodes + c.length) :
    WF { setChain t (slotOf t k) c with numNodes := m } := by
  have hl := slotOf_lt w.pos k
  refine ⟨by simpa [setChain] using w.pos, ?_, ?_⟩
  · intro s n hn
    have hn' : n ∈ chain (setChain t (slotOf t k) c) s := hn
    rw [chain_setChain hl] at hn'
    rw [slotOf_congr (t := t) (by simp [setChain])]
    split at hn'
    · rename_i e; rw [e]; exact hc n hn'
    · exact w.home s n hn'
  · have := sum_set hl c
    have hcn := w.cnt
    simp only [chain] at hm
    simp only [setChain]
    omega

theorem replace_bag {t : Table} (w : WF t) {k : List UInt8} {c : List Node} {m : Nat} (k' : List UInt8) :
    bag { setChain t (slotOf t k) c with numNodes := m } k' =
      if slotOf t k' = slotOf t k then sel k' c else bag t k' := by
  have hl := slotOf_lt w.pos k
  have h1 : slotOf { setChain t (slotOf t k) c with numNodes := m } k' = slotOf t k' :=
    slotOf_congr (by simp [setChain]) _
  have h2 : ∀ s, chain { setChain t (slotOf t k) c with numNodes := m } s = chain (setChain t (slotOf t k) c) s :=
    fun _ => rfl
  unfold bag
  rw [h1, h2, chain_setChain hl]
  split <;> rfl

theorem setChain_eq (t : Table) (s c) : setChain t s c = { setChain t s c with numNodes := t.numNodes } := rfl

/-- Summary of one change: the entries of `k` become `b`, those of other keys stay -/
structure Change (t t' : Table) (k : List UInt8) (b : List Node) : Prop where
  wf : WF t'
  size : t'.slots.length = t.slots.length
  here : bag t' k = b
  there : ∀ k', k' ≠ k → bag t' k' = bag t k'

theorem change_of {t : Table} (w : WF t) {k : List UInt8} {c : List Node} {m : Nat} {b : List Node}
    (hc : ∀ n ∈ c, slotOf t n.key = slotOf t k)
    (hm : m + (chain t (slotOf t k)).length = t.numNodes + c.length)
    (hb : sel k c = b) (ho : ∀ k', k' ≠ k → sel k' c = sel k' (chain t (slotOf t k))) :
    Change t { setChain t (slotOf t k) c with numNodes := m } k b := by
  refine ⟨replace_wf w hc hm, by simp [setChain], ?_, ?_⟩
  · rw [replace_bag w, if_pos rfl, hb]
  · intro k' hk'
    rw [replace_bag w]
    split
    · rename_i e
      rw [ho k' hk']; unfold bag; rw [e]
    · rfl

theorem le_numNodes {t : Table} (w : WF t) (k) : (chain t (slotOf t k)).length ≤ t.numNodes := by
  have := sum_set (slotOf_lt w.pos k) ([] : List Node)
  have hcn := w.cnt
  simp only [chain]
  have h0 : ([] : List Node).length = 0 := rfl
  omega

theorem home_here {t : Table} (w : WF t) {k n} (h : n ∈ chain t (slotOf t k)) : slotOf t n.key = slotOf t k := w.home _ _ h

theorem mem_modify_key {c : List Node} {i : Nat} {g : Node → Node} (hg : ∀ n, (g n).key = n.key) {n : Node}
    (h : n ∈ c.modify i g) : ∃ n0 ∈ c, n.key = n0.key := by
  obtain ⟨j, hj⟩ := List.mem_iff_getElem?.1 h
  rw [List.getElem?_modify] at hj
  rcases hc : c[j]? with _ | n0
  · simp [hc] at hj
  · simp only [hc, Option.map_eq_map, Option.map_some, Option.some.injEq] at hj
    refine ⟨n0, List.mem_of_getElem? hc, ?_⟩
    rw [← hj]; split
    · exact hg n0
    · rfl

theorem modify_change {t : Table} (w : WF t) {k : List UInt8} {i : Nat} (hf : findIn (chain t (slotOf t k)) k = some i)
    {g : Node → Node} (hg : ∀ n, (g n).key = n.key) :
    ∃ n rest, bag t k = n :: rest ∧
      Change t (setChain t (slotOf t k) ((chain t (slotOf t k)).modify i g)) k (g n :: rest) := by
  obtain ⟨n, rest, _, _, h3, _, h5, h6, _, _⟩ := findIn_some hf
  refine ⟨n, rest, h3, ?_⟩
  rw [setChain_eq]
  refine change_of w ?_ (by simp) (h5 g hg) (fun k' hk' => h6 g hg k' hk')
  intro m hm
  obtain ⟨n0, hn0, e⟩ := mem_modify_key hg hm
  rw [e]; exact home_here w hn0

theorem insert_change {t : Table} (w : WF t) {k : List UInt8} (d l : Nat) (hb : bag t k = []) :
    Change t (doInsert t (slotOf t k) ⟨k, d, l⟩) k [⟨k, d, l⟩] := by
  unfold doInsert
  refine change_of w ?_ (by simp; omega) ?_ ?_
  · intro n hn
    simp only [List.mem_append, List.mem_singleton] at hn
    rcases hn with hn | rfl
    · exact home_here w hn
    · rfl
  · rw [sel_append]
    have : sel k (chain t (slotOf t k)) = [] := hb
    rw [this]; simp [sel]
  · intro k' hk'
    have : ¬ k = k' := fun h => hk' h.symm
    rw [sel_append]; simp [sel, this]

theorem doDel_change {t : Table} (w : WF t) {k : List UInt8} {i : Nat} {b : List Node}
    (hi : i < (chain t (slotOf t k)).length) (h1 : sel k ((chain t (slotOf t k)).eraseIdx i) = b)
    (h2 : ∀ k', k' ≠ k → sel k' ((chain t (slotOf t k)).eraseIdx i) = sel k' (chain t (slotOf t k))) :
    Change t (doDel t (slotOf t k) i) k b := by
  unfold doDel
  refine change_of w ?_ ?_ h1 h2
  · intro n hn
    exact home_here w (List.mem_of_mem_eraseIdx hn)
  · have := le_numNodes w k
    rw [List.length_eraseIdx_of_lt hi]; omega

/-! ### the calls on the entries of each key -/

theorem nodeAt_find {t : Table} (k) : nodeAt t (find t k).1 (find t k).2 = (bag t k).head? := by
  simp only [find]
  rcases hf : findIn (chain t (slotOf t k)) k with _ | i
  · have := findIn_none.1 hf
    simp [nodeAt, bag, this]
  · obtain ⟨n, rest, h1, _, h3, _⟩ := findIn_some hf
    simp [nodeAt, bag, h3, h1]

theorem lookup_eq (t : Table) (k) :
    lookup t k = report (bag t k).head? := by
  unfold lookup; rw [nodeAt_find]

/-- entries of a key after `hash_add` -/
def bagAdd (k : List UInt8) (d l : Nat) : List Node → List Node
  | [] => [⟨k, d, l⟩]
  | n :: r => { n with data := d } :: r

theorem add_change {t : Table} (w : WF t) (k d l) : Change t (add t k d l) k (bagAdd k d l (bag t k)) := by
  unfold add find
  rcases hf : findIn (chain t (slotOf t k)) k with _ | i
  · have hb : bag t k = [] := findIn_none.1 hf
    rw [hb]
    exact insert_change w d l hb
  · obtain ⟨n, rest, hb, hc⟩ := modify_change w hf (g := fun n => { n with data := d }) (fun _ => rfl)
    rw [hb]; exact hc

theorem del_change {t : Table} (w : WF t) (k) : Change t (del t k) k (bag t k).tail := by
  unfold del find
  rcases hf : findIn (chain t (slotOf t k)) k with _ | i
  · have hb : bag t k = [] := findIn_none.1 hf
    rw [hb]
    exact ⟨w, rfl, hb, fun _ _ => rfl⟩
  · obtain ⟨n, rest, _, _, h3, h4, _, _, h7, h8⟩ := findIn_some hf
    have hb : bag t k = n :: rest := h3
    rw [hb]
    exact doDel_change w h4 h7 h8

theorem addMultiple_change {t : Table} (w : WF t) (k d l) : Change t (addMultiple t k d l) k (⟨k, d, l⟩ :: bag t k) := by
  unfold addMultiple
  refine change_of w ?_ (by simp; omega) ?_ ?_
  · intro n hn
    rcases List.mem_cons.1 hn with rfl | hn
    · rfl
    · exact home_here w hn
  · simp [sel, bag]
  · intro k' hk'
    have : ¬ k = k' := fun h => hk' h.symm
    simp [sel, this]

/-- the data part of the test of `_find_with_data` -/
def dataTest (mem : Mem) (contents : List UInt8) (n : Node) : Bool :=
  n.data != 0 && n.len == contents.length && mem n.data n.len == contents

theorem findWithData_eq (mem : Mem) (t : Table) (k c) : findWithData mem t k c =
    (chain t (slotOf t k)).findIdx? (fun n => n.key == k && dataTest mem c n) := by
  unfold findWithData
  congr 1
  funext n
  simp [matchesData, dataTest, Bool.and_assoc]

theorem delWithData_change {t : Table} (w : WF t) (mem k c) :
    Change t (delWithData mem t k c) k ((bag t k).eraseP (dataTest mem c)) := by
  unfold delWithData
  rcases hf : findWithData mem t k c with _ | i
  · rw [findWithData_eq] at hf
    have := findIdx_none hf
    refine ⟨w, rfl, ?_, fun _ _ => rfl⟩
    exact this.2.symm
  · rw [findWithData_eq] at hf
    obtain ⟨h1, h2, h3, _⟩ := findIdx_erase hf
    exact doDel_change w h1 h2 h3

theorem lookupWithData_eq (mem : Mem) (t : Table) (k c) :
    lookupWithData mem t k c = (((bag t k).find? (dataTest mem c)).map Node.data).getD 0 := by
  unfold lookupWithData
  rcases hf : findWithData mem t k c with _ | i
  · rw [findWithData_eq] at hf
    have := (findIdx_none hf).1
    simp only [nodeAt, bag, Option.bind_none]
    rw [this]; rfl
  · rw [findWithData_eq] at hf
    obtain ⟨_, _, _, h4⟩ := findIdx_erase hf
    simp only [nodeAt, bag, Option.bind_some]
    rw [← h4]
    cases (chain t (slotOf t k))[i]? <;> rfl

theorem lookupWithCount_eq (t : Table) (s) : lookupWithCount t s =
    match (bag t (s ++ [0])).head? with
    | some n => (n.data, n.len, (bag t (s ++ [0])).length)
    | none => (0, 0, 0) := by
  unfold lookupWithCount
  have : (chain t (slotOf t (s ++ [0]))).filter (fun n => n.key == s ++ [0]) = bag t (s ++ [0]) := rfl
  simp only [this]
  cases bag t (s ++ [0]) <;> rfl

theorem wipe_spec {t : Table} (w : WF t) :
    WF (wipe t) ∧ (wipe t).slots.length = t.slots.length ∧ ∀ k, bag (wipe t) k = [] := by
  have hch : ∀ s, chain (wipe t) s = [] := by
    intro s
    simp only [chain, wipe, List.getD_eq_getElem?_getD, List.getElem?_map]
    cases t.slots[s]? <;> rfl
  refine ⟨⟨by simpa [wipe] using w.pos, ?_, ?_⟩, by simp [wipe], ?_⟩
  · intro s n hn; rw [hch] at hn; simp at hn
  · simp only [wipe]
    generalize t.slots = l
    induction l with
    | nil => rfl
    | cons a l ih => simp at ih ⊢; simpa using ih
  · intro k; simp [bag, hch, sel]

/-! ### nested additions -/

theorem addMany_wf {t : Table} (w : WF t) (l) : WF (addMany t l) ∧ (addMany t l).slots.length = t.slots.length := by
  induction l generalizing t with
  | nil => exact ⟨w, rfl⟩
  | cons x l ih =>
    have h := add_change w x.1 x.2.1 x.2.2
    obtain ⟨h1, h2⟩ := ih h.wf
    exact ⟨h1, h2.trans h.size⟩

theorem findIn_modify {c : List Node} {i : Nat} {g : Node → Node} (hg : ∀ n, (g n).key = n.key) (k) :
    findIn (c.modify i g) k = findIn c k := by
  induction c generalizing i with
  | nil => simp
  | cons a c ih =>
    cases i with
    | zero => simp [findIn, List.findIdx?_cons, hg]
    | succ i =>
      have := ih (i := i)
      simp only [findIn] at this
      simp [findIn, List.findIdx?_cons, this]

theorem add_find {t : Table} (w : WF t) {k k' d l i} (h : findIn (chain t (slotOf t k)) k = some i) :
    findIn (chain (add t k' d l) (slotOf t k)) k = some i := by
  have hl := slotOf_lt w.pos k'
  unfold add find
  rcases hf : findIn (chain t (slotOf t k')) k' with _ | j
  · have : ∀ s, chain (doInsert t (slotOf t k') ⟨k', d, l⟩) s =
        chain (setChain t (slotOf t k') (chain t (slotOf t k') ++ [⟨k', d, l⟩])) s := fun _ => rfl
    dsimp only
    rw [this, chain_setChain hl]
    split
    · rename_i e
      rw [e] at h
      simp only [findIn] at h ⊢
      rw [List.findIdx?_append, h]; rfl
    · exact h
  · dsimp only
    rw [chain_setChain hl]
    split
    · rename_i e
      rw [findIn_modify (g := fun n => { n with data := d }) (fun _ => rfl), ← e]; exact h
    · exact h

theorem addMany_find {t : Table} (w : WF t) {k i} (l) (h : findIn (chain t (slotOf t k)) k = some i) :
    findIn (chain (addMany t l) (slotOf t k)) k = some i := by
  induction l generalizing t with
  | nil => exact h
  | cons x l ih =>
    have hc := add_change w x.1 x.2.1 x.2.2
    have e : slotOf (add t x.1 x.2.1 x.2.2) k = slotOf t k := slotOf_congr hc.size k
    have := ih hc.wf (by rw [e]; exact add_find w h)
    rw [e] at this
    exact this

/-- The callback did not put a new node into the slot of an absent key -/
def NoClash (t : Table) (k : List UInt8) (fn : UpdateFn) : Prop :=
  bag t k ≠ [] ∨ (chain (addMany t (fn (oldValue t k)).2) (slotOf t k)).length = (chain t (slotOf t k)).length

/-- entries of a key after the action of an update -/
def bagAct (k : List UInt8) : Action → List Node → List Node
  | .write d l, [] => [⟨k, d, l⟩]
  | .write d l, n :: r => { n with data := d, len := l } :: r
  | .remove, b => b.tail
  | .skip, b => b

theorem add_length_le {t : Table} (w : WF t) (k d l s) : (chain t s).length ≤ (chain (add t k d l) s).length := by
  have hl := slotOf_lt w.pos k
  unfold add find
  rcases hf : findIn (chain t (slotOf t k)) k with _ | i
  · have : chain (doInsert t (slotOf t k) ⟨k, d, l⟩) s =
        chain (setChain t (slotOf t k) (chain t (slotOf t k) ++ [⟨k, d, l⟩])) s := rfl
    dsimp only
    rw [this, chain_setChain hl]; split <;> simp [*]
  · dsimp only; rw [chain_setChain hl]; split <;> simp [*]

theorem add_same_length {t : Table} (w : WF t) {k d l s} (h : (chain (add t k d l) s).length = (chain t s).length)
    (k' : List UInt8) (hk : slotOf t k' = s) (hb : bag t k' = []) : bag (add t k d l) k' = [] := by
  have hc := add_change w k d l
  by_cases e : k' = k
  · subst e
    subst hk
    have hl := slotOf_lt w.pos k'
    have hf : findIn (chain t (slotOf t k')) k' = none := findIn_none.2 hb
    have : (chain (add t k' d l) (slotOf t k')).length = (chain t (slotOf t k')).length + 1 := by
      unfold add find
      rw [hf]
      have : chain (doInsert t (slotOf t k') ⟨k', d, l⟩) (slotOf t k') =
        chain (setChain t (slotOf t k') (chain t (slotOf t k') ++ [⟨k', d, l⟩])) (slotOf t k') := rfl
      dsimp only
      rw [this, chain_setChain hl]; simp
    omega
  · rw [hc.there k' e, hb]

theorem addMany_length_le {t : Table} (w : WF t) (l s) : (chain t s).length ≤ (chain (addMany t l) s).length := by
  induction l generalizing t with
  | nil => exact Nat.le_refl _
  | cons x l ih =>
    exact Nat.le_trans (add_length_le w x.1 x.2.1 x.2.2 s) (ih (add_change w _ _ _).wf)

theorem addMany_absent {t : Table} (w : WF t) (l) {k : List UInt8} (hb : bag t k = [])
    (h : (chain (addMany t l) (slotOf t k)).length = (chain t (slotOf t k)).length) : bag (addMany t l) k = [] := by
  induction l generalizing t with
  | nil => exact hb
  | cons x l ih =>
    have hc := add_change w x.1 x.2.1 x.2.2
    have e : slotOf (add t x.1 x.2.1 x.2.2) k = slotOf t k := slotOf_congr hc.size k
    have h1 := add_length_le w x.1 x.2.1 x.2.2 (slotOf t k)
    have h2 := addMany_length_le hc.wf l (slotOf t k)
    have h' : (chain (addMany (add t x.1 x.2.1 x.2.2) l) (slotOf t k)).length = (chain t (slotOf t k)).length := h
    have h3 : (chain (add t x.1 x.2.1 x.2.2) (slotOf t k)).length = (chain t (slotOf t k)).length := by omega
    exact ih hc.wf (add_same_length w h3 k rfl hb) (by rw [e]; exact h'.trans h3.symm)

theorem update_change {t : Table} (w : WF t) {k : List UInt8} {fn : UpdateFn} (hg : NoClash t k fn) :
    Change (addMany t (fn (oldValue t k)).2) (update t k fn) k
      (bagAct k (fn (oldValue t k)).1 (bag (addMany t (fn (oldValue t k)).2) k)) := by
  unfold update
  unfold NoClash at hg
  obtain ⟨w', hs⟩ := addMany_wf w (fn (oldValue t k)).2
  have e : slotOf t k = slotOf (addMany t (fn (oldValue t k)).2) k := (slotOf_congr hs k).symm
  rcases hf : findIn (chain t (slotOf t k)) k with _ | i
  · have hb : bag t k = [] := findIn_none.1 hf
    have hlen := hg.resolve_left (by simp [hb])
    have hb' := addMany_absent w _ hb hlen
    have hcur : cursor t k = (chain t (slotOf t k)).length := by simp [cursor, find, hf]
    generalize addMany t (fn (oldValue t k)).2 = t' at *
    rw [hcur, ← hlen, e, hb']
    cases (fn (oldValue t k)).1 with
    | write d l =>
      simp only [applyAction, Nat.lt_irrefl, if_false, bagAct]
      exact insert_change w' d l hb'
    | remove =>
      simp only [applyAction, Nat.lt_irrefl, if_false, bagAct]
      exact ⟨w', rfl, hb', fun _ _ => rfl⟩
    | skip => exact ⟨w', rfl, hb', fun _ _ => rfl⟩
  · have hf' := addMany_find w (fn (oldValue t k)).2 hf
    have hcur : cursor t k = i := by simp [cursor, find, hf]
    generalize addMany t (fn (oldValue t k)).2 = t' at *
    rw [hcur, e]
    rw [e] at hf'
    obtain ⟨n, rest, _, _, h3, h4, _, _, h7, h8⟩ := findIn_some hf'
    have hb : bag t' k = n :: rest := h3
    cases (fn (oldValue t k)).1 with
    | write d l =>
      simp only [applyAction, h4, if_true]
      obtain ⟨n', rest', hb2, hc⟩ := modify_change w' hf' (g := fun n => { n with data := d, len := l }) (fun _ => rfl)
      rw [hb2]; exact hc
    | remove =>
      simp only [applyAction, h4, if_true]
      rw [hb]
      exact doDel_change w' h4 h7 h8
    | skip => exact ⟨w', rfl, rfl, fun _ _ => rfl⟩

/-! ### iteration -/

theorem sel_flatten_aux (S : List UInt8 → Nat) (k : List UInt8) :
    ∀ (l : List (List Node)) (off : Nat), (∀ i n, n ∈ l.getD i [] → S n.key = off + i) → off ≤ S k →
      sel k l.flatten = sel k (l.getD (S k - off) []) := by
  intro l
  induction l with
  | nil => intro off _ _; simp
  | cons a l ih =>
    intro off h hk
    rw [List.flatten_cons, sel_append]
    have htail : ∀ i n, n ∈ l.getD i [] → S n.key = (off + 1) + i := by
      intro i n hn
      have := h (i + 1) n (by simpa using hn)
      omega
    by_cases e : S k = off
    · have hn : sel k l.flatten = [] := by
        simp only [sel, List.filter_eq_nil_iff]
        intro n hn
        obtain ⟨c, hc, hnc⟩ := List.mem_flatten.1 hn
        obtain ⟨i, hi⟩ := List.mem_iff_getElem?.1 hc
        have := htail i n (by simpa [List.getD_eq_getElem?_getD, hi] using hnc)
        intro hkk
        have hkk : n.key = k := by simpa using hkk
        rw [hkk] at this
        omega
      rw [hn, e]; simp
    · have hn : sel k a = [] := by
        simp only [sel, List.filter_eq_nil_iff]
        intro n hn hkk
        have hkk : n.key = k := by simpa using hkk
        have := h 0 n (by simpa using hn)
        rw [hkk] at this
        omega
      rw [hn, List.nil_append, ih (off + 1) htail (by omega)]
      obtain ⟨j, hj⟩ : ∃ j, S k - off = j + 1 := ⟨S k - off - 1, by omega⟩
      rw [hj, show S k - (off + 1) = j by omega]
      simp

theorem bag_iter {t : Table} (w : WF t) (k) : sel k (iter t) = bag t k := by
  unfold iter bag
  have := sel_flatten_aux (slotOf t) k t.slots 0 (fun i n hn => by simpa using w.home i n hn) (by omega)
  simpa [chain] using this

theorem numNodes_iter {t : Table} (w : WF t) : t.numNodes = (iter t).length := by
  rw [w.cnt, iter, List.length_flatten]

theorem nextSlot_none {t : Table} {s} (h : nextSlot t s = none) : (t.slots.drop s).flatten = [] := by
  induction s using nextSlot.induct (t := t) with
  | case1 s hs he ih =>
    rw [nextSlot, dif_pos hs, if_pos he] at h
    rw [List.drop_eq_getElem_cons hs, List.flatten_cons, ih h]
    simpa [chain, List.getD_eq_getElem?_getD, hs] using he
  | case2 s hs he => rw [nextSlot, dif_pos hs, if_neg he] at h; simp at h
  | case3 s hs => rw [List.drop_eq_nil_of_le (by omega)]; rfl

theorem nextSlot_some {t : Table} {s c} (h : nextSlot t s = some c) :
    c.2 = 0 ∧ c.1 < t.slots.length ∧ 0 < (chain t c.1).length ∧
      (t.slots.drop s).flatten = chain t c.1 ++ (t.slots.drop (c.1 + 1)).flatten := by
  induction s using nextSlot.induct (t := t) with
  | case1 s hs he ih =>
    rw [nextSlot, dif_pos hs, if_pos he] at h
    obtain ⟨h1, h2, h3, h4⟩ := ih h
    refine ⟨h1, h2, h3, ?_⟩
    rw [List.drop_eq_getElem_cons hs, List.flatten_cons, h4]
    have : t.slots[s] = [] := by simpa [chain, List.getD_eq_getElem?_getD, hs] using he
    rw [this]; rfl
  | case2 s hs he =>
    rw [nextSlot, dif_pos hs, if_neg he] at h
    simp only [Option.some.injEq] at h
    subst h
    refine ⟨rfl, hs, ?_, ?_⟩
    · exact List.length_pos_iff.2 (by simpa using he)
    · rw [List.drop_eq_getElem_cons hs, List.flatten_cons]
      simp [chain, List.getD_eq_getElem?_getD, hs]
  | case3 s hs => rw [nextSlot, dif_neg hs] at h; simp at h

/-- what is left to visit from a cursor on -/
def left (t : Table) : Option Cursor → List Node
  | none => []
  | some c => (chain t c.1).drop c.2 ++ (t.slots.drop (c.1 + 1)).flatten

/-- the cursor denotes a node -/
def Valid (t : Table) : Option Cursor → Prop
  | none => True
  | some c => c.2 < (chain t c.1).length

theorem left_nextSlot (t : Table) (s) : left t (nextSlot t s) = (t.slots.drop s).flatten ∧ Valid t (nextSlot t s) := by
  rcases h : nextSlot t s with _ | c
  · exact ⟨(nextSlot_none h).symm, trivial⟩
  · obtain ⟨h1, _, h3, h4⟩ := nextSlot_some h
    refine ⟨?_, ?_⟩
    · simp only [left, h1, List.drop_zero]; exact h4.symm
    · simp only [Valid, h1]; exact h3

theorem walk_left {t : Table} (w : WF t) (fuel : Nat) (c : Option Cursor) (hv : Valid t c) (hf : (left t c).length ≤ fuel) :
    walk t fuel c = some (left t c) := by
  induction fuel generalizing c with
  | zero =>
    cases c with
    | none => rfl
    | some c => simp only [Valid] at hv; simp [left] at hf; omega
  | succ fuel ih =>
    cases c with
    | none => rfl
    | some c =>
      simp only [Valid] at hv
      have hn : (chain t c.1)[c.2]? = some (chain t c.1)[c.2] := List.getElem?_eq_getElem hv
      have hl : left t (some c) = (chain t c.1)[c.2] :: left t (getNext t c (chain t c.1)[c.2]) ∧
          Valid t (getNext t c (chain t c.1)[c.2]) := by
        have h0 : left t (some c) = (chain t c.1)[c.2] :: ((chain t c.1).drop (c.2 + 1) ++
            (t.slots.drop (c.1 + 1)).flatten) := by
          simp only [left]
          rw [List.drop_eq_getElem_cons hv]; rfl
        rw [h0]
        by_cases h : c.2 + 1 < (chain t c.1).length
        · have : getNext t c (chain t c.1)[c.2] = some (c.1, c.2 + 1) := by simp [getNext, h]
          rw [this]; exact ⟨rfl, h⟩
        · have hh : slotOf t (chain t c.1)[c.2].key = c.1 := w.home _ _ (List.getElem_mem hv)
          have : getNext t c (chain t c.1)[c.2] = nextSlot t (c.1 + 1) := by simp [getNext, h, hh]
          rw [this]
          have := left_nextSlot t (c.1 + 1)
          refine ⟨?_, this.2⟩
          rw [this.1, List.drop_eq_nil_of_le (by omega)]; rfl
      simp only [walk, hn]
      rw [ih _ hl.2 (by rw [hl.1] at hf; simpa using hf), hl.1]; rfl

theorem walk_all {t : Table} (w : WF t) {fuel : Nat} (hf : t.numNodes ≤ fuel) : walk t fuel (getFirst t) = some (iter t) := by
  have h := left_nextSlot t 0
  have he : left t (getFirst t) = iter t := by simpa [iter, getFirst] using h.1
  rw [walk_left w fuel (getFirst t) h.2 (by rw [he, ← numNodes_iter w]; exact hf), he]

/-! ### creation -/

theorem roundSize_bounds {fuel n hint m : Nat} (h : roundSize fuel n hint = some m) : hint ≤ m := by
  induction fuel generalizing n with
  | zero => simp [roundSize] at h
  | succ fuel ih =>
    simp only [roundSize] at h
    split at h
    · exact ih h
    · simp at h; omega

theorem roundSize_pow {fuel e hint m : Nat} (h : roundSize fuel (2 ^ e) hint = some m) (he : e + fuel ≤ 33) (h31' : e ≤ 31) :
    ∃ e', m = 2 ^ e' ∧ e ≤ e' := by
  induction fuel generalizing e with
  | zero => simp [roundSize] at h
  | succ fuel ih =>
    simp only [roundSize] at h
    split at h
    · by_cases h31 : e + 1 = 32
      · rename_i hlt
        rcases (show fuel = 0 ∨ fuel = 1 by omega) with rfl | rfl
        · simp [roundSize] at h
        · have : 2 ^ e * 2 % 2 ^ 32 = 0 := by rw [← Nat.pow_succ, show e.succ = 32 from h31]
          rw [this] at h
          simp [roundSize, show 0 < hint by omega] at h
      · have : 2 ^ e * 2 % 2 ^ 32 = 2 ^ (e + 1) := by
          rw [← Nat.pow_succ, Nat.mod_eq_of_lt (Nat.pow_lt_pow_right (by decide) (by omega))]
        rw [this] at h
        obtain ⟨e', h1, h2⟩ := ih h (by omega) (by omega)
        exact ⟨e', h1, by omega⟩
    · simp at h; exact ⟨e, h.symm, Nat.le_refl _⟩

theorem roundSize_exists {fuel e hint : Nat} (hh : hint ≤ 2 ^ 31) (he : e + fuel = 33) (h31 : e ≤ 31) :
    ∃ m, roundSize fuel (2 ^ e) hint = some m := by
  induction fuel generalizing e with
  | zero => omega
  | succ fuel ih =>
    simp only [roundSize]
    split
    · by_cases e31 : e = 31
      · subst e31; omega
      · have : 2 ^ e * 2 % 2 ^ 32 = 2 ^ (e + 1) := by
          rw [← Nat.pow_succ, Nat.mod_eq_of_lt (Nat.pow_lt_pow_right (by decide) (by omega))]
        rw [this]
        exact ih (by omega) (by omega)
    · exact ⟨_, rfl⟩

theorem create_wf {hint t} (h : create hint = some t) : WF t ∧ ∀ k, bag t k = [] := by
  unfold create at h
  rcases hr : roundSize 29 16 hint with _ | n
  · simp [hr] at h
  · simp only [hr, Option.map_some, Option.some.injEq] at h
    subst h
    have hn : 0 < n := by
      -- the size never becomes 0 within the rounds allowed unless the loop goes on
      by_cases h0 : n = 0
      · subst h0
        have hb := roundSize_bounds hr
        have : hint = 0 := by omega
        subst this
        simp [roundSize] at hr
      · omega
    have hch : ∀ s, chain { numNodes := 0, slots := List.replicate n ([] : List Node) } s = [] := by
      intro s
      simp only [chain, List.getD_eq_getElem?_getD, List.getElem?_replicate]
      split <;> rfl
    refine ⟨⟨by simpa using hn, ?_, by simp⟩, ?_⟩
    · intro s m hm; rw [hch] at hm; simp at hm
    · intro k; simp [bag, hch, sel]

end Sid.Hash
