import Verif.Proof.BpMemIns
/-
Memory of the B+ tree: deletion along a path.
-/
namespace Sid.Bpt
open Sid.Spec.BpMem

/-! ### counted references -/

/-- the key objects allocated are those referred to, with the number of references -/
def MemKeys (m : Mem) (c : K → Nat) : Prop := ∀ k, m.keys k = if c k = 0 then none else some (c k)

/-- one reference more -/
def up (c : K → Nat) (k : K) : K → Nat := fun j => if j = k then c j + 1 else c j

/-- one reference less -/
def down (c : K → Nat) (k : K) : K → Nat := fun j => if j = k then c j - 1 else c j

/-- references are taken and given up of keys that are referred to only -/
def Safe : (K → Nat) → List Ev → Prop
  | _, [] => True
  | c, .ref k :: E => c k ≠ 0 ∧ Safe (up c k) E
  | c, .unref k :: E => c k ≠ 0 ∧ Safe (down c k) E
  | c, .rm :: E => Safe c E
  | _, .take :: _ => False

/-- references after that -/
def eff : (K → Nat) → List Ev → K → Nat
  | c, [] => c
  | c, .ref k :: E => eff (up c k) E
  | c, .unref k :: E => eff (down c k) E
  | c, _ :: E => eff c E

theorem safe_append {E F : List Ev} : ∀ {c}, Safe c E → Safe (eff c E) F → Safe c (E ++ F) := by
  induction E with
  | nil => intro c _ h; exact h
  | cons e E ih =>
    intro c h1 h2
    cases e with
    | ref k => exact ⟨h1.1, ih h1.2 h2⟩
    | unref k => exact ⟨h1.1, ih h1.2 h2⟩
    | rm => exact ih h1 h2
    | take => exact h1.elim

theorem eff_append (c : K → Nat) (E F : List Ev) : eff c (E ++ F) = eff (eff c E) F := by
  induction E generalizing c with
  | nil => rfl
  | cons e E ih => cases e <;> exact ih _

theorem eff_count {E : List Ev} : ∀ {c}, Safe c E → ∀ k, eff c E k + E.count (.unref k) = c k + E.count (.ref k) := by
  induction E with
  | nil => intro c _ k; simp [eff]
  | cons e E ih =>
    intro c h k
    cases e with
    | ref j =>
      have := ih h.2 k
      simp only [up] at this
      simp only [eff, List.count_cons]
      by_cases e : k = j
      · subst e; simp at this ⊢; omega
      · have e' : ¬ j = k := fun h => e h.symm
        simp [e, e'] at this ⊢; omega
    | unref j =>
      have := ih h.2 k
      simp only [down] at this
      simp only [eff, List.count_cons]
      by_cases e : k = j
      · subst e
        have h1 := h.1
        simp at this ⊢; omega
      · have e' : ¬ j = k := fun h => e h.symm
        simp [e, e'] at this ⊢; omega
    | rm => have := ih h k; simpa [eff, List.count_cons] using this
    | take => exact h.elim

theorem unref_memKeys {z m c k} (h : MemKeys m c) (hk : c k ≠ 0) : ∃ m', unrefKey z k m = some m' ∧ MemKeys m' (down c k) ∧
    m'.pool = m.pool ∧ m'.nodes = m.nodes ∧ m'.recs = m.recs := by
  have hkk := h k
  rw [if_neg hk] at hkk
  obtain ⟨n, hn⟩ : ∃ n, c k = n + 1 := ⟨c k - 1, by omega⟩
  rw [hn] at hkk
  simp only [unrefKey, hkk]
  by_cases e : n = 0
  · subst e
    refine ⟨destroyKey z k m, by rw [if_pos rfl], fun j => ?_, rfl, rfl, rfl⟩
    simp only [destroyKey, freeN, setKey, down]
    by_cases ej : j = k
    · subst ej; simp [hn]
    · simp only [if_neg ej]; exact h j
  · refine ⟨setKey m k (some n), by rw [if_neg e], fun j => ?_, rfl, rfl, rfl⟩
    simp only [setKey, down]
    by_cases ej : j = k
    · subst ej; simp [hn, e]
    · simp only [if_neg ej]; exact h j

theorem safe_exec {z o} {E : List Ev} : ∀ {c m}, MemKeys m c → Safe c E →
    ∃ m', execs z o E m = some m' ∧ MemKeys m' (eff c E) ∧ m'.pool = m.pool ∧ m'.nodes = m.nodes - rms E ∧ m'.recs = m.recs := by
  induction E with
  | nil => intro c m h _; exact ⟨m, rfl, h, rfl, by simp [rms], rfl⟩
  | cons e E ih =>
    intro c m h hs
    cases e with
    | ref k =>
      have hk := h k
      rw [if_neg hs.1] at hk
      have h' : MemKeys (setKey m k (some (c k + 1))) (up c k) := by
        intro j
        simp only [setKey, up]
        by_cases e : j = k
        · subst e; simp
        · simp only [if_neg e]; exact h j
      obtain ⟨m', e1, e2, e3, e4, e5⟩ := ih h' hs.2
      refine ⟨m', ?_, e2, e3, ?_, e5⟩
      · simp only [execs, exec, refKey, hk, Option.map_some]; exact e1
      · rw [e4]; simp [rms, setKey]
    | unref k =>
      obtain ⟨m1, h1, h2, h3, h4, h5⟩ := unref_memKeys (z := z) h hs.1
      obtain ⟨m', e1, e2, e3, e4, e5⟩ := ih h2 hs.2
      refine ⟨m', ?_, e2, by rw [e3, h3], ?_, by rw [e5, h5]⟩
      · simp only [execs, exec, h1]; exact e1
      · rw [e4, h4]; simp [rms]
    | rm =>
      obtain ⟨m', e1, e2, e3, e4, e5⟩ := ih (m := destroyNode z o m) (fun k => h k) hs
      refine ⟨m', ?_, e2, e3, ?_, e5⟩
      · simp only [execs, exec]; exact e1
      · rw [e4]; simp only [rms, List.count_cons_self, destroyNode, freeN]; push_cast; omega
    | take => exact hs.elim

theorem safe_pairs {c : K → Nat} (L : List K) : (∀ k ∈ L, c k ≠ 0) →
    Safe c (L.flatMap fun k => [.ref k, .unref k]) ∧ eff c (L.flatMap fun k => [.ref k, .unref k]) = c := by
  induction L with
  | nil => intro _; exact ⟨trivial, rfl⟩
  | cons k L ih =>
    intro h
    have hid : down (up c k) k = c := by
      funext j
      simp only [down, up]
      by_cases e : j = k <;> simp [e]
    obtain ⟨h1, h2⟩ := ih fun j hj => h j (by simp [hj])
    simp only [List.flatMap_cons, List.cons_append, List.nil_append, Safe, eff, hid]
    exact ⟨⟨h k (by simp), by simp [up], h1⟩, h2⟩

theorem safe_rms {c : K → Nat} (n : Nat) : Safe c (List.replicate n .rm) ∧ eff c (List.replicate n .rm) = c := by
  induction n with
  | zero => exact ⟨trivial, rfl⟩
  | succ n ih => exact ih

/-! ### one node -/

theorem Weight.mid {g a n} (w : Weight g a n) {ks : List K} {i : Nat} {k : K} (h : ks[i]? = some k) (y : K) : g (ks.set i y) + a k = g ks + a y := by
  obtain ⟨hi, rfl⟩ := List.getElem?_eq_some_iff.mp h
  have e : ks = ks.take i ++ ks[i] :: ks.drop (i + 1) := by simp
  have e2 : ks.set i y = ks.take i ++ y :: ks.drop (i + 1) := by rw [List.set_eq_take_append_cons_drop, if_pos hi]
  rw [e2, w.ins]
  conv => rhs; rw [e, w.ins]
  omega

theorem Weight.erase {g a n} (w : Weight g a n) {ks : List K} {j : Nat} {k : K} (h : ks.idxOf? k = some j) : g (ks.eraseIdx j) + a k = g ks := by
  obtain ⟨A, B, rfl, _, rfl⟩ := idxOf?_split h
  rw [eraseIdx_mid, w.ins]

theorem Weight.cons {g a n} (w : Weight g a n) (k : K) (B : List K) : g (k :: B) = g B + a k := w.ins [] k B

theorem Weight.snoc {g a n} (w : Weight g a n) (A : List K) (k : K) : g (A ++ [k]) = g A + a k := by
  have := w.ins A k []
  simpa using this

theorem two_mid {α} {l : List α} {i : Nat} {x y : α} (h1 : l[i]? = some x) (h2 : l[i + 1]? = some y) :
    ∃ A B, l = A ++ x :: y :: B ∧ A.length = i := by
  obtain ⟨hi, rfl⟩ := List.getElem?_eq_some_iff.mp h1
  obtain ⟨hi2, rfl⟩ := List.getElem?_eq_some_iff.mp h2
  refine ⟨l.take i, l.drop (i + 2), ?_, by simp; omega⟩
  rw [← List.drop_eq_getElem_cons hi2, ← List.drop_eq_getElem_cons hi, List.take_append_drop]

theorem take_last {α} {l : List α} {x : α} (h : l[l.length - 1]? = some x) : l = l.take (l.length - 1) ++ [x] := by
  obtain ⟨hi, rfl⟩ := List.getElem?_eq_some_iff.mp h
  conv => lhs; rw [← List.take_append_drop (l.length - 1) l]
  rw [List.drop_eq_getElem_cons hi, List.drop_of_length_le (by omega)]

theorem mergeNodes_weight {g a n} (wg : Weight g a n) {l r m : Tree} {k : K} (h : mergeNodes l k r = some m) :
    weigh g m + n + unW a (mergeEv l k).1 = weigh g l + weigh g r + refW a (mergeEv l k).1 + a k := by
  cases l with
  | leaf x =>
    cases r with
    | leaf y =>
      simp only [mergeNodes, Option.some.injEq] at h
      subst h
      simp only [weigh_leaf, mergeEv]
      have := wg.app x.keys y.keys
      simp [unW, refW]; omega
    | node => simp [mergeNodes] at h
  | node ka ca =>
    cases r with
    | leaf y => simp [mergeNodes] at h
    | node kb cb =>
      simp only [mergeNodes, Option.some.injEq] at h
      subst h
      have := wg.app ka kb
      simp only [weigh_node, mergeEv, wg.ins, List.map_append, List.sum_append_nat]
      simp [unW, refW]; omega

theorem moveLeft_weight {g a n} (wg : Weight g a n) {l r l' r' : Tree} {k k' : K} (h : moveLeft l k r = some (l', k', r')) :
    weigh g l' + weigh g r' + a k' + unW a (moveEv l k k') = weigh g l + weigh g r + a k + refW a (moveEv l k k') := by
  cases l with
  | leaf x =>
    cases r with
    | leaf y =>
      simp only [moveLeft] at h
      split at h
      · rename_i z ks p ps hk hp
        simp only [Option.some.injEq, Prod.mk.injEq] at h
        obtain ⟨rfl, rfl, rfl⟩ := h
        simp only [weigh_leaf, moveEv, hk, wg.snoc, wg.cons]
        simp [unW, refW]; omega
      · simp at h
    | node => simp [moveLeft] at h
  | node ka ca =>
    cases r with
    | leaf y => simp [moveLeft] at h
    | node kb cb =>
      simp only [moveLeft] at h
      split at h
      · simp only [Option.some.injEq, Prod.mk.injEq] at h
        obtain ⟨rfl, rfl, rfl⟩ := h
        simp only [weigh_node, moveEv, wg.snoc, wg.cons]
        simp [unW, refW]; omega
      · simp at h

theorem moveRight_weight {g a n} (wg : Weight g a n) {l r l' r' : Tree} {k k' : K} (h : moveRight l k r = some (l', k', r'))
    (hl : ∀ ks cs, l = .node ks cs → cs.length = ks.length + 1) :
    weigh g l' + weigh g r' + a k' + unW a (moveEv l k k') = weigh g l + weigh g r + a k + refW a (moveEv l k k') := by
  cases l with
  | leaf x =>
    cases r with
    | leaf y =>
      simp only [moveRight] at h
      split at h
      · rename_i z p w hz hp hy
        split at h
        · simp at h
        · simp only [Option.some.injEq, Prod.mk.injEq] at h
          obtain ⟨rfl, rfl, rfl⟩ := h
          simp only [weigh_leaf, moveEv]
          have := wg.snoc (x.keys.take (x.keys.length - 1)) z
          rw [← take_last hz] at this
          rw [wg.cons, this]
          simp [unW, refW]; omega
      · simp at h
    | node => simp [moveRight] at h
  | node ka ca =>
    cases r with
    | leaf y => simp [moveRight] at h
    | node kb cb =>
      have hlen := hl ka ca rfl
      simp only [moveRight] at h
      split at h
      · rename_i y c hy hc
        simp only [Option.some.injEq, Prod.mk.injEq] at h
        obtain ⟨rfl, rfl, rfl⟩ := h
        have e1 := wg.snoc (ka.take (ka.length - 1)) y
        rw [← take_last hy] at e1
        have e2 := take_last (l := ca) (x := c) (by rw [hlen]; simpa using hc)
        have e3 : (ca.map (weigh g)).sum = ((ca.take ka.length).map (weigh g)).sum + weigh g c := by
          conv => lhs; rw [e2]
          rw [hlen]; simp
        simp only [weigh_node, moveEv, wg.cons, List.map_cons, List.sum_cons]
        rw [e3, e1]
        simp [unW, refW]; omega
      · simp at h

/-- what repairing a child takes and gives up -/
theorem rebalance_mem {g a n} (wg : Weight g a n) {o : Nat} {ks : List K} {kids : List Tree} {i : Nat} {t : Tree} {sh : Bool}
    (h : rebalance o ks kids i = some (t, sh)) (hl : ∀ x ∈ kids, ∀ ks cs, x = .node ks cs → cs.length = ks.length + 1) :
    weigh g t + unW a (rebEv o ks kids i).1 + (rebEv o ks kids i).2.length * n = weigh g (.node ks kids) + refW a (rebEv o ks kids i).1 := by
  simp only [rebalance] at h
  simp only [rebEv]
  generalize hli : (if i = 0 then 0 else i - 1) = li at h ⊢
  split at h
  · rename_i l k r e1 e2 e3
    rw [e1, e2, e3]
    simp only
    obtain ⟨A, B, hkids, hA⟩ := two_mid e1 e3
    split at h
    · rename_i hcap
      rw [if_pos hcap]
      split at h
      · rename_i m j hm hj
        simp only [Option.some.injEq, Prod.mk.injEq] at h
        obtain ⟨rfl, rfl⟩ := h
        have w1 := mergeNodes_weight wg hm
        have w2 := wg.erase hj
        have ek : (kids.set li m).eraseIdx (li + 1) = A ++ m :: B := by
          rw [hkids, ← hA, set_mid]
          have := eraseIdx_mid (A ++ [m]) B r
          simpa using this
        have el : (mergeEv l k).2.length = 1 := by cases l <;> rfl
        simp only [weigh_node]
        rw [ek, hkids, sum_map_mid, sum_map_mid, sum_map_mid, el]
        omega
      · simp at h
    · rename_i hcap
      rw [if_neg hcap]
      split at h
      · rename_i l' k' r' hmv
        simp only [Option.some.injEq, Prod.mk.injEq] at h
        obtain ⟨rfl, rfl⟩ := h
        rw [hmv]
        have w1 : weigh g l' + weigh g r' + a k' + unW a (moveEv l k k') = weigh g l + weigh g r + a k + refW a (moveEv l k k') := by
          split at hmv
          · exact moveLeft_weight wg hmv
          · exact moveRight_weight wg hmv (hl l (by rw [hkids]; simp))
        have w2 := wg.mid e2 k'
        have ek : (kids.set li l').set (li + 1) r' = A ++ l' :: r' :: B := by
          rw [hkids, ← hA, set_mid]
          have := set_mid (A ++ [l']) B r r'
          simpa using this
        simp only [weigh_node]
        rw [ek, hkids, sum_map_mid, sum_map_mid, sum_map_mid, sum_map_mid]
        simp
        omega
      · simp at h
  · simp at h

/-- which steps these are -/
theorem rebalance_shape {o h : Nat} {ks : List K} {kids : List Tree} {i : Nat} {t : Tree} {sh : Bool}
    (hr : rebalance o ks kids i = some (t, sh)) (hw : ∀ x ∈ kids, Wf o h x) :
    (∃ m, (rebEv o ks kids i).2 = List.replicate m .rm) ∧
    ∃ k ∈ ks, (h = 0 ∧ ((rebEv o ks kids i).1 = [.unref k] ∨
        ∃ k', placesIn k' t ≠ 0 ∧ (rebEv o ks kids i).1 = [.ref k', .unref k])) ∨
      (h ≠ 0 ∧ ((rebEv o ks kids i).1 = [.ref k, .unref k] ∨ (rebEv o ks kids i).1 = [])) := by
  simp only [rebalance] at hr
  simp only [rebEv]
  generalize hli : (if i = 0 then 0 else i - 1) = li at hr ⊢
  split at hr
  · rename_i l k r e1 e2 e3
    rw [e1, e2, e3]
    simp only
    have hkm : k ∈ ks := List.mem_of_getElem? e2
    have hwl := hw l (List.mem_of_getElem? e1)
    split at hr
    · rename_i hcap
      rw [if_pos hcap]
      cases hwl with
      | leaf => exact ⟨⟨1, rfl⟩, k, hkm, .inl ⟨rfl, .inl rfl⟩⟩
      | node => exact ⟨⟨1, rfl⟩, k, hkm, .inr ⟨by omega, .inl rfl⟩⟩
    · rename_i hcap
      rw [if_neg hcap]
      split at hr
      · rename_i l' k' r' hmv
        simp only [Option.some.injEq, Prod.mk.injEq] at hr
        obtain ⟨rfl, rfl⟩ := hr
        rw [hmv]
        have hpl : placesIn k' (.node (ks.set li k') ((kids.set li l').set (li + 1) r')) ≠ 0 := by
          rw [placesIn, weigh_node]
          have : 0 < (ks.set li k').count k' := by
            rw [List.count_pos_iff]
            have := (List.getElem?_eq_some_iff.mp e2).1
            exact List.mem_iff_getElem?.mpr ⟨li, by simp [this]⟩
          omega
        cases hwl with
        | leaf => exact ⟨⟨0, rfl⟩, k, hkm, .inl ⟨rfl, .inr ⟨k', hpl, rfl⟩⟩⟩
        | node => exact ⟨⟨0, rfl⟩, k, hkm, .inr ⟨by omega, .inr rfl⟩⟩
      · simp at hr
  · simp at hr

/-! ### along the path -/

/-- the key removed is the greatest one below the child if this node has it -/
theorem seps_unique {ks : List K} {A B : List Tree} {c : Tree} {bk : K} (sp : Seps ks (A ++ c :: B))
    (hnd : ((A ++ c :: B).flatMap tkeys).Nodup) (hc : bk ∈ tkeys c) (hk : bk ∈ ks) : lastKey c = some bk := by
  have : some bk ∈ (A ++ c :: B).dropLast.map lastKey := by rw [sp.2]; exact List.mem_map_of_mem hk
  obtain ⟨d, hd, hkd⟩ := List.mem_map.mp this
  have hd := List.dropLast_subset _ hd
  have hbd : bk ∈ tkeys d := List.mem_of_getLast? hkd
  simp only [List.flatMap_append, List.flatMap_cons] at hnd
  rcases List.mem_append.mp hd with hd | hd
  · exact absurd rfl ((List.nodup_append.mp hnd).2.2 bk (List.mem_flatMap.mpr ⟨d, hd, hbd⟩) bk (by simp [hc]))
  · rcases List.mem_cons.mp hd with rfl | hd
    · exact hkd
    · exact absurd rfl ((List.nodup_append.mp (List.nodup_append.mp hnd).2.1).2.2 bk hc bk (List.mem_flatMap.mpr ⟨d, hd, hbd⟩))

/-- the steps of a deletion below a node of height `h`, `T` the keys left below it -/
structure DelMem (g : List K → Nat) (a : K → Nat) (n : Nat) (h : Nat) (bk : K) (T : List K) (t t' : Tree) (sw : Option K)
    (E : List Ev × List Ev × List Ev) : Prop where
  weight : weigh g t' + unW a (E.1 ++ E.2.1) + E.2.2.length * n = weigh g t + refW a (E.1 ++ E.2.1)
  first : E.1 = [.unref bk] ∨ (sw = none ∧ ∃ nk ∈ T, E.1 = [.unref bk, .unref bk, .ref nk])
  second : h = 0 ∧ E.2.1 = [] ∨ ∃ (P : List Ev) (L : List K), E.2.1 = P ++ (L.flatMap fun k => [.ref k, .unref k]) ∧ (∀ k ∈ L, k ∈ T) ∧
    (P = [] ∨ ∃ k ∈ T, P = [.unref k] ∨ ∃ k' ∈ T, P = [.ref k', .unref k])
  third : ∃ m, E.2.2 = List.replicate m .rm

theorem deleteAt_mem {g a n} (wg : Weight g a n) {o : Nat} {bk : K} {r i j : Nat} {s : Str} (ho : 4 ≤ o) {t path l LA LB} (go : Goes s t path l LA LB)
    (hbk : l.keys.idxOf? bk = some i) (hr : l.ptrs.idxOf? r = some j) :
    ∀ {h : Nat} {hp : Bool}, Wf o h t → 1 ≤ numKeys t → (hp = true → h = 0 → 2 ≤ numKeys t) → (tkeys t).Nodup →
    ∃ t' sw sh, deleteAt o bk r hp path t = some (t', sw, sh) ∧ DelMem g a n h bk (tkeys t') t t' sw (delEv o bk r path t) := by
  induction go with
  | leaf l =>
    intro h hp w h1 h2 hnd
    obtain ⟨t', sw, sh, hd, w', _⟩ := deleteAt_spec (s := s) ho (.leaf l) hbk hr w h1 h2 hnd
    refine ⟨t', sw, sh, hd, ?_, .inl rfl, .inl ⟨w.inv_leaf.1, rfl⟩, ⟨0, rfl⟩⟩
    simp only [deleteAt, removeFromLeaf, hbk, hr] at hd
    have he := wg.erase hbk
    have : weigh g t' = g (l.keys.eraseIdx i) := by
      split at hd
      · cases i with
        | zero => simp at hd
        | succ i =>
          simp only [Option.map_map, Option.map_eq_some_iff] at hd
          obtain ⟨k, _, e⟩ := hd
          simp only [Function.comp, Prod.mk.injEq] at e
          rw [← e.1, weigh_leaf]
      · simp only [Option.map_some, Option.some.injEq, Prod.mk.injEq] at hd
        rw [← hd.1, weigh_leaf]
    rw [this]
    simp [delEv, weigh_leaf, unW, refW, he]
  | node ks A c B path l LA LB hidx go ih =>
    intro h hp w h1 h2 hnd
    obtain ⟨t', sw', sh', hd, w', _, hK', _, _, _⟩ := deleteAt_spec ho (Goes.node ks A c B path l LA LB hidx go) hbk hr w h1 h2 hnd
    refine ⟨t', sw', sh', hd, ?_⟩
    have wt := w
    obtain ⟨h, rfl, sp, hkl, hc⟩ := w.inv_node
    have hcw := hc c (by simp)
    have hnd' := hnd
    rw [fl_node] at hnd'
    have hndC : (tkeys c).Nodup := by
      simp only [List.flatMap_append, List.flatMap_cons] at hnd'
      exact (List.nodup_append.mp (List.nodup_append.mp hnd').2.1).1
    have hmin2 : h = 0 → 2 ≤ numKeys c := by
      rintro rfl
      have := hcw.2
      simp only [minK, cut] at this; omega
    obtain ⟨c', sw, sh, hdel, wc', hn', hk', _, _, hsw⟩ := deleteAt_spec ho go hbk hr (hp := true) hcw.1
      (Nat.le_trans (minK_pos ho h) hcw.2) (fun _ => hmin2) hndC
    obtain ⟨c2, sw2, sh2, hdel2, hm⟩ := ih hbk hr (hp := true) hcw.1 (Nat.le_trans (minK_pos ho h) hcw.2) (fun _ => hmin2) hndC
    rw [hdel] at hdel2
    simp only [Option.some.injEq, Prod.mk.injEq] at hdel2
    obtain ⟨rfl, rfl, rfl⟩ := hdel2
    have hsw := hsw (.inl rfl)
    have hkc := go.fl_eq Leaf.keys
    have hbkl : bk ∈ l.keys := by
      obtain ⟨X, Y, e, _⟩ := idxOf?_split hbk
      rw [e]; simp
    have hbkc : bk ∈ tkeys c := go.keys_mem hbkl
    -- keys left: those before without the one removed
    have hTeq : tkeys t' = (A ++ c' :: B).flatMap tkeys := by
      rw [hK']
      simp only [List.flatMap_append, List.flatMap_cons, hk', flatMap_leaves, List.append_assoc]
    have hcT : ∀ k ∈ tkeys c', k ∈ tkeys t' := by intro k hk; rw [hTeq]; simp [hk]
    have hleft : ∀ k ∈ tkeys (.node ks (A ++ c :: B)), k ≠ bk → k ∈ tkeys t' := by
      intro k hk hne
      rw [hTeq]
      rw [fl_node] at hk
      simp only [List.flatMap_append, List.flatMap_cons, List.mem_append] at hk ⊢
      rcases hk with hk | hk | hk
      · exact .inl hk
      · right; left
        rw [hkc] at hk
        rw [hk']
        obtain ⟨X, Y, e, _, e2⟩ := idxOf?_split hbk
        rw [e, e2, eraseIdx_mid]
        rw [e] at hk
        simp only [List.mem_append, List.mem_cons] at hk ⊢
        rcases hk with (hk | hk | hk | hk) | hk
        · exact .inl (.inl hk)
        · exact .inl (.inr (.inl hk))
        · exact absurd hk hne
        · exact .inl (.inr (.inr hk))
        · exact .inr hk
      · exact .inr (.inr hk)
    have hksT : ∀ k ∈ ks, k ∈ tkeys (.node ks (A ++ c :: B)) := by
      intro k hk
      rw [← wt.places]
      rw [placesIn, weigh_node]
      have : 0 < ks.count k := List.count_pos_iff.mpr hk
      omega
    have hksn : ks.Nodup := (seps_sublist sp).nodup hnd'
    have hc'ne : tkeys c' ≠ [] := wc'.tkeys_ne ho (fun e => by have := hmin2 e; split at hn' <;> omega)
    -- the keys of the node after the exchange
    have hswap : (∀ k ∈ (swapKey ks bk sw).1, k ∈ tkeys t') ∧ g (swapKey ks bk sw).1 + unW a (swapEv ks bk sw) = g ks + refW a (swapEv ks bk sw) ∧
        (swapEv ks bk sw = [] ∧ (swapKey ks bk sw).2 = sw ∨ sw ≠ none ∧ (swapKey ks bk sw).2 = none ∧ ∃ nk ∈ tkeys t', swapEv ks bk sw = [.unref bk, .ref nk]) := by
      cases hs : sw with
      | none =>
        rw [hs] at hsw
        have hnot : bk ∉ ks := by
          intro hh
          rw [if_pos (seps_unique sp hnd' hbkc hh)] at hsw
          exact hc'ne (List.getLast?_eq_none_iff.mp hsw.symm)
        refine ⟨?_, by simp [swapKey, swapEv, unW, refW], .inl ⟨rfl, rfl⟩⟩
        intro k hk
        exact hleft k (hksT k hk) (fun e => hnot (e ▸ hk))
      | some nk =>
        rw [hs] at hsw
        have hnk : lastKey c' = some nk := by
          split at hsw
          · exact hsw.symm
          · simp at hsw
        have hnkT := hcT nk (List.mem_of_getLast? hnk)
        simp only [swapKey, swapEv]
        cases hi : ks.idxOf? bk with
        | none =>
          have hnot : bk ∉ ks := List.idxOf?_eq_none_iff.mp hi
          rw [if_neg hnot]
          refine ⟨?_, by simp [unW, refW], .inl ⟨rfl, rfl⟩⟩
          intro k hk
          exact hleft k (hksT k hk) (fun e => hnot (e ▸ hk))
        | some q =>
          obtain ⟨X, Y, e, hX, hq⟩ := idxOf?_split hi
          have hin : bk ∈ ks := by rw [e]; simp
          rw [if_pos hin]
          have eset : ks.set q nk = X ++ nk :: Y := by rw [e, hq, set_mid]
          refine ⟨?_, ?_, .inr ⟨by simp, rfl, nk, hnkT, rfl⟩⟩
          · intro k hk
            simp only [eset, List.mem_append, List.mem_cons] at hk
            rw [e] at hksn
            rcases hk with hk | hk | hk
            · exact hleft k (hksT k (by rw [e]; simp [hk])) (fun e => hX (e ▸ hk))
            · rw [hk]; exact hnkT
            · exact hleft k (hksT k (by rw [e]; simp [hk]))
                (fun e => (List.nodup_cons.mp (List.nodup_append.mp hksn).2.1).1 (e ▸ hk))
          · simp only [eset, wg.ins]
            conv => rhs; rw [e, wg.ins]
            simp [unW, refW]; omega
    obtain ⟨hs1, hs2, hs3⟩ := hswap
    have hfirst : sw' = (swapKey ks bk sw).2 → (delEv o bk r path c).1 ++ swapEv ks bk sw = [.unref bk] ∨
        (sw' = none ∧ ∃ nk ∈ tkeys t', (delEv o bk r path c).1 ++ swapEv ks bk sw = [.unref bk, .unref bk, .ref nk]) := by
      intro e
      rcases hm.first with f | ⟨f1, nk, f2, f3⟩
      · rcases hs3 with ⟨e1, e2⟩ | ⟨e1, e2, nk, e3, e4⟩
        · left; rw [f, e1]; rfl
        · right; rw [e, e2, f, e4]; exact ⟨rfl, nk, e3, rfl⟩
      · right
        subst f1
        refine ⟨by rw [e]; rfl, nk, hcT nk f2, ?_⟩
        rw [f3]; rfl
    have hlenkid : ∀ x ∈ A ++ c' :: B, Wf o h x := by
      intro x hx
      rcases List.mem_append.mp hx with hx | hx
      · exact (hc x (by simp [hx])).1
      · rcases List.mem_cons.mp hx with rfl | hx
        · exact wc'
        · exact (hc x (by simp [hx])).1
    have hsecond : ∀ {E : List Ev}, (h = 0 ∧ E = [] ∨ ∃ (P : List Ev) (L : List K), E = P ++ (L.flatMap fun k => [.ref k, .unref k]) ∧ (∀ k ∈ L, k ∈ tkeys c') ∧
        (P = [] ∨ ∃ k ∈ tkeys c', P = [.unref k] ∨ ∃ k' ∈ tkeys c', P = [.ref k', .unref k])) →
        ∃ (P : List Ev) (L : List K), E = P ++ (L.flatMap fun k => [.ref k, .unref k]) ∧ (∀ k ∈ L, k ∈ tkeys t') ∧
        (P = [] ∨ ∃ k ∈ tkeys t', P = [.unref k] ∨ ∃ k' ∈ tkeys t', P = [.ref k', .unref k]) := by
      intro E hE
      rcases hE with ⟨_, e⟩ | ⟨P, L, e1, e2, e3⟩
      · exact ⟨[], [], by simp [e], by simp, .inl rfl⟩
      · refine ⟨P, L, e1, fun k hk => hcT k (e2 k hk), ?_⟩
        rcases e3 with e3 | ⟨k, hk, e3⟩
        · exact .inl e3
        · refine .inr ⟨k, hcT k hk, ?_⟩
          rcases e3 with e3 | ⟨k', hk', e3⟩
          · exact .inl e3
          · exact .inr ⟨k', hcT k' hk', e3⟩
    have hwt := hm.weight
    simp only [unW_append, refW_append] at hwt
    simp only [deleteAt, getElem?_mid, hdel, set_mid] at hd
    simp only [delEv, getElem?_mid, hdel, set_mid]
    split at hd
    · rename_i hcond
      rw [if_pos hcond]
      simp only [Option.map_eq_some_iff, Prod.mk.injEq] at hd
      obtain ⟨x, hx, rfl, rfl, rfl⟩ := hd
      obtain ⟨t2, sh2⟩ := x
      have hrw := rebalance_mem wg hx (fun x hx ks cs e => by
        have := hlenkid x hx
        rw [e] at this
        obtain ⟨_, _, s, _⟩ := this.inv_node
        exact s.length)
      obtain ⟨⟨m1, hm1⟩, k, hk, hsh⟩ := rebalance_shape hx hlenkid
      obtain ⟨m2, hm2⟩ := hm.third
      refine ⟨?_, hfirst rfl, .inr ?_, ⟨m1 + m2, by rw [hm1, hm2, List.replicate_append_replicate]⟩⟩
      · simp only [unW_append, refW_append, List.length_append, Nat.add_mul]
        simp only [weigh_node, sum_map_mid] at hrw ⊢
        omega
      · rcases hsh with ⟨rfl, hsh⟩ | ⟨h0, hsh⟩
        · have hnil : (delEv o bk r path c).2.1 = [] := by
            have hh := hcw.1
            cases hh with
            | leaf => cases go with
              | leaf => rfl
          refine ⟨_, [], by rw [hnil]; simp; rfl, by simp, .inr ⟨k, hs1 k hk, ?_⟩⟩
          rcases hsh with hsh | ⟨k', hk', hsh⟩
          · exact .inl hsh
          · exact .inr ⟨k', (w'.places k').mp hk', hsh⟩
        · obtain ⟨P, L, e1, e2, e3⟩ := hsecond hm.second
          rcases hsh with hsh | hsh
          · refine ⟨P, L ++ [k], by rw [e1, hsh]; simp, ?_, e3⟩
            intro y hy
            rcases List.mem_append.mp hy with hy | hy
            · exact e2 y hy
            · rw [List.mem_singleton.mp hy]; exact hs1 k hk
          · exact ⟨P, L, by rw [e1, hsh]; simp, e2, e3⟩
    · rename_i hcond
      rw [if_neg hcond]
      simp only [Option.some.injEq, Prod.mk.injEq] at hd
      obtain ⟨rfl, rfl, rfl⟩ := hd
      refine ⟨?_, hfirst rfl, .inr (hsecond hm.second), hm.third⟩
      simp only [unW_append, refW_append]
      simp only [weigh_node, sum_map_mid]
      omega

end Sid.Bpt
