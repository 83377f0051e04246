import Verif.Proof.BpTree
/-
Insertion along a path.
-/
namespace Sid.Bpt

theorem insPoint_le (ks : List K) (s : Str) : insPoint ks s ≤ ks.length := by
  induction ks with
  | nil => simp [insPoint]
  | cons k ks ih => simp only [insPoint]; split <;> simp <;> omega

/-- the insertion point of a new key splits a sorted list -/
theorem insPoint_split {ks : List K} {s : Str} (hs : Sorted ks) (hn : ∀ k ∈ ks, k.str ≠ s) :
    (∀ k ∈ ks.take (insPoint ks s), strLt k.str s = true) ∧ (∀ k ∈ ks.drop (insPoint ks s), strLt s k.str = true) := by
  induction ks with
  | nil => simp
  | cons k ks ih =>
    simp only [insPoint]
    have hp := List.pairwise_cons.mp hs
    split
    · rename_i h
      refine ⟨by simp, ?_⟩
      intro x hx
      simp only [List.drop_zero] at hx
      rcases List.mem_cons.mp hx with rfl | hx
      · exact h
      · exact strLt_trans h (hp.1 x hx)
    · rename_i h
      obtain ⟨i1, i2⟩ := ih hp.2 (fun x hx => hn x (by simp [hx]))
      refine ⟨?_, by simpa using i2⟩
      intro x hx
      rw [List.take_succ_cons] at hx
      rcases List.mem_cons.mp hx with rfl | hx
      · cases hk : strLt x.str s with
        | true => rfl
        | false => exact absurd (strLt_total hk (by simpa using h)) (hn x (by simp))
      · exact i1 x hx

theorem insertIdx_eq {α} (l : List α) (i : Nat) (x : α) (h : i ≤ l.length) : l.insertIdx i x = l.take i ++ x :: l.drop i := by
  induction l generalizing i with
  | nil => simp at h; subst h; rfl
  | cons a l ih =>
    cases i with
    | zero => rfl
    | succ i => simp at h; simp [ih i h]

theorem set_mid {α} (A B : List α) (c d : α) : (A ++ c :: B).set A.length d = A ++ d :: B := by simp

theorem getElem?_mid {α} (A B : List α) (c : α) : (A ++ c :: B)[A.length]? = some c := by simp

theorem insertIdx_mid {α} (A B : List α) (c : α) : (A ++ B).insertIdx A.length c = A ++ c :: B := by
  rw [insertIdx_eq _ _ _ (by simp)]; simp

/-- leaves that take the place of the leaf inserted into -/
def NewLeaves (o newId : Nat) (bk : K) (r : Nat) (l : Leaf) (new : List Leaf) : Prop :=
  (l.keys.length < o - 1 ∧ new = [insertIntoLeaf l bk r]) ∨
  ∃ l1 k l2, splitLeaf o newId l bk r = some (l1, k, l2) ∧ l1.next = some newId ∧ l1.id = l.id ∧ l2.id = newId ∧ l2.next = l.next ∧
    l1.keys ++ l2.keys = l.keys.insertIdx (insPoint l.keys bk.str) bk ∧
    l1.ptrs ++ l2.ptrs = l.ptrs.insertIdx (insPoint l.keys bk.str) r ∧ new = [l1, l2]

theorem NewLeaves.keys {o newId bk r l new} (h : NewLeaves o newId bk r l new) :
    new.flatMap Leaf.keys = l.keys.insertIdx (insPoint l.keys bk.str) bk := by
  rcases h with ⟨_, rfl⟩ | ⟨l1, k, l2, _, _, _, _, _, h, _, rfl⟩
  · simp [insertIntoLeaf]
  · simpa using h

theorem NewLeaves.ptrs {o newId bk r l new} (h : NewLeaves o newId bk r l new) :
    new.flatMap Leaf.ptrs = l.ptrs.insertIdx (insPoint l.keys bk.str) r := by
  rcases h with ⟨_, rfl⟩ | ⟨l1, k, l2, _, _, _, _, _, _, h, rfl⟩
  · simp [insertIntoLeaf]
  · simpa using h

theorem NewLeaves.links {o newId bk r l new} (h : NewLeaves o newId bk r l new) :
    new.flatMap lnk = [(l.id, l.next)] ∨ new.flatMap lnk = [(l.id, some newId), (newId, l.next)] := by
  rcases h with ⟨_, rfl⟩ | ⟨l1, k, l2, _, h1, h2, h3, h4, _, _, rfl⟩
  · left; simp [insertIntoLeaf, lnk]
  · right; simp [lnk, h1, h2, h3, h4]

/-- what a split leaf looks like -/
theorem splitLeaf_spec {o : Nat} (newId : Nat) {l : Leaf} (bk : K) (r : Nat) (ho : 4 ≤ o) (hp : l.ptrs.length = l.keys.length)
    (hl : l.keys.length = o - 1) :
    ∃ l1 k l2, splitLeaf o newId l bk r = some (l1, k, l2) ∧ l1.next = some newId ∧ l1.id = l.id ∧ l2.id = newId ∧ l2.next = l.next ∧
    l1.keys ++ l2.keys = l.keys.insertIdx (insPoint l.keys bk.str) bk ∧
    l1.ptrs ++ l2.ptrs = l.ptrs.insertIdx (insPoint l.keys bk.str) r ∧
    Wf o 0 (.leaf l1) ∧ Wf o 0 (.leaf l2) ∧ minK o 0 ≤ l1.keys.length ∧ minK o 0 ≤ l2.keys.length ∧ l1.keys.getLast? = some k := by
  have hi := insPoint_le l.keys bk.str
  have hc : 2 ≤ cut (o - 1) ∧ 2 * cut (o - 1) ≤ o ∧ cut (o - 1) + 1 ≤ o := by simp only [cut]; omega
  have hlk := length_insertIdx' l.keys _ bk hi
  have hlp := length_insertIdx' l.ptrs (insPoint l.keys bk.str) r (by omega)
  have htk : ((l.keys.insertIdx (insPoint l.keys bk.str) bk).take (cut (o - 1))).length = cut (o - 1) := by
    rw [List.length_take]; omega
  have htp : ((l.ptrs.insertIdx (insPoint l.keys bk.str) r).take (cut (o - 1))).length = cut (o - 1) := by
    rw [List.length_take]; omega
  have hget : ((l.keys.insertIdx (insPoint l.keys bk.str) bk).take (cut (o - 1)))[cut (o - 1) - 1]? =
      some (((l.keys.insertIdx (insPoint l.keys bk.str) bk).take (cut (o - 1)))[cut (o - 1) - 1]'(by omega)) :=
    List.getElem?_eq_getElem (by omega)
  refine ⟨{ l with keys := (l.keys.insertIdx (insPoint l.keys bk.str) bk).take (cut (o - 1)),
                   ptrs := (l.ptrs.insertIdx (insPoint l.keys bk.str) r).take (cut (o - 1)), next := some newId },
    ((l.keys.insertIdx (insPoint l.keys bk.str) bk).take (cut (o - 1)))[cut (o - 1) - 1]'(by omega),
    ⟨newId, (l.keys.insertIdx (insPoint l.keys bk.str) bk).drop (cut (o - 1)),
      (l.ptrs.insertIdx (insPoint l.keys bk.str) r).drop (cut (o - 1)), l.next⟩,
    ?_, rfl, rfl, rfl, rfl, List.take_append_drop (cut (o - 1)) _, List.take_append_drop (cut (o - 1)) _, ?_, ?_, ?_, ?_, ?_⟩
  · simp only [splitLeaf]
    rw [List.take_of_length_le (l := l.keys) (by omega), splitArray_eq o _ _ _ ho hl hi,
      splitArray_eq o _ _ _ ho (by omega) (by omega)]
    simp only
    rw [hget]
  · exact .leaf _ (by simp only []; rw [htk, htp]) (by simp only []; rw [htk]; omega)
  · exact .leaf _ (by simp only [List.length_drop]; omega) (by simp only [List.length_drop]; omega)
  · simp only [minK]; rw [htk]; exact Nat.le_refl _
  · simp only [minK, List.length_drop]; omega
  · simp only []
    rw [List.getLast?_eq_getElem?, ← hget, htk]

/-- what a split internal node looks like -/
theorem seps_cut {K' : List K} {C : List Tree} (m : Nat) (s : Seps K' C) (h1 : 1 ≤ m) (h2 : m ≤ K'.length)
    (hne : ∀ c ∈ C, tkeys c ≠ []) :
    ∃ up, K'[m - 1]? = some up ∧ Seps (K'.take (m - 1)) (C.take m) ∧ Seps (K'.drop m) (C.drop m) ∧
      ∀ ks, lastKey (.node ks (C.take m)) = some up := by
  have hlen := s.length
  have hCne : C.drop m ≠ [] := by
    intro e
    have := congrArg List.length e
    simp at this; omega
  rw [← List.take_append_drop m K', ← List.take_append_drop m C, seps_append (by simp; omega) hCne] at s
  obtain ⟨s1, s2⟩ := s
  obtain ⟨up, hup⟩ : ∃ up, K'[m - 1]? = some up := ⟨_, List.getElem?_eq_getElem (show m - 1 < K'.length by omega)⟩
  have hK : K'.take m = K'.take (m - 1) ++ [up] := by
    have : m = (m - 1) + 1 := by omega
    rw [this, List.take_add_one, Nat.add_sub_cancel, hup]; rfl
  rw [hK] at s1
  refine ⟨up, hup, full_seps s1, s2, fun ks => ?_⟩
  rcases List.eq_nil_or_concat (C.take m) with e | ⟨A, c, e⟩
  · have := congrArg List.length e
    rw [List.length_take] at this
    simp only [List.length_nil] at this
    omega
  · rw [List.concat_eq_append] at e
    rw [e] at s1 ⊢
    have hc : c ∈ C := List.mem_of_mem_take (i := m) (by rw [e]; simp)
    rw [lastKey_node (hne c hc)]
    simp only [List.map_append, List.map_cons, List.map_nil] at s1
    have := (List.append_inj' s1 rfl).2
    simpa using this

/-- result of an insertion below a node of height `h` with `n` keys: `L` are the leaves now -/
def InsOk (o h n : Nat) (L : List Leaf) : Ins → Prop
  | .fits t => Wf o h t ∧ n ≤ numKeys t ∧ leaves t = L
  | .split l k r => Wf o h l ∧ Wf o h r ∧ minK o h ≤ numKeys l ∧ minK o h ≤ numKeys r ∧ lastKey l = some k ∧ leaves l ++ leaves r = L

/-- inserting a key below the greatest one does not change the greatest one -/
theorem last_insert {KA lk KB : List K} {bk m : K} (hm : (KA ++ lk ++ KB).getLast? = some m) (hlt : strLt bk.str m.str = true)
    (hlk : Sorted lk) (hn : ∀ k ∈ lk, k.str ≠ bk.str) (hne : lk ≠ []) :
    (KA ++ lk.insertIdx (insPoint lk bk.str) bk ++ KB).getLast? = some m := by
  by_cases hB : KB = []
  · subst hB
    simp only [List.append_nil] at *
    rw [getLast?_append_ne _ _ hne] at hm
    obtain ⟨_, h2⟩ := insPoint_split hlk hn
    obtain ⟨h1, _⟩ := insPoint_split hlk hn
    rw [insertIdx_eq _ _ _ (insPoint_le _ _)]
    have hd : lk.drop (insPoint lk bk.str) ≠ [] := by
      intro e
      have : lk.take (insPoint lk bk.str) = lk := by
        have := List.take_append_drop (insPoint lk bk.str) lk
        rw [e, List.append_nil] at this; exact this
      rw [this] at h1
      have := h1 m (List.mem_of_getLast? hm)
      rw [strLt_asymm hlt] at this; simp at this
    rw [getLast?_append_ne _ _ (by simp), getLast?_append_ne _ _ (by simp), show bk :: lk.drop (insPoint lk bk.str) = [bk] ++ lk.drop (insPoint lk bk.str) from rfl,
      getLast?_append_ne _ _ hd]
    rw [← List.take_append_drop (insPoint lk bk.str) lk, getLast?_append_ne _ _ hd] at hm
    exact hm
  · rw [getLast?_append_ne _ _ hB] at *
    exact hm

theorem insertAt_spec {o newId : Nat} {bk : K} {r : Nat} (ho : 4 ≤ o) {t path l LA LB} (g : Goes bk.str t path l LA LB) :
    ∀ {h : Nat}, Wf o h t → (h = 0 → 1 ≤ numKeys t) → Sorted (tkeys t) → (∀ k ∈ tkeys t, k.str ≠ bk.str) →
    ∃ res new, insertAt o newId bk r path t = some res ∧ NewLeaves o newId bk r l new ∧ InsOk o h (numKeys t) (LA ++ new ++ LB) res := by
  induction g with
  | leaf l =>
    intro h w hn0 hs hn
    obtain ⟨rfl, hp, hl⟩ := w.inv_leaf
    simp only [insertAt]
    split
    · rename_i hfull
      obtain ⟨l1, k, l2, h1, h2, h3, h4, h5, h6, h7, h8, h9, h10, h11, h12⟩ := splitLeaf_spec newId bk r ho hp hfull
      refine ⟨_, [l1, l2], by rw [h1]; rfl, Or.inr ⟨l1, k, l2, h1, h2, h3, h4, h5, h6, h7, rfl⟩, ?_⟩
      simp only [InsOk, lastKey, fl_leaf, leaves_leaf, numKeys]
      exact ⟨h8, h9, h10, h11, h12, rfl⟩
    · rename_i hfull
      refine ⟨_, _, rfl, Or.inl ⟨by omega, rfl⟩, ?_⟩
      have hi := insPoint_le l.keys bk.str
      simp only [InsOk, leaves_leaf, numKeys, insertIntoLeaf]
      rw [length_insertIdx' _ _ _ hi]
      exact ⟨.leaf _ (by simp only []; rw [length_insertIdx' _ _ _ hi, length_insertIdx' _ _ _ (by omega), hp])
        (by simp only []; rw [length_insertIdx' _ _ _ hi]; omega), by omega, rfl⟩
  | node ks A c B path l LA LB hidx g ih =>
    intro h w hn0 hs hn
    obtain ⟨h, rfl, sp, hkl, hc⟩ := w.inv_node
    have hcw := hc c (by simp)
    have hs' := hs
    rw [fl_node] at hs' hn
    simp only [List.flatMap_append, List.flatMap_cons] at hs' hn
    have hsC : Sorted (tkeys c) := (List.pairwise_append.mp (List.pairwise_append.mp hs').2.1).1
    have hnC : ∀ k ∈ tkeys c, k.str ≠ bk.str := fun k hk => hn k (by simp [hk])
    obtain ⟨res, new, hr, hnew, hok⟩ := ih hcw.1 (fun _ => Nat.le_trans (minK_pos ho h) hcw.2) hsC hnC
    simp only [insertAt, getElem?_mid, hr]
    have hlen := sp.length
    have hile := childIdx_le ks bk.str
    have hlA : A.length = (ks.take A.length).length := by simp; omega
    have hsp := sp
    rw [← List.take_append_drop A.length ks, seps_append hlA (by simp)] at hsp
    obtain ⟨spA, spB⟩ := hsp
    -- the greatest key below the child stays the same unless the child is the last one
    have hlast : B ≠ [] → ((LA ++ new ++ LB).flatMap Leaf.keys).getLast? = lastKey c := by
      intro hB
      obtain ⟨b, B, rfl⟩ := List.exists_cons_of_ne_nil hB
      cases hm : ks.drop A.length with
      | nil => rw [hm] at spB; have := spB.length; simp at this
      | cons m KB =>
        rw [hm, seps_cons] at spB
        have hmk : ks[childIdx ks bk.str]? = some m := by
          rw [hidx]
          have := congrArg (fun l => l[0]?) hm
          simpa using this
        have hle := childIdx_at hmk
        have hlt : strLt bk.str m.str = true := by
          cases hx : strLt bk.str m.str with
          | true => rfl
          | false => exact absurd (strLt_total hx hle).symm (hnC m (List.mem_of_getLast? spB.1))
        have hkc : tkeys c = LA.flatMap Leaf.keys ++ l.keys ++ LB.flatMap Leaf.keys := g.fl_eq Leaf.keys
        have hlm := spB.1
        simp only [lastKey] at hlm ⊢
        rw [hkc] at hlm hsC hnC ⊢
        rw [hlm, List.flatMap_append, List.flatMap_append, hnew.keys]
        by_cases hlk : l.keys = []
        · -- cannot be: the leaf would be empty
          rw [hlk] at hlm ⊢
          simp only [insPoint, List.insertIdx_zero]
          by_cases hLB : LB.flatMap Leaf.keys = []
          · exfalso
            have hb := (g.bounds hcw.1 (by rw [hkc]; exact hsC)).1
            rw [hLB] at hlm
            simp only [List.append_nil] at hlm
            have := hb m (List.mem_of_getLast? hlm)
            rw [strLt_asymm hlt] at this; simp at this
          · rw [getLast?_append_ne _ _ hLB] at hlm ⊢
            exact hlm
        · exact last_insert hlm hlt (List.pairwise_append.mp (List.pairwise_append.mp hsC).1).2.1
            (fun k hk => hnC k (by simp [hk])) hlk
    cases res with
    | fits c' =>
      obtain ⟨w', hn', hl'⟩ := hok
      refine ⟨_, new, rfl, hnew, ?_⟩
      rw [set_mid]
      have hkc' : lastKey c' = ((LA ++ new ++ LB).flatMap Leaf.keys).getLast? := by simp only [lastKey, fl, hl']
      refine ⟨.node h _ _ ?_ hkl ?_ ?_, by simp [numKeys], ?_⟩
      · rw [← List.take_append_drop A.length ks, seps_append hlA (by simp)]
        exact ⟨spA, seps_head (fun hB => by rw [hkc', hlast hB]) spB⟩
      · intro x hx
        rcases List.mem_append.mp hx with hx | hx
        · exact (hc x (by simp [hx])).1
        · rcases List.mem_cons.mp hx with rfl | hx
          · exact w'
          · exact (hc x (by simp [hx])).1
      · intro x hx
        rcases List.mem_append.mp hx with hx | hx
        · exact (hc x (by simp [hx])).2
        · rcases List.mem_cons.mp hx with rfl | hx
          · exact Nat.le_trans hcw.2 hn'
          · exact (hc x (by simp [hx])).2
      · rw [leaves_node]; simp [hl']
    | split cl k cr =>
      obtain ⟨wl, wr, nl, nr, hlk, hl'⟩ := hok
      simp only [set_mid, insertIntoParent]
      have hcr : tkeys cr ≠ [] := wr.child_ne ho nr
      have hlr : B ≠ [] → lastKey cr = lastKey c := by
        intro hB
        rw [← hlast hB, ← hl', List.flatMap_append, getLast?_append_ne]
        · rfl
        · exact hcr
      have hkk : ks.insertIdx A.length k = ks.take A.length ++ k :: ks.drop A.length := insertIdx_eq _ _ _ (by omega)
      have hcc : (A ++ cl :: B).insertIdx (A.length + 1) cr = A ++ cl :: cr :: B := by
        have := insertIdx_mid (A ++ [cl]) B cr
        simpa using this
      have sp' : Seps (ks.insertIdx A.length k) (A ++ cl :: cr :: B) := by
        rw [hkk, seps_append hlA (by simp)]
        refine ⟨spA, ?_⟩
        rw [seps_cons]
        exact ⟨hlk, seps_head hlr spB⟩
      have hkids : ∀ x ∈ A ++ cl :: cr :: B, Wf o h x ∧ minK o h ≤ numKeys x := by
        intro x hx
        rcases List.mem_append.mp hx with hx | hx
        · exact hc x (by simp [hx])
        · rcases List.mem_cons.mp hx with rfl | hx
          · exact ⟨wl, nl⟩
          · rcases List.mem_cons.mp hx with rfl | hx
            · exact ⟨wr, nr⟩
            · exact hc x (by simp [hx])
      have hleaves : (A ++ cl :: cr :: B).flatMap leaves = A.flatMap leaves ++ LA ++ new ++ (LB ++ B.flatMap leaves) := by
        simp only [List.flatMap_append, List.flatMap_cons, List.append_assoc] at hl' ⊢
        rw [← List.append_assoc (leaves cl), hl']
        simp
      have hkl' : (ks.insertIdx A.length k).length = ks.length + 1 := length_insertIdx' _ _ _ (by omega)
      split
      · rename_i hroom
        refine ⟨_, new, rfl, hnew, ?_⟩
        rw [hcc]
        refine ⟨.node h _ _ sp' (by omega) (fun x hx => (hkids x hx).1) (fun x hx => (hkids x hx).2), ?_, ?_⟩
        · simp only [numKeys]; omega
        · rw [leaves_node, hleaves]
      · rename_i hroom
        have hko : ks.length = o - 1 := by omega
        have hcut : 2 ≤ cut o ∧ 2 * cut o ≤ o + 1 := by simp only [cut]; omega
        rw [splitNode_eq o ks _ _ k cr ho hko (by simp at hlen ⊢; omega) (by omega), hcc]
        have hlen' := sp'.length
        obtain ⟨up, h1, h2, h3, h4⟩ := seps_cut (cut o) sp' (by omega) (by omega)
          (fun x hx => (hkids x hx).1.child_ne ho (hkids x hx).2)
        rw [h1]
        refine ⟨_, new, rfl, hnew, ?_⟩
        refine ⟨.node h _ _ h2 (by simp; omega) (fun x hx => (hkids x (List.mem_of_mem_take hx)).1)
            (fun x hx => (hkids x (List.mem_of_mem_take hx)).2),
          .node h _ _ h3 (by simp; omega) (fun x hx => (hkids x (List.mem_of_mem_drop hx)).1)
            (fun x hx => (hkids x (List.mem_of_mem_drop hx)).2), ?_, ?_, h4 _, ?_⟩
        · simp only [numKeys, minK, List.length_take]; omega
        · simp only [numKeys, minK, List.length_drop]; omega
        · rw [leaves_node, leaves_node, ← List.flatMap_append, List.take_append_drop, hleaves]

end Sid.Bpt
