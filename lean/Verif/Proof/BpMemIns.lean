import Verif.Proof.BpMem
/-
Memory of the B+ tree: insertion and deletion along a path.
-/
namespace Sid.Bpt
open Sid.Spec.BpMem

theorem weigh_leaf (g : List K → Nat) (l : Leaf) : weigh g (.leaf l) = g l.keys := by rw [weigh]

theorem weigh_node (g : List K → Nat) (ks : List K) (cs : List Tree) : weigh g (.node ks cs) = g ks + (cs.map (weigh g)).sum := by
  rw [weigh]
  have : (fun c : {x // x ∈ cs} => weigh g c.1) = (weigh g ∘ Subtype.val) := rfl
  rw [this, ← List.map_map, List.attach_map_subtype_val]

/-- keys of internal nodes are keys of leaves too -/
theorem Wf.places {o h t} (w : Wf o h t) (k : K) : placesIn k t ≠ 0 ↔ k ∈ tkeys t := by
  induction w with
  | leaf l h1 h2 => rw [placesIn, weigh_leaf, fl_leaf, Ne, List.count_eq_zero]; simp
  | node h ks cs sp _ _ _ ih =>
    rw [placesIn, weigh_node, fl_node]
    constructor
    · intro hne
      by_cases h1 : ks.count k = 0
      · have h2 : (cs.map (placesIn k)).sum ≠ 0 := by
          have : (cs.map (placesIn k)).sum = (cs.map (weigh fun l => l.count k)).sum := rfl
          omega
        have : ∃ c ∈ cs, placesIn k c ≠ 0 := by
          apply Classical.byContradiction
          intro hh
          apply h2
          rw [List.sum_eq_zero_iff_forall_eq_nat]
          intro x hx
          obtain ⟨c, hc, rfl⟩ := List.mem_map.mp hx
          apply Classical.byContradiction
          intro hx
          exact hh ⟨c, hc, hx⟩
        obtain ⟨c, hc, hk⟩ := this
        exact List.mem_flatMap.mpr ⟨c, hc, (ih c hc).mp hk⟩
      · have hk : k ∈ ks := by rw [List.count_eq_zero] at h1; exact Classical.byContradiction h1
        have : some k ∈ cs.dropLast.map lastKey := by rw [sp.2]; exact List.mem_map_of_mem hk
        obtain ⟨c, hc, hkc⟩ := List.mem_map.mp this
        exact List.mem_flatMap.mpr ⟨c, List.dropLast_subset _ hc, List.mem_of_getLast? hkc⟩
    · intro hk
      obtain ⟨c, hc, hkc⟩ := List.mem_flatMap.mp hk
      have h1 := (ih c hc).mpr hkc
      have h2 : placesIn k c ≤ (cs.map (placesIn k)).sum := by
        obtain ⟨A, B, rfl⟩ := List.append_of_mem hc
        simp; omega
      have : (cs.map (placesIn k)).sum = (cs.map (weigh fun l => l.count k)).sum := rfl
      omega

/-- weights: what counts keys, and what counts nodes -/
structure Weight (g : List K → Nat) (a : K → Nat) (n : Nat) : Prop where
  nil : g [] = n
  ins : ∀ A k B, g (A ++ k :: B) = g (A ++ B) + a k
  app : ∀ A B, g A + g B = g (A ++ B) + n

theorem weight_count (k : K) : Weight (fun l => l.count k) (fun j => if j = k then 1 else 0) 0 := by
  refine ⟨by simp, ?_, ?_⟩
  · intro A j B
    simp only [List.count_append, List.count_cons]
    by_cases e : j = k <;> simp [e]; omega
  · intro A B; simp

theorem weight_one : Weight (fun _ => 1) (fun _ => 0) 1 := ⟨rfl, fun _ _ _ => rfl, fun _ _ => rfl⟩

/-- weight of references taken -/
def refW (a : K → Nat) (E : List Ev) : Nat := (E.map fun | .ref k => a k | _ => 0).sum

/-- weight of references given up -/
def unW (a : K → Nat) (E : List Ev) : Nat := (E.map fun | .unref k => a k | _ => 0).sum

theorem refW_append (a E F) : refW a (E ++ F) = refW a E + refW a F := by simp [refW]
theorem unW_append (a E F) : unW a (E ++ F) = unW a E + unW a F := by simp [unW]
theorem refW_cons (a e F) : refW a (e :: F) = (match e with | .ref k => a k | _ => 0) + refW a F := by simp [refW]
theorem unW_cons (a e F) : unW a (e :: F) = (match e with | .unref k => a k | _ => 0) + unW a F := by simp [unW]

theorem refW_count (k : K) (E : List Ev) : refW (fun j => if j = k then 1 else 0) E = E.count (.ref k) := by
  induction E with
  | nil => rfl
  | cons e E ih =>
    rw [refW_cons, ih, List.count_cons]
    cases e with
    | ref j => by_cases h : j = k <;> simp [h]; omega
    | _ => simp

theorem unW_count (k : K) (E : List Ev) : unW (fun j => if j = k then 1 else 0) E = E.count (.unref k) := by
  induction E with
  | nil => rfl
  | cons e E ih =>
    rw [unW_cons, ih, List.count_cons]
    cases e with
    | unref j => by_cases h : j = k <;> simp [h]; omega
    | _ => simp

theorem refW_zero (E : List Ev) : refW (fun _ => 0) E = 0 := by
  induction E with
  | nil => rfl
  | cons e E ih => rw [refW_cons, ih]; cases e <;> rfl

theorem unW_zero (E : List Ev) : unW (fun _ => 0) E = 0 := by
  induction E with
  | nil => rfl
  | cons e E ih => rw [unW_cons, ih]; cases e <;> rfl

theorem takes_append (E F) : takes (E ++ F) = takes E + takes F := by simp [takes]

/-- weight of the result of an insertion -/
def insW (g : List K → Nat) : Ins → Nat
  | .fits t => weigh g t
  | .split l _ r => weigh g l + weigh g r

/-- was the node split? -/
def isSplit : Ins → Bool
  | .fits _ => false
  | .split _ _ _ => true

theorem Weight.insertIdx {g a n} (w : Weight g a n) (l : List K) (i : Nat) (k : K) (h : i ≤ l.length) : g (l.insertIdx i k) = g l + a k := by
  rw [insertIdx_eq _ _ _ h, w.ins, List.take_append_drop]

theorem sum_map_mid {A B : List Tree} {c : Tree} (f : Tree → Nat) : ((A ++ c :: B).map f).sum = ((A ++ B).map f).sum + f c := by
  simp; omega

/-- what is known of the steps of an insertion below a node, given the result: weights agree, nodes taken are those made, keys are
    referred to while they are keys of the leaves -/
structure InsMem (g : List K → Nat) (a : K → Nat) (n : Nat) (K' : List K) (w0 : Nat) (cnt : Nat × Bool) (res : Ins) (E : List Ev × List Ev) : Prop where
  weight : insW g res + unW a E.2 = w0 + refW a E.1 + takes E.1 * n
  count : cnt = (takes E.1, isSplit res)
  pre : ∀ e ∈ E.1, e = .take ∨ ∃ k ∈ K', e = .ref k
  post : ∀ e ∈ E.2, ∃ k ∈ K', e = .unref k

theorem insertAt_mem {g a n} (wg : Weight g a n) {o newId : Nat} {bk : K} {r : Nat} (ho : 4 ≤ o) {t path l LA LB} (go : Goes bk.str t path l LA LB) :
    ∀ {h : Nat}, Wf o h t → (h = 0 → 1 ≤ numKeys t) → Sorted (tkeys t) → (∀ k ∈ tkeys t, k.str ≠ bk.str) →
    ∃ res new, insertAt o newId bk r path t = some res ∧ NewLeaves o newId bk r l new ∧ InsOk o h (numKeys t) (LA ++ new ++ LB) res ∧
      InsMem g a n ((LA ++ new ++ LB).flatMap Leaf.keys) (weigh g t) (neededUp o path t) res (insEv o newId bk r path t) := by
  induction go with
  | leaf l =>
    intro h w hn0 hs hn
    have gg : Goes bk.str (.leaf l) [] l [] [] := .leaf l
    obtain ⟨res, new, h1, h2, h3⟩ := insertAt_spec (newId := newId) (r := r) ho gg w hn0 hs hn
    refine ⟨res, new, h1, h2, h3, ?_⟩
    have hbk : bk ∈ ([] ++ new ++ []).flatMap Leaf.keys := by
      simp only [List.nil_append, List.append_nil]
      rw [h2.keys, insertIdx_eq _ _ _ (insPoint_le _ _)]; simp
    have hi := insPoint_le l.keys bk.str
    obtain ⟨rfl, hp, hl⟩ := w.inv_leaf
    simp only [insertAt] at h1
    have en : numKeys (.leaf l) = l.keys.length := rfl
    simp only [insEv, neededUp]
    split at h1
    · rename_i hfull
      obtain ⟨l1, k, l2, e1, _, _, _, _, e6, _⟩ := splitLeaf_spec newId bk r ho hp hfull
      rw [e1] at h1
      simp only [Option.map_some, Option.some.injEq] at h1
      subst h1
      rw [if_pos (en.trans hfull), if_pos (en.trans hfull)]
      refine ⟨?_, rfl, ?_, by simp⟩
      · simp only [insW, weigh_leaf]
        rw [wg.app, e6, wg.insertIdx _ _ _ hi]
        simp [unW, refW, takes]
      · intro e he
        simp only [List.mem_cons, List.not_mem_nil, or_false] at he
        rcases he with rfl | rfl
        · exact .inl rfl
        · exact .inr ⟨bk, hbk, rfl⟩
    · rename_i hfull
      simp only [Option.some.injEq] at h1
      subst h1
      rw [if_neg (c := numKeys (.leaf l) = o - 1) hfull, if_neg (c := numKeys (.leaf l) = o - 1) hfull]
      refine ⟨?_, rfl, ?_, by simp⟩
      · simp only [insW, weigh_leaf, insertIntoLeaf]
        rw [wg.insertIdx _ _ _ hi]
        simp [unW, refW, takes]
      · intro e he
        simp only [List.mem_cons, List.not_mem_nil, or_false] at he
        exact .inr ⟨bk, hbk, he⟩
  | node ks A c B path l LA LB hidx go ih =>
    intro h w hn0 hs hn
    obtain ⟨res, new, h1, h2, h3⟩ := insertAt_spec (newId := newId) (r := r) ho (Goes.node ks A c B path l LA LB hidx go) w hn0 hs hn
    refine ⟨res, new, h1, h2, h3, ?_⟩
    obtain ⟨h, rfl, sp, hkl, hc⟩ := w.inv_node
    have hcw := hc c (by simp)
    have hs' := hs
    rw [fl_node] at hs' hn
    simp only [List.flatMap_append, List.flatMap_cons] at hs' hn
    have hsC : Sorted (tkeys c) := (List.pairwise_append.mp (List.pairwise_append.mp hs').2.1).1
    have hnC : ∀ k ∈ tkeys c, k.str ≠ bk.str := fun k hk => hn k (by simp [hk])
    obtain ⟨cres, cnew, hr, hnew, hok, hmem⟩ := ih hcw.1 (fun _ => Nat.le_trans (minK_pos ho h) hcw.2) hsC hnC
    have hKeq : cnew.flatMap Leaf.keys = new.flatMap Leaf.keys := by rw [hnew.keys, h2.keys]
    have hsub : ∀ k, k ∈ (LA ++ cnew ++ LB).flatMap Leaf.keys →
        k ∈ (A.flatMap leaves ++ LA ++ new ++ (LB ++ B.flatMap leaves)).flatMap Leaf.keys := by
      intro k hk
      simp only [List.flatMap_append, List.mem_append, hKeq] at hk ⊢
      rcases hk with (hk | hk) | hk <;> simp [hk]
    have hpre : ∀ e ∈ (insEv o newId bk r path c).1, e = .take ∨ ∃ k ∈ (A.flatMap leaves ++ LA ++ new ++ (LB ++ B.flatMap leaves)).flatMap Leaf.keys, e = .ref k := by
      intro e he
      rcases hmem.pre e he with h | ⟨k, hk, h⟩
      · exact .inl h
      · exact .inr ⟨k, hsub k hk, h⟩
    have hpost : ∀ e ∈ (insEv o newId bk r path c).2, ∃ k ∈ (A.flatMap leaves ++ LA ++ new ++ (LB ++ B.flatMap leaves)).flatMap Leaf.keys, e = .unref k := by
      intro e he
      obtain ⟨k, hk, h⟩ := hmem.post e he
      exact ⟨k, hsub k hk, h⟩
    have hlen := sp.length
    have hile := childIdx_le ks bk.str
    have hw := hmem.weight
    have hcnt := hmem.count
    simp only [insertAt, getElem?_mid, hr] at h1
    cases cres with
    | fits c' =>
      simp only [Option.some.injEq] at h1
      subst h1
      simp only [isSplit] at hcnt
      simp only [insEv, neededUp, getElem?_mid, hr, hcnt]
      refine ⟨?_, by simp [isSplit], hpre, hpost⟩
      simp only [insW, set_mid, weigh_node, sum_map_mid] at hw ⊢
      omega
    | split cl k cr =>
      obtain ⟨wl, wr, nl, nr, hlk, hl'⟩ := hok
      simp only [isSplit] at hcnt
      have hk : k ∈ (LA ++ cnew ++ LB).flatMap Leaf.keys := by
        rw [← hl', List.flatMap_append]
        have : k ∈ (leaves cl).flatMap Leaf.keys := List.mem_of_getLast? hlk
        simp only [List.mem_append]; exact .inl this
      have hcc : (A ++ cl :: B).insertIdx (A.length + 1) cr = A ++ cl :: cr :: B := by
        have := insertIdx_mid (A ++ [cl]) B cr
        simpa using this
      simp only [insW] at hw
      simp only [set_mid, insertIntoParent] at h1
      simp only [insEv, neededUp, getElem?_mid, hr, hcnt, set_mid, parentEv]
      split at h1
      · rename_i hroom
        simp only [Option.some.injEq] at h1
        subst h1
        rw [if_pos hroom, if_neg (by omega)]
        refine ⟨?_, by simp [isSplit, takes], ?_, hpost⟩
        · simp only [insW, weigh_node, hcc, refW_append, takes_append]
          rw [wg.insertIdx _ _ _ (by omega)]
          simp only [sum_map_mid]
          simp [takes, refW] at hw ⊢
          omega
        · intro e he
          rcases List.mem_append.mp he with he | he
          · exact hpre e he
          · exact .inr ⟨k, hsub k hk, by simpa using he⟩
      · rename_i hroom
        have hko : ks.length = o - 1 := by omega
        have hcut : 2 ≤ cut o ∧ 2 * cut o ≤ o + 1 := by simp only [cut]; omega
        rw [splitNode_eq o ks _ _ k cr ho hko (by simp at hlen ⊢; omega) (by omega), hcc] at h1
        rw [if_neg hroom, if_pos (by simp [hko]), splitNode_eq o ks _ _ k cr ho hko (by simp at hlen ⊢; omega) (by omega), hcc]
        have hkl' : (ks.insertIdx A.length k).length = ks.length + 1 := length_insertIdx' _ _ _ (by omega)
        obtain ⟨up, hup⟩ : ∃ up, (ks.insertIdx A.length k)[cut o - 1]? = some up :=
          ⟨_, List.getElem?_eq_getElem (show cut o - 1 < (ks.insertIdx A.length k).length by omega)⟩
        rw [hup] at h1 ⊢
        simp only [Option.map_some, Option.some.injEq] at h1 ⊢
        subst h1
        have hupk : up ∈ (A.flatMap leaves ++ LA ++ new ++ (LB ++ B.flatMap leaves)).flatMap Leaf.keys := by
          obtain ⟨_, _, _, _, hlk', hl2⟩ := h3
          rw [← hl2, List.flatMap_append, List.mem_append]
          exact .inl (List.mem_of_getLast? hlk')
        refine ⟨?_, by simp [isSplit, takes], ?_, ?_⟩
        · simp only [insW, weigh_node, refW_append, takes_append, unW_cons]
          have hsplit : g ((ks.insertIdx A.length k).take (cut o - 1)) + g ((ks.insertIdx A.length k).drop (cut o)) + a up = g ks + a k + n := by
            rw [wg.app, ← wg.insertIdx ks A.length k (by omega)]
            have : ks.insertIdx A.length k = (ks.insertIdx A.length k).take (cut o - 1) ++ up :: (ks.insertIdx A.length k).drop (cut o) := by
              obtain ⟨hlt, hget⟩ := List.getElem?_eq_some_iff.mp hup
              conv => lhs; rw [← List.take_append_drop (cut o - 1) (ks.insertIdx A.length k)]
              rw [List.drop_eq_getElem_cons hlt, hget, show cut o - 1 + 1 = cut o by omega]
            conv => rhs; rw [this, wg.ins]
            omega
          have hsum : (((A ++ cl :: cr :: B).take (cut o)).map (weigh g)).sum + (((A ++ cl :: cr :: B).drop (cut o)).map (weigh g)).sum =
              ((A ++ B).map (weigh g)).sum + weigh g cr + weigh g cl := by
            rw [← List.sum_append_nat, ← List.map_append, List.take_append_drop, sum_map_mid, sum_map_mid]
          rw [sum_map_mid]
          have e1 : refW a [.take, .ref k] = a k := by simp [refW]
          have e2 : takes [.take, .ref k] = 1 := by simp [takes]
          rw [e1, e2, Nat.add_mul, Nat.one_mul]
          show _ + _ + (a up + _) = _
          omega
        · intro e he
          rcases List.mem_append.mp he with he | he
          · exact hpre e he
          · simp only [List.mem_cons, List.not_mem_nil, or_false] at he
            rcases he with rfl | rfl
            · exact .inl rfl
            · exact .inr ⟨k, hsub k hk, rfl⟩
        · intro e he
          rcases List.mem_cons.mp he with rfl | he
          · exact ⟨up, hupk, rfl⟩
          · exact hpost e he

end Sid.Bpt
