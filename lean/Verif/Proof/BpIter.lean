import Verif.Proof.BpStep
import Verif.Spec.BpShape
/-
Iteration over the leaves.
-/
namespace Sid.Bpt

theorem Wf.leaf_ne {o h t} (ho : 4 ≤ o) (w : Wf o h t) (hn : h = 0 → 1 ≤ numKeys t) : ∀ l ∈ leaves t, l.keys ≠ [] := by
  induction w with
  | leaf l h1 h2 =>
    rw [leaves_leaf]
    have := hn rfl
    simp only [numKeys] at this
    simp only [List.mem_singleton, forall_eq]
    intro e; rw [e] at this; simp at this
  | node h ks cs _ _ _ hc ih =>
    rw [leaves_node]
    intro l hl
    obtain ⟨c, hcm, hl⟩ := List.mem_flatMap.mp hl
    exact ih c hcm (fun _ => Nat.le_trans (minK_pos ho h) (hc c hcm)) l hl

/-- keys with record pointers of a leaf -/
def lents (l : Leaf) : List (K × Nat) := l.keys.zip l.ptrs

theorem firstLeaf_eq {o h t} (w : Wf o h t) : ∃ l LB, firstLeaf t = some l ∧ leaves t = l :: LB := by
  induction w with
  | leaf l _ _ => exact ⟨l, [], by simp [firstLeaf], leaves_leaf l⟩
  | node h ks cs s _ _ _ ih =>
    obtain ⟨c, C, rfl⟩ := List.exists_cons_of_ne_nil s.1
    obtain ⟨l, LB, h1, h2⟩ := ih c (by simp)
    exact ⟨l, LB ++ C.flatMap leaves, by simp [firstLeaf, h1], by rw [leaves_node]; simp [h2]⟩

theorem leafById_eq {t : Tree} {LA LB : List Leaf} {l : Leaf} (h : leaves t = LA ++ l :: LB) (hid : ((links t).map Prod.fst).Nodup) :
    leafById t l.id = some l := by
  have e : (links t).map Prod.fst = (leaves t).map Leaf.id := by
    simp only [fl]
    generalize leaves t = L
    induction L with
    | nil => rfl
    | cons a L ih => simp [lnk, ih]
  rw [e, h, List.map_append, List.map_cons, List.nodup_append] at hid
  simp only [leafById, h]
  rw [List.find?_append, List.find?_eq_none.mpr, List.find?_cons]
  · simp
  · intro x hx
    have := hid.2.2 _ (List.mem_map_of_mem (f := Leaf.id) hx) l.id (by simp)
    simpa using this

theorem linked_next {LA LB : List Leaf} {l : Leaf} (h : Linked ((LA ++ l :: LB).flatMap lnk)) : l.next = LB.head?.map Leaf.id := by
  induction LA with
  | nil =>
    cases LB with
    | nil =>
      simp only [List.nil_append, List.flatMap_cons, List.flatMap_nil, lnk, List.append_nil] at h
      generalize l.next = n at h
      cases h; rfl
    | cons m LB =>
      simp only [List.nil_append, List.flatMap_cons, lnk, List.singleton_append] at h
      generalize l.next = n at h
      cases h; rfl
  | cons a LA ih =>
    apply ih
    have h' : Linked ((a.id, a.next) :: (LA ++ l :: LB).flatMap lnk) := h
    generalize a.next = n at h'
    generalize hX : (LA ++ l :: LB).flatMap lnk = X at h' ⊢
    cases h' with
    | last =>
      have := congrArg List.length hX
      simp [lnk] at this
    | cons _ _ _ _ h => exact h

/-- the iterator stands on an entry; `rest` follows -/
def Pos (t : Tree) (it : Iter) (rest : List (K × Nat)) : Prop :=
  ∃ LA l LB, leaves t = LA ++ l :: LB ∧ it.c = some l.id ∧ it.i < l.keys.length ∧
    rest = (lents l).drop (it.i + 1) ++ LB.flatMap lents

section
variable {b : Bpt} {t : Tree} (h : BInv b) (ht : b.root = some t)
include h ht

theorem BInv.leaf_ne {l} (hl : l ∈ leaves t) : l.keys ≠ [] := by
  obtain ⟨_, w⟩ := (h.tree t ht).wf
  exact w.leaf_ne h.ord (fun _ => (h.tree t ht).ne) l hl

theorem BInv.leaf_len {l} (hl : l ∈ leaves t) : l.ptrs.length = l.keys.length := by
  obtain ⟨_, w⟩ := (h.tree t ht).wf
  exact w.leaf_len l hl

/-- one position further -/
theorem move_pos {it : Iter} {rest} (p : Pos t it rest) :
    (rest = [] ∧ iterMove b it = some none) ∨
    ∃ k r rest' l i, rest = (k, r) :: rest' ∧ iterMove b it = some (some (l, i)) ∧ l.keys[i]? = some k ∧ l.ptrs[i]? = some r ∧
      ∀ it', it'.c = some l.id → it'.i = i → Pos t it' rest' := by
  obtain ⟨LA, l, LB, hl, hc, hi, rfl⟩ := p
  have ok := h.tree t ht
  have hlen := h.leaf_len ht (l := l) (by rw [hl]; simp)
  have hby := leafById_eq hl ok.ids
  by_cases hlt : it.i < l.keys.length - 1
  · right
    have hi1 : it.i + 1 < l.keys.length := by omega
    have hz : it.i + 1 < (lents l).length := by simp [lents, hlen]; omega
    refine ⟨l.keys[it.i + 1], l.ptrs[it.i + 1]'(by omega), (lents l).drop (it.i + 2) ++ LB.flatMap lents, l, it.i + 1, ?_, ?_,
      List.getElem?_eq_getElem _, List.getElem?_eq_getElem _, ?_⟩
    · rw [List.drop_eq_getElem_cons hz]
      simp [lents]
    · simp only [iterMove, ht, hc, hby, if_pos hlt]
    · intro it' h1 h2
      exact ⟨LA, l, LB, hl, h1, by omega, by rw [h2]⟩
  · have hd : (lents l).drop (it.i + 1) = [] := by
      rw [List.drop_eq_nil_iff]; simp [lents, hlen]; omega
    have hn := linked_next (LA := LA) (l := l) (LB := LB) (by rw [← hl]; exact ok.linked)
    cases LB with
    | nil =>
      left
      simp only [List.head?_nil, Option.map_none] at hn
      exact ⟨by simp [hd], by simp only [iterMove, ht, hc, hby, if_neg hlt, hn]⟩
    | cons m LB =>
      right
      simp only [List.head?_cons, Option.map_some] at hn
      have hm : leaves t = (LA ++ [l]) ++ m :: LB := by simp [hl]
      have hbm := leafById_eq hm ok.ids
      have hne := h.leaf_ne ht (l := m) (by rw [hm]; simp)
      have hml := h.leaf_len ht (l := m) (by rw [hm]; simp)
      cases ek : m.keys with
      | nil => exact absurd ek hne
      | cons k ks =>
        cases ep : m.ptrs with
        | nil => rw [ek, ep] at hml; simp at hml
        | cons r rs =>
          refine ⟨k, r, (lents m).drop 1 ++ LB.flatMap lents, m, 0, ?_, ?_, by simp [ek], by simp [ep], ?_⟩
          · rw [hd]; simp [lents, ek, ep]
          · simp only [iterMove, ht, hc, hby, if_neg hlt, hn, hbm, Option.map_some]
          · intro it' h1 h2
            exact ⟨LA ++ [l], m, LB, hm, h1, by rw [h2, ek]; simp, by rw [h2]⟩

/-- the key and the record of an entry -/
def shown (recs : Nat → Option Rec) (p : K × Nat) : Option (Str × Rec) := (recs p.2).map fun x => (p.1.str, x)

theorem rec_mem {l : Leaf} {i r : Nat} (hl : l ∈ leaves t) (hr : l.ptrs[i]? = some r) : ∃ x, b.recs r = some x := by
  obtain ⟨x, hx, _⟩ := h.mem_recs (r := r) (by
    simp only [ptrsOf, ht, fl]
    exact List.mem_flatMap.mpr ⟨l, hl, List.mem_of_getElem? hr⟩)
  exact ⟨x, hx⟩

/-- what the loop sees from a position on -/
theorem iter_pos {it : Iter} {rest} (p : Pos t it rest) (fuel : Nat) (hf : rest.length < fuel) :
    iterAll b fuel it = some ((rest.takeWhile fun e => !iterStops it e.1).filterMap (shown b.recs)) := by
  induction rest generalizing it fuel with
  | nil =>
    obtain ⟨f, rfl⟩ : ∃ f, fuel = f + 1 := ⟨fuel - 1, by omega⟩
    rcases move_pos h ht p with ⟨_, hm⟩ | ⟨_, _, _, _, _, h1, _⟩
    · simp [iterAll, iterNext, hm]
    · simp at h1
  | cons e rest ih =>
    obtain ⟨f, rfl⟩ : ∃ f, fuel = f + 1 := ⟨fuel - 1, by simp at hf; omega⟩
    rcases move_pos h ht p with ⟨h0, _⟩ | ⟨k, r, rest', l, i, h1, hm, hk, hr, hp⟩
    · simp at h0
    · simp only [List.cons.injEq] at h1
      obtain ⟨rfl, rfl⟩ := h1
      simp only [iterAll, iterNext, hm, hk]
      by_cases hst : iterStops it k = true
      · simp [hst]
      · have hpos := hp { it with c := some l.id, i := i } rfl rfl
        have hlm : l ∈ leaves t := by
          obtain ⟨LA, l', LB, hl, hc, _⟩ := hpos
          simp only [Option.some.injEq] at hc
          have hl'' : l' ∈ leaves t := by rw [hl]; simp
          -- the leaf with this number
          have := leafById_eq hl (h.tree t ht).ids
          rw [← hc] at this
          have hmv : iterMove b it = some (some (l, i)) := hm
          obtain ⟨LA2, l2, LB2, hl2, hc2, hi2, _⟩ := p
          simp only [iterMove, ht, hc2, leafById_eq hl2 (h.tree t ht).ids] at hmv
          split at hmv
          · simp only [Option.some.injEq, Prod.mk.injEq] at hmv
            rw [← hmv.1, hl2]; simp
          · split at hmv
            · simp at hmv
            · rename_i n _
              cases e : leafById t n with
              | none => rw [e] at hmv; simp at hmv
              | some l3 =>
                rw [e] at hmv
                simp only [Option.map_some, Option.some.injEq, Prod.mk.injEq] at hmv
                rw [← hmv.1]
                exact List.mem_of_find?_eq_some e
        obtain ⟨x, hx⟩ := rec_mem h ht hlm hr
        rw [if_neg hst]
        simp only [hr, Option.bind_some, hx]
        rw [ih hpos f (by simp at hf; omega)]
        have hst' : ∀ k, iterStops { it with c := some l.id, i := i } k = iterStops it k := fun _ => rfl
        simp [hst, hst', shown, hx]

/-- what a new iterator sees -/
theorem iter_start {it : Iter} {l : Leaf} {i : Nat} {LA LB : List Leaf} (hl : leaves t = LA ++ l :: LB) (hi : i < l.keys.length)
    (hm : iterMove b it = some (some (l, i))) (fuel : Nat) (hf : ((lents l).drop i ++ LB.flatMap lents).length < fuel) :
    iterAll b fuel it = some ((((lents l).drop i ++ LB.flatMap lents).takeWhile fun e => !iterStops it e.1).filterMap (shown b.recs)) := by
  obtain ⟨f, rfl⟩ : ∃ f, fuel = f + 1 := ⟨fuel - 1, by omega⟩
  have hlm : l ∈ leaves t := by rw [hl]; simp
  have hlen := h.leaf_len ht hlm
  have hk : l.keys[i]? = some l.keys[i] := List.getElem?_eq_getElem hi
  have hr : l.ptrs[i]? = some (l.ptrs[i]'(by omega)) := List.getElem?_eq_getElem _
  have hz : i < (lents l).length := by simp [lents, hlen]; omega
  have hd : (lents l).drop i = (l.keys[i], l.ptrs[i]'(by omega)) :: (lents l).drop (i + 1) := by
    rw [List.drop_eq_getElem_cons hz]; simp [lents]
  rw [hd] at hf ⊢
  simp only [iterAll, iterNext, hm, hk]
  by_cases hst : iterStops it l.keys[i] = true
  · simp [hst]
  · obtain ⟨x, hx⟩ := rec_mem h ht hlm hr
    rw [if_neg hst]
    simp only [hr, Option.bind_some, hx]
    rw [iter_pos h ht (rest := (lents l).drop (i + 1) ++ LB.flatMap lents) (it := { it with c := some l.id, i := i }) ⟨LA, l, LB, hl, rfl, hi, rfl⟩ f (by simp at hf ⊢; omega)]
    have hst' : ∀ k, iterStops { it with c := some l.id, i := i } k = iterStops it k := fun _ => rfl
    simp [hst, hst', shown, hx]

end

/-! ### all entries -/

/-- keys with record pointers of the whole tree -/
def kents (b : Bpt) : List (K × Nat) := (keysOf b).zip (ptrsOf b)

theorem lents_flat {L : List Leaf} (h : ∀ l ∈ L, l.ptrs.length = l.keys.length) :
    L.flatMap lents = (L.flatMap Leaf.keys).zip (L.flatMap Leaf.ptrs) := by
  induction L with
  | nil => rfl
  | cons l L ih =>
    simp only [List.flatMap_cons]
    rw [List.zip_append (h l (by simp)).symm, ih fun x hx => h x (by simp [hx])]
    rfl

theorem kents_eq {b t} (h : BInv b) (ht : b.root = some t) : kents b = (leaves t).flatMap lents := by
  obtain ⟨_, w⟩ := (h.tree t ht).wf
  rw [lents_flat w.leaf_len]
  simp only [kents, keysOf, ptrsOf, ht, fl]

theorem kents_fst {b} (h : BInv b) : (kents b).map Prod.fst = keysOf b := by
  rw [kents, List.map_fst_zip]; simp [h.len]

theorem kents_sorted {b} (h : BInv b) : (kents b).Pairwise fun x y => strLt x.1.str y.1.str = true := by
  have := h.sorted
  rw [← kents_fst h] at this
  exact List.pairwise_map.mp this

/-- the entries of the tree are what lookups report -/
theorem lookup_iff {b} (h : BInv b) (s : Str) (x : Rec) :
    lookup b s = some (some x) ↔ ∃ p ∈ kents b, shown b.recs p = some (s, x) := by
  rcases find_spec h s with ⟨e, hs⟩ | ⟨f, t, LA, LB, A, B, PA, PB, e, hit⟩
  · simp only [lookup, e]
    constructor
    · intro h; simp at h
    · rintro ⟨p, hp, hsh⟩
      simp only [shown] at hsh
      obtain ⟨y, _, hy⟩ := Option.map_eq_some_iff.mp hsh
      simp only [Prod.mk.injEq] at hy
      have : p.1 ∈ keysOf b := by rw [← kents_fst h]; exact List.mem_map_of_mem hp
      exact absurd hy.1 (hs _ this)
  · have hk : kents b = (LA.flatMap Leaf.keys ++ A).zip (LA.flatMap Leaf.ptrs ++ PA) ++
        (f.key, f.rc) :: (B ++ LB.flatMap Leaf.keys).zip (PB ++ LB.flatMap Leaf.ptrs) := by
      rw [kents, hit.keysOf, hit.ptrsOf, List.zip_append (hit.len2 h.tree).symm, List.zip_cons_cons]
    obtain ⟨y, hy, _⟩ := h.mem_recs hit.mem
    simp only [lookup, e, hy, Option.map_some, Option.some.injEq]
    constructor
    · rintro rfl
      exact ⟨(f.key, f.rc), by rw [hk]; simp, by simp [shown, hy, hit.str]⟩
    · rintro ⟨p, hp, hsh⟩
      simp only [shown] at hsh
      obtain ⟨z, hz, hz'⟩ := Option.map_eq_some_iff.mp hsh
      simp only [Prod.mk.injEq] at hz'
      obtain ⟨hz1, rfl⟩ := hz'
      have hs := kents_sorted h
      rw [hk, List.pairwise_append] at hs
      rw [hk] at hp
      rcases List.mem_append.mp hp with hp | hp
      · have := hs.2.2 p hp (f.key, f.rc) (by simp)
        simp only at this
        rw [hz1, hit.str, strLt_irrefl] at this; cases this
      · rcases List.mem_cons.mp hp with rfl | hp
        · simp only at hz; rw [hy] at hz; simpa using hz
        · have := (List.pairwise_cons.mp hs.2.1).1 p hp
          simp only at this
          rw [hz1, hit.str, strLt_irrefl] at this; cases this

end Sid.Bpt

namespace Sid.Bpt
open Sid.Spec.Shape

theorem mem_takeWhile_sorted {α} {R : α → α → Prop} {p : α → Bool} {D : List α} (hs : D.Pairwise R)
    (hp : ∀ a ∈ D, ∀ b, R a b → p b = true → p a = true) : ∀ e ∈ D, (e ∈ D.takeWhile p ↔ p e = true) := by
  induction D with
  | nil => simp
  | cons a D ih =>
    intro e he
    have hs' := List.pairwise_cons.mp hs
    by_cases ha : p a = true
    · rw [List.takeWhile_cons_of_pos ha]
      rcases List.mem_cons.mp he with rfl | he
      · simp [ha]
      · have hne := ih hs'.2 (fun x hx => hp x (by simp [hx])) e he
        constructor
        · intro h
          rcases List.mem_cons.mp h with rfl | h
          · exact ha
          · exact hne.mp h
        · intro h; exact List.mem_cons_of_mem _ (hne.mpr h)
    · rw [List.takeWhile_cons_of_neg ha]
      simp only [List.not_mem_nil, false_iff]
      intro h
      rcases List.mem_cons.mp he with rfl | he
      · exact ha h
      · exact ha (hp a (by simp) e (hs'.1 e he) h)

theorem mem_takeWhile_pos {α} {p : α → Bool} {D : List α} {e : α} (h : e ∈ D.takeWhile p) : p e = true := by
  induction D with
  | nil => simp at h
  | cons a D ih =>
    by_cases ha : p a = true
    · rw [List.takeWhile_cons_of_pos ha] at h
      rcases List.mem_cons.mp h with rfl | h
      · exact ha
      · exact ih h
    · rw [List.takeWhile_cons_of_neg ha] at h; simp at h

/-- the leaf a search ends in has a key not below the one searched, unless it is the last leaf -/
theorem Goes.last_ge {s t path l LA LB o h} (g : Goes s t path l LA LB) (w : Wf o h t) (hs : Sorted (tkeys t))
    (hne : LB.flatMap Leaf.keys ≠ []) (ho : 4 ≤ o) (hn : 1 ≤ numKeys t) : ∃ m ∈ l.keys, strLt m.str s = false := by
  induction g generalizing h with
  | leaf => simp at hne
  | node ks A c B path l LA LB hi g ih =>
    have hlne := w.leaf_ne ho (fun _ => hn) l (by rw [leaves_node]; simp [g.leaves_eq])
    obtain ⟨g', rfl, sp, hl, hc⟩ := w.inv_node
    rw [fl_node] at hs
    simp only [List.flatMap_append, List.flatMap_cons] at hs
    have hsCB := (List.pairwise_append.mp hs).2.1
    have hsC := (List.pairwise_append.mp hsCB).1
    obtain ⟨wc, hcm⟩ := hc c (by simp)
    by_cases hLB : LB.flatMap Leaf.keys = []
    · cases B with
      | nil => simp [hLB] at hne
      | cons b B =>
        have hlen := sp.length
        have hlA : A.length = (ks.take A.length).length := by simp at hlen ⊢; omega
        rw [← List.take_append_drop A.length ks, seps_append hlA (by simp)] at sp
        cases hm : ks.drop A.length with
        | nil => rw [hm] at sp; have := sp.2.length; simp at this
        | cons m KB =>
          rw [hm, seps_cons] at sp
          have hmk : ks[childIdx ks s]? = some m := by
            rw [hi]
            have := congrArg (fun l => l[0]?) hm
            simpa using this
          refine ⟨m, ?_, childIdx_at hmk⟩
          have hlast := sp.2.1
          simp only [lastKey] at hlast
          rw [g.fl_eq, hLB, List.append_nil, getLast?_append_ne _ _ hlne] at hlast
          exact List.mem_of_getLast? hlast
    · exact ih wc hsC hLB (Nat.le_trans (minK_pos ho g') hcm)

/-- reading a part of the entries -/
theorem out_asc {b} {C D : List (K × Nat)} (h : BInv b) (hk : kents b = C ++ D) (p) :
    Ascending ((D.takeWhile p).filterMap (shown b.recs)) := by
  have hs := kents_sorted h
  rw [hk] at hs
  have h2 := ((List.pairwise_append.mp hs).2.1).sublist (List.takeWhile_sublist p)
  refine List.Pairwise.filterMap _ ?_ h2
  intro a a' hlt x hx y hy
  simp only [shown, Option.map_eq_some_iff] at hx hy
  obtain ⟨_, _, rfl⟩ := hx
  obtain ⟨_, _, rfl⟩ := hy
  exact hlt

theorem out_mem {b} {C D : List (K × Nat)} (h : BInv b) (hk : kents b = C ++ D) (p) (cond : Str → Prop)
    (hC : ∀ e ∈ C, ¬ cond e.1.str) (hD : ∀ e ∈ D, (e ∈ D.takeWhile p ↔ cond e.1.str)) (s : Str) (x : Rec) :
    (s, x) ∈ (D.takeWhile p).filterMap (shown b.recs) ↔ lookup b s = some (some x) ∧ cond s := by
  rw [lookup_iff h, List.mem_filterMap]
  constructor
  · rintro ⟨e, he, hx⟩
    have hmem : e ∈ D := (List.takeWhile_sublist p).subset he
    refine ⟨⟨e, by rw [hk]; exact List.mem_append_right _ hmem, hx⟩, ?_⟩
    have := (hD e hmem).mp he
    simp only [shown, Option.map_eq_some_iff] at hx
    obtain ⟨_, _, hx⟩ := hx
    simp only [Prod.mk.injEq] at hx
    rw [← hx.1]; exact this
  · rintro ⟨⟨e, he, hx⟩, hc⟩
    refine ⟨e, ?_, hx⟩
    simp only [shown, Option.map_eq_some_iff] at hx
    obtain ⟨_, _, hx⟩ := hx
    simp only [Prod.mk.injEq] at hx
    rw [← hx.1] at hc
    rw [hk] at he
    rcases List.mem_append.mp he with he | he
    · exact absurd hc (hC e he)
    · exact (hD e he).mpr hc

theorem kents_split {b t LA l LB} (h : BInv b) (ht : b.root = some t) (hl : leaves t = LA ++ l :: LB) (i : Nat) :
    kents b = (LA.flatMap lents ++ (lents l).take i) ++ ((lents l).drop i ++ LB.flatMap lents) := by
  rw [kents_eq h ht, hl]
  simp only [List.flatMap_append, List.flatMap_cons]
  rw [List.append_assoc, ← List.append_assoc ((lents l).take i), List.take_append_drop]

theorem empty_lookup {b} (he : b.root = none) (s : Str) : lookup b s = some none := by simp [lookup, find, he]

theorem empty_iter {b} {it : Iter} (he : b.root = none) (hc : it.c = none) (fuel : Nat) (hf : 1 ≤ fuel) : iterAll b fuel it = some [] := by
  obtain ⟨f, rfl⟩ : ∃ f, fuel = f + 1 := ⟨fuel - 1, by omega⟩
  simp [iterAll, iterNext, iterMove, hc, he]

/-- stopping at the end of a range -/
theorem stops_mono {it : Iter} (hp : it.pfx = false) (a b : K × Nat) (hab : strLt a.1.str b.1.str = true)
    (hb : (!iterStops it b.1) = true) : (!iterStops it a.1) = true := by
  simp only [iterStops, hp, Bool.false_eq_true, if_false] at *
  cases e : it.stop with
  | none => rfl
  | some z =>
    simp only [e] at hb ⊢
    simp only [Bool.not_eq_true'] at *
    cases h : strLt z a.1.str with
    | false => rfl
    | true => rw [strLt_trans h hab] at hb; cases hb

theorem stops_iff {it : Iter} (hp : it.pfx = false) (k : K) :
    (!iterStops it k) = true ↔ ∀ e, it.stop = some e → strLt e k.str = false := by
  simp only [iterStops, hp, Bool.false_eq_true, if_false]
  cases e : it.stop with
  | none => simp
  | some z => simp

/-- ranges without a start -/
theorem iter_from_first {b} (h : BInv b) (stop : Option Str) :
    ∃ N out, (∀ fuel, N ≤ fuel → iterAll b fuel ⟨false, none, stop, none, 0⟩ = some out) ∧ Ascending out ∧
      ∀ s x, (s, x) ∈ out ↔ lookup b s = some (some x) ∧ InRange none stop s := by
  cases ht : b.root with
  | none =>
    exact ⟨1, [], fun fuel hf => empty_iter ht rfl fuel hf, List.Pairwise.nil, fun s x => by simp [empty_lookup ht]⟩
  | some t =>
    obtain ⟨_, w⟩ := (h.tree t ht).wf
    obtain ⟨l, LB, hf, hl⟩ := firstLeaf_eq w
    have hl' : leaves t = [] ++ l :: LB := hl
    have hne := h.leaf_ne ht (l := l) (by rw [hl]; simp)
    have hpos : 0 < l.keys.length := List.length_pos_iff.mpr hne
    have hk := kents_split h ht hl' 0
    refine ⟨_, _, fun fuel hfu => iter_start h ht hl' hpos (by simp [iterMove, ht, hf]) fuel (Nat.lt_of_succ_le hfu), out_asc h hk _, ?_⟩
    refine out_mem h hk _ (InRange none stop) (by simp) ?_
    intro e he
    have hs := kents_sorted h
    rw [hk] at hs
    rw [mem_takeWhile_sorted (List.pairwise_append.mp hs).2.1 (fun a _ b' => stops_mono rfl a b') e he, stops_iff rfl]
    simp [InRange]

theorem findIdx?_mid {α} {p : α → Bool} {A B : List α} {x : α} (hA : ∀ a ∈ A, p a = false) (hx : p x = true) :
    (A ++ x :: B).findIdx? p = some A.length := by
  rw [List.findIdx?_append, List.findIdx?_eq_none_iff.mpr hA]
  simp [List.findIdx?_cons, hx]

theorem findIdx?_split {α} {p : α → Bool} (L : List α) :
    (L.findIdx? p = none ∧ ∀ a ∈ L, p a = false) ∨ ∃ A x B, L = A ++ x :: B ∧ (∀ a ∈ A, p a = false) ∧ p x = true := by
  induction L with
  | nil => left; simp
  | cons a L ih =>
    by_cases ha : p a = true
    · exact Or.inr ⟨[], a, L, rfl, by simp, ha⟩
    · have ha' : p a = false := by simpa using ha
      rcases ih with ⟨h1, h2⟩ | ⟨A, x, B, rfl, h2, h3⟩
      · left
        constructor
        · simp [List.findIdx?_cons, ha', h1]
        · intro y hy
          rcases List.mem_cons.mp hy with rfl | hy
          · exact ha'
          · exact h2 y hy
      · refine Or.inr ⟨a :: A, x, B, rfl, ?_, h3⟩
        intro y hy
        rcases List.mem_cons.mp hy with rfl | hy
        · exact ha'
        · exact h2 y hy

/-- keys of the leaves are the keys of the entries -/
theorem mem_lents {l : Leaf} {e : K × Nat} (h : e ∈ lents l) : e.1 ∈ l.keys := (List.of_mem_zip h).1

/-- ranges that start anywhere: everything in the range, and possibly some keys before it -/
theorem iter_range {b} (h : BInv b) (a : Str) (stop : Option Str) :
    ∃ N out, (∀ fuel, N ≤ fuel → iterAll b fuel ⟨false, some a, stop, none, 0⟩ = some out) ∧ Ascending out ∧
      (∀ s x, (s, x) ∈ out → lookup b s = some (some x) ∧ InRange none stop s) ∧
      (∀ s x, lookup b s = some (some x) → InRange (some a) stop s → (s, x) ∈ out) ∧
      (lookup b a ≠ some none → ∀ s x, (s, x) ∈ out → InRange (some a) stop s) := by
  cases ht : b.root with
  | none =>
    exact ⟨1, [], fun fuel hf => empty_iter ht rfl fuel hf, List.Pairwise.nil, fun s x => by simp, fun s x => by simp [empty_lookup ht],
      fun _ s x => by simp⟩
  | some t =>
    have ok := h.tree t ht
    obtain ⟨_, w⟩ := ok.wf
    obtain ⟨path, l, LA, LB, hf, g⟩ := findLeaf_goes w a
    have hb := g.bounds w ok.sorted
    have hl := g.leaves_eq
    have hne := h.leaf_ne ht (l := l) (by rw [hl]; simp)
    have hpos : 0 < l.keys.length := List.length_pos_iff.mpr hne
    have hlen := h.leaf_len ht (l := l) (by rw [hl]; simp)
    have hLA : ∀ e ∈ LA.flatMap lents, strLt e.1.str a = true := by
      intro e he
      obtain ⟨x, hx, he⟩ := List.mem_flatMap.mp he
      exact hb.1 _ (List.mem_flatMap.mpr ⟨x, hx, mem_lents he⟩)
    -- a common end
    have fin : ∀ i, i < l.keys.length → iterMove b ⟨false, some a, stop, none, 0⟩ = some (some (l, i)) →
        (∀ e ∈ (lents l).take i, strLt e.1.str a = true) →
        (lookup b a ≠ some none → ∀ e ∈ (lents l).drop i, strLt e.1.str a = false) →
        ∃ N out, (∀ fuel, N ≤ fuel → iterAll b fuel ⟨false, some a, stop, none, 0⟩ = some out) ∧ Ascending out ∧
          (∀ s x, (s, x) ∈ out → lookup b s = some (some x) ∧ InRange none stop s) ∧
          (∀ s x, lookup b s = some (some x) → InRange (some a) stop s → (s, x) ∈ out) ∧
          (lookup b a ≠ some none → ∀ s x, (s, x) ∈ out → InRange (some a) stop s) := by
      intro i hi hm htake hdrop
      have hk := kents_split h ht hl i
      have hs := kents_sorted h
      rw [hk] at hs
      have htw := mem_takeWhile_sorted (List.pairwise_append.mp hs).2.1 (fun x _ y => stops_mono (it := ⟨false, some a, stop, none, 0⟩) rfl x y)
      have hC : ∀ e ∈ LA.flatMap lents ++ (lents l).take i, strLt e.1.str a = true := by
        intro e he
        rcases List.mem_append.mp he with he | he
        · exact hLA e he
        · exact htake e he
      have hout := out_mem (C := LA.flatMap lents ++ (lents l).take i) (D := (lents l).drop i ++ LB.flatMap lents) h hk
        (fun e => !iterStops ⟨false, some a, stop, none, 0⟩ e.1)
        (fun s => (∃ e ∈ (lents l).drop i ++ LB.flatMap lents, e.1.str = s) ∧ InRange none stop s)
        (by
          rintro e he ⟨⟨e', he', heq⟩, _⟩
          have := (List.pairwise_append.mp hs).2.2 e he e' he'
          rw [heq, strLt_irrefl] at this; cases this)
        (by
          intro e he
          rw [htw e he, stops_iff rfl]
          constructor
          · intro hh; exact ⟨⟨e, he, rfl⟩, by simp, hh⟩
          · rintro ⟨_, _, hh⟩; exact hh)
      refine ⟨_, _, fun fuel hfu => iter_start h ht hl hi hm fuel (Nat.lt_of_succ_le hfu), out_asc h hk _, ?_, ?_, ?_⟩
      · intro s x hm
        obtain ⟨h1, _, h2⟩ := (hout s x).mp hm
        exact ⟨h1, h2⟩
      · intro s x hlk hr
        refine (hout s x).mpr ⟨hlk, ?_, by simp, hr.2⟩
        obtain ⟨e, he, hx⟩ := (lookup_iff h s x).mp hlk
        simp only [shown, Option.map_eq_some_iff] at hx
        obtain ⟨_, _, hx⟩ := hx
        simp only [Prod.mk.injEq] at hx
        rw [hk] at he
        rcases List.mem_append.mp he with he | he
        · have h1 := hC e he
          have h2 := hr.1 a rfl
          rw [hx.1, h2] at h1; cases h1
        · exact ⟨e, he, hx.1⟩
      · intro hst s x hm
        obtain ⟨_, ⟨e, he, rfl⟩, h2⟩ := (hout s x).mp hm
        refine ⟨?_, h2.2⟩
        rintro _ ⟨⟩
        rcases List.mem_append.mp he with he | he
        · exact hdrop hst e he
        · obtain ⟨y, hy, he⟩ := List.mem_flatMap.mp he
          exact strLt_asymm (hb.2 _ (List.mem_flatMap.mpr ⟨y, hy, mem_lents he⟩))
    have hmv : iterMove b ⟨false, some a, stop, none, 0⟩ = some (some (l, (searchLeaf l.keys a false).getD 0)) := by
      simp [iterMove, ht, hf]
    rcases findIdx?_split (p := fun k : K => k.str == a) l.keys with ⟨h1, h2⟩ | ⟨A, k, B, h1, h2, h3⟩
    · have hsl : searchLeaf l.keys a false = none := by simp only [searchLeaf, Bool.false_eq_true, if_false]; exact h1
      rw [hsl] at hmv
      refine fin 0 hpos hmv (by simp) ?_
      intro hno
      exfalso
      apply hno
      simp only [lookup, find, ht, hf, hsl]
    · have hsl : searchLeaf l.keys a false = some A.length := by
        simp only [searchLeaf, Bool.false_eq_true, if_false]; rw [h1]; exact findIdx?_mid h2 h3
      rw [hsl] at hmv
      have hka : k.str = a := by simpa using h3
      have hsl' : Sorted l.keys := by
        refine List.Pairwise.sublist ?_ ok.sorted
        simp only [fl, hl]
        exact sublist_flatMap (by simp)
      rw [h1] at hsl'
      refine fin A.length (by rw [h1]; simp) hmv ?_ ?_
      · intro e he
        have : (lents l).take A.length = A.zip (l.ptrs.take A.length) := by
          simp [lents, List.zip, List.take_zipWith, h1]
        rw [this] at he
        have := (List.pairwise_append.mp hsl').2.2 e.1 (List.of_mem_zip he).1 k (by simp)
        rw [hka] at this; exact this
      · intro _ e he
        have : (lents l).drop A.length = (k :: B).zip (l.ptrs.drop A.length) := by
          simp [lents, List.zip, List.drop_zipWith, h1]
        rw [this] at he
        rcases List.mem_cons.mp (List.of_mem_zip he).1 with hk | hk
        · rw [hk, hka]; exact strLt_irrefl _
        · have := (List.pairwise_cons.mp (List.pairwise_append.mp hsl').2.1).1 _ hk
          rw [hka] at this; exact strLt_asymm this

/-- prefixes -/
theorem iter_prefix {b} (h : BInv b) (p : Str) :
    ∃ N out, (∀ fuel, N ≤ fuel → iterAll b fuel ⟨true, some p, none, none, 0⟩ = some out) ∧ Ascending out ∧
      ∀ s x, (s, x) ∈ out ↔ lookup b s = some (some x) ∧ p <+: s := by
  cases ht : b.root with
  | none =>
    exact ⟨1, [], fun fuel hf => empty_iter ht rfl fuel hf, List.Pairwise.nil, fun s x => by simp [empty_lookup ht]⟩
  | some t =>
    have ok := h.tree t ht
    obtain ⟨_, w⟩ := ok.wf
    obtain ⟨path, l, LA, LB, hf, g⟩ := findLeaf_goes w p
    have hb := g.bounds w ok.sorted
    have hl := g.leaves_eq
    have hne := h.leaf_ne ht (l := l) (by rw [hl]; simp)
    have hpos : 0 < l.keys.length := List.length_pos_iff.mpr hne
    have hlen := h.leaf_len ht (l := l) (by rw [hl]; simp)
    have hLA : ∀ e ∈ LA.flatMap lents, ¬ p <+: e.1.str := by
      intro e he hp
      obtain ⟨x, hx, he⟩ := List.mem_flatMap.mp he
      have := hb.1 _ (List.mem_flatMap.mpr ⟨x, hx, mem_lents he⟩)
      rw [strLt_prefix hp] at this; cases this
    have hLB : ∀ e ∈ LB.flatMap lents, strLt p e.1.str = true := by
      intro e he
      obtain ⟨x, hx, he⟩ := List.mem_flatMap.mp he
      exact hb.2 _ (List.mem_flatMap.mpr ⟨x, hx, mem_lents he⟩)
    have hmv : iterMove b ⟨true, some p, none, none, 0⟩ = some (some (l, (searchLeaf l.keys p true).getD 0)) := by
      simp [iterMove, ht, hf]
    have hst : ∀ k : K, (!iterStops ⟨true, some p, none, none, 0⟩ k) = strPrefix p k.str := by
      intro k; simp [iterStops]
    have hsorted : Sorted l.keys := by
      refine List.Pairwise.sublist ?_ ok.sorted
      simp only [fl, hl]
      exact sublist_flatMap (by simp)
    have hs := kents_sorted h
    rcases findIdx?_split (p := fun k : K => strPrefix p k.str) l.keys with ⟨h1, h2⟩ | ⟨A, k, B, h1, h2, h3⟩
    · have hsl : searchLeaf l.keys p true = none := by simp only [searchLeaf, if_true]; exact h1
      rw [hsl] at hmv
      have hk := kents_split h ht hl 0
      refine ⟨_, _, fun fuel hfu => iter_start h ht hl hpos hmv fuel (Nat.lt_of_succ_le hfu), out_asc h hk _, ?_⟩
      have hno : ∀ e ∈ LB.flatMap lents, ¬ p <+: e.1.str := by
        intro e he hp
        have hmem : e.1 ∈ LB.flatMap Leaf.keys := by
          obtain ⟨x, hx, he⟩ := List.mem_flatMap.mp he
          exact List.mem_flatMap.mpr ⟨x, hx, mem_lents he⟩
        -- the last key of the leaf lies between the prefix and this key
        have hlast := g.last_ge w ok.sorted (by intro e; rw [e] at hmem; simp at hmem) h.ord ok.ne
        obtain ⟨m, hm, hge⟩ := hlast
        have hall := ok.sorted
        simp only [fl, hl, List.flatMap_append, List.flatMap_cons] at hall
        have := (List.pairwise_append.mp (List.pairwise_append.mp hall).2.1).2.2 m hm e.1 hmem
        have := strLt_prefix_between hge this hp
        have h2' := h2 m hm
        rw [(strPrefix_iff p m.str).mpr this] at h2'; cases h2'
      have hlno : ∀ e ∈ lents l, ¬ p <+: e.1.str := by
        intro e he hp
        have := h2 e.1 (mem_lents he)
        rw [(strPrefix_iff p _).mpr hp] at this; cases this
      refine out_mem h hk _ (fun s => p <+: s) ?_ ?_
      · intro e he
        simp only [List.take_zero, List.append_nil] at he
        exact hLA e he
      · intro e he
        constructor
        · intro hm
          have := mem_takeWhile_pos hm
          rw [hst] at this
          exact (strPrefix_iff _ _).mp this
        · intro hp
          rcases List.mem_append.mp he with he | he
          · exact absurd hp (hlno e (by simpa using he))
          · exact absurd hp (hno e he)
    · have hsl : searchLeaf l.keys p true = some A.length := by
        simp only [searchLeaf, if_true]; rw [h1]; exact findIdx?_mid h2 h3
      rw [hsl] at hmv
      have hk := kents_split h ht hl A.length
      refine ⟨_, _, fun fuel hfu => iter_start h ht hl (by rw [h1]; simp) hmv fuel (Nat.lt_of_succ_le hfu), out_asc h hk _, ?_⟩
      have hkp := (strPrefix_iff _ _).mp h3
      rw [hk] at hs
      have hge : ∀ e ∈ (lents l).drop A.length ++ LB.flatMap lents, strLt e.1.str p = false := by
        intro e he
        rcases List.mem_append.mp he with he | he
        · have : (lents l).drop A.length = (k :: B).zip (l.ptrs.drop A.length) := by
            simp [lents, List.zip, List.drop_zipWith, h1]
          rw [this] at he
          rcases List.mem_cons.mp (List.of_mem_zip he).1 with hk | hk
          · rw [hk]; exact strLt_prefix hkp
          · rw [h1] at hsorted
            have := (List.pairwise_cons.mp (List.pairwise_append.mp hsorted).2.1).1 _ hk
            exact strLt_asymm (strLt_of_le_of_lt (strLt_prefix hkp) this)
        · exact strLt_asymm (hLB e he)
      refine out_mem h hk _ (fun s => p <+: s) ?_ ?_
      · intro e he
        rcases List.mem_append.mp he with he | he
        · exact hLA e he
        · have : (lents l).take A.length = A.zip (l.ptrs.take A.length) := by
            simp [lents, List.zip, List.take_zipWith, h1]
          rw [this] at he
          have := h2 e.1 (List.of_mem_zip he).1
          intro hp
          rw [(strPrefix_iff _ _).mpr hp] at this; cases this
      · intro e he
        rw [mem_takeWhile_sorted (List.pairwise_append.mp hs).2.1 ?_ e he, hst, strPrefix_iff]
        intro x hx y hxy hy
        rw [hst, strPrefix_iff] at hy ⊢
        exact strLt_prefix_between (hge x hx) hxy hy

end Sid.Bpt
