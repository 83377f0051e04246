import Verif.Proof.BpDelete
/-
Invariant of a whole B+ tree with its records, kept by every call.
-/
namespace Sid.Bpt

/-! ### chain of leaves -/

/-- every leaf refers to its right neighbour, the last one to nothing -/
inductive Linked : List (Nat × Option Nat) → Prop where
  | last (i : Nat) : Linked [(i, none)]
  | cons (i j : Nat) (n : Option Nat) (L : List (Nat × Option Nat)) : Linked ((j, n) :: L) → Linked ((i, some j) :: (j, n) :: L)

theorem Linked.split {X Y : List (Nat × Option Nat)} {i : Nat} {n : Option Nat} (m : Nat) (h : Linked (X ++ (i, n) :: Y)) :
    Linked (X ++ (i, some m) :: (m, n) :: Y) := by
  induction X with
  | nil =>
    cases h with
    | last => exact .cons _ _ _ _ (.last _)
    | cons _ j n' L h => exact .cons _ _ _ _ (.cons _ _ _ _ h)
  | cons x X ih =>
    cases X with
    | nil =>
      cases h with
      | cons a _ _ _ h => exact .cons _ _ _ _ (ih h)
    | cons y X =>
      cases h with
      | cons a _ _ _ h => exact .cons _ _ _ _ (ih h)

theorem Linked.merge {X Y : List (Nat × Option Nat)} {i j : Nat} {n1 n2 : Option Nat} (h : Linked (X ++ (i, n1) :: (j, n2) :: Y)) :
    Linked (X ++ (i, n2) :: Y) := by
  induction X with
  | nil =>
    cases h with
    | cons _ _ _ _ h =>
      cases h with
      | last => exact .last _
      | cons _ _ _ _ h => exact .cons _ _ _ _ h
  | cons x X ih =>
    cases X with
    | nil =>
      cases h with
      | cons a _ _ _ h => exact .cons _ _ _ _ (ih h)
    | cons y X =>
      cases h with
      | cons a _ _ _ h => exact .cons _ _ _ _ (ih h)

theorem Linked.merged {L L'} (h : Linked L) (m : Merged L L') : Linked L' := by
  induction m with
  | refl => exact h
  | step X Y i j n1 n2 _ ih => exact ih.merge

theorem Merged.ids {L L'} (m : Merged L L') : (L'.map Prod.fst).Sublist (L.map Prod.fst) := by
  induction m with
  | refl => exact List.Sublist.refl _
  | step X Y i j n1 n2 _ ih =>
    refine List.Sublist.trans ?_ ih
    simp only [List.map_append, List.map_cons]
    refine List.Sublist.append (List.Sublist.refl _) ?_
    exact (List.sublist_cons_self _ _).cons_cons _

/-! ### one tree -/

theorem Wf.leaf_len {o h t} (w : Wf o h t) : ∀ l ∈ leaves t, l.ptrs.length = l.keys.length := by
  induction w with
  | leaf l h1 h2 => rw [leaves_leaf]; simp [h1]
  | node h ks cs _ _ _ _ ih =>
    rw [leaves_node]
    intro l hl
    obtain ⟨c, hc, hl⟩ := List.mem_flatMap.mp hl
    exact ih c hc l hl

theorem flat_len {L : List Leaf} (h : ∀ l ∈ L, l.ptrs.length = l.keys.length) :
    (L.flatMap Leaf.ptrs).length = (L.flatMap Leaf.keys).length := by
  induction L with
  | nil => rfl
  | cons l L ih => simp [ih (fun x hx => h x (by simp [hx])), h l (by simp)]

theorem Wf.len {o h t} (w : Wf o h t) : (tptrs t).length = (tkeys t).length := flat_len w.leaf_len

/-- what is true of the tree after every call -/
structure TreeOk (o nextId : Nat) (t : Tree) : Prop where
  wf : ∃ h, Wf o h t
  ne : 1 ≤ numKeys t
  sorted : Sorted (tkeys t)
  linked : Linked (links t)
  ids : ((links t).map Prod.fst).Nodup
  bound : ∀ p ∈ links t, p.1 < nextId

theorem TreeOk.mono {o a b t} (h : TreeOk o a t) (hab : a ≤ b) : TreeOk o b t :=
  { h with bound := fun p hp => Nat.lt_of_lt_of_le (h.bound p hp) hab }

/-- result of a search: the entry splits keys and pointers of the leaf at the same place -/
theorem search_spec {o h t} (w : Wf o h t) (hs : Sorted (tkeys t)) (s : Str) :
    ∃ path l LA LB, findLeaf t s = some (path, l) ∧ Goes s t path l LA LB ∧
      ((searchLeaf l.keys s false = none ∧ ∀ k ∈ tkeys t, k.str ≠ s) ∨
       ∃ A k B PA r PB, searchLeaf l.keys s false = some A.length ∧ l.keys = A ++ k :: B ∧ l.ptrs = PA ++ r :: PB ∧
         PA.length = A.length ∧ k.str = s) := by
  obtain ⟨path, l, LA, LB, hf, g⟩ := findLeaf_goes w s
  refine ⟨path, l, LA, LB, hf, g, ?_⟩
  have hb := g.bounds w hs
  have hl : l ∈ leaves t := by rw [g.leaves_eq]; simp
  have hlen := w.leaf_len l hl
  cases hi : searchLeaf l.keys s false with
  | none =>
    left
    refine ⟨rfl, ?_⟩
    simp only [searchLeaf, List.findIdx?_eq_none_iff] at hi
    intro k hk
    rw [g.fl_eq] at hk
    simp only [List.mem_append] at hk
    rcases hk with (hk | hk) | hk
    · exact strLt_ne (hb.1 k hk)
    · simpa using hi k hk
    · exact (strLt_ne (hb.2 k hk)).symm
  | some i =>
    right
    simp only [searchLeaf] at hi
    rw [List.findIdx?_eq_some_iff_getElem] at hi
    obtain ⟨hlt, hk, _⟩ := hi
    have e1 : l.keys = l.keys.take i ++ l.keys[i] :: l.keys.drop (i + 1) := by simp
    have e2 : l.ptrs = l.ptrs.take i ++ l.ptrs[i] :: l.ptrs.drop (i + 1) := by simp
    refine ⟨_, _, _, _, _, _, ?_, e1, e2, ?_, ?_⟩
    · simp; omega
    · simp; omega
    · simpa using hk

/-! ### the whole state -/

def keysOf (b : Bpt) : List K := match b.root with | none => [] | some t => tkeys t
def ptrsOf (b : Bpt) : List Nat := match b.root with | none => [] | some t => tptrs t

/-- names with the record each refers to, in tree order -/
def ents (b : Bpt) : List (Str × Nat) := ((keysOf b).map K.str).zip (ptrsOf b)

/-- records alive, in order of creation -/
def live (b : Bpt) : List Rec := (List.range b.nextRec).filterMap b.recs

structure BInv (b : Bpt) : Prop where
  ord : 4 ≤ b.order
  tree : ∀ t, b.root = some t → TreeOk b.order b.nextId t
  recs : ∀ r, (b.recs r = none ∧ (ptrsOf b).count r = 0) ∨
    ∃ x, b.recs r = some x ∧ x.refs = (ptrsOf b).count r ∧ 0 < x.refs
  fresh : ∀ r, b.nextRec ≤ r → b.recs r = none
  size : b.dataSize = ((live b).map Rec.size).sum
  count : b.numEntries = (live b).length

theorem BInv.len {b} (h : BInv b) : (ptrsOf b).length = (keysOf b).length := by
  simp only [ptrsOf, keysOf]
  cases e : b.root with
  | none => rfl
  | some t => obtain ⟨_, w⟩ := (h.tree t e).wf; exact w.len

theorem BInv.mem_recs {b} (h : BInv b) {r} (hr : r ∈ ptrsOf b) : ∃ x, b.recs r = some x ∧ x.refs = (ptrsOf b).count r ∧ 0 < x.refs := by
  rcases h.recs r with ⟨_, h0⟩ | h1
  · exact absurd hr (List.count_eq_zero.mp h0)
  · exact h1

theorem BInv.sorted {b} (h : BInv b) : Sorted (keysOf b) := by
  simp only [keysOf]
  cases e : b.root with
  | none => exact List.Pairwise.nil
  | some t => exact (h.tree t e).sorted

/-- a successful search -/
structure Hit (b : Bpt) (s : Str) (f : Found) (t : Tree) (LA LB : List Leaf) (A B : List K) (PA PB : List Nat) : Prop where
  root : b.root = some t
  goes : Goes s t f.path f.leaf LA LB
  keys : f.leaf.keys = A ++ f.key :: B
  ptrs : f.leaf.ptrs = PA ++ f.rc :: PB
  len : PA.length = A.length
  idx : f.idx = A.length
  str : f.key.str = s
  found : findLeaf t s = some (f.path, f.leaf)

theorem find_spec {b} (h : BInv b) (s : Str) :
    (find b s = some none ∧ ∀ k ∈ keysOf b, k.str ≠ s) ∨
    ∃ f t LA LB A B PA PB, find b s = some (some f) ∧ Hit b s f t LA LB A B PA PB := by
  cases e : b.root with
  | none => left; simp [find, e, keysOf]
  | some t =>
    have ht := h.tree t e
    obtain ⟨_, w⟩ := ht.wf
    obtain ⟨path, l, LA, LB, hf, g, hcase⟩ := search_spec w ht.sorted s
    rcases hcase with ⟨h1, h2⟩ | ⟨A, k, B, PA, r, PB, h1, h2, h3, h4, h5⟩
    · left
      simp only [find, e, hf, h1, keysOf]
      exact ⟨trivial, h2⟩
    · right
      have ek : l.keys[A.length]? = some k := by rw [h2]; exact getElem?_mid _ _ _
      have ep : l.ptrs[A.length]? = some r := by rw [h3, ← h4]; exact getElem?_mid _ _ _
      refine ⟨⟨path, l, A.length, k, r⟩, t, LA, LB, A, B, PA, PB, ?_, ⟨e, g, h2, h3, h4, rfl, h5, hf⟩⟩
      simp only [find, e, hf, h1]
      rw [ek, ep]

/-! ### records -/

theorem filterMap_congr' {α β} {l : List α} {f g : α → Option β} (h : ∀ x ∈ l, f x = g x) : l.filterMap f = l.filterMap g := by
  induction l with
  | nil => rfl
  | cons a l ih => rw [List.filterMap_cons, List.filterMap_cons, h a (by simp), ih fun x hx => h x (by simp [hx])]

/-- live records before and after record `r` (which is one of those ever made) changes -/
theorem live_split (f : Nat → Option Rec) (n r : Nat) (hr : r < n) :
    ∃ A B, ∀ x : Option Rec, (List.range n).filterMap (fun i => if i = r then x else f i) = A ++ x.toList ++ B := by
  refine ⟨(List.range r).filterMap f, (((List.range (n - r - 1)).map fun i => i + (r + 1))).filterMap f, fun x => ?_⟩
  have hn : List.range n = List.range r ++ r :: (List.range (n - r - 1)).map fun i => i + (r + 1) := by
    obtain ⟨m, rfl⟩ : ∃ m, n = r + 1 + m := ⟨n - r - 1, by omega⟩
    rw [List.range_add, List.range_succ]
    simp only [List.append_assoc, List.singleton_append, show r + 1 + m - r - 1 = m by omega]
    congr 2
    apply List.map_congr_left; intro a _; omega
  rw [hn, List.filterMap_append, List.filterMap_cons]
  have h1 : (List.range r).filterMap (fun i => if i = r then x else f i) = (List.range r).filterMap f :=
    filterMap_congr' fun i hi => by rw [if_neg]; have := List.mem_range.mp hi; omega
  have h2 : ((List.range (n - r - 1)).map fun i => i + (r + 1)).filterMap (fun i => if i = r then x else f i) =
      ((List.range (n - r - 1)).map fun i => i + (r + 1)).filterMap f :=
    filterMap_congr' fun i hi => by
      rw [if_neg]; obtain ⟨a, _, rfl⟩ := List.mem_map.mp hi; omega
  rw [h1, h2]
  simp only [if_true]
  cases x <;> simp

theorem live_at (f : Nat → Option Rec) (n r : Nat) (hr : r < n) :
    ∃ A B, (List.range n).filterMap f = A ++ (f r).toList ++ B ∧
      ∀ x : Option Rec, (List.range n).filterMap (fun i => if i = r then x else f i) = A ++ x.toList ++ B := by
  obtain ⟨A, B, h⟩ := live_split f n r hr
  refine ⟨A, B, ?_, h⟩
  rw [← h (f r)]
  apply filterMap_congr'
  intro i _
  split
  · rename_i e; rw [e]
  · rfl

/-! ### effect of the tree operations on keys and pointers -/

/-- the tree part of the invariant -/
def RootOk (b : Bpt) : Prop := ∀ t, b.root = some t → TreeOk b.order b.nextId t

theorem insert_spec {b : Bpt} (ho : 4 ≤ b.order) (ht : RootOk b) (s : Str) (r : Nat) (hs : ∀ k ∈ keysOf b, k.str ≠ s) :
    ∃ root', insert b s r = some { b with root := root', nextId := b.nextId + 2 } ∧
      RootOk { b with root := root', nextId := b.nextId + 2 } ∧
      ∃ KA KB PA PB, keysOf b = KA ++ KB ∧ ptrsOf b = PA ++ PB ∧ PA.length = KA.length ∧
        keysOf { b with root := root', nextId := b.nextId + 2 } = KA ++ ⟨b.nextId, s⟩ :: KB ∧
        ptrsOf { b with root := root', nextId := b.nextId + 2 } = PA ++ r :: PB := by
  cases e : b.root with
  | none =>
    refine ⟨some (.leaf ⟨b.nextId + 1, [⟨b.nextId, s⟩], [r], none⟩), by simp only [insert, e], ?_, [], [], [], [], ?_, ?_, rfl, ?_, ?_⟩
    · intro t et
      simp only [Option.some.injEq] at et
      subst et
      refine ⟨⟨0, .leaf _ rfl (by simp; omega)⟩, by simp [numKeys], ?_, ?_, ?_, ?_⟩
      · rw [fl_leaf]; exact List.pairwise_singleton _ _
      · rw [fl_leaf]; exact .last _
      · rw [fl_leaf]; simp [lnk]
      · rw [fl_leaf]; simp [lnk]
    · simp [keysOf, e]
    · simp [ptrsOf, e]
    · simp [keysOf, fl_leaf]
    · simp [ptrsOf, fl_leaf]
  | some t =>
    have tok := ht t e
    obtain ⟨h, w⟩ := tok.wf
    obtain ⟨path, l, LA, LB, hf, g⟩ := findLeaf_goes w s
    have hk : keysOf b = tkeys t := by simp [keysOf, e]
    have hp : ptrsOf b = tptrs t := by simp [ptrsOf, e]
    rw [hk] at hs
    obtain ⟨res, new, hi, hnew, hok⟩ := insertAt_spec (newId := b.nextId + 1) (bk := ⟨b.nextId, s⟩) (r := r) ho g w
      (fun _ => tok.ne) tok.sorted hs
    -- leaves of the new root
    have hL : leaves (growRoot res) = LA ++ new ++ LB := by
      cases res with
      | fits t' => exact hok.2.2
      | split a k c =>
        simp only [growRoot]
        rw [leaves_node]
        simpa using hok.2.2.2.2.2
    have hpt := insPoint_le l.keys s
    have hll : l.ptrs.length = l.keys.length := w.leaf_len l (by rw [g.leaves_eq]; simp)
    have hLAl : (LA.flatMap Leaf.ptrs).length = (LA.flatMap Leaf.keys).length :=
      flat_len fun x hx => w.leaf_len x (by rw [g.leaves_eq]; simp [hx])
    have hK' : tkeys (growRoot res) = (LA.flatMap Leaf.keys ++ l.keys.take (insPoint l.keys s)) ++ ⟨b.nextId, s⟩ ::
        (l.keys.drop (insPoint l.keys s) ++ LB.flatMap Leaf.keys) := by
      simp only [fl, hL, List.flatMap_append, hnew.keys]
      rw [insertIdx_eq _ _ _ hpt]; simp
    have hP' : tptrs (growRoot res) = (LA.flatMap Leaf.ptrs ++ l.ptrs.take (insPoint l.keys s)) ++ r ::
        (l.ptrs.drop (insPoint l.keys s) ++ LB.flatMap Leaf.ptrs) := by
      simp only [fl, hL, List.flatMap_append, hnew.ptrs]
      rw [insertIdx_eq _ _ _ (by omega)]; simp
    have hK : tkeys t = (LA.flatMap Leaf.keys ++ l.keys.take (insPoint l.keys s)) ++ (l.keys.drop (insPoint l.keys s) ++ LB.flatMap Leaf.keys) := by
      rw [g.fl_eq]
      conv => lhs; rw [← List.take_append_drop (insPoint l.keys s) l.keys]
      simp only [List.append_assoc]
    have hP : tptrs t = (LA.flatMap Leaf.ptrs ++ l.ptrs.take (insPoint l.keys s)) ++ (l.ptrs.drop (insPoint l.keys s) ++ LB.flatMap Leaf.ptrs) := by
      rw [g.fl_eq]
      conv => lhs; rw [← List.take_append_drop (insPoint l.keys s) l.ptrs]
      simp only [List.append_assoc]
    have hlinks : links t = LA.flatMap lnk ++ (l.id, l.next) :: LB.flatMap lnk := by
      rw [g.fl_eq]; simp [lnk]
    refine ⟨some (growRoot res), by simp only [insert, e, hf]; rw [hi]; rfl, ?_, _, _, _, _, by rw [hk, hK], by rw [hp, hP], ?_, ?_, ?_⟩
    · intro t' et
      simp only [Option.some.injEq] at et
      subst et
      have hsort : Sorted (tkeys (growRoot res)) := by
        rw [hK']
        have hs0 := tok.sorted
        have hs1 := hs0
        rw [hK] at hs1
        have hb := g.bounds w hs0
        have hsl : Sorted l.keys := by
          rw [g.fl_eq] at hs0
          exact (List.pairwise_append.mp (List.pairwise_append.mp hs0).1).2.1
        have hsp := insPoint_split (s := s) hsl fun k hk => hs k (g.keys_mem hk)
        have hlow : ∀ k ∈ LA.flatMap Leaf.keys ++ l.keys.take (insPoint l.keys s), strLt k.str s = true := by
          intro k hk
          rcases List.mem_append.mp hk with hk | hk
          · exact hb.1 k hk
          · exact hsp.1 k hk
        have hhigh : ∀ k ∈ l.keys.drop (insPoint l.keys s) ++ LB.flatMap Leaf.keys, strLt s k.str = true := by
          intro k hk
          rcases List.mem_append.mp hk with hk | hk
          · exact hsp.2 k hk
          · exact hb.2 k hk
        obtain ⟨p1, p2, p3⟩ := List.pairwise_append.mp hs1
        refine List.pairwise_append.mpr ⟨p1, List.pairwise_cons.mpr ⟨hhigh, p2⟩, ?_⟩
        intro x hx y hy
        rcases List.mem_cons.mp hy with rfl | hy
        · exact hlow x hx
        · exact p3 x hx y hy
      have hl' : links (growRoot res) = LA.flatMap lnk ++ new.flatMap lnk ++ LB.flatMap lnk := by simp [fl, hL]
      have hidl : b.nextId + 1 ∉ (links t).map Prod.fst := by
        intro hm
        obtain ⟨p, hp, hpe⟩ := List.mem_map.mp hm
        have := tok.bound p hp; omega
      refine ⟨?_, ?_, hsort, ?_, ?_, ?_⟩
      · cases res with
        | fits t' => exact ⟨h, hok.1⟩
        | split a k c =>
          obtain ⟨wa, wc, na, nc, hka, _⟩ := hok
          refine ⟨h + 1, .node h _ _ ?_ (by simp only [List.length_cons, List.length_nil]; omega) ?_ ?_⟩
          · rw [seps_cons]; exact ⟨hka, by rw [seps_one]⟩
          · simp [wa, wc]
          · simp [na, nc]
      · cases res with
        | fits t' => exact Nat.le_trans tok.ne hok.2.1
        | split a k c => simp [growRoot, numKeys]
      · rw [hl']
        have hlk := tok.linked
        rw [hlinks] at hlk
        rcases hnew.links with e' | e'
        · rw [e']; simpa using hlk
        · rw [e']; simpa using hlk.split (b.nextId + 1)
      · rw [hl']
        have hid := tok.ids
        rw [hlinks] at hid hidl
        rcases hnew.links with e' | e'
        · rw [e']; simpa using hid
        · rw [e']
          have hperm : (List.map Prod.fst (LA.flatMap lnk ++ [(l.id, some (b.nextId + 1)), (b.nextId + 1, l.next)] ++ LB.flatMap lnk)).Perm
              ((b.nextId + 1) :: List.map Prod.fst (LA.flatMap lnk ++ (l.id, l.next) :: LB.flatMap lnk)) := by
            simp only [List.map_append, List.map_cons, List.map_nil, List.append_assoc, List.cons_append, List.nil_append]
            have h1 : ((LA.flatMap lnk).map Prod.fst ++ l.id :: (b.nextId + 1) :: (LB.flatMap lnk).map Prod.fst) =
              ((LA.flatMap lnk).map Prod.fst ++ [l.id]) ++ (b.nextId + 1) :: (LB.flatMap lnk).map Prod.fst := by simp
            rw [h1]
            refine List.perm_middle.trans ?_
            simp
          exact hperm.nodup_iff.mpr (List.nodup_cons.mpr ⟨hidl, hid⟩)
      · rw [hl']
        have hbd := tok.bound
        rw [hlinks] at hbd
        intro p hp
        rcases hnew.links with e' | e'
        · rw [e'] at hp
          have := hbd p (by simpa using hp); simp only; omega
        · rw [e'] at hp
          simp only [List.mem_append, List.mem_cons, List.not_mem_nil, or_false] at hp
          rcases hp with (hp | hp | hp) | hp
          · have := hbd p (by simp [hp]); simp only; omega
          · have := hbd (l.id, l.next) (by simp); subst hp; simp only at this ⊢; omega
          · subst hp; simp
          · have := hbd p (by simp [hp]); simp only; omega
    · simp only [List.length_append, List.length_take]; omega
    · simp only [keysOf]; exact hK'
    · simp only [ptrsOf]; exact hP'

/-- removing the entry found -/
theorem deleteEntry_spec {b : Bpt} {s : Str} {f : Found} {t LA LB A B PA PB} (ho : 4 ≤ b.order) (ht : RootOk b)
    (hit : Hit b s f t LA LB A B PA PB) :
    ∃ root' j, f.leaf.ptrs.idxOf? f.rc = some j ∧ deleteEntry b f = unrefRec { b with root := root' } f.rc ∧ RootOk { b with root := root' } ∧
      keysOf { b with root := root' } = (LA.flatMap Leaf.keys ++ A) ++ (B ++ LB.flatMap Leaf.keys) ∧
      ptrsOf { b with root := root' } = LA.flatMap Leaf.ptrs ++ f.leaf.ptrs.eraseIdx j ++ LB.flatMap Leaf.ptrs := by
  have tok := ht t hit.root
  obtain ⟨h, w⟩ := tok.wf
  have hnd := tok.sorted.nodup
  have hA : f.key ∉ A := by
    have hs := tok.sorted
    rw [hit.goes.fl_eq, hit.keys] at hs
    have := (List.pairwise_append.mp (List.pairwise_append.mp hs).1).2.1
    have := (List.nodup_append.mp (Sorted.nodup this)).2.2
    intro hh
    exact this f.key hh f.key (by simp) rfl
  have hbk : f.leaf.keys.idxOf? f.key = some A.length := by rw [hit.keys]; exact idxOf?_mid hA
  obtain ⟨j, hj⟩ : ∃ j, f.leaf.ptrs.idxOf? f.rc = some j := by
    cases e : f.leaf.ptrs.idxOf? f.rc with
    | none =>
      rw [List.idxOf?_eq_none_iff] at e
      rw [hit.ptrs] at e; simp at e
    | some j => exact ⟨j, rfl⟩
  obtain ⟨t', sw, sh, hd, w', hn', hk', hp', hm', _⟩ := deleteAt_spec ho hit.goes hbk hj (hp := false) w tok.ne (by simp) hnd
  have hke : f.leaf.keys.eraseIdx A.length = A ++ B := by rw [hit.keys, eraseIdx_mid]
  have hkk : tkeys t' = (LA.flatMap Leaf.keys ++ A) ++ (B ++ LB.flatMap Leaf.keys) := by rw [hk', hke]; simp
  have hsub : (tkeys t').Sublist (tkeys t) := by rw [hk', hit.goes.fl_eq]; exact erase_sublist _
  have common : ∀ t2, tkeys t2 = tkeys t' → links t2 = links t' → (∃ h, Wf b.order h t2) → 1 ≤ numKeys t2 → TreeOk b.order b.nextId t2 := by
    intro t2 e1 e2 hw hn
    refine ⟨hw, hn, ?_, ?_, ?_, ?_⟩
    · rw [e1]; exact List.Pairwise.sublist hsub tok.sorted
    · rw [e2]; exact tok.linked.merged hm'
    · rw [e2]; exact hm'.ids.nodup tok.ids
    · rw [e2]; intro p hp
      have : p.1 ∈ (links t).map Prod.fst := hm'.ids.subset (List.mem_map_of_mem hp)
      obtain ⟨q, hq, hqe⟩ := List.mem_map.mp this
      rw [← hqe]; exact tok.bound q hq
  simp only [deleteEntry, hit.root, hd]
  by_cases hz : numKeys t' = 0
  · have hsh : sh = true := by
      cases sh with
      | true => rfl
      | false => simp at hn'; have := tok.ne; omega
    subst hsh
    cases w' with
    | leaf l h1 h2 =>
      simp only [numKeys] at hz
      refine ⟨none, j, hj, ?_, ?_, ?_, ?_⟩
      · simp [adjustRoot, hz]
      · intro t2 e2; simp at e2
      · simp only [keysOf, ← hkk, fl_leaf]; exact (List.eq_nil_of_length_eq_zero hz).symm
      · simp only [ptrsOf]
        rw [← hp', fl_leaf]
        exact (List.eq_nil_of_length_eq_zero (by omega)).symm
    | node h ks cs s1 s2 s3 s4 =>
      simp only [numKeys] at hz
      have hks : ks = [] := List.eq_nil_of_length_eq_zero hz
      subst hks
      have hcl := s1.length
      obtain ⟨c, rfl⟩ : ∃ c, cs = [c] := List.length_eq_one_iff.mp (by simpa using hcl)
      have e1 : ∀ {α} (f : Leaf → List α), fl f (.node [] [c]) = fl f c := by intro α f; rw [fl_node]; simp
      refine ⟨some c, j, hj, ?_, ?_, ?_, ?_⟩
      · simp [adjustRoot]
      · intro t2 e2
        simp only [Option.some.injEq] at e2
        subst e2
        exact common c (e1 _).symm (e1 _).symm ⟨h, s3 c (by simp)⟩ (Nat.le_trans (minK_pos ho h) (s4 c (by simp)))
      · simp only [keysOf]; rw [← hkk, e1]
      · simp only [ptrsOf]; rw [← hp', e1]
  · have hroot : (if sh = true then adjustRoot t' else some (some t')) = some (some t') := by
      split
      · cases t' with
        | leaf l => simp only [numKeys] at hz; simp only [adjustRoot]; rw [if_pos (by omega)]
        | node ks cs => simp only [numKeys] at hz; simp only [adjustRoot]; rw [if_pos (by omega)]
      · rfl
    rw [hroot]
    refine ⟨some t', j, hj, rfl, ?_, ?_, ?_⟩
    · intro t2 e2
      simp only [Option.some.injEq] at e2
      subst e2
      exact common t' rfl rfl ⟨h, w'⟩ (by omega)
    · simp only [keysOf]; exact hkk
    · simp only [ptrsOf]; exact hp'

/-- redirecting one slot -/
theorem setPtr_spec {s : Str} {t path l LA LB} (g : Goes s t path l LA LB) (i r : Nat) {o : Nat} (ho : 4 ≤ o) :
    ∀ {h}, Wf o h t → (h = 0 → 1 ≤ numKeys t) →
    ∃ t', setPtr i r path t = some t' ∧ Wf o h t' ∧ numKeys t' = numKeys t ∧ tkeys t' = tkeys t ∧ links t' = links t ∧
      tptrs t' = LA.flatMap Leaf.ptrs ++ l.ptrs.set i r ++ LB.flatMap Leaf.ptrs := by
  induction g with
  | leaf l =>
    intro h w _
    obtain ⟨rfl, h1, h2⟩ := w.inv_leaf
    refine ⟨_, rfl, .leaf _ (by simpa using h1) h2, rfl, ?_, ?_, ?_⟩
    · simp [fl_leaf]
    · simp [fl_leaf, lnk]
    · simp [fl_leaf]
  | node ks A c B path l LA LB hidx g ih =>
    intro h w _
    obtain ⟨h, rfl, sp, hkl, hc⟩ := w.inv_node
    have hcw := hc c (by simp)
    obtain ⟨c', h1, h2, h3, h4, h5, h6⟩ := ih hcw.1 (fun _ => Nat.le_trans (minK_pos ho h) hcw.2)
    simp only [setPtr, getElem?_mid, h1, set_mid, Option.map_some]
    refine ⟨_, rfl, .node h _ _ ?_ hkl ?_ ?_, rfl, ?_, ?_, ?_⟩
    · have hlen := sp.length
      have hile := childIdx_le ks s
      have hlA : A.length = (ks.take A.length).length := by simp; omega
      rw [← List.take_append_drop A.length ks, seps_append hlA (by simp)] at sp ⊢
      exact ⟨sp.1, seps_head (fun _ => by simp only [lastKey, h4]) sp.2⟩
    · intro x hx
      rcases List.mem_append.mp hx with hx | hx
      · exact (hc x (by simp [hx])).1
      · rcases List.mem_cons.mp hx with rfl | hx
        · exact h2
        · exact (hc x (by simp [hx])).1
    · intro x hx
      rcases List.mem_append.mp hx with hx | hx
      · exact (hc x (by simp [hx])).2
      · rcases List.mem_cons.mp hx with rfl | hx
        · rw [h3]; exact hcw.2
        · exact (hc x (by simp [hx])).2
    · rw [fl_node, fl_node]; simp [h4]
    · rw [fl_node, fl_node]; simp [h5]
    · rw [fl_node]; simp only [List.flatMap_append, List.flatMap_cons, h6, flatMap_leaves, List.append_assoc]

/-! ### records and the invariant of the whole -/

/-- the record part of the invariant, for the record pointers `P` -/
structure RecOk (b : Bpt) (P : List Nat) : Prop where
  recs : ∀ r, (b.recs r = none ∧ P.count r = 0) ∨ ∃ x, b.recs r = some x ∧ x.refs = P.count r ∧ 0 < x.refs
  fresh : ∀ r, b.nextRec ≤ r → b.recs r = none
  size : b.dataSize = ((live b).map Rec.size).sum
  count : b.numEntries = (live b).length

theorem binv_iff {b : Bpt} : BInv b ↔ 4 ≤ b.order ∧ RootOk b ∧ RecOk b (ptrsOf b) :=
  ⟨fun h => ⟨h.ord, h.tree, h.recs, h.fresh, h.size, h.count⟩,
   fun ⟨a, c, d⟩ => ⟨a, c, d.recs, d.fresh, d.size, d.count⟩⟩

theorem RecOk.lt {b P r x} (h : RecOk b P) (hx : b.recs r = some x) : r < b.nextRec := by
  apply Nat.lt_of_not_le
  intro hle
  rw [h.fresh r hle] at hx; simp at hx

/-- replacing the content of a record -/
theorem RecOk.change {b P P' r} {x x' : Rec} (h : RecOk b P) (hx : b.recs r = some x) (hr : x'.refs = P'.count r) (hpos : 0 < x'.refs)
    (hP : ∀ q, q ≠ r → P'.count q = P.count q) :
    RecOk { setRec b r (some x') with dataSize := b.dataSize - x.size + x'.size } P' := by
  obtain ⟨A, B, h1, h2⟩ := live_at b.recs b.nextRec r (h.lt hx)
  rw [hx] at h1
  have hl : (List.range b.nextRec).filterMap b.recs = live b := rfl
  rw [hl] at h1
  refine ⟨?_, ?_, ?_, ?_⟩
  · intro q
    simp only [setRec]
    by_cases e : q = r
    · subst e; right; exact ⟨x', by simp, hr, hpos⟩
    · rw [if_neg e, hP q e]; exact h.recs q
  · intro q hq
    simp only [setRec] at hq ⊢
    rw [if_neg (by have := h.lt hx; omega)]; exact h.fresh q hq
  · simp only [setRec, live]
    rw [h2, h.size, h1]
    simp; omega
  · simp only [setRec, live]
    rw [h2, h.count, h1]
    simp

/-- dropping a record -/
theorem RecOk.drop {b P P' r} {x : Rec} (h : RecOk b P) (hx : b.recs r = some x) (hr : P'.count r = 0)
    (hP : ∀ q, q ≠ r → P'.count q = P.count q) :
    RecOk { setRec b r none with dataSize := b.dataSize - x.size, numEntries := b.numEntries - 1 } P' := by
  obtain ⟨A, B, h1, h2⟩ := live_at b.recs b.nextRec r (h.lt hx)
  rw [hx] at h1
  have hl : (List.range b.nextRec).filterMap b.recs = live b := rfl
  rw [hl] at h1
  refine ⟨?_, ?_, ?_, ?_⟩
  · intro q
    simp only [setRec]
    by_cases e : q = r
    · subst e; left; simp [hr]
    · rw [if_neg e, hP q e]; exact h.recs q
  · intro q hq
    simp only [setRec] at hq ⊢
    split
    · rfl
    · exact h.fresh q hq
  · simp only [setRec, live]
    rw [h2, h.size, h1]
    simp; omega
  · simp only [setRec, live]
    rw [h2, h.count, h1]
    simp

/-- a new record with one reference -/
theorem RecOk.new {b P P'} {d n : Nat} (h : RecOk b P) (hr : P'.count b.nextRec = P.count b.nextRec + 1)
    (hP : ∀ q, q ≠ b.nextRec → P'.count q = P.count q) :
    RecOk { setRec b b.nextRec (some ⟨d, n, 1⟩) with nextRec := b.nextRec + 1, dataSize := b.dataSize + n, numEntries := b.numEntries + 1 } P' := by
  have h0 : P.count b.nextRec = 0 := by
    rcases h.recs b.nextRec with ⟨_, e⟩ | ⟨x, e, _⟩
    · exact e
    · rw [h.fresh _ (Nat.le_refl _)] at e; simp at e
  have hlive : (List.range (b.nextRec + 1)).filterMap (fun i => if i = b.nextRec then some (⟨d, n, 1⟩ : Rec) else b.recs i) =
      live b ++ [⟨d, n, 1⟩] := by
    rw [List.range_succ, List.filterMap_append]
    simp only [List.filterMap_cons, if_true, List.filterMap_nil, live]
    congr 1
    apply filterMap_congr'
    intro i hi
    rw [if_neg (by have := List.mem_range.mp hi; omega)]
  refine ⟨?_, ?_, ?_, ?_⟩
  · intro q
    simp only [setRec]
    by_cases e : q = b.nextRec
    · subst e; right; exact ⟨⟨d, n, 1⟩, by simp, by simp [hr, h0], by simp⟩
    · rw [if_neg e, hP q e]; exact h.recs q
  · intro q hq
    simp only [setRec] at hq ⊢
    rw [if_neg (by omega)]; exact h.fresh q (by omega)
  · simp only [setRec, live]
    rw [hlive, h.size]; simp
  · simp only [setRec, live]
    rw [hlive, h.count]; simp

theorem RecOk.congr {b b' P} (h : RecOk b P) (h1 : b'.recs = b.recs) (h2 : b'.nextRec = b.nextRec) (h3 : b'.dataSize = b.dataSize)
    (h4 : b'.numEntries = b.numEntries) : RecOk b' P :=
  ⟨by rw [h1]; exact h.recs, by rw [h1, h2]; exact h.fresh, by rw [h3, h.size]; simp only [live, h1, h2],
   by rw [h4, h.count]; simp only [live, h1, h2]⟩

end Sid.Bpt
