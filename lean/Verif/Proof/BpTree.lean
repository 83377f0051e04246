import Verif.Proof.BpSplit
import Verif.Proof.Str
/-
Shape invariant of the B+ tree and its preservation by insertion and deletion along a path.
-/
namespace Sid.Bpt

/-- the leaves from left to right, mapped and concatenated -/
def fl {α : Type} (f : Leaf → List α) (t : Tree) : List α := (leaves t).flatMap f

/-- number of a leaf and of its right neighbour -/
def lnk (l : Leaf) : List (Nat × Option Nat) := [(l.id, l.next)]

scoped notation "tkeys" => fl Leaf.keys
scoped notation "tptrs" => fl Leaf.ptrs
scoped notation "links" => fl lnk

theorem leaves_leaf (l : Leaf) : leaves (.leaf l) = [l] := by rw [leaves]

theorem leaves_node (ks : List K) (cs : List Tree) : leaves (.node ks cs) = cs.flatMap leaves := by
  rw [leaves]
  have : (fun c : {x // x ∈ cs} => leaves c.1) = (leaves ∘ Subtype.val) := rfl
  rw [List.flatMap_def, List.flatMap_def, this, ← List.map_map, List.attach_map_subtype_val]

theorem fl_leaf {α} (f : Leaf → List α) (l : Leaf) : fl f (.leaf l) = f l := by simp [fl, leaves_leaf]

theorem fl_node {α} (f : Leaf → List α) (ks : List K) (cs : List Tree) : fl f (.node ks cs) = cs.flatMap (fl f) := by
  simp only [fl, leaves_node, List.flatMap_assoc]
  rfl

theorem flatMap_leaves {α} (f : Leaf → List α) (cs : List Tree) : (cs.flatMap leaves).flatMap f = cs.flatMap (fl f) := by
  simp only [List.flatMap_assoc]; rfl

/-- greatest key below a node -/
def lastKey (t : Tree) : Option K := (tkeys t).getLast?

/-- keys of an internal node: the greatest key below each child but the last -/
def Seps (ks : List K) (cs : List Tree) : Prop := cs ≠ [] ∧ cs.dropLast.map lastKey = ks.map some

theorem Seps.length {ks cs} (h : Seps ks cs) : cs.length = ks.length + 1 := by
  have := congrArg List.length h.2
  simp at this
  have h1 : cs.length ≠ 0 := by simpa using h.1
  omega

theorem seps_one {ks : List K} {c : Tree} : Seps ks [c] ↔ ks = [] := by
  simp only [Seps, List.dropLast_singleton, List.map_nil]
  constructor
  · rintro ⟨_, h⟩; exact List.map_eq_nil_iff.mp h.symm
  · rintro rfl; simp

theorem map_some_inj {α} {a b : List α} (h : a.map some = b.map some) : a = b :=
  (List.map_inj_right (f := some) fun _ _ h => Option.some.inj h).mp h

theorem seps_append {KA KB : List K} {A C : List Tree} (hl : A.length = KA.length) (hC : C ≠ []) :
    Seps (KA ++ KB) (A ++ C) ↔ A.map lastKey = KA.map some ∧ Seps KB C := by
  simp only [Seps, List.dropLast_append_of_ne_nil hC, List.map_append]
  constructor
  · rintro ⟨_, h⟩
    obtain ⟨h1, h2⟩ := List.append_inj h (by simp [hl])
    exact ⟨h1, hC, h2⟩
  · rintro ⟨h1, _, h2⟩
    exact ⟨by simp [hC], by rw [h1, h2]⟩

theorem seps_cons {k : K} {KB : List K} {c d : Tree} {C : List Tree} :
    Seps (k :: KB) (c :: d :: C) ↔ lastKey c = some k ∧ Seps KB (d :: C) := by
  have := seps_append (KA := [k]) (KB := KB) (A := [c]) (C := d :: C) rfl (by simp)
  simpa using this

/-- all keys, with one for the last child too -/
theorem seps_full {ks : List K} {cs : List Tree} {c : Tree} {k : K} (h : Seps ks (cs ++ [c])) (hk : lastKey c = some k) :
    (cs ++ [c]).map lastKey = (ks ++ [k]).map some := by
  have := h.2
  simp at this
  simp [this, hk]

theorem full_seps {ks : List K} {cs : List Tree} {k : K} (h : cs.map lastKey = (ks ++ [k]).map some) : Seps ks cs := by
  rcases List.eq_nil_or_concat cs with rfl | ⟨A, c, rfl⟩
  · simp at h
  · simp only [List.concat_eq_append, List.map_append, List.map_cons, List.map_nil] at h
    obtain ⟨h1, _⟩ := List.append_inj' h rfl
    exact ⟨by simp, by simpa using h1⟩

theorem seps_head {ks : List K} {c d : Tree} {C : List Tree} (h : C ≠ [] → lastKey d = lastKey c) (s : Seps ks (c :: C)) :
    Seps ks (d :: C) := by
  cases C with
  | nil => rw [seps_one] at *; exact s
  | cons e C =>
    refine ⟨by simp, ?_⟩
    have := s.2
    simp at this ⊢
    rw [h (by simp)]; exact this

/-- fewest keys of a node of the given height below the root -/
def minK (o : Nat) : Nat → Nat
  | 0 => cut (o - 1)
  | _ + 1 => cut o - 1

/-- shape of the tree: all leaves at the same depth, no node overfull, nodes below full enough, keys of internal nodes -/
inductive Wf (o : Nat) : Nat → Tree → Prop where
  | leaf (l : Leaf) : l.ptrs.length = l.keys.length → l.keys.length ≤ o - 1 → Wf o 0 (.leaf l)
  | node (h : Nat) (ks : List K) (cs : List Tree) : Seps ks cs → ks.length ≤ o - 1 →
      (∀ c ∈ cs, Wf o h c) → (∀ c ∈ cs, minK o h ≤ numKeys c) → Wf o (h + 1) (.node ks cs)

theorem Wf.inv_leaf {o l h} (w : Wf o h (.leaf l)) : h = 0 ∧ l.ptrs.length = l.keys.length ∧ l.keys.length ≤ o - 1 := by
  cases w; exact ⟨rfl, by assumption, by assumption⟩

theorem Wf.inv_node {o ks cs h} (w : Wf o h (.node ks cs)) :
    ∃ g, h = g + 1 ∧ Seps ks cs ∧ ks.length ≤ o - 1 ∧ ∀ c ∈ cs, Wf o g c ∧ minK o g ≤ numKeys c := by
  cases w with
  | node g _ _ a b c d => exact ⟨g, rfl, a, b, fun x hx => ⟨c x hx, d x hx⟩⟩

theorem minK_pos {o : Nat} (ho : 4 ≤ o) (h : Nat) : 1 ≤ minK o h := by
  cases h <;> simp only [minK, cut] <;> omega

theorem Wf.tkeys_ne {o h t} (ho : 4 ≤ o) (w : Wf o h t) (hn : h = 0 → 1 ≤ numKeys t) : tkeys t ≠ [] := by
  induction w with
  | leaf l h1 h2 =>
    have := hn rfl
    simp only [numKeys] at this
    rw [fl_leaf]
    intro e; rw [e] at this; simp at this
  | node h ks cs s hl _ hc ih =>
    obtain ⟨c, C, rfl⟩ := List.exists_cons_of_ne_nil s.1
    rw [fl_node]
    have := ih c (by simp) (fun _ => Nat.le_trans (minK_pos ho h) (hc c (by simp)))
    simp only [List.flatMap_cons]
    intro e
    exact this (List.append_eq_nil_iff.mp e).1

theorem Wf.child_ne {o h t} (ho : 4 ≤ o) (w : Wf o h t) (hm : minK o h ≤ numKeys t) : tkeys t ≠ [] :=
  w.tkeys_ne ho fun _ => Nat.le_trans (minK_pos ho h) hm

theorem getLast?_append_ne {α} (a b : List α) (h : b ≠ []) : (a ++ b).getLast? = b.getLast? := by
  rw [List.getLast?_append]
  cases hb : b.getLast? with
  | none => exact absurd (List.getLast?_eq_none_iff.mp hb) h
  | some x => rfl

theorem lastKey_node {ks : List K} {A : List Tree} {c : Tree} (h : tkeys c ≠ []) : lastKey (.node ks (A ++ [c])) = lastKey c := by
  simp only [lastKey]
  rw [fl_node]
  simp only [List.flatMap_append, List.flatMap_cons, List.flatMap_nil, List.append_nil]
  exact getLast?_append_ne _ _ h

/-- the keys of an internal node are keys of its leaves, in the same order -/
theorem seps_sublist {ks : List K} {cs : List Tree} (h : Seps ks cs) : ks.Sublist (cs.flatMap tkeys) := by
  induction cs generalizing ks with
  | nil => exact absurd rfl h.1
  | cons c C ih =>
    cases C with
    | nil => rw [seps_one] at h; subst h; simp
    | cons d C =>
      cases ks with
      | nil => have := h.length; simp at this
      | cons k ks =>
        rw [seps_cons] at h
        have h2 := ih h.2
        have h1 : [k].Sublist (tkeys c) := by
          rw [List.singleton_sublist]
          exact List.mem_of_getLast? h.1
        rw [List.flatMap_cons]
        exact List.Sublist.append h1 h2

/-! ### where a search goes -/

theorem childIdx_le (ks : List K) (s : Str) : childIdx ks s ≤ ks.length := by
  induction ks with
  | nil => simp [childIdx]
  | cons k ks ih => simp only [childIdx]; split <;> simp <;> omega

theorem childIdx_below {ks : List K} {s : Str} : ∀ k ∈ ks.take (childIdx ks s), strLt k.str s = true := by
  induction ks with
  | nil => simp
  | cons k ks ih =>
    simp only [childIdx]
    split
    · rename_i h
      intro x hx
      rw [List.take_succ_cons] at hx
      rcases List.mem_cons.mp hx with rfl | hx
      · exact h
      · exact ih x hx
    · simp

theorem childIdx_at {ks : List K} {s : Str} {k : K} (h : ks[childIdx ks s]? = some k) : strLt k.str s = false := by
  induction ks with
  | nil => simp at h
  | cons x ks ih =>
    simp only [childIdx] at h
    split at h
    · simp at h; exact ih h
    · rename_i hx
      simp at h; subst h; simpa using hx

/-- the way `findLeaf` takes: child positions, the leaf, the leaves to the left and to the right of it -/
inductive Goes (s : Str) : Tree → List Nat → Leaf → List Leaf → List Leaf → Prop where
  | leaf (l : Leaf) : Goes s (.leaf l) [] l [] []
  | node (ks : List K) (A : List Tree) (c : Tree) (B : List Tree) (path : List Nat) (l : Leaf) (LA LB : List Leaf) :
      childIdx ks s = A.length → Goes s c path l LA LB →
      Goes s (.node ks (A ++ c :: B)) (A.length :: path) l (A.flatMap leaves ++ LA) (LB ++ B.flatMap leaves)

theorem Goes.leaves_eq {s t path l LA LB} (g : Goes s t path l LA LB) : leaves t = LA ++ l :: LB := by
  induction g with
  | leaf => rw [leaves_leaf]; rfl
  | node ks A c B path l LA LB _ _ ih => rw [leaves_node]; simp [ih]

theorem Goes.fl_eq {α} {s t path l LA LB} (g : Goes s t path l LA LB) (f : Leaf → List α) :
    fl f t = LA.flatMap f ++ f l ++ LB.flatMap f := by
  simp [fl, g.leaves_eq]

theorem findLeaf_goes {o h t} (w : Wf o h t) (s : Str) : ∃ path l LA LB, findLeaf t s = some (path, l) ∧ Goes s t path l LA LB := by
  induction w with
  | leaf l _ _ => exact ⟨[], l, [], [], by rw [findLeaf], .leaf l⟩
  | node h ks cs sp hl _ _ ih =>
    have hi : childIdx ks s < cs.length := by have := childIdx_le ks s; have := sp.length; omega
    obtain ⟨path, l, LA, LB, h1, h2⟩ := ih cs[childIdx ks s] (by simp)
    have hsplit : cs = cs.take (childIdx ks s) ++ cs[childIdx ks s] :: cs.drop (childIdx ks s + 1) := by simp
    have hlen : (cs.take (childIdx ks s)).length = childIdx ks s := by simp; omega
    have hg := Goes.node ks (cs.take (childIdx ks s)) cs[childIdx ks s] (cs.drop (childIdx ks s + 1)) path l LA LB hlen.symm h2
    rw [← hsplit, hlen] at hg
    refine ⟨_, l, _, _, ?_, hg⟩
    rw [findLeaf]
    split
    · rename_i e; rw [List.getElem?_eq_getElem hi] at e; simp at e
    · rename_i c e
      rw [List.getElem?_eq_getElem hi] at e
      simp only [Option.some.injEq] at e
      subst e
      rw [h1]; rfl

/-- strictly ascending -/
abbrev Sorted (l : List K) : Prop := l.Pairwise fun a b => strLt a.str b.str = true

theorem Sorted.nodup {l : List K} (h : Sorted l) : l.Nodup := by
  refine List.Pairwise.imp ?_ h
  intro a b hab e
  subst e; rw [strLt_irrefl] at hab; simp at hab

theorem Sorted.last {l : List K} {m x : K} (h : Sorted l) (hm : l.getLast? = some m) (hx : x ∈ l) :
    x = m ∨ strLt x.str m.str = true := by
  obtain ⟨A, rfl⟩ := List.getLast?_eq_some_iff.mp hm
  rcases List.mem_append.mp hx with hx | hx
  · exact Or.inr ((List.pairwise_append.mp h).2.2 x hx m (by simp))
  · exact Or.inl (by simpa using hx)

theorem sublist_flatMap {α β} {f : α → List β} {l : List α} {a : α} (h : a ∈ l) : (f a).Sublist (l.flatMap f) := by
  obtain ⟨A, B, rfl⟩ := List.append_of_mem h
  simp only [List.flatMap_append, List.flatMap_cons]
  exact (List.sublist_append_left _ _).trans (List.sublist_append_right _ _)

theorem Goes.bounds {s t path l LA LB o h} (g : Goes s t path l LA LB) (w : Wf o h t) (hs : Sorted (tkeys t)) :
    (∀ k ∈ LA.flatMap Leaf.keys, strLt k.str s = true) ∧ (∀ k ∈ LB.flatMap Leaf.keys, strLt s k.str = true) := by
  induction g generalizing h with
  | leaf => simp
  | node ks A c B path l LA LB hi g ih =>
    obtain ⟨g', rfl, sp, hl, hc⟩ := w.inv_node
    rw [fl_node] at hs
    simp only [List.flatMap_append, List.flatMap_cons] at hs
    have hsA := (List.pairwise_append.mp hs).1
    have hsCB := (List.pairwise_append.mp hs).2.1
    have hsC := (List.pairwise_append.mp hsCB).1
    obtain ⟨ih1, ih2⟩ := ih (hc c (by simp)).1 hsC
    have hlen := sp.length
    have hile := childIdx_le ks s
    have hlA : A.length = (ks.take A.length).length := by simp; omega
    rw [← List.take_append_drop A.length ks, seps_append hlA (by simp)] at sp
    constructor
    · intro k hk
      simp only [List.flatMap_append, flatMap_leaves] at hk
      rcases List.mem_append.mp hk with hk | hk
      · obtain ⟨a, ha, hka⟩ := List.mem_flatMap.mp hk
        obtain ⟨i, hiA, rfl⟩ := List.mem_iff_getElem.mp ha
        have := congrArg (fun l => l[i]?) sp.1
        simp only [List.getElem?_map, List.getElem?_eq_getElem hiA, Option.map_some] at this
        cases hm : (ks.take A.length)[i]? with
        | none => rw [hm] at this; simp at this
        | some m =>
          rw [hm] at this
          simp only [Option.map_some, Option.some.injEq] at this
          have hlt : strLt m.str s = true := childIdx_below m (by rw [hi]; exact List.mem_of_getElem? hm)
          have hsa : Sorted (tkeys A[i]) := by
            refine List.Pairwise.sublist ?_ hsA
            exact sublist_flatMap (by simp)
          rcases hsa.last this hka with rfl | h
          · exact hlt
          · exact strLt_trans h hlt
      · exact ih1 k hk
    · intro k hk
      simp only [List.flatMap_append, flatMap_leaves] at hk
      rcases List.mem_append.mp hk with hk | hk
      · exact ih2 k hk
      · cases B with
        | nil => simp at hk
        | cons b B =>
          cases hm : ks.drop A.length with
          | nil => rw [hm] at sp; have := sp.2.length; simp at this
          | cons m KB =>
            rw [hm, seps_cons] at sp
            have hmk : ks[childIdx ks s]? = some m := by
              rw [hi]
              have := congrArg (fun l => l[0]?) hm
              simpa using this
            have hle := childIdx_at hmk
            have hlt := (List.pairwise_append.mp hsCB).2.2 m (List.mem_of_getLast? sp.2.1) k hk
            exact strLt_of_le_of_lt hle hlt

end Sid.Bpt
