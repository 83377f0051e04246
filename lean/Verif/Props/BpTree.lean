import Verif.Proof.BpRefine
import Verif.Proof.BpIter
/-
C15 – C18: the B+ tree.
-/
namespace Sid.Props
open Sid.Bpt Sid.Spec

/-! ### C15 -/

def strMapOp (c : StrMap.Call) : Op := toOp (toAlias c)

/-- C15: for every order the constructor accepts and every history of add, update and delete, no call runs into undefined
    behaviour and a lookup returns the data most recently stored under the key -/
theorem C15_tree_is_map {o : Nat} {b0 : Bpt} (hc : create o = some b0) (cs : List StrMap.Call) :
    ∃ b, run b0 (cs.map strMapOp) = some b ∧
      ∀ s, ∃ x, lookup b s = some x ∧ x.map (fun r => (r.data, r.size)) = cs.foldl StrMap.step (fun _ => none) s := by
  obtain ⟨hsafe, hsin⟩ := single_empty.run cs
  obtain ⟨b, h1, h2, h3⟩ := Rep.run (create_binv hc) (create_rep hc) (cs.map toAlias) hsafe
  refine ⟨b, by rw [← h1, List.map_map]; rfl, fun s => ?_⟩
  obtain ⟨x, hx, hv⟩ := h3.lookup h2 s
  refine ⟨x, hx, ?_⟩
  rw [← hsin.look s, ← hv, Option.map_map]
  cases x <;> rfl

/-- every order above three is accepted, no other -/
theorem C15_orders (o : Nat) : (∃ b, create o = some b) ↔ 3 < o := by
  simp only [create]
  split
  · simp; omega
  · simp; omega

/-- what the update callback is shown is what is stored -/
theorem C15_update_sees_stored {o : Nat} {b0 b : Bpt} (hc : create o = some b0) (cs : List StrMap.Call)
    (hr : run b0 (cs.map strMapOp) = some b) (s : Str) (f g : Option (Nat × Nat) → StrMap.Act)
    (hfg : f (cs.foldl StrMap.step (fun _ => none) s) = g (cs.foldl StrMap.step (fun _ => none) s)) :
    step b (strMapOp (.update s f)) = step b (strMapOp (.update s g)) := by
  obtain ⟨b', h1, hl⟩ := C15_tree_is_map hc cs
  rw [hr] at h1; simp only [Option.some.injEq] at h1; subst h1
  obtain ⟨x, hx, hv⟩ := hl s
  rw [← hv] at hfg
  have key : ∀ f : Option (Nat × Nat) → StrMap.Act,
      (fun o : Option Rec => act (f ((o.map view).map fun v => (v.1, v.2.1)))) x = act (f (x.map fun r => (r.data, r.size))) := by
    intro f; cases x <;> rfl
  simp only [strMapOp, toAlias, toOp, step, Bpt.update]
  simp only [lookup] at hx
  cases hf : find b s with
  | none => rfl
  | some o =>
    cases o with
    | none =>
      rw [hf] at hx; simp only [Option.some.injEq] at hx; subst hx
      simp only [Option.map_none] at hfg ⊢
      rw [hfg]
    | some fd =>
      rw [hf] at hx
      simp only at hx ⊢
      cases hrec : b.recs fd.rc with
      | none => rfl
      | some y =>
        rw [hrec] at hx
        simp only [Option.map_some, Option.some.injEq] at hx
        subst hx
        simp only [Option.map_some] at hfg ⊢
        have e : f ((view y).1, (view y).2.1) = g ((view y).1, (view y).2.1) := hfg
        rw [e]

def c15Calls : List StrMap.Call :=
  [.add [97] 1 10, .add [98] 2 20, .add [99] 3 30, .add [100] 4 40, .update [98] (fun _ => .write 5 50), .del [99]]

example : ∃ b0, create 4 = some b0 := ⟨_, rfl⟩
example : c15Calls.foldl StrMap.step (fun _ => none) [98] = some (5, 50) := by
  simp [c15Calls, StrMap.step, StrMap.put]
example : c15Calls.foldl StrMap.step (fun _ => none) [99] = none := by
  simp [c15Calls, StrMap.step, StrMap.put]

/-! ### C16 -/

open Shape in
theorem wf_at {o h t d n} (w : Wf o h t) (a : At t d n) : ∃ g, h = g + d ∧ Wf o g n ∧ (0 < d → minK o g ≤ numKeys n) := by
  induction a generalizing h with
  | root t => exact ⟨h, rfl, w, by simp⟩
  | child ks cs c d n hc _ ih =>
    obtain ⟨g, rfl, _, _, hk⟩ := w.inv_node
    obtain ⟨g', rfl, w', hm⟩ := ih (hk c hc).1
    refine ⟨g', by omega, w', fun _ => ?_⟩
    by_cases hd : 0 < d
    · exact hm hd
    · have : d = 0 := by omega
      subst this
      cases ‹At c 0 n›
      exact (hk c hc).2

theorem flatMap_ge {α β} {f : α → List β} {L : List α} {B : Nat} (h : ∀ a ∈ L, B ≤ (f a).length) : L.length * B ≤ (L.flatMap f).length := by
  induction L with
  | nil => simp
  | cons a L ih =>
    have := ih fun x hx => h x (by simp [hx])
    have h2 := h a (by simp)
    simp only [List.length_cons, List.flatMap_cons, List.length_append, Nat.succ_mul]
    omega

theorem wf_count {o h t} (w : Wf o h t) (hm : minK o h ≤ numKeys t) : ((o + 1) / 2) ^ h * (o / 2) ≤ (fl Leaf.keys t).length := by
  induction w with
  | leaf l h1 h2 =>
    rw [fl_leaf]
    simp only [minK, cut, numKeys] at hm
    rw [Nat.pow_zero, Nat.one_mul]; omega
  | node g ks cs s hl _ hc ih =>
    rw [fl_node]
    have h1 : ∀ c ∈ cs, ((o + 1) / 2) ^ g * (o / 2) ≤ (fl Leaf.keys c).length := fun c hcm => ih c hcm (hc c hcm)
    have h2 := flatMap_ge h1
    refine Nat.le_trans ?_ h2
    have hlen := s.length
    simp only [minK, cut, numKeys] at hm
    rw [Nat.pow_succ, Nat.mul_comm _ ((o + 1) / 2), Nat.mul_assoc]
    exact Nat.mul_le_mul_right _ (by omega)

theorem findLeaf_depth {o h t} (w : Wf o h t) (s : Str) : ∃ path l, findLeaf t s = some (path, l) ∧ path.length = h := by
  obtain ⟨path, l, LA, LB, hf, g⟩ := findLeaf_goes w s
  refine ⟨path, l, hf, ?_⟩
  clear hf
  induction g generalizing h with
  | leaf => exact w.inv_leaf.1.symm
  | node ks A c B path l LA LB _ _ ih =>
    obtain ⟨g, rfl, _, _, hk⟩ := w.inv_node
    simp [ih (hk c (by simp)).1]

theorem height_eq {o h t} (w : Wf o h t) : height t = some h := by
  induction w with
  | leaf l => rfl
  | node g ks cs s hl _ hc ih =>
    obtain ⟨c, C, rfl⟩ := List.exists_cons_of_ne_nil s.1
    rw [height, ih c (by simp)]
    rfl

open Shape in
/-- C16: after every history of calls, aliases included, the tree is balanced, the height reported is the depth of every leaf, a
    search for any key goes down exactly that many steps, and a tree of that depth holds exponentially many keys -/
theorem C16_tree_balanced {o : Nat} {b0 : Bpt} (hc : create o = some b0) (ops : List Op) :
    ∃ b, run b0 ops = some b ∧ b.order = o ∧
      ∀ t, b.root = some t → ∃ h, Balanced o h t ∧ height t = some h ∧
        (∀ s, ∃ path l, findLeaf t s = some (path, l) ∧ path.length = h) ∧
        (0 < h → 2 * ((o + 1) / 2) ^ (h - 1) * (o / 2) ≤ ((leaves t).flatMap Leaf.keys).length) := by
  obtain ⟨b, h1, h2⟩ := (create_binv hc).run ops
  have hord := run_order h1
  have ho : b0.order = o := by
    simp only [create] at hc
    split at hc
    · simp at hc
    · simp only [Option.some.injEq] at hc; rw [← hc]
  rw [ho] at hord
  refine ⟨b, h1, hord, fun t ht => ?_⟩
  have ok := h2.tree t ht
  obtain ⟨h, w⟩ := ok.wf
  rw [hord] at w
  have hge : 4 ≤ o := by rw [← hord]; exact h2.ord
  refine ⟨h, ⟨?_, ?_, ?_, ?_, ?_, ok.ne, ?_⟩, height_eq w, fun s => findLeaf_depth w s, ?_⟩
  · intro d l a
    obtain ⟨g, rfl, w', _⟩ := wf_at w a
    rw [w'.inv_leaf.1]; omega
  · intro d l a
    obtain ⟨g, rfl, w', _⟩ := wf_at w a
    exact ⟨w'.inv_leaf.2.2, w'.inv_leaf.2.1⟩
  · intro d ks cs a
    obtain ⟨g, rfl, w', _⟩ := wf_at w a
    obtain ⟨_, _, sp, hl, _⟩ := w'.inv_node
    exact ⟨hl, sp.length⟩
  · intro d l a
    obtain ⟨g, rfl, w', hm⟩ := wf_at w a
    have := hm (by omega)
    rw [w'.inv_leaf.1] at this
    simp only [minK, cut, numKeys] at this
    omega
  · intro d ks cs a
    obtain ⟨g, rfl, w', hm⟩ := wf_at w a
    have := hm (by omega)
    obtain ⟨g', rfl, sp, hl, _⟩ := w'.inv_node
    have hlen := sp.length
    simp only [minK, cut, numKeys] at this
    omega
  · have := ok.sorted
    rw [← List.map_flatMap]
    exact List.pairwise_map.mpr this
  · intro hpos
    cases w with
    | leaf => omega
    | node g ks cs sp hl hw hm =>
      have hn := ok.ne
      simp only [numKeys] at hn
      have hlen := sp.length
      have h1 := flatMap_ge (f := fl Leaf.keys) (fun c hcm => wf_count (hw c hcm) (hm c hcm))
      have e : ((leaves (.node ks cs)).flatMap Leaf.keys).length = (cs.flatMap (fl Leaf.keys)).length := by
        rw [leaves_node, flatMap_leaves]
      rw [e]
      refine Nat.le_trans ?_ h1
      rw [Nat.add_sub_cancel, Nat.mul_assoc]
      exact Nat.mul_le_mul_right _ (by omega)

/-! ### C17 -/

open Shape in
/-- C17: iterating the whole tree reports every key that can be looked up, with its record, once and in ascending order -/
theorem C17_whole {o : Nat} {b0 b : Bpt} (hc : create o = some b0) (ops : List Op) (hr : run b0 ops = some b) :
    ∃ N out, (∀ fuel, N ≤ fuel → iterAll b fuel ⟨false, none, none, none, 0⟩ = some out) ∧ Ascending out ∧
      ∀ s x, (s, x) ∈ out ↔ lookup b s = some (some x) := by
  obtain ⟨b', h1, h2⟩ := (create_binv hc).run ops
  rw [hr] at h1; simp only [Option.some.injEq] at h1; subst h1
  obtain ⟨N, out, h3, h4, h5⟩ := iter_from_first h2 none
  exact ⟨N, out, h3, h4, fun s x => by rw [h5]; simp [InRange]⟩

open Shape in
/-- C17: iterating with a prefix reports exactly the keys that begin with it, in ascending order -/
theorem C17_prefix {o : Nat} {b0 b : Bpt} (hc : create o = some b0) (ops : List Op) (hr : run b0 ops = some b) (p : Str) :
    ∃ N out, (∀ fuel, N ≤ fuel → iterAll b fuel ⟨true, some p, none, none, 0⟩ = some out) ∧ Ascending out ∧
      ∀ s x, (s, x) ∈ out ↔ lookup b s = some (some x) ∧ p <+: s := by
  obtain ⟨b', h1, h2⟩ := (create_binv hc).run ops
  rw [hr] at h1; simp only [Option.some.injEq] at h1; subst h1
  exact iter_prefix h2 p

open Shape in
/-- C17: a range reports exactly the keys from its start to its end (both included), in ascending order, if the start is open
    or is a stored key.  Missing: a start that is not stored. -/
theorem C17_range_partial {o : Nat} {b0 b : Bpt} (hc : create o = some b0) (ops : List Op) (hr : run b0 ops = some b)
    (start stop : Option Str) (hs : ∀ a, start = some a → lookup b a ≠ some none) :
    ∃ N out, (∀ fuel, N ≤ fuel → iterAll b fuel ⟨false, start, stop, none, 0⟩ = some out) ∧ Ascending out ∧
      ∀ s x, (s, x) ∈ out ↔ lookup b s = some (some x) ∧ InRange start stop s := by
  obtain ⟨b', h1, h2⟩ := (create_binv hc).run ops
  rw [hr] at h1; simp only [Option.some.injEq] at h1; subst h1
  cases start with
  | none => exact iter_from_first h2 stop
  | some a =>
    obtain ⟨N, out, h3, h4, h5, h6, h7⟩ := iter_range h2 a stop
    exact ⟨N, out, h3, h4, fun s x => ⟨fun hm => ⟨(h5 s x hm).1, h7 (hs a rfl) s x hm⟩, fun hm => h6 s x hm.1 hm.2⟩⟩

open Shape in
/-- C17: with any start a range reports every key in it, nothing beyond its end, and in ascending order; only keys before the
    start may be reported in excess -/
theorem C17_range_covers {o : Nat} {b0 b : Bpt} (hc : create o = some b0) (ops : List Op) (hr : run b0 ops = some b)
    (a : Str) (stop : Option Str) :
    ∃ N out, (∀ fuel, N ≤ fuel → iterAll b fuel ⟨false, some a, stop, none, 0⟩ = some out) ∧ Ascending out ∧
      (∀ s x, lookup b s = some (some x) → InRange (some a) stop s → (s, x) ∈ out) ∧
      (∀ s x, (s, x) ∈ out → lookup b s = some (some x) ∧ (InRange (some a) stop s ∨ (strLt s a = true ∧ InRange none stop s))) := by
  obtain ⟨b', h1, h2⟩ := (create_binv hc).run ops
  rw [hr] at h1; simp only [Option.some.injEq] at h1; subst h1
  obtain ⟨N, out, h3, h4, h5, h6, _⟩ := iter_range h2 a stop
  refine ⟨N, out, h3, h4, h6, fun s x hm => ⟨(h5 s x hm).1, ?_⟩⟩
  cases hlt : strLt s a with
  | true => exact Or.inr ⟨rfl, (h5 s x hm).2⟩
  | false =>
    refine Or.inl ⟨?_, (h5 s x hm).2.2⟩
    rintro _ ⟨⟩; exact hlt

/-- evaluation of calls on small trees -/
macro "bpt_eval" "[" x:ident "]" "at" h:ident : tactic =>
  `(tactic| simp [$x:ident, run, step, add, addAlias, del, find, findLeaf, searchLeaf, List.findIdx?_cons, makeRec, setRec, insertRef, refRec,
    Bpt.insert, insertAt, insertIntoLeaf, insPoint, strLt, growRoot, deleteEntry, deleteAt, removeFromLeaf, adjustRoot, unrefRec,
    List.idxOf?_cons] at $h:ident)

/-- a tree with keys "a" and "c" -/
def c17Ops : List Op := [.add [97] 1 10, .add [99] 3 30]

/-- the range starting at "b", which is not stored, reports "a" -/
theorem C17_range_start_counterexample :
    ∃ b0 b, create 4 = some b0 ∧ run b0 c17Ops = some b ∧
      iterAll b 5 ⟨false, some [98], none, none, 0⟩ = some [([97], ⟨1, 10, 1⟩), ([99], ⟨3, 30, 1⟩)] := by
  obtain ⟨b, hb, _⟩ := C16_tree_balanced (o := 4) rfl c17Ops
  refine ⟨_, b, rfl, hb, ?_⟩
  bpt_eval [c17Ops] at hb
  subst hb
  simp [iterAll, iterNext, iterMove, findLeaf, searchLeaf, List.findIdx?_cons, iterStops, leafById, leaves_leaf]

example : ∃ b0 b, create 4 = some b0 ∧ run b0 c17Ops = some b ∧ lookup b [97] ≠ some none := by
  obtain ⟨b, hb, _⟩ := C16_tree_balanced (o := 4) rfl c17Ops
  refine ⟨_, b, rfl, hb, ?_⟩
  bpt_eval [c17Ops] at hb
  subst hb
  simp [lookup, find, findLeaf, searchLeaf, List.findIdx?_cons]

/-! ### C18 -/

/-- C18, for histories that remove a name only while it is the least name of its record (removing through update included):
    lookups through every name report the data of the record the name denotes, and the number of its names; an alias call
    reports failure exactly if the key is not stored or the alias denotes another record and is not forced.
    Missing: removing another name of a record with several names. -/
theorem C18_aliases_partial {o : Nat} {b0 : Bpt} (hc : create o = some b0) (cs : List Aliased.Call) (hs : Aliased.Safe Aliased.empty cs) :
    ∃ b, run b0 (cs.map toOp) = some b ∧
      (∀ s, ∃ x, lookup b s = some x ∧
        x.map (fun r => (r.data, r.size, r.refs)) = Aliased.look (cs.foldl Aliased.step Aliased.empty) s) ∧
      ∀ k a f, ∃ b', addAlias b k a f = some ((Aliased.alias (cs.foldl Aliased.step Aliased.empty) k a f).1, b') := by
  obtain ⟨b, h1, h2, h3⟩ := Rep.run (create_binv hc) (create_rep hc) cs hs
  refine ⟨b, h1, fun s => h3.lookup h2 s, fun k a f => ?_⟩
  obtain ⟨b', h4, _⟩ := h3.alias h2 k a f
  exact ⟨b', h4⟩

/-- the record a name leads to -/
def recordOf (b : Bpt) (s : Str) : Option Nat := (find b s).bind fun o => o.map Found.rc

/-- C18, for all histories: the reference count a lookup reports is the number of names that lead to the same record -/
theorem C18_reference_count {o : Nat} {b0 b : Bpt} (hc : create o = some b0) (ops : List Op) (hr : run b0 ops = some b) :
    ∃ names : List Str, names.Nodup ∧ (∀ s, s ∈ names ↔ lookup b s ≠ some none) ∧
      ∀ s r, recordOf b s = some r → ∃ x, lookup b s = some (some x) ∧ x.refs = (names.filter fun n => recordOf b n == some r).length := by
  obtain ⟨b', h1, h⟩ := (create_binv hc).run ops
  rw [hr] at h1; simp only [Option.some.injEq] at h1; subst h1
  have hrec : ∀ s r, (s, r) ∈ ents b → recordOf b s = some r := by
    intro s r hm
    rcases find_spec h s with ⟨e, hs⟩ | ⟨f, t, LA, LB, A, B, PA, PB, e, hit⟩
    · have := List.mem_map_of_mem (f := Prod.fst) hm
      rw [h.fst] at this
      obtain ⟨k, hk, e⟩ := List.mem_map.mp this
      exact absurd e (hs k hk)
    · have h2 : (s, f.rc) ∈ ents b := by rw [hit.ents h.tree]; simp
      rw [mem_unique h.nodup hm h2]
      simp [recordOf, e]
  refine ⟨(ents b).map Prod.fst, h.nodup, ?_, ?_⟩
  · intro s
    rcases find_spec h s with ⟨e, hs⟩ | ⟨f, t, LA, LB, A, B, PA, PB, e, hit⟩
    · simp only [lookup, e, ne_eq, not_true_eq_false, iff_false]
      rw [h.fst]
      intro hm
      obtain ⟨k, hk, e⟩ := List.mem_map.mp hm
      exact hs k hk e
    · obtain ⟨x, hx, _⟩ := h.mem_recs hit.mem
      simp only [lookup, e, hx, Option.map_some]
      simp only [ne_eq, Option.some.injEq, reduceCtorEq, not_false_eq_true, iff_true]
      rw [hit.ents h.tree]; simp
  · intro s r hsr
    rcases find_spec h s with ⟨e, hs⟩ | ⟨f, t, LA, LB, A, B, PA, PB, e, hit⟩
    · simp [recordOf, e] at hsr
    · have hfr : f.rc = r := by simpa [recordOf, e] using hsr
      obtain ⟨x, hx, hcnt, _⟩ := h.mem_recs hit.mem
      refine ⟨x, by simp [lookup, e, hx], ?_⟩
      rw [hcnt, hfr, ← h.snd, List.count_eq_length_filter, List.filter_map, List.length_map, List.filter_map, List.length_map]
      congr 1
      apply List.filter_congr
      rintro ⟨n, q⟩ hm
      simp [hrec n q hm]

/-- C18, for all histories: deleting a name makes this name, and no other, impossible to look up -/
theorem C18_delete_removes_one_name {o : Nat} {b0 b : Bpt} (hc : create o = some b0) (ops : List Op) (hr : run b0 ops = some b) (s : Str) :
    ∃ b', step b (.del s) = some b' ∧ ∀ n, lookup b' n ≠ some none ↔ (lookup b n ≠ some none ∧ n ≠ s) := by
  obtain ⟨b1, h1, h⟩ := (create_binv hc).run ops
  rw [hr] at h1; simp only [Option.some.injEq] at h1; subst h1
  have key : ∀ {c : Bpt}, BInv c → ∀ n, (lookup c n ≠ some none ↔ ∃ k ∈ keysOf c, k.str = n) := by
    intro c hcv n
    rcases find_spec hcv n with ⟨e, hs⟩ | ⟨f, t, LA, LB, A, B, PA, PB, e, hit⟩
    · simp only [lookup, e, ne_eq, not_true_eq_false, false_iff]
      rintro ⟨k, hk, e⟩; exact hs k hk e
    · obtain ⟨x, hx, _⟩ := hcv.mem_recs hit.mem
      simp only [lookup, e, hx, Option.map_some]
      simp only [ne_eq, Option.some.injEq, reduceCtorEq, not_false_eq_true, true_iff]
      exact ⟨f.key, by rw [hit.keysOf]; simp, hit.str⟩
  rcases find_spec h s with ⟨e, hs⟩ | ⟨f, t, LA, LB, A, B, PA, PB, e, hit⟩
  · refine ⟨b, by simp [step, del, e], fun n => ⟨fun hn => ⟨hn, ?_⟩, fun hn => hn.1⟩⟩
    rintro rfl
    apply hn
    simp [lookup, e]
  · obtain ⟨b', j, x, _, hd, hb, _, _, hk, _⟩ := h.deleteEntry hit
    refine ⟨b', by simp [step, del, e, hd], fun n => ?_⟩
    rw [key hb, key h]
    have hsort := h.sorted
    rw [hit.keysOf] at hsort
    have hsa := List.pairwise_append.mp hsort
    have hsb := List.pairwise_cons.mp hsa.2.1
    rw [hk, hit.keysOf]
    constructor
    · rintro ⟨k, hk, rfl⟩
      rcases List.mem_append.mp hk with hk | hk
      · refine ⟨⟨k, List.mem_append_left _ hk, rfl⟩, ?_⟩
        have := hsa.2.2 k hk f.key (by simp)
        rw [hit.str] at this; exact strLt_ne this
      · refine ⟨⟨k, List.mem_append_right _ (List.mem_cons_of_mem _ hk), rfl⟩, ?_⟩
        have := hsb.1 k hk
        rw [hit.str] at this; exact (strLt_ne this).symm
    · rintro ⟨⟨k, hk, rfl⟩, hne⟩
      rcases List.mem_append.mp hk with hk | hk
      · exact ⟨k, List.mem_append_left _ hk, rfl⟩
      · rcases List.mem_cons.mp hk with rfl | hk
        · exact absurd hit.str hne
        · exact ⟨k, List.mem_append_right _ hk, rfl⟩

/-- "a" stores 1, "b" stores 2, "c" is another name of what "a" stores; then "c" is deleted -/
def c18Ops : List Op := [.add [97] 1 10, .add [98] 2 20, .alias [97] [99] false, .del [99]]

/-- after deleting the alias, "a" and "b" have each other's data: deleting one name does not leave the others intact -/
theorem C18_delete_alias_counterexample :
    ∃ b0 b, create 4 = some b0 ∧ run b0 c18Ops = some b ∧
      lookup b [97] = some (some ⟨2, 20, 1⟩) ∧ lookup b [98] = some (some ⟨1, 10, 1⟩) := by
  obtain ⟨b, hb, _⟩ := C16_tree_balanced (o := 4) rfl c18Ops
  refine ⟨_, b, rfl, hb, ?_⟩
  bpt_eval [c18Ops] at hb
  subst hb
  simp [lookup, find, findLeaf, searchLeaf, List.findIdx?_cons]

/-- the guard of `C18_aliases_partial` admits removing the original name while an alias remains -/
def c18Safe : List Aliased.Call := [.add [97] 1 10, .add [98] 2 20, .alias [97] [99] false, .add [99] 7 70, .del [97]]

example : Aliased.Safe Aliased.empty c18Safe := by
  refine ⟨trivial, trivial, trivial, trivial, ?_, trivial⟩
  intro r s' h1 h2
  have e : Aliased.denotes (Aliased.step (Aliased.step (Aliased.step (Aliased.step Aliased.empty (.add [97] 1 10)) (.add [98] 2 20))
    (.alias [97] [99] false)) (.add [99] 7 70)) [97] = some 0 := rfl
  rw [e] at h1
  have hr : r = 0 := by simpa using h1.symm
  subst hr
  have hm := denotes_mem h2
  have : s' = [99] ∨ s' = [97] := by
    have hn : (Aliased.step (Aliased.step (Aliased.step (Aliased.step Aliased.empty (.add [97] 1 10)) (.add [98] 2 20))
      (.alias [97] [99] false)) (.add [99] 7 70)).names = [([99], 0), ([98], 1), ([97], 0)] := rfl
    rw [hn] at hm
    simpa using hm
  rcases this with rfl | rfl <;> rfl

example : Aliased.look (c18Safe.foldl Aliased.step Aliased.empty) [99] = some (7, 70, 1) := rfl

/-! ### C59 -/

/-- the entries and the data size a tree counts -/
theorem binv_accounting {b : Bpt} (h : BInv b) :
    ∃ rs : List (Nat × Rec), (rs.map Prod.fst).Nodup ∧
      (∀ r x, (r, x) ∈ rs ↔ ∃ s, recordOf b s = some r ∧ lookup b s = some (some x)) ∧
      b.numEntries = rs.length ∧ b.dataSize = (rs.map fun p => p.2.size).sum := by
  have hgen : ∀ L : List Nat, L.Nodup →
      let rs := L.filterMap fun r => (b.recs r).map fun x => (r, x)
      (rs.map Prod.fst).Nodup ∧ rs.length = (L.filterMap b.recs).length ∧ (rs.map fun p => p.2.size) = (L.filterMap b.recs).map Rec.size ∧
        ∀ p ∈ rs, p.1 ∈ L := by
    intro L
    induction L with
    | nil => simp
    | cons a L ih =>
      intro hnd
      obtain ⟨h1, h2, h3, h4⟩ := ih (List.nodup_cons.mp hnd).2
      have hna := (List.nodup_cons.mp hnd).1
      cases e : b.recs a with
      | none =>
        simp only [List.filterMap_cons, e, Option.map_none]
        exact ⟨h1, h2, h3, fun p hp => List.mem_cons_of_mem _ (h4 p hp)⟩
      | some x =>
        simp only [List.filterMap_cons, e, Option.map_some, List.map_cons, List.length_cons, List.nodup_cons]
        refine ⟨⟨?_, h1⟩, by omega, by rw [h3], ?_⟩
        · intro hm
          obtain ⟨p, hp, he⟩ := List.mem_map.mp hm
          have := h4 p hp
          rw [he] at this; exact hna this
        · intro p hp
          rcases List.mem_cons.mp hp with rfl | hp
          · simp
          · exact List.mem_cons_of_mem _ (h4 p hp)
  obtain ⟨g1, g2, g3, _⟩ := hgen (List.range b.nextRec) List.nodup_range
  refine ⟨_, g1, ?_, by rw [g2]; exact h.count, by rw [g3]; exact h.size⟩
  intro r x
  rw [List.mem_filterMap]
  constructor
  · rintro ⟨q, hq, he⟩
    obtain ⟨y, hy, he⟩ := Option.map_eq_some_iff.mp he
    simp only [Prod.mk.injEq] at he
    obtain ⟨rfl, rfl⟩ := he
    rcases h.recs q with ⟨h0, _⟩ | ⟨z, hz, hcnt, hpos⟩
    · rw [hy] at h0; cases h0
    · rw [hy] at hz; simp only [Option.some.injEq] at hz; subst hz
      have hmem : q ∈ ptrsOf b := List.count_pos_iff.mp (by omega)
      rw [← h.snd] at hmem
      obtain ⟨⟨s, q'⟩, hm, rfl⟩ := List.mem_map.mp hmem
      refine ⟨s, ?_⟩
      rcases find_spec h s with ⟨e, hs⟩ | ⟨f, t, LA, LB, A, B, PA, PB, e, hit⟩
      · have := List.mem_map_of_mem (f := Prod.fst) hm
        rw [h.fst] at this
        obtain ⟨k, hk, e⟩ := List.mem_map.mp this
        exact absurd e (hs k hk)
      · have h2 : (s, f.rc) ∈ ents b := by rw [hit.ents h.tree]; simp
        have hq : f.rc = q' := mem_unique h.nodup h2 hm
        simp only at hy
        simp [recordOf, lookup, e, hq, hy]
  · rintro ⟨s, h1, h2⟩
    rcases find_spec h s with ⟨e, hs⟩ | ⟨f, t, LA, LB, A, B, PA, PB, e, hit⟩
    · simp [recordOf, e] at h1
    · have hfr : f.rc = r := by simpa [recordOf, e] using h1
      simp only [lookup, e, hfr] at h2
      cases hx : b.recs r with
      | none => rw [hx] at h2; simp at h2
      | some y =>
        rw [hx] at h2
        simp only [Option.map_some, Option.some.injEq] at h2
        subst h2
        refine ⟨r, ?_, by simp [hx]⟩
        rw [List.mem_range]
        by_cases hlt : r < b.nextRec
        · exact hlt
        · rw [h.fresh r (by omega)] at hx; cases hx

/-- C59: after every history the tree counts as entries exactly the records reachable through some name, each once, and as
    data size the sum of their sizes -/
theorem C59_accounting {o : Nat} {b0 b : Bpt} (hc : create o = some b0) (ops : List Op) (hr : run b0 ops = some b) :
    ∃ rs : List (Nat × Rec), (rs.map Prod.fst).Nodup ∧
      (∀ r x, (r, x) ∈ rs ↔ ∃ s, recordOf b s = some r ∧ lookup b s = some (some x)) ∧
      b.numEntries = rs.length ∧ b.dataSize = (rs.map fun p => p.2.size).sum := by
  obtain ⟨b', h1, h⟩ := (create_binv hc).run ops
  rw [hr] at h1; simp only [Option.some.injEq] at h1; subst h1
  exact binv_accounting h

example : ∃ b0 b, create 4 = some b0 ∧ run b0 c18Ops = some b ∧ b.numEntries = 2 ∧ b.dataSize = 30 := by
  obtain ⟨b, hb, _⟩ := C16_tree_balanced (o := 4) rfl c18Ops
  refine ⟨_, b, rfl, hb, ?_⟩
  bpt_eval [c18Ops] at hb
  subst hb
  exact ⟨rfl, rfl⟩

end Sid.Props
