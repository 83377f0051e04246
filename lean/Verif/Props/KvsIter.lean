import Verif.Proof.KvsStats
/-
C96, C97: what iterating over a store reports, and the statistics of the database.
-/
namespace Sid.Props
open Sid.Kvs Sid.Spec Sid.Spec.KvStore Sid.Spec.Shape

/-! ### helpers -/

theorem beforeNull_self {c : Content} {P : Str → Prop} {all : List (Str × Got)} (h : Reports c P all) (hn : NoNulls c) :
    beforeNull all = all := by
  have hall : ∀ x ∈ all, ¬ NullRef x.2 := fun x hx => hn x.1 x.2 ((h.2 x.1 x.2).mp hx).1
  clear h
  induction all with
  | nil => rfl
  | cons x all ih =>
    have := ih fun y hy => hall y (by simp [hy])
    simp only [beforeNull] at this ⊢
    rw [List.takeWhile_cons, this]
    simp [hall x (by simp)]

theorem bpt_run {order : Nat} {b : Bpt.Bpt} (hc : Bpt.create order = some b) (ops : List Op) :
    ∃ s m L, run bptBackend (init b) ops = some s ∧ Inv BptR s m free L ∧ cont s m = after ops := by
  obtain ⟨s, m, L, h1, h2, -, h4, -⟩ := run_free bpt_lawful ops (init_inv (bpt_create hc)) rfl
  exact ⟨s, m, L, h1, h2, h4⟩

theorem hash_run {hint : Nat} {t : Hash.Table} (hc : Hash.create hint = some t) (ops : List Op) :
    ∃ s m L, run hashBackend (init t) ops = some s ∧ Inv HashR s m free L ∧ cont s m = after ops := by
  obtain ⟨s, m, L, h1, h2, -, h4, -⟩ := run_free hash_lawful ops (init_inv (hash_create hc)) rfl
  exact ⟨s, m, L, h1, h2, h4⟩

/-- what an iteration of a B+ tree reports, if the tree reports the keys for which `P` holds -/
theorem bpt_iteration {s : Store Bpt.Bpt} {m : StrMap.Map} {L : List Nat} {ops : List Op} (h : Inv BptR s m free L)
    (hc : cont s m = after ops) {P : Str → Prop} {it : Bpt.Iter} {N : Nat} {out : List (Str × Bpt.Rec)}
    (hi : ∀ fuel, N ≤ fuel → Bpt.iterAll s.back fuel it = some out) (ha : Ascending out)
    (hm : ∀ k x, (k, x) ∈ out ↔ Bpt.lookup s.back k = some (some x) ∧ P k) :
    ∃ all, ReportsInOrder (after ops) P all ∧ ∀ fuel, N ≤ fuel → iterSeen bptWalker s fuel it = some (beforeNull all) := by
  rw [← hc]
  exact bpt_seen h hi ha hm

theorem bpt_stored {b : Bpt.Bpt} {m : StrMap.Map} (h : BptR b m) {k : Str} (hk : m k ≠ none) : Bpt.lookup b k ≠ some none := by
  obtain ⟨o, h1, h2⟩ := h.lookup k
  rw [h1]
  rintro ⟨⟩
  exact hk h2

/-! ### C96 -/

/-- C96: after every history of sets and unsets, iterating over a store that keeps its keys in order reports in ascending order every key a
    get finds, with what a get returns, up to the first reference to NULL -/
theorem C96_whole {order : Nat} {b : Bpt.Bpt} (hc : Bpt.create order = some b) (ops : List Op) :
    ∃ s N all, run bptBackend (init b) ops = some s ∧ ReportsInOrder (after ops) (fun _ => True) all ∧
      ∀ fuel, N ≤ fuel → iterSeen bptWalker s fuel (bptIter none none) = some (beforeNull all) := by
  obtain ⟨s, m, L, h1, h2, h3⟩ := bpt_run hc ops
  obtain ⟨S, hb, R, hs⟩ := h2.back
  obtain ⟨N, out, g1, g2, g3⟩ := Bpt.iter_from_first hb none
  obtain ⟨all, k1, k2⟩ := bpt_iteration h2 h3 (P := fun _ => True) g1 g2 (by simp [g3, InRange])
  exact ⟨s, N, all, h1, k1, k2⟩

/-- C96: with a prefix, exactly the keys that begin with it, up to the first reference to NULL -/
theorem C96_prefix {order : Nat} {b : Bpt.Bpt} (hc : Bpt.create order = some b) (ops : List Op) (p : Str) :
    ∃ s N all, run bptBackend (init b) ops = some s ∧ ReportsInOrder (after ops) (fun k => p <+: k) all ∧
      ∀ fuel, N ≤ fuel → iterSeen bptWalker s fuel (bptPrefix p) = some (beforeNull all) := by
  obtain ⟨s, m, L, h1, h2, h3⟩ := bpt_run hc ops
  obtain ⟨S, hb, R, hs⟩ := h2.back
  obtain ⟨N, out, g1, g2, g3⟩ := Bpt.iter_prefix hb p
  obtain ⟨all, k1, k2⟩ := bpt_iteration h2 h3 (P := fun k => p <+: k) g1 g2 g3
  exact ⟨s, N, all, h1, k1, k2⟩

/-- C96 (partial).  With a range whose start is open or stored, exactly the keys from start to end, both included; all of them if none of
    the values is a reference to NULL.  Missing: a start that is not stored (see C17), and references to NULL. -/
theorem C96_range_partial {order : Nat} {b : Bpt.Bpt} (hc : Bpt.create order = some b) (ops : List Op) (start stop : Option Str)
    (hs : ∀ a, start = some a → after ops a ≠ none) (hn : NoNulls (after ops)) :
    ∃ s N out, run bptBackend (init b) ops = some s ∧ ReportsInOrder (after ops) (InRange start stop) out ∧
      ∀ fuel, N ≤ fuel → iterSeen bptWalker s fuel (bptIter start stop) = some out := by
  obtain ⟨s, m, L, h1, h2, h3⟩ := bpt_run hc ops
  obtain ⟨S, hb, R, hsg⟩ := h2.back
  have hout : ∃ N out, (∀ fuel, N ≤ fuel → Bpt.iterAll s.back fuel (bptIter start stop) = some out) ∧ Ascending out ∧
      ∀ k x, (k, x) ∈ out ↔ Bpt.lookup s.back k = some (some x) ∧ InRange start stop k := by
    cases start with
    | none => exact Bpt.iter_from_first hb stop
    | some a =>
      obtain ⟨N, out, g3, g4, g5, g6, g7⟩ := Bpt.iter_range hb a stop
      have hst : Bpt.lookup s.back a ≠ some none := by
        refine bpt_stored h2.back fun e => hs a rfl ?_
        rw [← h3]; simp [cont, e]
      exact ⟨N, out, g3, g4, fun k x => ⟨fun hm => ⟨(g5 k x hm).1, g7 hst k x hm⟩, fun hm => g6 k x hm.1 hm.2⟩⟩
  obtain ⟨N, out, g1, g2, g3⟩ := hout
  obtain ⟨all, k1, k2⟩ := bpt_iteration h2 h3 g1 g2 g3
  rw [beforeNull_self k1.2 hn] at k2
  exact ⟨s, N, all, h1, k1, k2⟩

/-- C96 (partial).  If no value is a reference to NULL, iterating reports every key a get finds, with what a get returns, in ascending
    order.  Missing: references to NULL, which end an iteration. -/
theorem C96_whole_partial {order : Nat} {b : Bpt.Bpt} (hc : Bpt.create order = some b) (ops : List Op) (hn : NoNulls (after ops)) :
    ∃ s N out, run bptBackend (init b) ops = some s ∧ ReportsInOrder (after ops) (fun _ => True) out ∧
      ∀ fuel, N ≤ fuel → iterSeen bptWalker s fuel (bptIter none none) = some out := by
  obtain ⟨s, N, all, h1, h2, h3⟩ := C96_whole hc ops
  rw [beforeNull_self h2.2 hn] at h3
  exact ⟨s, N, all, h1, h2, h3⟩

/-- C96 (partial).  The same with a prefix.  Missing: references to NULL. -/
theorem C96_prefix_partial {order : Nat} {b : Bpt.Bpt} (hc : Bpt.create order = some b) (ops : List Op) (p : Str) (hn : NoNulls (after ops)) :
    ∃ s N out, run bptBackend (init b) ops = some s ∧ ReportsInOrder (after ops) (fun k => p <+: k) out ∧
      ∀ fuel, N ≤ fuel → iterSeen bptWalker s fuel (bptPrefix p) = some out := by
  obtain ⟨s, N, all, h1, h2, h3⟩ := C96_prefix hc ops p
  rw [beforeNull_self h2.2 hn] at h3
  exact ⟨s, N, all, h1, h2, h3⟩

/-- C96 is false of the code: a key that holds a reference to NULL hides itself and every key after it, although a get finds them -/
theorem C96_counterexample_null {order : Nat} {b : Bpt.Bpt} (hc : Bpt.create order = some b) (ops : List Op) {k0 : Str} {g0 : Got}
    (h0 : after ops k0 = some g0) (hz : NullRef g0) :
    ∃ s N out, run bptBackend (init b) ops = some s ∧ (∀ fuel, N ≤ fuel → iterSeen bptWalker s fuel (bptIter none none) = some out) ∧
      ∀ k g, strLt k k0 = false → (k, g) ∉ out := by
  obtain ⟨s, N, all, h1, ⟨h2, h3⟩, h4⟩ := C96_whole hc ops
  refine ⟨s, N, _, h1, h4, ?_⟩
  have hm : (k0, g0) ∈ all := (h3.2 k0 g0).mpr ⟨h0, trivial⟩
  clear h3 h4
  induction all with
  | nil => simp [beforeNull]
  | cons y all ih =>
    intro k g hk hmem
    simp only [beforeNull, List.takeWhile_cons] at hmem
    split at hmem
    · rename_i hy
      rw [Ascending, List.pairwise_cons] at h2
      rcases List.mem_cons.mp hm with e | hm
      · subst e; simp [hz] at hy
      · rcases List.mem_cons.mp hmem with e | hmem
        · have := h2.1 _ hm
          subst e
          simp only at this
          rw [hk] at this
          cases this
        · exact ih h2.2 hm k g hk hmem
    · cases hmem

/-- C96 (partial).  A store over a hash table reports every key once, with what a get returns, if no value is a reference to NULL.
    Missing: the order, prefix and range, and references to NULL. -/
theorem C96_hash_partial {hint : Nat} {t : Hash.Table} (hc : Hash.create hint = some t) (ops : List Op) (hn : NoNulls (after ops)) :
    ∃ s N out, run hashBackend (init t) ops = some s ∧ Reports (after ops) (fun _ => True) out ∧
      ∀ fuel, N ≤ fuel → ∀ start stop, iterSeen hashWalker s fuel (hashIter start stop) = some out := by
  obtain ⟨s, m, L, h1, h2, h3⟩ := hash_run hc ops
  obtain ⟨m', R, hnz, hm, hend⟩ := h2.back
  have hk := R.keys
  have hkey : ∀ n ∈ Hash.iter s.back, ∃ k, n.key = k ++ [0] ∧ m k = some (n.data, n.len) := by
    intro n hmem
    have := (hk.2 n.key (n.data, n.len)).mp (List.mem_map_of_mem (f := fun n : Hash.Node => (n.key, n.data, n.len)) hmem)
    obtain ⟨k, e⟩ := hend _ _ this
    exact ⟨k, e, by rw [hm, ← e, this]⟩
  have hl : ∀ y ∈ Hash.iter s.back, ∃ v, s.vals y.data = some v := by
    intro y hy
    obtain ⟨k, -, e⟩ := hkey y hy
    exact h2.live k _ e (notFree _)
  have hrep : Reports (cont s m) (fun _ => True)
      (gots (withVals s ((Hash.iter s.back).map fun y => (y.key.dropLast, y.data)))) := by
    refine reports h2 ?_ ?_
    · rw [List.map_map]
      have h4 := hk.1
      rw [List.map_map] at h4
      have h5 : (Hash.iter s.back).Pairwise fun a b => a.key ≠ b.key := List.pairwise_map.mp h4
      refine List.pairwise_map.mpr (List.Pairwise.imp_of_mem ?_ h5)
      intro a b ha hb hab e
      obtain ⟨k1, e1, -⟩ := hkey a ha
      obtain ⟨k2, e2, -⟩ := hkey b hb
      simp only [Function.comp_apply, e1, e2, List.dropLast_concat] at e
      exact hab (by rw [e1, e2, e])
    · intro k id
      simp only [List.mem_map, Prod.mk.injEq, and_true]
      constructor
      · rintro ⟨n, hmem, e1, rfl⟩
        obtain ⟨k', e2, e3⟩ := hkey n hmem
        rw [e2, List.dropLast_concat] at e1
        exact ⟨n.len, by rw [← e1]; exact e3⟩
      · rintro ⟨n, e⟩
        rw [hm] at e
        obtain ⟨y, hy, e1⟩ := List.mem_map.mp ((hk.2 _ _).mpr e)
        simp only [Prod.mk.injEq] at e1
        exact ⟨y, hy, by rw [e1.1, List.dropLast_concat], e1.2.1⟩
  rw [h3] at hrep
  refine ⟨s, s.back.numNodes + 1, _, h1, hrep, ?_⟩
  intro fuel hf start stop
  obtain ⟨f, rfl⟩ : ∃ f, fuel = f + 1 := ⟨fuel - 1, by omega⟩
  rw [iterSeen, hashIter, hash_loop f none _ _ rfl (Hash.walk_all R.1 (by omega)) hl, Option.map_some]
  show some (gots (untilNull _)) = _
  rw [gots_untilNull, beforeNull_self hrep hn]

/-- C96 is false of a store over a hash table: a prefix is not looked at, keys that do not begin with it are reported as well -/
theorem C96_counterexample_hash {hint : Nat} {t : Hash.Table} (hc : Hash.create hint = some t) (ops : List Op) (hn : NoNulls (after ops))
    (p : Str) {k : Str} {g : Got} (hk : after ops k = some g) :
    ∃ s N out, run hashBackend (init t) ops = some s ∧ (∀ fuel, N ≤ fuel → iterSeen hashWalker s fuel (hashPrefix p) = some out) ∧
      (k, g) ∈ out := by
  obtain ⟨s, N, out, h1, h2, h3⟩ := C96_hash_partial hc ops hn
  exact ⟨s, N, out, h1, fun fuel hf => h3 fuel hf none none, (h2.2 k g).mpr ⟨hk, trivial⟩⟩

/-- a history: two keys, one of them given with leading white space, a third one set and unset -/
def c96Ops : List Op :=
  [.set [98, 49] none none { ptr := 9, items := [[1, 2]] }, .set [32, 97] none none { ref := true, ptr := 5, items := [[1, 2, 3]] },
   .set [98] none none { ptr := 9, items := [[7]] }, .unset [98] none none]

theorem c96_after : after c96Ops = fun k => if k = [97] then some ⟨.refd 5, 3, false, true, false⟩
    else if k = [98, 49] then some ⟨.copied [[1, 2]], 2, false, false, false⟩ else none := by
  funext k
  simp only [after, c96Ops, List.foldl_cons, List.foldl_nil, KvStore.step, verdict, unsetVerdict, keep]
  by_cases h1 : k = [97]
  · subst h1; rfl
  · by_cases h2 : k = [98, 49]
    · subst h2; rfl
    · by_cases h3 : k = [98]
      · subst h3; rfl
      · simp [trim, put, nothing, h1, h2, h3]

example : NoNulls (after c96Ops) ∧ after c96Ops [97] ≠ none ∧ after c96Ops [98, 49] ≠ none := by
  rw [c96_after]
  refine ⟨?_, by simp, by simp⟩
  intro k g hk
  simp only at hk
  split at hk
  · cases hk; simp [NullRef, Payload.ptr]
  · split at hk
    · cases hk; simp [NullRef]
    · cases hk

/-- a history with a reference to NULL, then another key after it -/
example : ∃ g0 g1, after [.set [97] none none { ref := true, ptr := 0, items := [[1]] }, .set [98] none none { ptr := 4, items := [[2]] }] [97] = some g0 ∧
    NullRef g0 ∧ after [.set [97] none none { ref := true, ptr := 0, items := [[1]] }, .set [98] none none { ptr := 4, items := [[2]] }] [98] = some g1 ∧
    strLt [98] [97] = false :=
  ⟨⟨.refd 0, 1, false, true, false⟩, ⟨.copied [[2]], 1, false, false, false⟩, rfl, ⟨rfl, rfl⟩, rfl, by decide⟩

/-! ### C97 -/

/-- the statistics and the size counted by the tree, for a store in which no merged references were put -/
theorem stats_of_run {order : Nat} {b : Bpt.Bpt} (hc : Bpt.create order = some b) (ops : List Op) (hm : NoMergedRefs ops)
    (mem : Nat → List Bytes) :
    ∃ s N all, run bptBackend (init b) ops = some s ∧ ReportsInOrder (after ops) (fun _ => True) all ∧
      s.back.dataSize = (statsOf mem all).int ∧
      ∀ fuel, N ≤ fuel → writeStats mem s fuel =
        some (statsOf mem (beforeNull all), (statsOf mem (beforeNull all)).int != (statsOf mem all).int) := by
  obtain ⟨s, m, L, h1, h2, h3⟩ := bpt_run hc ops
  obtain ⟨m2, hz⟩ := (sz_init (bpt_create hc)).run bpt_lawful hm h1
  have hmm : m2 = m := by
    funext k
    have e1 := bpt_lawful.look k hz.back
    have e2 := bpt_lawful.look k h2.back
    rw [e1] at e2
    exact Option.some.inj e2
  subst hmm
  obtain ⟨S, hb, R, hs⟩ := h2.back
  obtain ⟨N, out, g1, g2, g3⟩ := Bpt.iter_from_first hb none
  have g3' : ∀ k x, (k, x) ∈ out ↔ Bpt.lookup s.back k = some (some x) := by simp [g3, InRange]
  obtain ⟨p1, p2⟩ := bpt_pairs h2.back (P := fun _ => True) g2 (by simpa using g3')
  have hl : ∀ y ∈ out.map fun y => (y.1, y.2.data), ∃ v, s.vals y.2 = some v := by
    rintro ⟨k, id⟩ hy
    obtain ⟨⟨n, e⟩, -⟩ := (p2 k id).mp hy
    exact h2.live k _ e (notFree _)
  have hwf : ∀ x ∈ withVals s (out.map fun y => (y.1, y.2.data)), WfVal x.2 := by
    rintro ⟨k, v⟩ hx
    obtain ⟨id, -, e⟩ := mem_withVals.mp hx
    exact (hz.good.vals id v e).2
  have hsum : s.back.dataSize = (statsOf mem (gots (withVals s (out.map fun y => (y.1, y.2.data))))).int := by
    rw [tree_size h2.back g2 g3']
    have hfit : ∀ y ∈ out, ∃ v, s.vals y.2.data = some v ∧ y.2.size = (memoryOf mem v.got).int := by
      rintro ⟨k, x⟩ hy
      obtain ⟨v, hv⟩ := hl (k, x.data) (List.mem_map_of_mem (f := fun y : Str × Bpt.Rec => (y.1, y.2.data)) hy)
      obtain ⟨o, l1, l2⟩ := h2.back.lookup k
      rw [(g3' k x).mp hy] at l1
      cases l1
      have := (hz.fits k _ l2).2.2 v hv
      exact ⟨v, hv, by rw [int_memory mem (hz.good.vals _ v hv).2]; exact this⟩
    clear g1 g2 g3 g3' p1 p2 hl hwf
    simp only [statsOf, gots, List.map_map]
    congr 1
    induction out with
    | nil => rfl
    | cons y out ih =>
      obtain ⟨v, hv, e⟩ := hfit y (by simp)
      simp only [List.map_cons]
      rw [withVals_cons hv, List.map_cons, ← ih fun z hz => hfit z (by simp [hz]), e]
      rfl
  refine ⟨s, N, gots (withVals s (out.map fun y => (y.1, y.2.data))), h1, ?_, hsum, ?_⟩
  · rw [← h3]
    exact ⟨asc_gots g2 hl, reports h2 p1 p2⟩
  · intro fuel hf
    rw [writeStats, show bptIter none none = ⟨false, none, none, none, 0⟩ from rfl,
      bpt_loop fuel _ out (g1 fuel hf) fun y hy => hl _ (List.mem_map_of_mem hy), Option.map_some]
    rw [stats_foldl mem (untilNull _) {} fun x hx => hwf x (List.takeWhile_subset _ hx), gots_untilNull]
    simp only [Nat.zero_add, hsum]

/-- C97 (partial).  After every history in which no vector is given by reference and merged, and which leaves no reference to NULL, the
    statistics count every key with its NUL and the memory of every value, and agree with the size the store itself has counted.  Missing:
    merged references, references to NULL. -/
theorem C97_statistics_partial {order : Nat} {b : Bpt.Bpt} (hc : Bpt.create order = some b) (ops : List Op) (hm : NoMergedRefs ops)
    (hn : NoNulls (after ops)) (mem : Nat → List Bytes) :
    ∃ s N all, run bptBackend (init b) ops = some s ∧ ReportsInOrder (after ops) (fun _ => True) all ∧
      s.back.dataSize = (statsOf mem all).int ∧ ∀ fuel, N ≤ fuel → writeStats mem s fuel = some (statsOf mem all, false) := by
  obtain ⟨s, N, all, h1, h2, h3, h4⟩ := stats_of_run hc ops hm mem
  rw [beforeNull_self h2.2 hn] at h4
  simp only [bne_self_eq_false] at h4
  exact ⟨s, N, all, h1, h2, h3, h4⟩

theorem int_pos (mem : Nat → List Bytes) (g : Got) : 0 < (memoryOf mem g).int := by
  obtain ⟨d, n, v, r, a⟩ := g
  cases d <;> simp only [memoryOf]
  · omega
  · split <;> simp
  · omega

theorem sum_takeWhile_lt {α : Type} (f : α → Nat) (p : α → Bool) : ∀ (l : List α), (∀ x, 0 < f x) → (∃ x ∈ l, p x = false) →
    ((l.takeWhile p).map f).sum < (l.map f).sum
  | [], _, ⟨x, hx, _⟩ => by cases hx
  | y :: l, hf, ⟨x, hx, hp⟩ => by
    rw [List.takeWhile_cons]
    split
    · rename_i hy
      have hxl : x ∈ l := by
        rcases List.mem_cons.mp hx with rfl | h
        · rw [hy] at hp; cases hp
        · exact h
      have := sum_takeWhile_lt f p l hf ⟨x, hxl, hp⟩
      simp only [List.map_cons, List.sum_cons]
      omega
    · have := hf y
      simp only [List.map_cons, List.map_nil, List.sum_cons, List.sum_nil]
      omega

/-- C97 is false of the code: with a reference to NULL in the store the statistics are of a part of it, and a mismatch is logged -/
theorem C97_counterexample_null {order : Nat} {b : Bpt.Bpt} (hc : Bpt.create order = some b) (ops : List Op) (hm : NoMergedRefs ops)
    {k0 : Str} {g0 : Got} (h0 : after ops k0 = some g0) (hz : NullRef g0) (mem : Nat → List Bytes) :
    ∃ s N st all, run bptBackend (init b) ops = some s ∧ ReportsInOrder (after ops) (fun _ => True) all ∧
      st.int < (statsOf mem all).int ∧ ∀ fuel, N ≤ fuel → writeStats mem s fuel = some (st, true) := by
  obtain ⟨s, N, all, h1, h2, h3, h4⟩ := stats_of_run hc ops hm mem
  have hlt : (statsOf mem (beforeNull all)).int < (statsOf mem all).int :=
    sum_takeWhile_lt (fun x : Str × Got => (memoryOf mem x.2).int) _ all (fun x => int_pos mem x.2)
      ⟨(k0, g0), (h2.2.2 k0 g0).mpr ⟨h0, trivial⟩, by simp [hz]⟩
  refine ⟨s, N, _, all, h1, h2, hlt, ?_⟩
  intro fuel hf
  rw [h4 fuel hf]
  have : ((statsOf mem (beforeNull all)).int != (statsOf mem all).int) = true := by
    rw [bne_iff_ne]; omega
  rw [this]

/-- C97 is false of the code: a vector given by reference and merged is counted as memory of the store, which has counted the pointer
    only; a mismatch is logged -/
theorem C97_counterexample_merged {order : Nat} {b : Bpt.Bpt} (hc : Bpt.create order = some b) {k : Str} (hk : k ≠ []) (i : Input)
    (hv : i.vec = true) (hr : i.ref = true) (hm : i.merge = true) (hp : i.ptr ≠ 0) (hi : total i.items ≠ 0) (mem : Nat → List Bytes) :
    ∃ s N st, run bptBackend (init b) [.set k none none i] = some s ∧ st.int = s.back.dataSize + total i.items ∧
      ∀ fuel, N ≤ fuel → writeStats mem s fuel = some (st, true) := by
  have hb := bpt_create hc
  obtain ⟨b', u1, u2⟩ := bpt_lawful.update (canon k) (fun _ => .write 1 24) hb (by rintro _ d n ⟨⟩; simp)
  have hvs : valSize i = 24 := by simp [valSize, hr]
  have hcr : createVal i = ⟨i.items.length, true, true, true, i.auto, .merged i.ptr i.items⟩ := by simp [createVal, hv, hr, hm]
  have hrun : run bptBackend (init b) [.set k none none i] = some (withBack (create (init b) i) b') := by
    simp only [run, Kvs.step, kvsSet, if_neg hk, setValue]
    have hl : bptBackend.look (create (init b) i).back (canon k) = some none := bpt_lawful.look (canon k) hb
    rw [hl]
    simp only [Option.bind_some, callSet, Option.map_none, dropOld, create, alloc, init, destroy?, hvs, archive]
    rw [if_neg (by simp)]
    simp only [Option.isSome_none, Bool.false_eq_true, if_false, Option.bind_some]
    rw [u1]
    rfl
  obtain ⟨S, hbv, R, hs⟩ := id u2
  obtain ⟨N, out, g1, g2, g3⟩ := Bpt.iter_from_first hbv none
  have hmem : ∀ k' x, (k', x) ∈ out ↔ Bpt.lookup b' k' = some (some x) := by simp [g3, InRange]
  have hput : ∀ k', StrMap.step (fun _ => none) (.update (canon k) fun _ => .write 1 24) k' = if k' = canon k then some (1, 24) else none :=
    fun _ => rfl
  obtain ⟨x, hx, hd, hsz⟩ : ∃ x, Bpt.lookup b' (canon k) = some (some x) ∧ x.data = 1 ∧ x.size = 24 := by
    obtain ⟨o, l1, l2⟩ := BptR.lookup u2 (canon k)
    rw [hput, if_pos rfl] at l2
    cases o with
    | none => cases l2
    | some x =>
      simp only [Option.map_some, Option.some.injEq, Prod.mk.injEq] at l2
      exact ⟨x, l1, l2.1.symm, l2.2.symm⟩
  have hkey : ∀ y ∈ out, y = (canon k, x) := by
    rintro ⟨k', y⟩ hy
    have hly := (hmem k' y).mp hy
    obtain ⟨o, l1, l2⟩ := BptR.lookup u2 k'
    rw [hly] at l1
    cases l1
    rw [hput] at l2
    split at l2
    · rename_i e
      subst e
      rw [hly] at hx
      cases hx
      rfl
    · cases l2
  have hout : out = [(canon k, x)] := by
    have h0 := (hmem (canon k) x).mpr hx
    cases out with
    | nil => cases h0
    | cons y out =>
      cases out with
      | nil => rw [hkey y (by simp)]
      | cons z out =>
        have := (List.pairwise_cons.mp g2).1 z (by simp)
        rw [hkey y (by simp), hkey z (by simp), strLt_irrefl] at this
        cases this
  subst hout
  have hval : (withBack (create (init b) i) b').vals x.data = some (createVal i) := by rw [hd]; rfl
  have hsize : b'.dataSize = 24 := by
    rw [tree_size u2 g2 hmem]; simp [hsz]
  refine ⟨_, N, (addStats mem {} (canon k, createVal i)), hrun, ?_, ?_⟩
  · show _ = b'.dataSize + _
    rw [hsize, hcr]
    simp [addStats, currentSize, dataSizes, itemsOf, total, List.length_flatten]
    omega
  · intro fuel hf
    rw [writeStats, show bptIter none none = ⟨false, none, none, none, 0⟩ from rfl,
      bpt_loop fuel _ [(canon k, x)] (g1 fuel hf) (by simpa using ⟨_, hval⟩), Option.map_some]
    have hnn : nullData (createVal i) = false := by simp [hcr, nullData, Payload.ptr, hp]
    simp only [List.map_cons, List.map_nil]
    rw [withVals_cons hval, untilNull_cons, hnn]
    simp only [Bool.false_eq_true, if_false, withVals, List.filterMap_nil, untilNull, List.takeWhile_nil, List.foldl_cons, List.foldl_nil]
    have : ((addStats mem {} (canon k, createVal i)).int != (withBack (create (init b) i) b').back.dataSize) = true := by
      rw [bne_iff_ne]
      show _ ≠ b'.dataSize
      rw [hsize, hcr]
      simp [addStats, currentSize, dataSizes, itemsOf, total, List.length_flatten] at hi ⊢
      omega
    rw [this]

example : NoMergedRefs c96Ops ∧ total [[1, 2], [3]] ≠ 0 := by
  refine ⟨?_, by decide⟩
  intro op hop i hi
  simp only [c96Ops, List.mem_cons, List.not_mem_nil, or_false] at hop
  rcases hop with rfl | rfl | rfl | rfl <;> simp [Gives] at hi <;> subst hi <;> simp

end Sid.Props
