import Verif.Proof.BpMemDel
import Verif.Proof.BpStep
/-
Memory of the B+ tree: whole calls.
-/
namespace Sid.Bpt
open Sid.Spec.BpMem

/-- tree and memory fit -/
structure MInv (z : Sizes) (b : Bpt) (m : Mem) : Prop where
  tree : BInv b
  ok : MetaOk z b.order m
  keys : MemKeys m (placesOf b)
  pool : m.pool = 0
  nodes : m.nodes = nodesOf b
  recs : m.recs = b.numEntries

theorem places_keys {b} (h : RootOk b) (k : K) : placesOf b k ≠ 0 ↔ k ∈ keysOf b := by
  simp only [placesOf, keysOf]
  cases e : b.root with
  | none => simp
  | some t => obtain ⟨_, w⟩ := (h t e).wf; exact w.places k

theorem placesOf_root {b b' : Bpt} (h : b'.root = b.root) : placesOf b' = placesOf b := by
  funext k; simp only [placesOf, h]

theorem nodesOf_root {b b' : Bpt} (h : b'.root = b.root) : nodesOf b' = nodesOf b := by simp only [nodesOf, h]

/-! ### answers of malloc -/

/-- no answer to come is a failure -/
def Plenty (m : Mem) : Prop := false ∉ m.answers

theorem malloc_nil {m} (h : Plenty m) : ∃ m', malloc m = (true, m') ∧ Plenty m' := by
  simp only [malloc]
  cases ha : m.answers with
  | nil => exact ⟨_, rfl, by simp [Plenty]⟩
  | cons a as =>
    simp only [Plenty, ha, List.mem_cons, not_or] at h
    cases a with
    | true => exact ⟨_, rfl, h.2⟩
    | false => exact absurd rfl h.1

theorem makeKey_nil {z k m} (h : Plenty m) : ∃ m', makeKey z k m = (true, m') ∧ Plenty m' := by
  obtain ⟨m1, h1, g1⟩ := malloc_nil h
  obtain ⟨m2, h2, g2⟩ := malloc_nil g1
  simp only [makeKey, h1, h2]
  exact ⟨_, rfl, g2⟩

theorem mallocRec_nil {z m} (h : Plenty m) : ∃ m', mallocRec z m = (true, m') ∧ Plenty m' := by
  obtain ⟨m1, h1, g1⟩ := malloc_nil h
  simp only [mallocRec, h1]
  exact ⟨_, rfl, g1⟩

theorem makeNode_nil {z o m} (h : Plenty m) : ∃ m', makeNode z o m = (true, m') ∧ Plenty m' := by
  obtain ⟨m1, h1, g1⟩ := malloc_nil h
  obtain ⟨m2, h2, g2⟩ := malloc_nil g1
  obtain ⟨m3, h3, g3⟩ := malloc_nil g2
  simp only [makeNode, h1, h2, h3]
  exact ⟨_, rfl, g3⟩

theorem makeNodes_nil {z o n} : ∀ {made m}, Plenty m → ∃ m', makeNodes z o n made m = (true, m') ∧ Plenty m' := by
  induction n with
  | zero => intro made m h; exact ⟨_, rfl, h⟩
  | succ n ih =>
    intro made m h
    obtain ⟨m1, h1, h2⟩ := makeNode_nil (z := z) (o := o) h
    obtain ⟨m', h3, h4⟩ := ih (made := made + 1) h2
    exact ⟨m', by simp only [makeNodes, h1]; exact h3, h4⟩

theorem refKey_answers {k m m'} (h : refKey k m = some m') : m'.answers = m.answers := by
  simp only [refKey, Option.map_eq_some_iff] at h
  obtain ⟨n, _, rfl⟩ := h; rfl

theorem unrefKey_answers {z k m m'} (h : unrefKey z k m = some m') : m'.answers = m.answers := by
  simp only [unrefKey] at h
  split at h
  · simp at h
  · simp at h
  · split at h <;> (simp only [Option.some.injEq] at h; subst h; rfl)

theorem exec_answers {z o e m m'} (h : exec z o m e = some m') : m'.answers = m.answers := by
  cases e with
  | ref k => exact refKey_answers h
  | unref k => exact unrefKey_answers h
  | take =>
    simp only [exec] at h
    split at h
    · simp at h
    · simp only [Option.some.injEq] at h; subst h; rfl
  | rm => simp only [exec, Option.some.injEq] at h; subst h; rfl

theorem execs_answers {z o E} : ∀ {m m'}, execs z o E m = some m' → m'.answers = m.answers := by
  induction E with
  | nil => intro m m' h; simp only [execs, Option.some.injEq] at h; subst h; rfl
  | cons e E ih =>
    intro m m' h
    simp only [execs] at h
    split at h
    · simp at h
    · rename_i m1 h1
      rw [ih h, exec_answers h1]

/-! ### more on what is allocated -/

theorem MetaOk.newKey {z o m m' k} (h : MetaOk z o m) (hk : m.keys k = none)
    (e : Eqv { setKey m k (some 0) with metaSize := m.metaSize + keySize z k, blocks := m.blocks + 2 } m') : MetaOk z o m' := by
  obtain ⟨D, h1, h2, h3, h4⟩ := h
  have hnot : k ∉ D := by rw [h2, hk]; simp
  refine ⟨k :: D, List.nodup_cons.mpr ⟨hnot, h1⟩, fun j => ?_, ?_, ?_⟩
  · rw [e.keys]
    simp only [setKey, List.mem_cons]
    by_cases ej : j = k
    · simp [ej]
    · simp [ej, h2]
  · rw [e.metaSize, e.nodes, e.recs]; simp only [setKey, h3, List.map_cons, List.sum_cons]; push_cast; omega
  · rw [e.blocks, e.nodes, e.recs]; simp only [setKey, h4, List.length_cons]; push_cast; omega

theorem MetaOk.newNodes {z o m m'} {n p : Nat} (h : MetaOk z o m)
    (e : Eqv { m with metaSize := m.metaSize + n * nodeSize z o, nodes := m.nodes + n, blocks := m.blocks + 3 * n, pool := p } m') : MetaOk z o m' := by
  obtain ⟨D, h1, h2, h3, h4⟩ := h
  refine ⟨D, h1, by rw [e.keys]; exact h2, ?_, ?_⟩
  · rw [e.metaSize, e.nodes, e.recs]; simp only [h3, Int.add_mul]; omega
  · rw [e.blocks, e.nodes, e.recs]; simp only [h4]; omega

theorem mallocRec_true {z m m'} (h : mallocRec z m = (true, m')) :
    Eqv { m with metaSize := m.metaSize + z.rcd, recs := m.recs + 1, blocks := m.blocks + 1 } m' := by
  simp only [mallocRec] at h
  split at h
  · simp at h
  · rename_i m1 h1
    have e1 := malloc_true h1
    simp only [Prod.mk.injEq, true_and] at h; subst h
    constructor <;> simp only [e1.blocks, e1.keys, e1.pool, e1.metaSize, e1.nodes, e1.recs]

theorem mallocRec_false {z m m'} (h : mallocRec z m = (false, m')) : Eqv m m' := by
  simp only [mallocRec] at h
  split at h
  · rename_i m1 h1
    simp only [Prod.mk.injEq, true_and] at h; subst h
    exact malloc_false h1
  · simp at h

theorem MetaOk.newRec {z o m m'} (h : MetaOk z o m)
    (e : Eqv { m with metaSize := m.metaSize + z.rcd, recs := m.recs + 1, blocks := m.blocks + 1 } m') : MetaOk z o m' := by
  obtain ⟨D, h1, h2, h3, h4⟩ := h
  refine ⟨D, h1, by rw [e.keys]; exact h2, ?_, ?_⟩
  · rw [e.metaSize, e.nodes, e.recs]; simp only [h3, Int.add_mul]; omega
  · rw [e.blocks, e.nodes, e.recs]; simp only [h4]; omega

/-! ### insertion -/

/-- memory before the nodes of an insertion are made: the new key is there, nothing refers to it -/
structure Before (z : Sizes) (b : Bpt) (s : Str) (m : Mem) : Prop where
  ok : MetaOk z b.order m
  fresh : m.keys ⟨b.nextId, s⟩ = some 0
  keys : ∀ k, k ≠ ⟨b.nextId, s⟩ → m.keys k = if placesOf b k = 0 then none else some (placesOf b k)
  pool : m.pool = 0
  nodes : m.nodes = nodesOf b

/-- outcome of an insertion: no memory and nothing changed, or memory fits the new tree -/
def InsOut (z : Sizes) (b : Bpt) (s : Str) (r : Nat) (m : Mem) (x : Bool × Mem) : Prop :=
  (x.1 = false ∧ Eqv m x.2 ∧ ¬ Plenty m) ∨
  (x.1 = true ∧ MetaOk z b.order x.2 ∧ x.2.pool = 0 ∧ x.2.recs = m.recs ∧ (Plenty m → Plenty x.2) ∧
    ∀ b1 b', b1.root = b.root → b1.order = b.order → b1.nextId = b.nextId → insert b1 s r = some b' →
      MemKeys x.2 (placesOf b') ∧ x.2.nodes = nodesOf b')

theorem insertMem_spec {z b s r m} (ho : 4 ≤ b.order) (ht : RootOk b) (hs : ∀ k ∈ keysOf b, k.str ≠ s) (hm : Before z b s m) :
    ∃ x, insertMem z b s r m = some x ∧ InsOut z b s r m x := by
  simp only [insertMem]
  cases e : b.root with
  | none =>
    cases hn : makeNode z b.order m with
    | mk ok m1 =>
      cases ok with
      | false =>
        refine ⟨_, rfl, .inl ⟨rfl, makeNode_false hn, ?_⟩⟩
        intro ha
        obtain ⟨m2, h2, _⟩ := makeNode_nil (z := z) (o := b.order) ha
        rw [hn] at h2; simp at h2
      | true =>
        have e1 := makeNode_true hn
        have hk : m1.keys ⟨b.nextId, s⟩ = some 0 := by rw [e1.keys]; exact hm.fresh
        have ok1 : MetaOk z b.order m1 := by
          refine hm.ok.newNodes (n := 1) (p := m.pool) ?_
          have : ((1 : Nat) : Int) * (nodeSize z b.order : Int) = nodeSize z b.order := by simp
          constructor
          · rw [e1.blocks]; simp
          · exact e1.keys
          · exact e1.pool
          · rw [e1.metaSize]; simp
          · rw [e1.nodes]; simp
          · exact e1.recs
        simp only [refKey, hk, Option.map_some]
        refine ⟨_, rfl, .inr ⟨rfl, ok1.upd hk, ?_, ?_, ?_, ?_⟩⟩
        · simp only [setKey]; rw [e1.pool]; exact hm.pool
        · simp only [setKey]; rw [e1.recs]
        · intro ha
          obtain ⟨m2, h2, h3⟩ := makeNode_nil (z := z) (o := b.order) ha
          rw [hn] at h2
          simp only [Prod.mk.injEq, true_and] at h2
          simp only [setKey]; rw [h2]; exact h3
        · intro b1 b' f1 f2 f3 hi
          rw [e] at f1
          simp only [insert, f1, Option.some.injEq] at hi
          subst hi
          refine ⟨?_, ?_⟩
          · intro k
            simp only [setKey, placesOf, placesIn, weigh_leaf, f3]
            by_cases ek : k = ⟨b.nextId, s⟩
            · subst ek; simp
            · rw [if_neg ek, e1.keys]
              have := hm.keys k ek
              simp only [placesOf, e] at this
              simp only at this ⊢
              rw [this]
              have : ([⟨b.nextId, s⟩] : List K).count k = 0 := by
                rw [List.count_eq_zero]; simpa using ek
              rw [this]; rfl
          · simp only [setKey, nodesOf, nodesIn, weigh_leaf]
            rw [e1.nodes]
            have := hm.nodes
            simp only [nodesOf, e] at this
            simp [this]
  | some t =>
    have tok := ht t e
    obtain ⟨h, w⟩ := tok.wf
    obtain ⟨path, l, LA, LB, hf, go⟩ := findLeaf_goes w s
    simp only [hf]
    have hkk : keysOf b = tkeys t := by simp [keysOf, e]
    rw [hkk] at hs
    have go' : Goes (⟨b.nextId, s⟩ : K).str t path l LA LB := go
    -- what is known of the steps, for counting nodes and for counting keys
    have spec : ∀ {g a n}, Weight g a n → ∃ res new, insertAt b.order (b.nextId + 1) ⟨b.nextId, s⟩ r path t = some res ∧
        NewLeaves b.order (b.nextId + 1) ⟨b.nextId, s⟩ r l new ∧ InsOk b.order h (numKeys t) (LA ++ new ++ LB) res ∧
        InsMem g a n ((LA ++ new ++ LB).flatMap Leaf.keys) (weigh g t) (neededUp b.order path t) res
          (insEv b.order (b.nextId + 1) ⟨b.nextId, s⟩ r path t) :=
      fun wg => insertAt_mem wg ho go' w (fun _ => tok.ne) tok.sorted hs
    obtain ⟨res, new, hi, hnew, hok, him⟩ := spec weight_one
    cases hn : makeNodes z b.order (needed b.order path t) 0 m with
    | mk ok m1 =>
      cases ok with
      | false =>
        refine ⟨_, rfl, .inl ⟨rfl, ?_, ?_⟩⟩
        · have e1 := makeNodes_false hn
          constructor
          · rw [e1.blocks]; simp
          · exact e1.keys
          · exact e1.pool
          · rw [e1.metaSize]; simp
          · rw [e1.nodes]; simp
          · exact e1.recs
        · intro ha
          obtain ⟨m2, h2, _⟩ := makeNodes_nil (z := z) (o := b.order) (n := needed b.order path t) (made := 0) ha
          rw [hn] at h2; simp at h2
      | true =>
        have e1 := makeNodes_true hn
        simp only [Nat.zero_add] at e1
        have ok1 : MetaOk z b.order m1 := hm.ok.newNodes e1
        simp only
        -- all references taken first, of keys that are there
        let pre := (insEv b.order (b.nextId + 1) ⟨b.nextId, s⟩ r path t).1 ++ rootEv (some res)
        let post := (insEv b.order (b.nextId + 1) ⟨b.nextId, s⟩ r path t).2
        have hevs : insEvs b.order (b.nextId + 1) ⟨b.nextId, s⟩ r path t = pre ++ post := by simp only [insEvs, hi, pre, post]
        have hKnew : (LA ++ new ++ LB).flatMap Leaf.keys = LA.flatMap Leaf.keys ++ l.keys.insertIdx (insPoint l.keys s) ⟨b.nextId, s⟩ ++ LB.flatMap Leaf.keys := by
          simp only [List.flatMap_append, hnew.keys]
        have hKin : ∀ k, k ∈ (LA ++ new ++ LB).flatMap Leaf.keys ↔ k = ⟨b.nextId, s⟩ ∨ k ∈ tkeys t := by
          intro k
          rw [hKnew, insertIdx_eq _ _ _ (insPoint_le _ _), go.fl_eq]
          conv => rhs; rhs; rw [← List.take_append_drop (insPoint l.keys s) l.keys]
          simp only [List.mem_append, List.mem_cons]
          constructor
          · rintro ((h | h | h | h) | h) <;> simp [h]
          · rintro (h | (h | h | h) | h) <;> simp [h]
        have hlive : ∀ k, k ∈ (LA ++ new ++ LB).flatMap Leaf.keys → ∃ n, m1.keys k = some n := by
          intro k hk
          rw [e1.keys]
          by_cases ek : k = ⟨b.nextId, s⟩
          · exact ⟨0, by rw [ek]; exact hm.fresh⟩
          · rcases (hKin k).mp hk with h | h
            · exact absurd h ek
            · have hp := (w.places k).mpr h
              simp only
              rw [hm.keys k ek]
              refine ⟨placesOf b k, ?_⟩
              rw [if_neg]; simp only [placesOf, e]; exact hp
        have htakes : takes pre = needed b.order path t := by
          have hc := him.count
          simp only [needed, hc, pre, takes_append]
          cases res with
          | fits t' => simp [rootEv, isSplit, takes]
          | split a k c => simp [rootEv, isSplit, takes]
        have hpre : ∀ e ∈ pre, e = .take ∨ ∃ k n, e = .ref k ∧ m1.keys k = some n := by
          intro ev hev
          rcases List.mem_append.mp hev with hev | hev
          · rcases him.pre ev hev with h | ⟨k, hk, h⟩
            · exact .inl h
            · obtain ⟨n, hn⟩ := hlive k hk
              exact .inr ⟨k, n, h, hn⟩
          · cases res with
            | fits t' => simp [rootEv] at hev
            | split a k c =>
              simp only [rootEv, List.mem_cons, List.not_mem_nil, or_false] at hev
              rcases hev with h | h
              · exact .inl h
              · obtain ⟨_, _, _, _, hlk, hl'⟩ := hok
                obtain ⟨n, hn⟩ := hlive k (by
                  rw [← hl', List.flatMap_append, List.mem_append]
                  exact .inl (List.mem_of_getLast? hlk))
                exact .inr ⟨k, n, h, hn⟩
        obtain ⟨m2, x1, x2, x3, x4, x5⟩ := execs_refs (z := z) (o := b.order) hpre (by rw [htakes, e1.pool]; exact Nat.le_refl _)
        -- number of places afterwards
        have hroot : ∀ k, placesIn k (growRoot res) + post.count (.unref k) = placesIn k t + pre.count (.ref k) := by
          intro k
          obtain ⟨res2, new2, hi2, _, _, him2⟩ := spec (weight_count k)
          rw [hi] at hi2
          simp only [Option.some.injEq] at hi2
          subst hi2
          have hw := him2.weight
          rw [refW_count, unW_count] at hw
          simp only [pre, post, List.count_append]
          cases res with
          | fits t' =>
            simp only [insW, growRoot, placesIn, rootEv, List.count_nil] at hw ⊢
            omega
          | split a j c =>
            simp only [insW, growRoot, placesIn, rootEv, weigh_node, List.map_cons, List.map_nil, List.sum_cons, List.sum_nil, List.count_cons,
              List.count_nil] at hw ⊢
            by_cases ej : j = k
            · subst ej; simp; omega
            · simp [ej]; omega
        have hwf' : ∃ h', Wf b.order h' (growRoot res) := by
          cases res with
          | fits t' => exact ⟨h, hok.1⟩
          | split a k c =>
            obtain ⟨wa, wc, na, nc, hka, _⟩ := hok
            refine ⟨h + 1, .node h _ _ ?_ (by simp only [List.length_cons, List.length_nil]; omega) ?_ ?_⟩
            · rw [seps_cons]; exact ⟨hka, by rw [seps_one]⟩
            · simp [wa, wc]
            · simp [na, nc]
        have hleaves : tkeys (growRoot res) = (LA ++ new ++ LB).flatMap Leaf.keys := by
          cases res with
          | fits t' => simp only [fl, growRoot]; rw [hok.2.2]
          | split a k c => simp only [growRoot]; rw [← hok.2.2.2.2.2, fl_node]; simp [fl]
        obtain ⟨h', w'⟩ := hwf'
        have hplbk : placesIn ⟨b.nextId, s⟩ t = 0 := by
          apply Classical.byContradiction
          intro hh
          exact hs _ ((w.places _).mp hh) rfl
        have hm1k : ∀ k ∈ (LA ++ new ++ LB).flatMap Leaf.keys, m1.keys k = some (placesIn k t) := by
          intro k hk
          rw [e1.keys]
          by_cases ek : k = ⟨b.nextId, s⟩
          · rw [ek, hplbk]; exact hm.fresh
          · rcases (hKin k).mp hk with h | h
            · exact absurd h ek
            · have hp := (w.places k).mpr h
              simp only
              rw [hm.keys k ek, if_neg]
              · simp only [placesOf, e]
              · simp only [placesOf, e]; exact hp
        have hpost : ∀ e ∈ post, ∃ k n, e = .unref k ∧ m2.keys k = some n ∧ post.count (.unref k) < n := by
          intro ev hev
          obtain ⟨k, hk, h⟩ := him.post ev hev
          refine ⟨k, _, h, by rw [x3, hm1k k hk]; rfl, ?_⟩
          have h1 := hroot k
          have h2 := (w'.places k).mpr (by rw [hleaves]; exact hk)
          simp only; omega
        obtain ⟨m3, y1, y2, y3, y4, y5⟩ := execs_unrefs (z := z) (o := b.order) hpost
        have hex : execs z b.order (insEvs b.order (b.nextId + 1) ⟨b.nextId, s⟩ r path t) m1 = some m3 := by
          rw [hevs, execs_append, x1]; exact y1
        have hpool : m3.pool = 0 := by rw [y2, x2, htakes, e1.pool]; simp
        rw [hex]
        simp only
        rw [if_pos hpool]
        refine ⟨_, rfl, .inr ⟨rfl, ok1.execs hex, hpool, by rw [y5, x5, e1.recs], ?_, ?_⟩⟩
        · intro ha
          obtain ⟨m4, h2, h3⟩ := makeNodes_nil (z := z) (o := b.order) (n := needed b.order path t) (made := 0) ha
          rw [hn] at h2
          simp only [Prod.mk.injEq, true_and] at h2
          simp only [Plenty]; rw [execs_answers hex, h2]; exact h3
        · intro b1 b' f1 f2 f3 hib
          rw [e] at f1
          simp only [insert, f1, hf, f2, f3, hi, Option.map_some, Option.some.injEq] at hib
          subst hib
          refine ⟨?_, ?_⟩
          · intro k
            show _ = if placesIn k (growRoot res) = 0 then none else some (placesIn k (growRoot res))
            rw [y3, x3]
            by_cases hk : k ∈ (LA ++ new ++ LB).flatMap Leaf.keys
            · rw [hm1k k hk]
              have h2 := (w'.places k).mpr (by rw [hleaves]; exact hk)
              rw [if_neg h2]
              have h1 := hroot k
              simp only [Option.map_some, Option.some.injEq]
              omega
            · have h2 : placesIn k (growRoot res) = 0 := by
                apply Classical.byContradiction
                intro hh
                exact hk (by rw [← hleaves]; exact (w'.places k).mp hh)
              rw [if_pos h2, e1.keys]
              have hkn := mt (hKin k).mpr hk
              simp only
              rw [hm.keys k (fun h => hkn (.inl h)), if_pos]
              · rfl
              · simp only [placesOf, e]
                apply Classical.byContradiction
                intro hh
                exact hkn (.inr ((w.places k).mp hh))
          · simp only [nodesOf]
            rw [y4, x4, e1.nodes]
            simp only
            rw [hm.nodes]
            simp only [nodesOf, e]
            have hw := him.weight
            rw [refW_zero, unW_zero] at hw
            have ht' := htakes
            simp only [pre, takes_append] at ht'
            cases res with
            | fits t' =>
              simp only [insW, growRoot, nodesIn] at hw ⊢
              simp [rootEv, takes] at ht' hw
              omega
            | split a j c =>
              simp only [insW, growRoot, nodesIn, weigh_node, List.map_cons, List.map_nil, List.sum_cons, List.sum_nil] at hw ⊢
              simp [rootEv, takes] at ht' hw
              omega

end Sid.Bpt
