import Verif.Spec.BpMem
import Verif.Proof.BpInv
/-
Memory of the B+ tree: effect of the single steps.
-/
namespace Sid.Bpt
open Sid.Spec.BpMem

/-! ### what is allocated -/

/-- size and number of blocks agree with what is allocated -/
def MetaOk (z : Sizes) (o : Nat) (m : Mem) : Prop :=
  ∃ D : List K, D.Nodup ∧ (∀ k, k ∈ D ↔ (m.keys k).isSome) ∧
    m.metaSize = z.tree + m.nodes * nodeSize z o + ((D.map (keySize z)).sum : Nat) + m.recs * z.rcd ∧
    m.blocks = 1 + 3 * m.nodes + 2 * D.length + m.recs

theorem MetaOk.upd {z o m k n x} (h : MetaOk z o m) (hk : m.keys k = some n) : MetaOk z o (setKey m k (some x)) := by
  obtain ⟨D, h1, h2, h3, h4⟩ := h
  refine ⟨D, h1, fun j => ?_, h3, h4⟩
  simp only [setKey]
  split
  · rename_i e; subst e; rw [h2, hk]; simp
  · exact h2 j

theorem MetaOk.del {z o m k n} (h : MetaOk z o m) (hk : m.keys k = some n) : MetaOk z o (destroyKey z k m) := by
  obtain ⟨D, h1, h2, h3, h4⟩ := h
  have hm : k ∈ D := by rw [h2, hk]; rfl
  have hp := List.perm_cons_erase hm
  have hs : (D.map (keySize z)).sum = keySize z k + ((D.erase k).map (keySize z)).sum := by
    rw [(hp.map _).sum_nat]; simp
  have hl : D.length = (D.erase k).length + 1 := by rw [hp.length_eq]; simp
  refine ⟨D.erase k, h1.erase _, fun j => ?_, ?_, ?_⟩
  · simp only [destroyKey, freeN, setKey]
    rw [h1.mem_erase_iff, h2]
    by_cases e : j = k
    · simp [e]
    · simp [e]
  · simp only [destroyKey, freeN, setKey, h3, hs]; push_cast; omega
  · simp only [destroyKey, freeN, setKey, h4, hl]; push_cast; omega

theorem MetaOk.refKey {z o m m' k} (h : MetaOk z o m) (e : refKey k m = some m') : MetaOk z o m' := by
  simp only [Sid.Bpt.refKey, Option.map_eq_some_iff] at e
  obtain ⟨n, hn, rfl⟩ := e
  exact h.upd hn

theorem MetaOk.unrefKey {z o m m' k} (h : MetaOk z o m) (e : unrefKey z k m = some m') : MetaOk z o m' := by
  simp only [Sid.Bpt.unrefKey] at e
  split at e
  · simp at e
  · simp at e
  · rename_i n hn
    split at e
    · simp only [Option.some.injEq] at e; subst e; exact h.del hn
    · simp only [Option.some.injEq] at e; subst e; exact h.upd hn

theorem MetaOk.destroyNode {z o m} (h : MetaOk z o m) : MetaOk z o (destroyNode z o m) := by
  obtain ⟨D, h1, h2, h3, h4⟩ := h
  refine ⟨D, h1, h2, ?_, ?_⟩
  · simp only [Sid.Bpt.destroyNode, freeN, h3, Int.sub_mul]; omega
  · simp only [Sid.Bpt.destroyNode, freeN, h4]; omega

theorem MetaOk.freeRec {z o m} (h : MetaOk z o m) : MetaOk z o (freeRec z m) := by
  obtain ⟨D, h1, h2, h3, h4⟩ := h
  refine ⟨D, h1, h2, ?_, ?_⟩
  · simp only [Sid.Bpt.freeRec, freeN, h3, Int.sub_mul]; omega
  · simp only [Sid.Bpt.freeRec, freeN, h4]; omega

theorem MetaOk.exec {z o m m' e} (h : MetaOk z o m) (he : exec z o m e = some m') : MetaOk z o m' := by
  cases e with
  | ref k => exact h.refKey he
  | unref k => exact h.unrefKey he
  | take =>
    simp only [Sid.Bpt.exec] at he
    split at he
    · simp at he
    · simp only [Option.some.injEq] at he; subst he; exact h
  | rm => simp only [Sid.Bpt.exec, Option.some.injEq] at he; subst he; exact h.destroyNode

theorem MetaOk.execs {z o es} : ∀ {m m'}, MetaOk z o m → execs z o es m = some m' → MetaOk z o m' := by
  induction es with
  | nil => intro m m' h e; simp only [Sid.Bpt.execs, Option.some.injEq] at e; subst e; exact h
  | cons e es ih =>
    intro m m' h he
    simp only [Sid.Bpt.execs] at he
    split at he
    · simp at he
    · rename_i m1 h1
      exact ih (h.exec h1) he

theorem execs_append {z o} (E F : List Ev) (m : Mem) : execs z o (E ++ F) m = (execs z o E m).bind (execs z o F) := by
  induction E generalizing m with
  | nil => rfl
  | cons e E ih =>
    simp only [List.cons_append, execs]
    cases exec z o m e with
    | none => rfl
    | some m' => exact ih m'

/-! ### getting memory -/

/-- two memories with the same content, whatever the answers to come -/
structure Eqv (m m' : Mem) : Prop where
  blocks : m'.blocks = m.blocks
  keys : m'.keys = m.keys
  pool : m'.pool = m.pool
  metaSize : m'.metaSize = m.metaSize
  nodes : m'.nodes = m.nodes
  recs : m'.recs = m.recs

theorem malloc_true {m m'} (h : malloc m = (true, m')) : Eqv { m with blocks := m.blocks + 1 } m' := by
  simp only [malloc] at h
  split at h
  · simp only [Prod.mk.injEq, true_and] at h; subst h; constructor <;> rfl
  · simp only [Prod.mk.injEq, true_and] at h; subst h; constructor <;> rfl
  · simp at h

theorem malloc_false {m m'} (h : malloc m = (false, m')) : Eqv m m' := by
  simp only [malloc] at h
  split at h
  · simp at h
  · simp at h
  · simp only [Prod.mk.injEq, true_and] at h; subst h; constructor <;> rfl

theorem makeKey_true {z k m m'} (h : makeKey z k m = (true, m')) :
    Eqv { setKey m k (some 0) with metaSize := m.metaSize + keySize z k, blocks := m.blocks + 2 } m' := by
  simp only [makeKey] at h
  split at h
  · simp at h
  · rename_i m1 h1
    have e1 := malloc_true h1
    split at h
    · simp at h
    · rename_i m2 h2
      have e2 := malloc_true h2
      simp only [Prod.mk.injEq, true_and] at h; subst h
      constructor <;> simp only [setKey, e2.blocks, e2.keys, e2.pool, e2.metaSize, e2.nodes, e2.recs, e1.blocks, e1.keys, e1.pool,
        e1.metaSize, e1.nodes, e1.recs]
      omega

theorem makeKey_false {z k m m'} (h : makeKey z k m = (false, m')) : Eqv m m' := by
  simp only [makeKey] at h
  split at h
  · rename_i m1 h1
    simp only [Prod.mk.injEq, true_and] at h; subst h
    exact malloc_false h1
  · rename_i m1 h1
    have e1 := malloc_true h1
    split at h
    · rename_i m2 h2
      have e2 := malloc_false h2
      simp only [Prod.mk.injEq, true_and] at h; subst h
      constructor <;> simp only [freeN, e2.blocks, e2.keys, e2.pool, e2.metaSize, e2.nodes, e2.recs, e1.blocks, e1.keys, e1.pool,
        e1.metaSize, e1.nodes, e1.recs]
      push_cast; omega
    · simp at h

theorem makeNode_true {z o m m'} (h : makeNode z o m = (true, m')) :
    Eqv { m with metaSize := m.metaSize + nodeSize z o, nodes := m.nodes + 1, blocks := m.blocks + 3 } m' := by
  simp only [makeNode] at h
  split at h
  · simp at h
  · rename_i m1 h1
    have e1 := malloc_true h1
    split at h
    · simp at h
    · rename_i m2 h2
      have e2 := malloc_true h2
      split at h
      · simp at h
      · rename_i m3 h3
        have e3 := malloc_true h3
        simp only [Prod.mk.injEq, true_and] at h; subst h
        constructor <;> simp only [e3.blocks, e3.keys, e3.pool, e3.metaSize, e3.nodes, e3.recs, e2.blocks, e2.keys, e2.pool, e2.metaSize, e2.nodes, e2.recs, e1.blocks, e1.keys, e1.pool,
          e1.metaSize, e1.nodes, e1.recs]
        omega

theorem makeNode_false {z o m m'} (h : makeNode z o m = (false, m')) : Eqv m m' := by
  simp only [makeNode] at h
  split at h
  · rename_i m1 h1
    simp only [Prod.mk.injEq, true_and] at h; subst h
    exact malloc_false h1
  · rename_i m1 h1
    have e1 := malloc_true h1
    split at h
    · rename_i m2 h2
      have e2 := malloc_false h2
      simp only [Prod.mk.injEq, true_and] at h; subst h
      constructor <;> simp only [freeN, e2.blocks, e2.keys, e2.pool, e2.metaSize, e2.nodes, e2.recs, e1.blocks, e1.keys, e1.pool,
        e1.metaSize, e1.nodes, e1.recs]
      push_cast; omega
    · rename_i m2 h2
      have e2 := malloc_true h2
      split at h
      · rename_i m3 h3
        have e3 := malloc_false h3
        simp only [Prod.mk.injEq, true_and] at h; subst h
        constructor <;> simp only [freeN, e3.blocks, e3.keys, e3.pool, e3.metaSize, e3.nodes, e3.recs, e2.blocks, e2.keys, e2.pool, e2.metaSize, e2.nodes, e2.recs, e1.blocks, e1.keys, e1.pool,
          e1.metaSize, e1.nodes, e1.recs]
        push_cast; omega
      · simp at h

theorem destroyNodes_eq (z o n m) : Eqv { m with metaSize := m.metaSize - n * nodeSize z o, nodes := m.nodes - n, blocks := m.blocks - 3 * n }
    (destroyNodes z o n m) := by
  induction n generalizing m with
  | zero => constructor <;> simp [destroyNodes]
  | succ n ih =>
    have e := ih (destroyNode z o m)
    constructor
    · rw [destroyNodes, e.blocks]; simp only [destroyNode, freeN]; push_cast; omega
    · rw [destroyNodes, e.keys]; simp only [destroyNode, freeN]
    · rw [destroyNodes, e.pool]; simp only [destroyNode, freeN]
    · rw [destroyNodes, e.metaSize]; simp only [destroyNode, freeN]; push_cast; rw [Int.add_mul]; omega
    · rw [destroyNodes, e.nodes]; simp only [destroyNode, freeN]; push_cast; omega
    · rw [destroyNodes, e.recs]; simp only [destroyNode, freeN]

theorem makeNodes_true {z o n} : ∀ {made m m'}, makeNodes z o n made m = (true, m') →
    Eqv { m with metaSize := m.metaSize + n * nodeSize z o, nodes := m.nodes + n, blocks := m.blocks + 3 * n, pool := made + n } m' := by
  induction n with
  | zero =>
    intro made m m' h
    simp only [makeNodes, Prod.mk.injEq, true_and] at h; subst h
    constructor <;> simp
  | succ n ih =>
    intro made m m' h
    simp only [makeNodes] at h
    split at h
    · simp at h
    · rename_i m1 h1
      have e1 := makeNode_true h1
      have e2 := ih h
      constructor
      · rw [e2.blocks]; simp only [e1.blocks]; push_cast; omega
      · rw [e2.keys]; simp only [e1.keys]
      · rw [e2.pool]; simp only []; omega
      · rw [e2.metaSize]; simp only [e1.metaSize]; push_cast; rw [Int.add_mul]; omega
      · rw [e2.nodes]; simp only [e1.nodes]; push_cast; omega
      · rw [e2.recs]; simp only [e1.recs]

theorem makeNodes_false {z o n} : ∀ {made m m'}, makeNodes z o n made m = (false, m') →
    Eqv { m with metaSize := m.metaSize - made * nodeSize z o, nodes := m.nodes - made, blocks := m.blocks - 3 * made } m' := by
  induction n with
  | zero => intro made m m' h; simp [makeNodes] at h
  | succ n ih =>
    intro made m m' h
    simp only [makeNodes] at h
    split at h
    · rename_i m1 h1
      have e1 := makeNode_false h1
      simp only [Prod.mk.injEq, true_and] at h; subst h
      have e2 := destroyNodes_eq z o made m1
      constructor
      · rw [e2.blocks]; simp only [e1.blocks]
      · rw [e2.keys]; simp only [e1.keys]
      · rw [e2.pool]; simp only [e1.pool]
      · rw [e2.metaSize]; simp only [e1.metaSize]
      · rw [e2.nodes]; simp only [e1.nodes]
      · rw [e2.recs]; simp only [e1.recs]
    · rename_i m1 h1
      have e1 := makeNode_true h1
      have e2 := ih h
      constructor
      · rw [e2.blocks]; simp only [e1.blocks]; push_cast; omega
      · rw [e2.keys]; simp only [e1.keys]
      · rw [e2.pool]; simp only [e1.pool]
      · rw [e2.metaSize]; simp only [e1.metaSize]; push_cast; rw [Int.add_mul]; omega
      · rw [e2.nodes]; simp only [e1.nodes]; push_cast; omega
      · rw [e2.recs]; simp only [e1.recs]

theorem Eqv.refl (m) : Eqv m m := by constructor <;> rfl

theorem MetaOk.eqv {z o m m'} (h : MetaOk z o m) (e : Eqv m m') : MetaOk z o m' := by
  obtain ⟨D, h1, h2, h3, h4⟩ := h
  exact ⟨D, h1, by rw [e.keys]; exact h2, by rw [e.metaSize, e.nodes, e.recs]; exact h3, by rw [e.blocks, e.nodes, e.recs]; exact h4⟩

/-! ### references -/

/-- number of nodes taken -/
def takes (E : List Ev) : Nat := E.count .take

/-- number of nodes destroyed -/
def rms (E : List Ev) : Nat := E.count .rm

/-- references taken, and nodes out of the list -/
theorem execs_refs {z o} {E : List Ev} : ∀ {m}, (∀ e ∈ E, e = .take ∨ ∃ k n, e = .ref k ∧ m.keys k = some n) → takes E ≤ m.pool →
    ∃ m', execs z o E m = some m' ∧ m'.pool = m.pool - takes E ∧ (∀ k, m'.keys k = (m.keys k).map (· + E.count (.ref k))) ∧
      m'.nodes = m.nodes ∧ m'.recs = m.recs := by
  induction E with
  | nil => intro m _ _; exact ⟨m, rfl, by simp [takes], fun k => by simp, rfl, rfl⟩
  | cons e E ih =>
    intro m h ht
    rcases h e (by simp) with rfl | ⟨k, n, rfl, hk⟩
    · have ht' : takes E + 1 ≤ m.pool := by simpa [takes] using ht
      obtain ⟨m', e1, e2, e3, e4, e5⟩ := ih (m := { m with pool := m.pool - 1 }) (fun e he => h e (by simp [he])) (by simp only []; omega)
      refine ⟨m', ?_, ?_, ?_, e4, e5⟩
      · simp only [execs, exec]; rw [if_neg (by omega)]; exact e1
      · rw [e2]; simp only [takes, List.count_cons_self] at *; omega
      · intro k; rw [e3]; simp
    · have ht' : takes E ≤ m.pool := by simpa [takes] using ht
      obtain ⟨m', e1, e2, e3, e4, e5⟩ := ih (m := setKey m k (some (n + 1)))
        (fun e he => by
          rcases h e (by simp [he]) with h | ⟨j, p, rfl, hj⟩
          · exact .inl h
          · right
            by_cases ej : j = k
            · exact ⟨j, n + 1, rfl, by simp [setKey, ej]⟩
            · exact ⟨j, p, rfl, by simp [setKey, ej, hj]⟩) ht'
      refine ⟨m', ?_, ?_, ?_, e4, e5⟩
      · simp only [execs, exec, refKey, hk, Option.map_some]; exact e1
      · rw [e2]; simp [takes, setKey]
      · intro j; rw [e3]
        by_cases ej : j = k
        · subst ej; simp [setKey, hk]; omega
        · have : Ev.ref k ≠ Ev.ref j := by intro e; exact ej (Ev.ref.inj e).symm
          simp [setKey, ej, List.count_cons, this]

/-- one reference given up, of more than one -/
theorem unrefKey_more {z k m n} (h : m.keys k = some n) (hn : 1 < n) : unrefKey z k m = some (setKey m k (some (n - 1))) := by
  obtain ⟨p, rfl⟩ : ∃ p, n = p + 2 := ⟨n - 2, by omega⟩
  simp only [unrefKey, h]
  rw [if_neg (by omega)]; rfl

/-- references given up that are not the last ones -/
theorem execs_unrefs {z o} {E : List Ev} : ∀ {m}, (∀ e ∈ E, ∃ k n, e = .unref k ∧ m.keys k = some n ∧ E.count (.unref k) < n) →
    ∃ m', execs z o E m = some m' ∧ m'.pool = m.pool ∧ (∀ k, m'.keys k = (m.keys k).map (· - E.count (.unref k))) ∧
      m'.nodes = m.nodes ∧ m'.recs = m.recs := by
  induction E with
  | nil => intro m _; exact ⟨m, rfl, rfl, fun k => by simp, rfl, rfl⟩
  | cons e E ih =>
    intro m h
    obtain ⟨k, n, rfl, hk, hn⟩ := h e (by simp)
    simp only [List.count_cons_self] at hn
    obtain ⟨m', e1, e2, e3, e4, e5⟩ := ih (m := setKey m k (some (n - 1)))
      (fun e he => by
        obtain ⟨j, p, rfl, hj, hp⟩ := h e (by simp [he])
        by_cases ej : j = k
        · subst ej; exact ⟨j, n - 1, rfl, by simp [setKey], by omega⟩
        · have : Ev.unref k ≠ Ev.unref j := by intro e; exact ej (Ev.unref.inj e).symm
          exact ⟨j, p, rfl, by simp [setKey, ej, hj], by simpa [List.count_cons, this] using hp⟩)
    refine ⟨m', ?_, ?_, ?_, e4, e5⟩
    · simp only [execs, exec]; rw [unrefKey_more hk (by omega)]; exact e1
    · rw [e2]; rfl
    · intro j; rw [e3]
      by_cases ej : j = k
      · subst ej; simp [setKey, hk]; omega
      · have : Ev.unref k ≠ Ev.unref j := by intro e; exact ej (Ev.unref.inj e).symm
        simp [setKey, ej, List.count_cons, this]

/-- references taken and given up at once -/
theorem execs_pairs {z o} (L : List K) : ∀ {m}, (∀ k ∈ L, ∃ n, m.keys k = some (n + 1)) →
    ∃ m', execs z o (L.flatMap fun k => [.ref k, .unref k]) m = some m' ∧ m'.pool = m.pool ∧ m'.keys = m.keys ∧
      m'.nodes = m.nodes ∧ m'.recs = m.recs := by
  induction L with
  | nil => intro m _; exact ⟨m, rfl, rfl, rfl, rfl, rfl⟩
  | cons k L ih =>
    intro m h
    obtain ⟨n, hn⟩ := h k (by simp)
    have hid : (setKey (setKey m k (some (n + 1 + 1))) k (some (n + 1))).keys = m.keys := by
      funext j
      simp only [setKey]
      by_cases e : j = k
      · subst e; simp [hn]
      · simp [e]
    obtain ⟨m', e1, e2, e3, e4, e5⟩ := ih (m := setKey (setKey m k (some (n + 1 + 1))) k (some (n + 1)))
      (fun j hj => by rw [hid]; exact h j (by simp [hj]))
    refine ⟨m', ?_, e2, by rw [e3, hid], e4, e5⟩
    simp only [List.flatMap_cons, List.cons_append, List.nil_append, execs, exec, refKey, hn, Option.map_some]
    rw [unrefKey_more (n := n + 1 + 1) (by simp [setKey]) (by omega)]
    exact e1

/-- nodes destroyed -/
theorem execs_rms {z o} (n : Nat) : ∀ {m}, ∃ m', execs z o (List.replicate n .rm) m = some m' ∧ m'.pool = m.pool ∧ m'.keys = m.keys ∧
      m'.nodes = m.nodes - n ∧ m'.recs = m.recs := by
  induction n with
  | zero => intro m; exact ⟨m, rfl, rfl, rfl, by simp, rfl⟩
  | succ n ih =>
    intro m
    obtain ⟨m', e1, e2, e3, e4, e5⟩ := ih (m := destroyNode z o m)
    refine ⟨m', ?_, e2, e3, ?_, e5⟩
    · simp only [List.replicate_succ, execs, exec]; exact e1
    · rw [e4]; simp only [destroyNode, freeN]; push_cast; omega

end Sid.Bpt
