import Verif.Proof.BpMemRun
/-
Memory of the B+ tree: calls one after the other.
-/
namespace Sid.Bpt
open Sid.Spec.BpMem

/-! ### records -/

theorem live_pos {b} (h : BInv b) {r x} (hx : b.recs r = some x) : 1 ≤ b.numEntries := by
  have hlt : r < b.nextRec := by
    apply Classical.byContradiction
    intro hh
    have := h.fresh r (by omega)
    rw [hx] at this; simp at this
  obtain ⟨A, B, e, _⟩ := live_at b.recs b.nextRec r hlt
  have : live b = A ++ (b.recs r).toList ++ B := e
  rw [h.count, this, hx]; simp; omega

theorem unref_recs {z b b1 r x m b'} (hx : b.recs r = some x) (hx1 : b1.recs r = some x) (hn : 1 ≤ b1.numEntries) (hm : m.recs = b1.numEntries)
    (hu : unrefRec b1 r = some b') : ∃ m', unrefRecMem z b r m = some m' ∧ m'.recs = b'.numEntries ∧ (m' = m ∨ m' = freeRec z m) := by
  simp only [unrefRec, hx1, Option.map_some, Option.some.injEq] at hu
  simp only [unrefRecMem, hx, Option.map_some]
  by_cases hr : x.refs - 1 > 0
  · rw [if_pos hr] at hu
    refine ⟨m, by rw [if_pos hr], ?_, .inl rfl⟩
    rw [← hu]; exact hm
  · rw [if_neg hr] at hu
    refine ⟨freeRec z m, by rw [if_neg hr], ?_, .inr rfl⟩
    rw [← hu]; simp only [freeRec, freeN, hm]; omega

theorem unmakeRec_eq {b} (h : BInv b) (d n : Nat) : unmakeRec b d n = b := by
  have hf := h.fresh b.nextRec (Nat.le_refl _)
  cases b with
  | mk order root recs nextRec nextId dataSize numEntries =>
    simp only [unmakeRec, makeRec, setRec]
    simp only at hf
    congr 1
    · funext i
      by_cases e : i = nextRec
      · subst e; simp [hf]
      · simp [e]
    · omega

theorem insert_same {b s r b'} (h : insert b s r = some b') : b'.numEntries = b.numEntries ∧ b'.order = b.order := by
  simp only [insert] at h
  split at h
  · simp only [Option.some.injEq] at h; subst h; exact ⟨rfl, rfl⟩
  · split at h
    · simp at h
    · obtain ⟨x, _, rfl⟩ := Option.map_eq_some_iff.mp h; exact ⟨rfl, rfl⟩

theorem insertRef_insert {b s r b'} (h : insertRef b s r = some b') : ∃ b1, b1.root = b.root ∧ b1.order = b.order ∧ b1.nextId = b.nextId ∧
    b1.numEntries = b.numEntries ∧ insert b1 s r = some b' := by
  simp only [insertRef] at h
  split at h
  · simp at h
  · rename_i b1 e
    simp only [refRec] at e
    obtain ⟨x, _, rfl⟩ := Option.map_eq_some_iff.mp e
    exact ⟨setRec b r (some { x with refs := x.refs + 1 }), rfl, rfl, rfl, rfl, h⟩

/-! ### calls -/

/-- outcome of a call: what was wanted, or no memory and nothing changed -/
def Out (z : Sizes) (b : Bpt) (m : Mem) (need : Prop) (want : Option (Int × Bpt)) (x : Option (Int × Bpt × Mem)) : Prop :=
  ∃ rc b' m', x = some (rc, b', m') ∧ MInv z b' m' ∧ (want = some (rc, b') ∨ (rc = -1 ∧ b' = b ∧ need ∧ ¬ Plenty m)) ∧
    (Plenty m → Plenty m')

/-- a change of records leaves the tree's keys alone -/
theorem MInv.same {z b b' m} (h : MInv z b m) (hb : BInv b') (hr : b'.root = b.root) (ho : b'.order = b.order) (hn : b'.numEntries = b.numEntries) :
    MInv z b' m :=
  ⟨hb, by rw [ho]; exact h.ok, by rw [placesOf_root hr]; exact h.keys, h.pool, by rw [nodesOf_root hr]; exact h.nodes, by rw [hn]; exact h.recs⟩

theorem MInv.eqv {z b m m'} (h : MInv z b m) (e : Eqv m m') : MInv z b m' :=
  ⟨h.tree, h.ok.eqv e, fun k => by rw [e.keys]; exact h.keys k, by rw [e.pool]; exact h.pool, by rw [e.nodes]; exact h.nodes,
    by rw [e.recs]; exact h.recs⟩

theorem writeRec_same {b r d n b'} (h : writeRec b r d n = some b') : b'.root = b.root ∧ b'.order = b.order ∧ b'.numEntries = b.numEntries := by
  simp only [writeRec] at h
  obtain ⟨x, _, rfl⟩ := Option.map_eq_some_iff.mp h; exact ⟨rfl, rfl, rfl⟩

theorem MInv.writeRec {z b m r d n b'} (h : MInv z b m) (hb : BInv b') (e : writeRec b r d n = some b') : MInv z b' m := by
  obtain ⟨h1, h2, h3⟩ := writeRec_same e
  exact h.same hb h1 h2 h3

theorem MInv.noKey {z b m} (h : MInv z b m) {s : Str} (hs : ∀ k ∈ keysOf b, k.str ≠ s) : m.keys ⟨b.nextId, s⟩ = none := by
  rw [h.keys, if_pos]
  apply Classical.byContradiction
  intro hh
  exact hs _ ((places_keys (fun t e => h.tree.tree t e) _).mp hh) rfl

/-- memory after the key has been made -/
theorem MInv.before {z b m m'} (h : MInv z b m) {s : Str} (hs : ∀ k ∈ keysOf b, k.str ≠ s)
    (e : makeKey z ⟨b.nextId, s⟩ m = (true, m')) : Before z b s m' := by
  have e1 := makeKey_true e
  refine ⟨h.ok.newKey (h.noKey hs) e1, by rw [e1.keys]; simp [setKey], ?_, by rw [e1.pool]; exact h.pool, by rw [e1.nodes]; exact h.nodes⟩
  intro k hk
  rw [e1.keys]
  simp only [setKey, if_neg hk]
  exact h.keys k

/-- the key taken back -/
theorem MInv.back {z b m m'} (h : MInv z b m) {s : Str} (hs : ∀ k ∈ keysOf b, k.str ≠ s) (hb : Before z b s m')
    (hr : m'.recs = b.numEntries) : MInv z b (destroyKey z ⟨b.nextId, s⟩ m') := by
  refine ⟨h.tree, hb.ok.del hb.fresh, ?_, hb.pool, hb.nodes, hr⟩
  intro k
  simp only [destroyKey, freeN, setKey]
  by_cases ek : k = ⟨b.nextId, s⟩
  · subst ek
    rw [if_pos rfl]; exact (h.keys _ ▸ h.noKey hs).symm
  · rw [if_neg ek]; exact hb.keys k ek

theorem Before.eqv {z b s m m'} (h : Before z b s m) (e : Eqv m m') : Before z b s m' :=
  ⟨h.ok.eqv e, by rw [e.keys]; exact h.fresh, fun k hk => by rw [e.keys]; exact h.keys k hk, by rw [e.pool]; exact h.pool,
    by rw [e.nodes]; exact h.nodes⟩

theorem Before.rcd {z b s m m'} (h : Before z b s m) (e : mallocRec z m = (true, m')) : Before z b s m' := by
  have e1 := mallocRec_true e
  exact ⟨h.ok.newRec e1, by rw [e1.keys]; exact h.fresh, fun k hk => by rw [e1.keys]; exact h.keys k hk, by rw [e1.pool]; exact h.pool,
    by rw [e1.nodes]; exact h.nodes⟩

theorem makeKey_ans {z k m b m'} (h : makeKey z k m = (b, m')) (ha : Plenty m) : b = true ∧ Plenty m' := by
  obtain ⟨m1, h1, h2⟩ := makeKey_nil (z := z) (k := k) ha
  rw [h] at h1
  simp only [Prod.mk.injEq] at h1
  exact ⟨h1.1, by rw [h1.2]; exact h2⟩

theorem mallocRec_ans {z m b m'} (h : mallocRec z m = (b, m')) (ha : Plenty m) : b = true ∧ Plenty m' := by
  obtain ⟨m1, h1, h2⟩ := mallocRec_nil (z := z) ha
  rw [h] at h1
  simp only [Prod.mk.injEq] at h1
  exact ⟨h1.1, by rw [h1.2]; exact h2⟩

/-- the way through an insertion that succeeds -/
theorem insOut_true {z b s r m mm b'} (hb : BInv b') (ho : InsOut z b s r m (true, mm))
    (hi : ∃ b1, b1.root = b.root ∧ b1.order = b.order ∧ b1.nextId = b.nextId ∧ (b1.numEntries : Int) = m.recs ∧ insert b1 s r = some b') :
    MInv z b' mm ∧ (Plenty m → Plenty mm) := by
  rcases ho with ⟨h, _⟩ | ⟨_, h1, h2, h3, h4, h5⟩
  · simp at h
  · obtain ⟨b1, f1, f2, f3, f4, f5⟩ := hi
    obtain ⟨h6, h7⟩ := h5 b1 b' f1 f2 f3 f5
    obtain ⟨g1, g2⟩ := insert_same f5
    refine ⟨⟨hb, by rw [g2, f2]; exact h1, h6, h2, h7, ?_⟩, h4⟩
    simp only at h3 ⊢
    rw [h3, g1, f4]

theorem addMem_spec {z b m} (h : MInv z b m) (s : Str) (d n : Nat) : Out z b m (needs b (.add s d n)) ((add b s d n).map fun b => (0, b)) (addMem z b m s d n) := by
  rcases find_spec h.tree s with ⟨e, hs⟩ | ⟨f, t, LA, LB, A, B, PA, PB, e, hit⟩
  · have hneed : needs b (.add s d n) := by simp only [needs, lookup, e]
    simp only [addMem, add, e]
    obtain ⟨b', hi, hb', _⟩ := h.tree.insertNew d n hs
    cases hk : makeKey z ⟨b.nextId, s⟩ m with
    | mk ok m1 =>
      cases ok with
      | false =>
        refine ⟨-1, b, m1, rfl, h.eqv (makeKey_false hk), .inr ⟨rfl, rfl, hneed, fun ha => ?_⟩, fun ha => (makeKey_ans hk ha).2⟩
        have := (makeKey_ans hk ha).1
        simp at this
      | true =>
        have hbef := h.before hs hk
        have hrec1 : m1.recs = b.numEntries := by rw [(makeKey_true hk).recs]; exact h.recs
        simp only
        cases hr : mallocRec z m1 with
        | mk ok m2 =>
          cases ok with
          | false =>
            have e2 := mallocRec_false hr
            refine ⟨-1, b, _, rfl, h.back hs (hbef.eqv e2) (by rw [e2.recs]; exact hrec1), .inr ⟨rfl, rfl, hneed, fun ha => ?_⟩, fun ha => ?_⟩
            · have := (mallocRec_ans hr (makeKey_ans hk ha).2).1
              simp at this
            · exact (mallocRec_ans hr (makeKey_ans hk ha).2).2
          | true =>
            have hbef2 := hbef.rcd hr
            have hrec2 : m2.recs = b.numEntries + 1 := by rw [(mallocRec_true hr).recs]; simp only [hrec1]
            simp only
            obtain ⟨⟨ok, m3⟩, hx, ho⟩ := insertMem_spec (r := b.nextRec) h.tree.ord (fun t e => h.tree.tree t e) hs hbef2
            rw [hx]
            cases ok with
            | false =>
              rcases ho with ⟨_, ho, hne⟩ | ⟨hh, _⟩
              · simp only
                simp only at ho
                refine ⟨-1, unmakeRec b d n, _, rfl, ?_, .inr ⟨rfl, unmakeRec_eq h.tree d n, hneed, fun ha => ?_⟩, fun ha => ?_⟩
                · rw [unmakeRec_eq h.tree]
                  have hbef3 := hbef2.eqv ho
                  have hrec3 : m3.recs = b.numEntries + 1 := by rw [ho.recs]; exact hrec2
                  refine ⟨h.tree, (hbef3.ok.del hbef3.fresh).freeRec, ?_, hbef3.pool, hbef3.nodes, ?_⟩
                  · intro k
                    simp only [freeRec, destroyKey, freeN, setKey]
                    by_cases ek : k = ⟨b.nextId, s⟩
                    · subst ek
                      rw [if_pos rfl]; exact (h.keys _ ▸ h.noKey hs).symm
                    · rw [if_neg ek]; exact hbef3.keys k ek
                  · simp only [freeRec, destroyKey, freeN, setKey]
                    rw [hrec3]; omega
                · exact hne (mallocRec_ans hr (makeKey_ans hk ha).2).2
                · exact absurd (mallocRec_ans hr (makeKey_ans hk ha).2).2 hne
              · simp at hh
            | true =>
              obtain ⟨b1, f1, f2, f3, f4, f5⟩ := insertRef_insert hi
              obtain ⟨h1, h2⟩ := insOut_true hb' ho ⟨b1, by rw [f1]; rfl, by rw [f2]; rfl, by rw [f3]; rfl, by rw [f4, hrec2]; simp [makeRec], f5⟩
              simp only [hi, Option.map_some]
              exact ⟨0, b', m3, rfl, h1, .inl rfl, fun ha => h2 (mallocRec_ans hr (makeKey_ans hk ha).2).2⟩
  · obtain ⟨x, _, b', h1, h2, _⟩ := h.tree.writeRec hit.mem d n
    simp only [addMem, add, e, h1, Option.map_some]
    exact ⟨0, b', m, rfl, h.writeRec h2 h1, .inl rfl, id⟩

/-! ### redirected aliases -/

theorem setPtr_weigh (g : List K → Nat) (i r : Nat) : ∀ {path t t'}, setPtr i r path t = some t' → weigh g t' = weigh g t := by
  intro path
  induction path with
  | nil =>
    intro t t' h
    cases t with
    | leaf l => simp only [setPtr, Option.some.injEq] at h; subst h; rw [weigh_leaf, weigh_leaf]
    | node ks kids => simp [setPtr] at h
  | cons j path ih =>
    intro t t' h
    cases t with
    | leaf l => simp [setPtr] at h
    | node ks kids =>
      simp only [setPtr] at h
      split at h
      · simp at h
      · rename_i c hc
        obtain ⟨c', hc', rfl⟩ := Option.map_eq_some_iff.mp h
        have := ih hc'
        obtain ⟨A, B, rfl, hA⟩ : ∃ A B, kids = A ++ c :: B ∧ A.length = j := by
          obtain ⟨hl, rfl⟩ := List.getElem?_eq_some_iff.mp hc
          exact ⟨kids.take j, kids.drop (j + 1), by simp, by simp; omega⟩
        rw [weigh_node, weigh_node, ← hA, set_mid]
        simp only [List.map_append, List.map_cons, List.sum_append, List.sum_cons, this]

theorem redirect_weigh {b f r b'} (h : redirect b f r = some b') (g : List K → Nat) :
    ∃ t t', b.root = some t ∧ b'.root = some t' ∧ weigh g t' = weigh g t := by
  simp only [redirect] at h
  split at h
  · rename_i t b1 e1 e2
    split at h
    · simp at h
    · rename_i t' e3
      simp only [unrefRec] at h
      obtain ⟨x, _, rfl⟩ := Option.map_eq_some_iff.mp h
      refine ⟨t, t', e1, ?_, setPtr_weigh g _ _ e3⟩
      split <;> rfl
  · simp at h

/-- the record given up when an alias is redirected -/
theorem redirect_recs {z b f r b' x} {m : Mem} (h : BInv b) (hm : m.recs = b.numEntries) (hne : r ≠ f.rc) (hx : b.recs f.rc = some x)
    (e : redirect b f r = some b') : ∃ m', unrefRecMem z b f.rc m = some m' ∧ m'.recs = b'.numEntries ∧ (m' = m ∨ m' = freeRec z m) := by
  simp only [redirect] at e
  split at e
  · rename_i t b1 e1 e2
    split at e
    · simp at e
    · rename_i t' e3
      simp only [refRec] at e2
      obtain ⟨y, hy, rfl⟩ := Option.map_eq_some_iff.mp e2
      refine unref_recs (b := b) hx ?_ ?_ ?_ e
      · simp only [setRec, if_neg (Ne.symm hne)]; exact hx
      · exact live_pos (b := b) h hx
      · exact hm
  · simp at e

theorem MInv.rcd {z b b'} {m m' : Mem} (h : MInv z b m) (hb : BInv b') (ho : b'.order = b.order) (hp : placesOf b' = placesOf b) (hn : nodesOf b' = nodesOf b)
    (hr : m'.recs = b'.numEntries) (hm : m' = m ∨ m' = freeRec z m) : MInv z b' m' := by
  rcases hm with rfl | rfl
  · exact ⟨hb, by rw [ho]; exact h.ok, by rw [hp]; exact h.keys, h.pool, by rw [hn]; exact h.nodes, hr⟩
  · exact ⟨hb, by rw [ho]; exact h.ok.freeRec, by rw [hp]; exact h.keys, h.pool, by rw [hn]; exact h.nodes, hr⟩

theorem aliasMem_spec {z b m} (h : MInv z b m) (k a : Str) (force : Bool) : Out z b m (needs b (.alias k a force)) (addAlias b k a force) (aliasMem z b m k a force) := by
  rcases find_spec h.tree k with ⟨e, hs⟩ | ⟨f, t, LA, LB, A, B, PA, PB, e, hit⟩
  · simp only [aliasMem, addAlias, e]
    exact ⟨-1, b, m, rfl, h, .inl rfl, id⟩
  · rcases find_spec h.tree a with ⟨e', hs'⟩ | ⟨g, t', LA', LB', A', B', PA', PB', e', hit'⟩
    · have hneed : needs b (.alias k a force) := by
        obtain ⟨x, hx, _⟩ := h.tree.mem_recs hit.mem
        simp only [needs, lookup, e, e', hx]; simp
      simp only [aliasMem, addAlias, e, e']
      obtain ⟨x, _, b', hi, hb', _⟩ := h.tree.insertRef hit.mem hs'
      cases hk : makeKey z ⟨b.nextId, a⟩ m with
      | mk ok m1 =>
        cases ok with
        | false =>
          refine ⟨-1, b, m1, rfl, h.eqv (makeKey_false hk), .inr ⟨rfl, rfl, hneed, fun ha => ?_⟩, fun ha => (makeKey_ans hk ha).2⟩
          have := (makeKey_ans hk ha).1
          simp at this
        | true =>
          have hbef := h.before hs' hk
          have hrec1 : m1.recs = b.numEntries := by rw [(makeKey_true hk).recs]; exact h.recs
          simp only
          obtain ⟨⟨ok, m3⟩, hx, ho⟩ := insertMem_spec (r := f.rc) h.tree.ord (fun t e => h.tree.tree t e) hs' hbef
          rw [hx]
          cases ok with
          | false =>
            rcases ho with ⟨_, ho, hne⟩ | ⟨hh, _⟩
            · simp only
              simp only at ho
              refine ⟨-1, b, _, rfl, h.back hs' (hbef.eqv ho) (by rw [ho.recs]; exact hrec1), .inr ⟨rfl, rfl, hneed, fun ha => ?_⟩, fun ha => ?_⟩
              · exact hne (makeKey_ans hk ha).2
              · exact absurd (makeKey_ans hk ha).2 hne
            · simp at hh
          | true =>
            obtain ⟨b1, f1, f2, f3, f4, f5⟩ := insertRef_insert hi
            obtain ⟨h1, h2⟩ := insOut_true hb' ho ⟨b1, f1, f2, f3, by rw [f4, hrec1], f5⟩
            simp only [hi, Option.map_some]
            exact ⟨0, b', m3, rfl, h1, .inl rfl, fun ha => h2 (makeKey_ans hk ha).2⟩
    · simp only [aliasMem, addAlias, e, e']
      by_cases hne : f.rc = g.rc
      · rw [if_pos hne, if_pos hne]
        exact ⟨0, b, m, rfl, h, .inl rfl, id⟩
      · rw [if_neg hne, if_neg hne]
        cases force with
        | false => exact ⟨-1, b, m, by simp, h, .inl (by simp), id⟩
        | true =>
          obtain ⟨b', x, _, h1, h2, _, h4, _⟩ := h.tree.redirect hit' hit.mem hne
          obtain ⟨m', u1, u2, u3⟩ := redirect_recs (z := z) h.tree h.recs hne h4 h1
          refine ⟨0, b', m', by simp [h1, u1], ?_, .inl (by simp [h1]), fun ha => ?_⟩
          · refine h.rcd h2 (redirect_order h1) ?_ ?_ u2 u3
            · funext j
              obtain ⟨t1, t2, r1, r2, r3⟩ := redirect_weigh h1 (fun l => l.count j)
              simp only [placesOf, r1, r2, placesIn]; exact r3
            · obtain ⟨t1, t2, r1, r2, r3⟩ := redirect_weigh h1 (fun _ => 1)
              simp only [nodesOf, r1, r2, nodesIn]; exact r3
          · rcases u3 with rfl | rfl
            · exact ha
            · exact ha

/-! ### deletion -/

theorem pairs_count (L : List K) (k : K) :
    (L.flatMap fun k => [Ev.ref k, Ev.unref k]).count (.unref k) = (L.flatMap fun k => [Ev.ref k, Ev.unref k]).count (.ref k) := by
  induction L with
  | nil => rfl
  | cons j L ih => simp only [List.flatMap_cons, List.count_append, ih, List.count_cons, List.count_nil]; simp

theorem pairs_rms (L : List K) : rms (L.flatMap fun k => [Ev.ref k, Ev.unref k]) = 0 := by
  induction L with
  | nil => rfl
  | cons j L ih => simp only [rms] at ih ⊢; simp [List.count_cons, ih]

theorem rms_append (E F) : rms (E ++ F) = rms E + rms F := by simp [rms]

/-- the steps of a deletion up to the nodes destroyed at its end -/
theorem delMem_safe {h bk T t t' sw E} (hd : ∀ k, DelMem (fun l => l.count k) (fun j => if j = k then 1 else 0) 0 h bk T t t' sw E)
    (hT : ∀ k, placesIn k t' ≠ 0 ↔ k ∈ T) (hbk : bk ∉ T) (h0 : ∀ k ∈ T, placesIn k t ≠ 0) (hb : placesIn bk t ≠ 0) :
    Safe (fun k => placesIn k t) (E.1 ++ E.2.1) ∧ eff (fun k => placesIn k t) (E.1 ++ E.2.1) = (fun k => placesIn k t') ∧ rms (E.1 ++ E.2.1) = 0 := by
  have hw : ∀ k, placesIn k t' + (E.1 ++ E.2.1).count (.unref k) = placesIn k t + (E.1 ++ E.2.1).count (.ref k) := by
    intro k
    have := (hd k).weight
    rw [refW_count, unW_count] at this
    simpa [placesIn] using this
  have hz : placesIn bk t' = 0 := by
    apply Classical.byContradiction
    intro hh; exact hbk ((hT bk).mp hh)
  -- the key itself
  have s1 : Safe (fun k => placesIn k t) E.1 := by
    rcases (hd bk).first with h1 | ⟨_, nk, hnk, h1⟩
    · rw [h1]; exact ⟨hb, trivial⟩
    · have hne : nk ≠ bk := fun e => hbk (e ▸ hnk)
      have h2 : 2 ≤ placesIn bk t + (E.1 ++ E.2.1).count (.ref bk) := by
        have := hw bk
        rw [hz] at this
        rw [← this, List.count_append, h1]
        simp
      have h3 : (E.1 ++ E.2.1).count (.ref bk) = 0 := by
        rw [List.count_eq_zero]
        intro hm
        rcases List.mem_append.mp hm with hm | hm
        · rw [h1] at hm
          simp at hm
          exact hne hm.symm
        · rcases (hd bk).second with ⟨_, h4⟩ | ⟨P, L, h4, h5, h6⟩
          · rw [h4] at hm; simp at hm
          · rw [h4] at hm
            rcases List.mem_append.mp hm with hm | hm
            · rcases h6 with rfl | ⟨k, hk, rfl | ⟨k', hk', rfl⟩⟩
              · simp at hm
              · simp at hm
              · simp at hm; exact hbk (hm ▸ hk')
            · obtain ⟨k, hk, hm⟩ := List.mem_flatMap.mp hm
              simp at hm; exact hbk (hm ▸ h5 k hk)
      rw [h1]
      refine ⟨hb, ?_, ?_, trivial⟩
      · simp only [down, if_true]; omega
      · simp only [down, if_neg hne]; exact h0 nk hnk
  have e1 : ∀ k ∈ T, eff (fun k => placesIn k t) E.1 k ≠ 0 := by
    intro k hk
    have := eff_count s1 k
    have hne : k ≠ bk := fun e => hbk (e ▸ hk)
    have h2 : E.1.count (.unref k) = 0 := by
      rcases (hd bk).first with h1 | ⟨_, nk, hnk, h1⟩ <;> rw [h1] <;> simp [List.count_cons, Ne.symm hne]
    have := h0 k hk
    omega
  have hr1 : rms E.1 = 0 := by
    rcases (hd bk).first with h1 | ⟨_, nk, hnk, h1⟩ <;> rw [h1] <;> simp [rms, List.count_cons]
  have s2 : Safe (eff (fun k => placesIn k t) E.1) E.2.1 ∧ rms E.2.1 = 0 := by
    rcases (hd bk).second with ⟨_, h4⟩ | ⟨P, L, h4, h5, h6⟩
    · rw [h4]; exact ⟨trivial, rfl⟩
    · have sP : Safe (eff (fun k => placesIn k t) E.1) P ∧ rms P = 0 := by
        rcases h6 with rfl | ⟨k, hk, rfl | ⟨k', hk', rfl⟩⟩
        · exact ⟨trivial, rfl⟩
        · exact ⟨⟨e1 k hk, trivial⟩, by simp [rms, List.count_cons]⟩
        · refine ⟨⟨e1 k' hk', ?_, trivial⟩, by simp [rms, List.count_cons]⟩
          simp only [up]
          split
          · omega
          · exact e1 k hk
      have hL : ∀ k ∈ L, eff (eff (fun k => placesIn k t) E.1) P k ≠ 0 := by
        intro k hk
        have c1 := eff_count (safe_append s1 sP.1) k
        rw [eff_append] at c1
        have c2 := hw k
        rw [h4, ← List.append_assoc, List.count_append (l₁ := E.1 ++ P), List.count_append (l₁ := E.1 ++ P), pairs_count] at c2
        have := (hT k).mpr (h5 k hk)
        omega
      rw [h4, rms_append, sP.2, pairs_rms]
      exact ⟨safe_append sP.1 (safe_pairs L hL).1, rfl⟩
  have s := safe_append s1 s2.1
  refine ⟨s, ?_, by rw [rms_append, hr1, s2.2]⟩
  funext k
  have c1 := eff_count s k
  have c2 := hw k
  omega

/-- sum over a tree that may be empty -/
def rootW (g : List K → Nat) : Option Tree → Nat
  | none => 0
  | some t => weigh g t

/-- the root given up when nothing is left in it -/
theorem adjust_spec {o h t root} (w : Wf o h t) (hr : adjustRoot t = some root) :
    (∀ g, rootW g root + (if numKeys t > 0 then 0 else g []) = weigh g t) ∧
    (∀ c, Safe c (adjustEv t) ∧ eff c (adjustEv t) = c) ∧ rms (adjustEv t) = (if numKeys t > 0 then 0 else 1) := by
  refine ⟨?_, ?_, ?_⟩
  · intro g
    cases t with
    | leaf l =>
      simp only [adjustRoot, Option.some.injEq] at hr
      by_cases e : numKeys (.leaf l) > 0
      · have e' : l.keys.length > 0 := e
        rw [if_pos e'] at hr
        rw [if_pos e, ← hr]; rfl
      · have e' : ¬ l.keys.length > 0 := e
        rw [if_neg e'] at hr
        have : l.keys = [] := by simpa using e'
        rw [if_neg e, ← hr, weigh_leaf, this]
        simp [rootW]
    | node ks kids =>
      simp only [adjustRoot] at hr
      by_cases e : numKeys (.node ks kids) > 0
      · have e' : ks.length > 0 := e
        rw [if_pos e', Option.some.injEq] at hr
        rw [if_pos e, ← hr]; rfl
      · have e' : ¬ ks.length > 0 := e
        rw [if_neg e'] at hr
        obtain ⟨c, hc, rfl⟩ := Option.map_eq_some_iff.mp hr
        have hks : ks = [] := by simpa using e'
        have hl : kids.length = 1 := by
          cases w with
          | node h _ _ h1 _ _ _ => have := h1.length; simp [hks] at this; omega
        obtain ⟨c', rfl⟩ := List.length_eq_one_iff.mp hl
        simp only [List.length_singleton, Nat.zero_lt_one, List.getElem?_eq_getElem, List.getElem_cons_zero, Option.some.injEq] at hc
        subst hc
        rw [if_neg e, weigh_node, hks]; simp [rootW]; omega
  · intro c
    simp only [adjustEv]
    by_cases e : numKeys t > 0
    · rw [if_pos e]; exact ⟨trivial, rfl⟩
    · rw [if_neg e]; exact ⟨trivial, rfl⟩
  · simp only [adjustEv]
    by_cases e : numKeys t > 0
    · rw [if_pos e, if_pos e]; rfl
    · rw [if_neg e, if_neg e]; rfl

theorem deleteMem_spec {z b m s f t LA LB A B PA PB} (h : MInv z b m) (hit : Hit b s f t LA LB A B PA PB) :
    ∃ b' m', deleteEntry b f = some b' ∧ deleteMem z b f m = some (b', m') ∧ MInv z b' m' ∧ m'.answers = m.answers := by
  obtain ⟨b', j, x, hj, hde, hb', _, hx, hkeys, _⟩ := h.tree.deleteEntry hit
  have tok := h.tree.tree t hit.root
  obtain ⟨hh, w⟩ := tok.wf
  have hnd : (tkeys t).Nodup := tok.sorted.nodup
  have hbk : ∃ i, f.leaf.keys.idxOf? f.key = some i := by
    cases hi : f.leaf.keys.idxOf? f.key with
    | some i => exact ⟨i, rfl⟩
    | none => rw [List.idxOf?_eq_none_iff] at hi; exact absurd (by rw [hit.keys]; simp) hi
  obtain ⟨i, hi⟩ := hbk
  obtain ⟨t', sw, sh, hd, w', hn', htk, _⟩ := deleteAt_spec h.tree.ord hit.goes hi hj (hp := false) w tok.ne (by simp) hnd
  have hone : ∀ {g a n}, Weight g a n → DelMem g a n hh f.key (tkeys t') t t' sw (delEv b.order f.key f.rc f.path t) := by
    intro g a n wg
    obtain ⟨t2, sw2, sh2, hd2, hm⟩ := deleteAt_mem wg h.tree.ord hit.goes hi hj (hp := false) w tok.ne (by simp) hnd
    rw [hd] at hd2
    simp only [Option.some.injEq, Prod.mk.injEq] at hd2
    obtain ⟨rfl, rfl, rfl⟩ := hd2
    exact hm
  have hfk : f.key ∈ tkeys t := by rw [hit.goes.fl_eq, hit.keys]; simp
  have hsub : ∀ k ∈ tkeys t', k ∈ tkeys t ∧ k ≠ f.key := by
    intro k hk
    obtain ⟨A', B', e1, _, e3⟩ := idxOf?_split hi
    rw [htk, e1, e3, eraseIdx_mid] at hk
    have hnd' := hnd
    rw [hit.goes.fl_eq, e1] at hnd'
    rw [hit.goes.fl_eq, e1]
    have hp : (LA.flatMap Leaf.keys ++ (A' ++ f.key :: B') ++ LB.flatMap Leaf.keys).Perm (f.key :: (LA.flatMap Leaf.keys ++ (A' ++ B') ++ LB.flatMap Leaf.keys)) := by
      rw [List.append_assoc, List.append_assoc, List.append_assoc, List.cons_append, ← List.append_assoc (LA.flatMap Leaf.keys),
        ← List.append_assoc (LA.flatMap Leaf.keys)]
      refine List.perm_middle.trans ?_
      simp
    refine ⟨hp.mem_iff.mpr (List.mem_cons_of_mem _ hk), ?_⟩
    have := (List.nodup_cons.mp (hp.nodup_iff.mp hnd')).1
    intro e; subst e; exact this hk
  obtain ⟨s1, s2, s3⟩ := delMem_safe (fun k => hone (weight_count k)) (fun k => w'.places k) (fun hh => (hsub _ hh).2 rfl)
    (fun k hk => (w.places k).mpr (hsub k hk).1) ((w.places _).mpr hfk)
  obtain ⟨p, hp⟩ := (hone weight_one).third
  have hw1 := (hone weight_one).weight
  rw [refW_zero, unW_zero, hp] at hw1
  simp only [List.length_replicate] at hw1
  have hplaces : (fun k => placesIn k t) = placesOf b := by funext k; simp only [placesOf, hit.root]
  rw [hplaces] at s1 s2
  -- all events
  have fin : ∀ (adj : List Ev) (root : Option Tree), (∀ c, Safe c adj ∧ eff c adj = c) →
      (∀ g : List K → Nat, rootW g root + (rms adj) * g [] = weigh g t') →
      unrefRec { b with root := root } f.rc = some b' →
      delEvs b.order f.key f.rc f.path t = (delEv b.order f.key f.rc f.path t).1 ++ (delEv b.order f.key f.rc f.path t).2.1 ++ adj ++
        (delEv b.order f.key f.rc f.path t).2.2 →
      ∃ b' m', deleteEntry b f = some b' ∧ deleteMem z b f m = some (b', m') ∧ MInv z b' m' ∧ m'.answers = m.answers := by
    intro adj root ha hroot hu hev
    have sa := safe_append s1 (ha (eff (placesOf b) _)).1
    have ea : eff (placesOf b) ((delEv b.order f.key f.rc f.path t).1 ++ (delEv b.order f.key f.rc f.path t).2.1 ++ adj) = fun k => placesIn k t' := by
      rw [eff_append, (ha _).2, s2]
    have sr := safe_append sa (F := (delEv b.order f.key f.rc f.path t).2.2) (by rw [hp]; exact (safe_rms p).1)
    obtain ⟨m1, x1, x2, x3, x4, x5⟩ := safe_exec (z := z) (o := b.order) h.keys sr
    rw [eff_append, hp, (safe_rms p).2, ea] at x2
    rw [rms_append, rms_append, s3, hp] at x4
    have hrp : rms (List.replicate p Ev.rm) = p := by simp [rms]
    rw [hrp] at x4
    have hr1 : m1.recs = b.numEntries := by rw [x5]; exact h.recs
    obtain ⟨m2, u1, u2, u3⟩ := unref_recs (z := z) (b := b) (b1 := { b with root := root }) hx hx (live_pos (b := b) h.tree hx) hr1 hu
    have hroot' : b'.root = root := by
      simp only [unrefRec] at hu
      obtain ⟨y, _, rfl⟩ := Option.map_eq_some_iff.mp hu
      split <;> rfl
    refine ⟨b', m2, hde, ?_, ?_, ?_⟩
    · simp only [deleteMem, hit.root, hev, x1, hde, u1]
    · have ok1 : MetaOk z b.order m1 := h.ok.execs x1
      have hpl : ∀ k, placesOf b' k = placesIn k t' := by
        intro k
        have := hroot (fun l => l.count k)
        simp only [List.count_nil, Nat.mul_zero, Nat.add_zero] at this
        rw [← show _ = placesIn k t' from this]
        simp only [placesOf, hroot']
        cases root <;> rfl
      have hpl' : placesOf b' = fun k => placesIn k t' := funext hpl
      have hno : (nodesOf b' : Int) = m1.nodes := by
        have := hroot (fun _ => 1)
        have hnb := h.nodes
        simp only [nodesOf, hit.root, nodesIn] at hnb
        have hnb' : nodesOf b' = rootW (fun _ => 1) root := by
          simp only [nodesOf, hroot']
          cases root <;> rfl
        rw [x4, hnb, hnb']
        have hww : weigh (fun _ => 1) t' + p = weigh (fun _ => 1) t := by omega
        have : rootW (fun _ => 1) root + rms adj = weigh (fun _ => 1) t' := by omega
        omega
      rcases u3 with rfl | rfl
      · exact ⟨hb', by rw [deleteEntry_order hde]; exact ok1, by rw [hpl']; exact x2, by rw [x3]; exact h.pool, hno.symm, u2⟩
      · exact ⟨hb', by rw [deleteEntry_order hde]; exact ok1.freeRec, by rw [hpl']; exact x2, x3.trans h.pool, hno.symm, u2⟩
    · have := execs_answers x1
      rcases u3 with rfl | rfl
      · exact this
      · exact this
  have hde' := hde
  simp only [deleteEntry, hit.root, hd] at hde'
  cases sh with
  | true =>
    simp only [if_true] at hde'
    cases hr : adjustRoot t' with
    | none => rw [hr] at hde'; simp at hde'
    | some root =>
      rw [hr] at hde'
      obtain ⟨g1, g2, g3⟩ := adjust_spec w' hr
      refine fin (adjustEv t') root g2 ?_ hde' (by simp only [delEvs, hd])
      intro g
      have := g1 g
      rw [g3]
      split at this
      · rw [if_pos (by assumption)]; omega
      · rw [if_neg (by assumption)]; omega
  | false =>
    simp only [Bool.false_eq_true, if_false] at hde'
    refine fin [] (some t') (fun c => ⟨trivial, rfl⟩) ?_ hde' (by simp only [delEvs, hd, List.append_nil])
    intro g; simp [rms, rootW]

/-! ### all calls -/

theorem removed_spec {z b m s f t LA LB A B PA PB} {need : Prop} (h : MInv z b m) (hit : Hit b s f t LA LB A B PA PB) :
    Out z b m need ((deleteEntry b f).map fun b => (0, b)) ((deleteMem z b f m).map fun x => (0, x.1, x.2)) := by
  obtain ⟨b', m', h1, h2, h3, h4⟩ := deleteMem_spec h hit
  simp only [h1, h2, Option.map_some]
  exact ⟨0, b', m', rfl, h3, .inl rfl, fun ha => by simp only [Plenty]; rw [h4]; exact ha⟩

theorem delMem_spec {z b m} (h : MInv z b m) (s : Str) : Out z b m (needs b (.del s)) ((del b s).map fun b => (0, b)) (delMem z b m s) := by
  rcases find_spec h.tree s with ⟨e, hs⟩ | ⟨f, t, LA, LB, A, B, PA, PB, e, hit⟩
  · simp only [delMem, del, e]
    exact ⟨0, b, m, rfl, h, .inl rfl, id⟩
  · simp only [delMem, del, e]
    exact removed_spec h hit

theorem updateMem_spec {z b m} (h : MInv z b m) (s : Str) (fn) : Out z b m (needs b (.update s fn)) ((update b s fn).map fun b => (0, b)) (updateMem z b m s fn) := by
  rcases find_spec h.tree s with ⟨e, hs⟩ | ⟨f, t, LA, LB, A, B, PA, PB, e, hit⟩
  · simp only [updateMem, update, e]
    cases hf : fn none with
    | skip => exact ⟨0, b, m, rfl, h, .inl rfl, id⟩
    | write d n =>
      obtain ⟨rc, b', m', h1, h2, h3, h4⟩ := addMem_spec h s d n
      refine ⟨rc, b', m', h1, h2, ?_, h4⟩
      rcases h3 with h3 | ⟨h3, h5, _, h6⟩
      · exact .inl h3
      · exact .inr ⟨h3, h5, by simp only [needs, lookup, e, hf]; simp, h6⟩
    | remove => exact ⟨0, b, m, rfl, h, .inl rfl, id⟩
  · obtain ⟨x, hx, _⟩ := h.tree.mem_recs hit.mem
    simp only [updateMem, update, e, hx]
    cases fn (some x) with
    | skip => exact ⟨0, b, m, rfl, h, .inl rfl, id⟩
    | write d n =>
      obtain ⟨_, _, b', h1, h2, _⟩ := h.tree.writeRec hit.mem d n
      simp only [h1, Option.map_some]
      exact ⟨0, b', m, rfl, h.writeRec h2 h1, .inl rfl, id⟩
    | remove => exact removed_spec h hit

theorem stepMem_spec {z b m} (h : MInv z b m) (o : Op) : Out z b m (needs b o) (wanted b o) (stepMem z b m o) := by
  cases o with
  | add s d n => exact addMem_spec h s d n
  | alias k a f => exact aliasMem_spec h k a f
  | update s fn => exact updateMem_spec h s fn
  | del s => exact delMem_spec h s

theorem runMem_spec {z} (os : List Op) : ∀ {b m}, MInv z b m → ∃ rs b' m', runMem z b m os = some (rs, b', m') ∧ MInv z b' m' ∧
    Each b os rs b' (¬ Plenty m) := by
  induction os with
  | nil => intro b m h; exact ⟨[], b, m, rfl, h, .nil b _⟩
  | cons o os ih =>
    intro b m h
    obtain ⟨rc, b1, m1, h1, h2, h3, h4⟩ := stepMem_spec h o
    obtain ⟨rs, b', m', g1, g2, g3⟩ := ih h2
    refine ⟨rc :: rs, b', m', by simp only [runMem, h1, g1, Option.map_some], g2, ?_⟩
    have g4 : Each b1 os rs b' (¬ Plenty m) := g3.weaken fun hh ha => hh (h4 ha)
    rcases h3 with h3 | ⟨rfl, rfl, hn, h3⟩
    · exact .did h3 g4
    · exact .lacked h3 hn g4

theorem MInv.exact {z b m} (h : MInv z b m) : Exact z b m := by
  have hko : keyObjs b = keysOf b := by
    simp only [keyObjs, keysOf]
    cases b.root <;> rfl
  have hr : (records b).length = b.numEntries := h.tree.count.symm
  have hal : ∀ k, placesOf b k ≠ 0 ↔ k ∈ keysOf b := places_keys (fun t e => h.tree.tree t e)
  obtain ⟨D, d1, d2, d3, d4⟩ := h.ok
  have hnd : (keysOf b).Nodup := h.tree.sorted.nodup
  have hp : D.Perm (keysOf b) := by
    rw [List.perm_ext_iff_of_nodup d1 hnd]
    intro k
    rw [d2, h.keys, ← hal]
    by_cases e : placesOf b k = 0
    · rw [if_pos e]; simp [e]
    · rw [if_neg e]; simp [e]
  refine ⟨?_, ?_, h.keys, by rw [hko]; exact hal⟩
  · rw [d3, h.nodes, h.recs, hr, hko, (hp.map (keySize z)).sum_nat]
    simp only [nodeSize]
    have : (keysOf b).map (keySize z) = (keysOf b).map fun k => z.key + k.str.length + 1 := rfl
    rw [this]
    push_cast
    omega
  · rw [d4, h.nodes, h.recs, hr, hko, hp.length_eq]
    push_cast
    omega

theorem createMem_spec {z o as b m} (h : createMem z o as = some (b, m)) : MInv z b m ∧ create o = some b ∧ (false ∉ as → Plenty m) := by
  simp only [createMem] at h
  obtain ⟨b1, h1, h2⟩ := Option.bind_eq_some_iff.mp h
  cases hm : malloc ⟨as, 0, fun _ => none, 0, 0, 0, 0⟩ with
  | mk ok m1 =>
    rw [hm] at h2
    cases ok with
    | false => simp at h2
    | true =>
      simp only [Option.some.injEq, Prod.mk.injEq] at h2
      obtain ⟨rfl, rfl⟩ := h2
      have e := malloc_true hm
      have hroot : b1.root = none ∧ b1.numEntries = 0 := by
        simp only [create] at h1
        split at h1
        · simp at h1
        · simp only [Option.some.injEq] at h1; subst h1; exact ⟨rfl, rfl⟩
      refine ⟨⟨create_binv h1, ⟨[], List.nodup_nil, fun k => ?_, ?_, ?_⟩, fun k => ?_, e.pool, ?_, ?_⟩, h1, fun ha => ?_⟩
      · simp only [e.keys]; simp
      · simp only [e.nodes, e.recs]; simp
      · simp only [e.blocks, e.nodes, e.recs]; simp
      · simp only [e.keys, placesOf, hroot.1]; simp
      · simp only [e.nodes, nodesOf, hroot.1]; rfl
      · simp only [e.recs, hroot.2]; rfl
      · obtain ⟨m2, h2, h3⟩ := malloc_nil (m := ⟨as, 0, fun _ => none, 0, 0, 0, 0⟩) ha
        rw [hm] at h2
        simp only [Prod.mk.injEq, true_and] at h2
        subst h2; exact h3

end Sid.Bpt
