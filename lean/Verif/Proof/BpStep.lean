import Verif.Proof.BpInv
import Verif.Spec.BpTree
/-
Every call keeps the invariant; its effect on names and records.
-/
namespace Sid.Bpt

theorem Hit.keysOf {b s f t LA LB A B PA PB} (h : Hit b s f t LA LB A B PA PB) :
    keysOf b = (LA.flatMap Leaf.keys ++ A) ++ f.key :: (B ++ LB.flatMap Leaf.keys) := by
  simp only [Bpt.keysOf, h.root]
  rw [h.goes.fl_eq, h.keys]; simp

theorem Hit.ptrsOf {b s f t LA LB A B PA PB} (h : Hit b s f t LA LB A B PA PB) :
    ptrsOf b = (LA.flatMap Leaf.ptrs ++ PA) ++ f.rc :: (PB ++ LB.flatMap Leaf.ptrs) := by
  simp only [Bpt.ptrsOf, h.root]
  rw [h.goes.fl_eq, h.ptrs]; simp

theorem Hit.len2 {b s f t LA LB A B PA PB} (h : Hit b s f t LA LB A B PA PB) (ht : RootOk b) :
    (LA.flatMap Leaf.ptrs ++ PA).length = (LA.flatMap Leaf.keys ++ A).length := by
  obtain ⟨_, w⟩ := (ht t h.root).wf
  have := flat_len (L := LA) fun x hx => w.leaf_len x (by rw [h.goes.leaves_eq]; simp [hx])
  simp only [List.length_append, h.len, this]

theorem Hit.mem {b s f t LA LB A B PA PB} (h : Hit b s f t LA LB A B PA PB) : f.rc ∈ Bpt.ptrsOf b := by
  rw [h.ptrsOf]; simp

/-- the entries around the one found -/
theorem Hit.ents {b s f t LA LB A B PA PB} (h : Hit b s f t LA LB A B PA PB) (ht : RootOk b) :
    ents b = ((LA.flatMap Leaf.keys ++ A).map K.str).zip (LA.flatMap Leaf.ptrs ++ PA) ++
      (s, f.rc) :: ((B ++ LB.flatMap Leaf.keys).map K.str).zip (PB ++ LB.flatMap Leaf.ptrs) := by
  simp only [Bpt.ents]
  rw [h.keysOf, h.ptrsOf, List.map_append, List.zip_append (by rw [List.length_map]; exact (h.len2 ht).symm)]
  rw [List.map_cons, List.zip_cons_cons, h.str]

theorem BInv.writeRec {b} (h : BInv b) {r} (hr : r ∈ ptrsOf b) (d n : Nat) :
    ∃ x, b.recs r = some x ∧ ∃ b', writeRec b r d n = some b' ∧ BInv b' ∧ b'.root = b.root ∧ b'.nextRec = b.nextRec ∧
      b'.recs = fun q => if q = r then some ⟨d, n, x.refs⟩ else b.recs q := by
  obtain ⟨x, hx, hc, hpos⟩ := h.mem_recs hr
  obtain ⟨h1, h2, h3⟩ := binv_iff.mp h
  refine ⟨x, hx, { setRec b r (some ⟨d, n, x.refs⟩) with dataSize := b.dataSize - x.size + n }, by simp only [Bpt.writeRec, hx, Option.map_some], ?_, rfl, rfl, rfl⟩
  exact binv_iff.mpr ⟨h1, h2, h3.change (P' := ptrsOf b) (x' := ⟨d, n, x.refs⟩) hx hc hpos (fun _ _ => rfl)⟩

theorem count_insert (PA PB : List Nat) (r q : Nat) :
    (PA ++ r :: PB).count q = (PA ++ PB).count q + if q = r then 1 else 0 := by
  rw [List.count_append, List.count_append, List.count_cons]
  by_cases e : q = r
  · subst e; simp; omega
  · have : (r == q) = false := by simpa using fun h => e h.symm
    simp [this, e]

/-- a new key for an existing record -/
theorem BInv.insertRef {b} (h : BInv b) {s : Str} {r} (hr : r ∈ ptrsOf b) (hs : ∀ k ∈ keysOf b, k.str ≠ s) :
    ∃ x, b.recs r = some x ∧ ∃ b', insertRef b s r = some b' ∧ BInv b' ∧ b'.nextRec = b.nextRec ∧
      b'.recs = (fun q => if q = r then some ⟨x.data, x.size, x.refs + 1⟩ else b.recs q) ∧
      ∃ EA EB, ents b = EA ++ EB ∧ ents b' = EA ++ (s, r) :: EB := by
  obtain ⟨x, hx, hc, hpos⟩ := h.mem_recs hr
  obtain ⟨h1, h2, h3⟩ := binv_iff.mp h
  let b1 := setRec b r (some { x with refs := x.refs + 1 })
  obtain ⟨root', hi, ht', KA, KB, PA, PB, hk, hp, hl, hk', hp'⟩ := insert_spec (b := b1) (s := s) h1 h2 r hs
  have hk0 : keysOf b = KA ++ KB := hk
  have hp0 : ptrsOf b = PA ++ PB := hp
  refine ⟨x, hx, { b1 with root := root', nextId := b1.nextId + 2 }, by simp only [Bpt.insertRef, refRec, hx, Option.map_some]; exact hi, ?_, rfl, rfl, ?_⟩
  · refine binv_iff.mpr ⟨h1, ht', ?_⟩
    have h3' : RecOk b1 (PA ++ r :: PB) := by
      have := h3.change (P' := PA ++ r :: PB) (x' := ⟨x.data, x.size, x.refs + 1⟩) hx
        (by rw [count_insert, ← hp0]; simp [hc]) (by simp) (fun q hq => by rw [count_insert, ← hp0]; simp [hq])
      refine this.congr rfl rfl ?_ rfl
      simp only [b1, setRec]
      have : x.size ≤ b.dataSize := by
        obtain ⟨A, B, e, _⟩ := live_at b.recs b.nextRec r (h3.lt hx)
        have hl : (List.range b.nextRec).filterMap b.recs = live b := rfl
        rw [hl] at e
        rw [h3.size, e, hx]
        simp; omega
      omega
    rw [hp']
    exact h3'.congr rfl rfl rfl rfl
  · refine ⟨(KA.map K.str).zip PA, (KB.map K.str).zip PB, ?_, ?_⟩
    · simp only [ents]; rw [hk0, hp0, List.map_append, List.zip_append (by simp [hl])]
    · simp only [ents]; rw [hk', hp', List.map_append, List.map_cons, List.zip_append (by simp [hl]), List.zip_cons_cons]

/-- a new key with a new record -/
theorem BInv.insertNew {b} (h : BInv b) {s : Str} (d n : Nat) (hs : ∀ k ∈ keysOf b, k.str ≠ s) :
    ∃ b', Bpt.insertRef (makeRec b d n).1 s (makeRec b d n).2 = some b' ∧ BInv b' ∧ b'.nextRec = b.nextRec + 1 ∧
      b'.recs = (fun q => if q = b.nextRec then some ⟨d, n, 1⟩ else b.recs q) ∧
      ∃ EA EB, ents b = EA ++ EB ∧ ents b' = EA ++ (s, b.nextRec) :: EB := by
  obtain ⟨h1, h2, h3⟩ := binv_iff.mp h
  let b1 : Bpt := { setRec b b.nextRec (some ⟨d, n, 1⟩) with nextRec := b.nextRec + 1, dataSize := b.dataSize + n, numEntries := b.numEntries + 1 }
  have href : refRec (makeRec b d n).1 (makeRec b d n).2 = some b1 := by
    simp only [refRec, makeRec, setRec, if_true, Option.map_some, b1]
    congr 2
    funext i
    split <;> rfl
  obtain ⟨root', hi, ht', KA, KB, PA, PB, hk, hp, hl, hk', hp'⟩ := insert_spec (b := b1) (s := s) h1 h2 b.nextRec hs
  have hk0 : keysOf b = KA ++ KB := hk
  have hp0 : ptrsOf b = PA ++ PB := hp
  refine ⟨_, by simp only [Bpt.insertRef, href]; exact hi, ?_, rfl, rfl, ?_⟩
  · refine binv_iff.mpr ⟨h1, ht', ?_⟩
    have h3' : RecOk b1 (PA ++ b.nextRec :: PB) :=
      h3.new (P' := PA ++ b.nextRec :: PB) (by rw [count_insert, ← hp0]; simp) (fun q hq => by rw [count_insert, ← hp0]; simp [hq])
    rw [hp']
    exact h3'.congr rfl rfl rfl rfl
  · refine ⟨(KA.map K.str).zip PA, (KB.map K.str).zip PB, ?_, ?_⟩
    · simp only [ents]; rw [hk0, hp0, List.map_append, List.zip_append (by simp [hl])]
    · simp only [ents]; rw [hk', hp', List.map_append, List.map_cons, List.zip_append (by simp [hl]), List.zip_cons_cons]

/-- one reference less -/
theorem RecOk.unref {b P P'} {r : Nat} {x : Rec} (h : RecOk b P) (hx : b.recs r = some x)
    (hP : ∀ q, P.count q = P'.count q + if q = r then 1 else 0) :
    ∃ b', unrefRec b r = some b' ∧ RecOk b' P' ∧ b'.root = b.root ∧ b'.nextRec = b.nextRec ∧ b'.order = b.order ∧ b'.nextId = b.nextId ∧
      (∀ q, q ≠ r → b'.recs q = b.recs q) ∧
      b'.recs r = if P'.count r = 0 then none else some ⟨x.data, x.size, x.refs - 1⟩ := by
  have hc : x.refs = P.count r := by
    rcases h.recs r with ⟨e, _⟩ | ⟨y, e, hy, _⟩
    · rw [hx] at e; simp at e
    · rw [hx] at e; simp at e; subst e; exact hy
  have hr := hP r
  simp only [if_true] at hr
  simp only [unrefRec, hx, Option.map_some]
  by_cases hz : x.refs - 1 > 0
  · rw [if_pos hz]
    refine ⟨_, rfl, ?_, rfl, rfl, rfl, rfl, fun q hq => by simp [setRec, hq], by rw [if_neg (by omega)]; simp [setRec]⟩
    have := h.change (P' := P') (x' := ⟨x.data, x.size, x.refs - 1⟩) hx (by simp only []; omega) hz (fun q hq => by
      have := hP q; rw [if_neg hq] at this; omega)
    refine this.congr rfl rfl ?_ rfl
    simp only [setRec]
    have : x.size ≤ b.dataSize := by
      obtain ⟨A, B, e, _⟩ := live_at b.recs b.nextRec r (h.lt hx)
      have hl : (List.range b.nextRec).filterMap b.recs = live b := rfl
      rw [hl] at e
      rw [h.size, e, hx]
      simp; omega
    omega
  · rw [if_neg hz]
    refine ⟨_, rfl, ?_, rfl, rfl, rfl, rfl, fun q hq => by simp [setRec, hq], by rw [if_pos (by omega)]; simp [setRec]⟩
    exact h.drop hx (by omega) (fun q hq => by have := hP q; rw [if_neg hq] at this; omega)

theorem count_eraseIdx {P : List Nat} {r j : Nat} (h : P.idxOf? r = some j) (q : Nat) :
    P.count q = (P.eraseIdx j).count q + if q = r then 1 else 0 := by
  obtain ⟨A, B, rfl, _, rfl⟩ := idxOf?_split h
  rw [eraseIdx_mid]; exact count_insert A B r q

/-- removing the entry found: keys, record pointers and records -/
theorem BInv.deleteEntry {b} (h : BInv b) {s f t LA LB A B PA PB} (hit : Hit b s f t LA LB A B PA PB) :
    ∃ b' j x, f.leaf.ptrs.idxOf? f.rc = some j ∧ Bpt.deleteEntry b f = some b' ∧ BInv b' ∧ b'.nextRec = b.nextRec ∧ b.recs f.rc = some x ∧
      Bpt.keysOf b' = (LA.flatMap Leaf.keys ++ A) ++ (B ++ LB.flatMap Leaf.keys) ∧
      Bpt.ptrsOf b' = LA.flatMap Leaf.ptrs ++ f.leaf.ptrs.eraseIdx j ++ LB.flatMap Leaf.ptrs ∧
      (∀ q, q ≠ f.rc → b'.recs q = b.recs q) ∧
      b'.recs f.rc = if (Bpt.ptrsOf b').count f.rc = 0 then none else some ⟨x.data, x.size, x.refs - 1⟩ := by
  obtain ⟨h1, h2, h3⟩ := binv_iff.mp h
  obtain ⟨root', j, hj, hd, ht', hk', hp'⟩ := deleteEntry_spec h1 h2 hit
  obtain ⟨x, hx, _⟩ := h.mem_recs hit.mem
  have hcount : ∀ q, (ptrsOf b).count q = (ptrsOf { b with root := root' }).count q + if q = f.rc then 1 else 0 := by
    intro q
    rw [hp']
    have := count_eraseIdx hj q
    have e : ptrsOf b = LA.flatMap Leaf.ptrs ++ f.leaf.ptrs ++ LB.flatMap Leaf.ptrs := by
      simp only [Bpt.ptrsOf, hit.root]; exact hit.goes.fl_eq _
    rw [e]
    simp only [List.count_append]; omega
  obtain ⟨b', hu, hro, hroot, hnr, hord, hid, hq, hr⟩ :=
    RecOk.unref (b := { b with root := root' }) (P := ptrsOf b) (h3.congr rfl rfl rfl rfl) hx hcount
  have hpp : ptrsOf b' = ptrsOf { b with root := root' } := by simp only [Bpt.ptrsOf, hroot]
  have hkk : keysOf b' = keysOf { b with root := root' } := by simp only [Bpt.keysOf, hroot]
  refine ⟨b', j, x, hj, by rw [hd, hu], ?_, hnr, hx, by rw [hkk, hk'], by rw [hpp, hp'], hq, by rw [hpp]; exact hr⟩
  refine binv_iff.mpr ⟨by rw [hord]; exact h1, ?_, by rw [hpp]; exact hro⟩
  intro t' e
  rw [hord, hid]
  rw [hroot] at e
  exact ht' t' e

/-- redirecting an alias -/
theorem BInv.redirect {b} (h : BInv b) {s f t LA LB A B PA PB} (hit : Hit b s f t LA LB A B PA PB) {r : Nat} (hr : r ∈ Bpt.ptrsOf b)
    (hne : r ≠ f.rc) :
    ∃ b' x y, redirect b f r = some b' ∧ BInv b' ∧ b'.nextRec = b.nextRec ∧ b.recs f.rc = some x ∧ b.recs r = some y ∧
      Bpt.keysOf b' = Bpt.keysOf b ∧
      Bpt.ptrsOf b' = (LA.flatMap Leaf.ptrs ++ PA) ++ r :: (PB ++ LB.flatMap Leaf.ptrs) ∧
      (∀ q, q ≠ f.rc → q ≠ r → b'.recs q = b.recs q) ∧ b'.recs r = some ⟨y.data, y.size, y.refs + 1⟩ ∧
      b'.recs f.rc = if (Bpt.ptrsOf b').count f.rc = 0 then none else some ⟨x.data, x.size, x.refs - 1⟩ := by
  obtain ⟨h1, h2, h3⟩ := binv_iff.mp h
  have tok := h2 t hit.root
  obtain ⟨hh, w⟩ := tok.wf
  obtain ⟨t', hset, w', hn', hk', hl', hp'⟩ := setPtr_spec hit.goes f.idx r h1 w (fun _ => tok.ne)
  obtain ⟨x, hx, hxc, _⟩ := h.mem_recs hit.mem
  obtain ⟨y, hy, hyc, _⟩ := h.mem_recs hr
  have hp2 : tptrs t' = (LA.flatMap Leaf.ptrs ++ PA) ++ r :: (PB ++ LB.flatMap Leaf.ptrs) := by
    rw [hp', hit.ptrs, hit.idx, ← hit.len, set_mid]; simp
  -- after the reference of the new record
  let b1 : Bpt := { setRec b r (some { y with refs := y.refs + 1 }) with root := some t' }
  have hro1 : RecOk b1 (r :: ptrsOf b) := by
    have := h3.change (P' := r :: ptrsOf b) (x' := ⟨y.data, y.size, y.refs + 1⟩) hy
      (by simp [hyc]) (by simp) (fun q hq => by rw [List.count_cons]; simp [Ne.symm hq])
    refine this.congr rfl rfl ?_ rfl
    simp only [b1, setRec]
    have : y.size ≤ b.dataSize := by
      obtain ⟨A, B, e, _⟩ := live_at b.recs b.nextRec r (h3.lt hy)
      have hl : (List.range b.nextRec).filterMap b.recs = live b := rfl
      rw [hl] at e
      rw [h3.size, e, hy]
      simp; omega
    omega
  have hx1 : b1.recs f.rc = some x := by simp only [b1, setRec, if_neg (Ne.symm hne)]; exact hx
  have hcount : ∀ q, (r :: ptrsOf b).count q = (tptrs t').count q + if q = f.rc then 1 else 0 := by
    intro q
    rw [hp2, count_insert, hit.ptrsOf, List.count_cons, count_insert]
    by_cases e1 : q = r
    · subst e1; simp; omega
    · have : (r == q) = false := by simpa using fun h => e1 h.symm
      simp [this, e1]
  obtain ⟨b', hu, hro, hroot, hnr, hord, hid, hq, hrr⟩ := hro1.unref hx1 hcount
  have hroot' : b'.root = some t' := hroot
  have hpp : ptrsOf b' = tptrs t' := by simp only [Bpt.ptrsOf, hroot']
  have hkk : keysOf b' = keysOf b := by simp only [Bpt.keysOf, hroot', hit.root, hk']
  refine ⟨b', x, y, ?_, ?_, hnr, hx, hy, hkk, by rw [hpp, hp2], ?_, ?_, ?_⟩
  · simp only [Bpt.redirect, hit.root, refRec, hy, Option.map_some, hset]; exact hu
  · refine binv_iff.mpr ⟨by rw [hord]; exact h1, ?_, by rw [hpp]; exact hro⟩
    intro t2 e
    rw [hord, hid]
    rw [hroot'] at e
    simp only [Option.some.injEq] at e
    subst e
    exact ⟨⟨hh, w'⟩, by rw [hn']; exact tok.ne, by rw [hk']; exact tok.sorted, by rw [hl']; exact tok.linked, by rw [hl']; exact tok.ids,
      by rw [hl']; exact tok.bound⟩
  · intro q h1 h2
    rw [hq q h1]
    simp only [b1, setRec, if_neg h2]
  · rw [hq r hne]
    simp [b1, setRec]
  · rw [hpp]; exact hrr

/-- no call runs into undefined behaviour, and every call keeps the invariant -/
theorem BInv.add {b} (h : BInv b) (s : Str) (d n : Nat) : ∃ b', Bpt.add b s d n = some b' ∧ BInv b' := by
  rcases find_spec h s with ⟨e, hs⟩ | ⟨f, t, LA, LB, A, B, PA, PB, e, hit⟩
  · obtain ⟨b', h1, h2, _⟩ := h.insertNew d n hs
    exact ⟨b', by simp only [Bpt.add, e]; exact h1, h2⟩
  · obtain ⟨x, _, b', h1, h2, _⟩ := h.writeRec hit.mem d n
    exact ⟨b', by simp only [Bpt.add, e]; exact h1, h2⟩

theorem BInv.del {b} (h : BInv b) (s : Str) : ∃ b', Bpt.del b s = some b' ∧ BInv b' := by
  rcases find_spec h s with ⟨e, hs⟩ | ⟨f, t, LA, LB, A, B, PA, PB, e, hit⟩
  · exact ⟨b, by simp only [Bpt.del, e], h⟩
  · obtain ⟨b', _, _, _, h1, h2, _⟩ := h.deleteEntry hit
    exact ⟨b', by simp only [Bpt.del, e]; exact h1, h2⟩

theorem BInv.update {b} (h : BInv b) (s : Str) (fn) : ∃ b', Bpt.update b s fn = some b' ∧ BInv b' := by
  rcases find_spec h s with ⟨e, hs⟩ | ⟨f, t, LA, LB, A, B, PA, PB, e, hit⟩
  · simp only [Bpt.update, e]
    cases fn none with
    | skip => exact ⟨b, rfl, h⟩
    | write d n => exact h.add s d n
    | remove => exact ⟨b, rfl, h⟩
  · obtain ⟨x, hx, _⟩ := h.mem_recs hit.mem
    simp only [Bpt.update, e, hx]
    cases fn (some x) with
    | skip => exact ⟨b, rfl, h⟩
    | write d n =>
      obtain ⟨_, _, b', h1, h2, _⟩ := h.writeRec hit.mem d n
      exact ⟨b', h1, h2⟩
    | remove =>
      obtain ⟨b', _, _, _, h1, h2, _⟩ := h.deleteEntry hit
      exact ⟨b', h1, h2⟩

theorem BInv.addAlias {b} (h : BInv b) (k a : Str) (force : Bool) : ∃ rc b', Bpt.addAlias b k a force = some (rc, b') ∧ BInv b' := by
  rcases find_spec h k with ⟨e, hs⟩ | ⟨f, t, LA, LB, A, B, PA, PB, e, hit⟩
  · exact ⟨-1, b, by simp only [Bpt.addAlias, e], h⟩
  · rcases find_spec h a with ⟨e', hs'⟩ | ⟨g, t', LA', LB', A', B', PA', PB', e', hit'⟩
    · obtain ⟨x, _, b', h1, h2, _⟩ := h.insertRef hit.mem hs'
      exact ⟨0, b', by simp only [Bpt.addAlias, e, e', h1, Option.map_some], h2⟩
    · simp only [Bpt.addAlias, e, e']
      by_cases hne : f.rc = g.rc
      · exact ⟨0, b, by rw [if_pos hne], h⟩
      · rw [if_neg hne]
        cases force with
        | false => exact ⟨-1, b, by simp, h⟩
        | true =>
          obtain ⟨b', _, _, h1, h2, _⟩ := h.redirect hit' hit.mem hne
          exact ⟨0, b', by simp [h1], h2⟩

theorem BInv.step {b} (h : BInv b) (o : Op) : ∃ b', Bpt.step b o = some b' ∧ BInv b' := by
  cases o with
  | add s d n => exact h.add s d n
  | alias k a f =>
    obtain ⟨rc, b', h1, h2⟩ := h.addAlias k a f
    exact ⟨b', by simp [Bpt.step, h1], h2⟩
  | update s fn => exact h.update s fn
  | del s => exact h.del s

theorem BInv.run {b} (h : BInv b) (os : List Op) : ∃ b', Bpt.run b os = some b' ∧ BInv b' := by
  induction os generalizing b with
  | nil => exact ⟨b, rfl, h⟩
  | cons o os ih =>
    obtain ⟨b1, h1, h2⟩ := h.step o
    obtain ⟨b', h3, h4⟩ := ih h2
    exact ⟨b', by simp only [Bpt.run, h1]; exact h3, h4⟩

theorem create_binv {o b} (h : create o = some b) : BInv b := by
  simp only [create] at h
  split at h
  · simp at h
  · simp at h
    subst h
    refine ⟨by simp only []; omega, by simp, ?_, by simp, ?_, ?_⟩
    · intro r; left; simp [ptrsOf]
    · simp [live]
    · simp [live]

end Sid.Bpt

namespace Sid.Bpt

/-! ### the order never changes -/

theorem writeRec_order {b r d n b'} (h : writeRec b r d n = some b') : b'.order = b.order := by
  simp only [writeRec] at h
  obtain ⟨x, _, rfl⟩ := Option.map_eq_some_iff.mp h; rfl

theorem unrefRec_order {b r b'} (h : unrefRec b r = some b') : b'.order = b.order := by
  simp only [unrefRec] at h
  obtain ⟨x, _, rfl⟩ := Option.map_eq_some_iff.mp h
  split <;> rfl

theorem refRec_order {b r b'} (h : refRec b r = some b') : b'.order = b.order := by
  simp only [refRec] at h
  obtain ⟨x, _, rfl⟩ := Option.map_eq_some_iff.mp h; rfl

theorem insert_order {b s r b'} (h : insert b s r = some b') : b'.order = b.order := by
  simp only [insert] at h
  split at h
  · simp only [Option.some.injEq] at h; subst h; rfl
  · split at h
    · simp at h
    · obtain ⟨x, _, rfl⟩ := Option.map_eq_some_iff.mp h; rfl

theorem insertRef_order {b s r b'} (h : insertRef b s r = some b') : b'.order = b.order := by
  simp only [insertRef] at h
  split at h
  · simp at h
  · rename_i b1 e
    rw [insert_order h, refRec_order e]

theorem add_order {b s d n b'} (h : add b s d n = some b') : b'.order = b.order := by
  simp only [add] at h
  split at h
  · simp at h
  · exact writeRec_order h
  · rw [insertRef_order h]; rfl

theorem deleteEntry_order {b f b'} (h : deleteEntry b f = some b') : b'.order = b.order := by
  simp only [deleteEntry] at h
  split at h
  · simp at h
  · split at h
    · simp at h
    · split at h
      · simp at h
      · rw [unrefRec_order h]

theorem del_order {b s b'} (h : del b s = some b') : b'.order = b.order := by
  simp only [del] at h
  split at h
  · simp at h
  · simp only [Option.some.injEq] at h; subst h; rfl
  · exact deleteEntry_order h

theorem redirect_order {b f r b'} (h : redirect b f r = some b') : b'.order = b.order := by
  simp only [redirect] at h
  split at h
  · rename_i e
    split at h
    · simp at h
    · rw [unrefRec_order h, ← refRec_order e]
  · simp at h

theorem addAlias_order {b k a f p} (hp : addAlias b k a f = some p) : p.2.order = b.order := by
  simp only [addAlias] at hp
  split at hp
  · simp at hp
  · simp only [Option.some.injEq] at hp; subst hp; rfl
  · split at hp
    · simp at hp
    · split at hp
      · simp only [Option.some.injEq] at hp; subst hp; rfl
      · split at hp
        · simp only [Option.some.injEq] at hp; subst hp; rfl
        · obtain ⟨b1, hb, rfl⟩ := Option.map_eq_some_iff.mp hp; exact redirect_order hb
    · obtain ⟨b1, hb, rfl⟩ := Option.map_eq_some_iff.mp hp; exact insertRef_order hb

theorem update_order {b s fn b'} (h : update b s fn = some b') : b'.order = b.order := by
  simp only [update] at h
  split at h
  · simp at h
  all_goals
    split at h
    all_goals first
      | exact add_order h
      | (simp at h; done)
      | (simp only [Option.some.injEq] at h; subst h; rfl)
      | (split at h
         · simp only [Option.some.injEq] at h; subst h; rfl
         · exact writeRec_order h
         · exact deleteEntry_order h)

theorem step_order {b o b'} (h : step b o = some b') : b'.order = b.order := by
  cases o with
  | add s d n => exact add_order h
  | alias k a f =>
    obtain ⟨p, hp, rfl⟩ := Option.map_eq_some_iff.mp h
    exact addAlias_order hp
  | update s fn => exact update_order h
  | del s => exact del_order h

theorem run_order {b os b'} (h : run b os = some b') : b'.order = b.order := by
  induction os generalizing b with
  | nil => simp only [run, Option.some.injEq] at h; subst h; rfl
  | cons o os ih =>
    simp only [run] at h
    split at h
    · simp at h
    · rename_i b1 e
      rw [ih h, step_order e]

end Sid.Bpt
