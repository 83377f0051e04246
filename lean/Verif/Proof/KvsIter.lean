import Verif.Props.Kvs
import Verif.Props.BpTree
import Verif.Spec.KvsIter
/-
Helper lemmas for iterating over a store and for its statistics.
-/
namespace Sid.Kvs
open Sid.Spec Sid.Spec.KvStore Sid.Spec.Shape Sid.Props

/-! ### backends -/

/-- the tree holds the map, each value under one name -/
def BptR (b : Bpt.Bpt) (m : StrMap.Map) : Prop := ∃ S, Bpt.BInv b ∧ Bpt.Rep b S ∧ Bpt.Single S m

theorem bpt_create {order : Nat} {b : Bpt.Bpt} (h : Bpt.create order = some b) : BptR b fun _ => none :=
  ⟨_, Bpt.create_binv h, Bpt.create_rep h, Bpt.single_empty⟩

theorem bpt_lawful : Lawful bptBackend BptR := by
  refine ⟨?_, ?_⟩
  · rintro b m k ⟨S, hb, R, hs⟩
    obtain ⟨o, h1, h2⟩ := R.lookup hb k
    simp only [bptBackend, h1, Option.map_some, Option.some.injEq]
    rw [← hs.look k, ← h2, Option.map_map]
    cases o <;> rfl
  · rintro b m k f ⟨S, hb, R, hs⟩ -
    obtain ⟨b', h1, h2, h3⟩ := R.step hb (Bpt.toAlias (.update k f)) (hs.safe _)
    refine ⟨b', ?_, _, h2, h3, hs.step _⟩
    rw [← h1]
    simp only [bptBackend, Bpt.toAlias, Bpt.toOp, Bpt.step]
    congr 1
    funext o
    have : (o.map Bpt.view).map (fun v => (v.1, v.2.1)) = o.map fun x => (x.data, x.size) := by cases o <;> rfl
    rw [this]
    cases f (o.map fun x => (x.data, x.size)) <;> rfl

theorem BptR.lookup {b m} (h : BptR b m) (k : Str) :
    ∃ o, Bpt.lookup b k = some o ∧ m k = o.map fun x => (x.data, x.size) := by
  have := bpt_lawful.look k h
  simp only [bptBackend, Option.map_eq_some_iff] at this
  obtain ⟨o, h1, h2⟩ := this
  exact ⟨o, h1, h2.symm⟩

/-- the table holds the map under keys with their NUL -/
def HashR (t : Hash.Table) (m : StrMap.Map) : Prop :=
  ∃ m', HashRep t m' ∧ (∀ k v, m' k = some v → v.1 ≠ 0) ∧ (∀ k, m k = m' (k ++ [0])) ∧ ∀ K v, m' K = some v → ∃ k, K = k ++ [0]

theorem hash_create {hint : Nat} {t : Hash.Table} (h : Hash.create hint = some t) : HashR t fun _ => none :=
  ⟨_, HashRep.create h, by simp [HashMap.empty], by simp [HashMap.empty], by simp [HashMap.empty]⟩

theorem hash_lawful : Lawful hashBackend HashR := by
  have hget : ∀ {m : StrMap.Map} {m' : HashMap.Map}, (∀ k v, m' k = some v → v.1 ≠ 0) → (∀ k, m k = m' (k ++ [0])) →
      ∀ k, ofNull (HashMap.get m' (k ++ [0])) = m k := by
    intro m m' hnz hm k
    rw [hm k]
    exact ofNull_getD (m' (k ++ [0])) (hnz _)
  refine ⟨?_, ?_⟩
  · rintro t m k ⟨m', R, hnz, hm, -⟩
    simp only [hashBackend, R.lookup, hget hnz hm]
  · rintro t m k f ⟨m', R, hnz, hm, hend⟩ hf
    have hget := hget hnz hm
    have hs := R.step (.update (k ++ [0]) fun v => match f (ofNull v) with
      | .skip => .skip
      | .write d n => .write d n
      | .remove => .remove) trivial
    have hinj : ∀ k', k' ++ [(0 : UInt8)] = k ++ [0] ↔ k' = k := fun k' => by simp
    refine ⟨_, rfl, _, hs, ?_, ?_, ?_⟩
    · intro k' v e
      simp only [HashMap.step, hget] at e
      cases hfm : f (m k) with
      | skip => rw [hfm] at e; exact hnz k' v e
      | write d n =>
        rw [hfm] at e
        simp only [HashMap.put] at e
        split at e
        · cases e; exact hf _ _ _ hfm
        · exact hnz k' v e
      | remove =>
        rw [hfm] at e
        simp only [HashMap.erase] at e
        split at e
        · cases e
        · exact hnz k' v e
    · intro k'
      simp only [HashMap.step, hget, StrMap.step]
      cases hfm : f (m k) with
      | skip => exact hm k'
      | write d n => simp only [HashMap.put, StrMap.put, hinj, hm]
      | remove => simp only [HashMap.erase, StrMap.put, hinj, hm]
    · intro K v e
      simp only [HashMap.step, hget] at e
      cases hfm : f (m k) with
      | skip => rw [hfm] at e; exact hend K v e
      | write d n =>
        rw [hfm] at e
        simp only [HashMap.put] at e
        split at e
        · rename_i hK; exact ⟨k, hK⟩
        · exact hend K v e
      | remove =>
        rw [hfm] at e
        simp only [HashMap.erase] at e
        split at e
        · cases e
        · exact hend K v e

/-! ### loops -/

/-- what the backend reports, with the values in memory -/
def withVals {σ : Type} (s : Store σ) (out : List (Str × Nat)) : List (Str × Val) :=
  out.filterMap fun y => (s.vals y.2).map fun v => (y.1, v)

/-- the part seen before the first null pointer -/
def untilNull (l : List (Str × Val)) : List (Str × Val) := l.takeWhile fun x => !nullData x.2

theorem withVals_cons {σ : Type} {s : Store σ} {k : Str} {id : Nat} {out} {v : Val} (h : s.vals id = some v) :
    withVals s ((k, id) :: out) = (k, v) :: withVals s out := by
  simp [withVals, h]

theorem untilNull_cons {k : Str} {v : Val} {l} :
    untilNull ((k, v) :: l) = if nullData v then [] else (k, v) :: untilNull l := by
  simp only [untilNull, List.takeWhile_cons]
  cases nullData v <;> rfl

theorem bpt_loop {s : Store Bpt.Bpt} : ∀ (fuel : Nat) (it : Bpt.Iter) (out : List (Str × Bpt.Rec)),
    Bpt.iterAll s.back fuel it = some out → (∀ y ∈ out, ∃ v, s.vals y.2.data = some v) →
    iterLoop bptWalker s fuel it = some (untilNull (withVals s (out.map fun y => (y.1, y.2.data)))) := by
  intro fuel
  induction fuel with
  | zero => intro it out h; simp [Bpt.iterAll] at h
  | succ fuel ih =>
    intro it out h hl
    rw [Bpt.iterAll] at h
    rw [iterLoop, iterNext]
    simp only [bptWalker]
    cases hn : Bpt.iterNext s.back it with
    | none => rw [hn] at h; simp at h
    | some r =>
      obtain ⟨o, it'⟩ := r
      rw [hn] at h
      cases o with
      | none =>
        simp only [Option.some.injEq] at h
        subst h
        rfl
      | some x =>
        simp only [Option.map_eq_some_iff] at h
        obtain ⟨out', h1, rfl⟩ := h
        obtain ⟨v, hv⟩ := hl x (by simp)
        simp only [Option.map_some, hv, List.map_cons]
        rw [withVals_cons hv, untilNull_cons]
        by_cases hz : nullData v = true
        · simp only [hz, if_true]
        · simp only [hz, Bool.false_eq_true, if_false]
          have := ih it' out' h1 fun y hy => hl y (by simp [hy])
          simp only [bptWalker] at this
          rw [this]
          rfl

/-- the node an iterator goes to next -/
def hashGo (t : Hash.Table) : Option Hash.Cursor → Option (Option Hash.Cursor)
  | none => some (Hash.getFirst t)
  | some c => ((Hash.chain t c.1)[c.2]?).map fun n => Hash.getNext t c n

theorem hash_loop {s : Store Hash.Table} : ∀ (fuel : Nat) (it c : Option Hash.Cursor) (out : List Hash.Node),
    hashGo s.back it = some c → Hash.walk s.back fuel c = some out → (∀ y ∈ out, ∃ v, s.vals y.data = some v) →
    iterLoop hashWalker s (fuel + 1) it = some (untilNull (withVals s (out.map fun y => (y.key.dropLast, y.data)))) := by
  intro fuel
  have hnx : ∀ it : Option Hash.Cursor, hashWalker.next s.back it = match hashGo s.back it with
    | none => none
    | some none => some (none, none)
    | some (some c) => ((Hash.chain s.back c.1)[c.2]?).map fun n => (some (n.key.dropLast, n.data), some c) := by
    intro it; cases it <;> rfl
  induction fuel with
  | zero =>
    intro it c out h h2 hl
    cases c with
    | none =>
      simp only [Hash.walk, Option.some.injEq] at h2
      subst h2
      rw [iterLoop, iterNext, hnx, h]
      rfl
    | some c => simp [Hash.walk] at h2
  | succ fuel ih =>
    intro it c out h h2 hl
    cases c with
    | none =>
      simp only [Hash.walk, Option.some.injEq] at h2
      subst h2
      rw [iterLoop, iterNext, hnx, h]
      rfl
    | some c =>
      rw [Hash.walk] at h2
      cases hc : (Hash.chain s.back c.1)[c.2]? with
      | none => rw [hc] at h2; simp at h2
      | some n =>
        rw [hc] at h2
        simp only [Option.map_eq_some_iff] at h2
        obtain ⟨out', h3, rfl⟩ := h2
        obtain ⟨v, hv⟩ := hl n (by simp)
        rw [iterLoop, iterNext, hnx, h]
        simp only [hc, Option.map_some, hv, List.map_cons]
        rw [withVals_cons hv, untilNull_cons]
        by_cases hz : nullData v = true
        · simp only [hz, if_true]
        · simp only [hz, Bool.false_eq_true, if_false]
          rw [ih (some c) _ out' (by simp [hashGo, hc]) h3 fun y hy => hl y (by simp [hy])]
          rfl

/-! ### what is seen is what is stored -/

variable {σ : Type} {Rb : σ → StrMap.Map → Prop} {s : Store σ} {m : StrMap.Map} {L : List Nat}

theorem mem_withVals {out : List (Str × Nat)} {k : Str} {v : Val} :
    (k, v) ∈ withVals s out ↔ ∃ id, (k, id) ∈ out ∧ s.vals id = some v := by
  simp only [withVals, List.mem_filterMap, Option.map_eq_some_iff, Prod.mk.injEq]
  constructor
  · rintro ⟨⟨k', id⟩, h1, v', h2, rfl, rfl⟩
    exact ⟨id, h1, h2⟩
  · rintro ⟨id, h1, h2⟩
    exact ⟨(k, id), h1, v, h2, rfl, rfl⟩

theorem fst_withVals : ∀ {out : List (Str × Nat)}, (∀ y ∈ out, ∃ v, s.vals y.2 = some v) →
    (withVals s out).map Prod.fst = out.map Prod.fst
  | [], _ => rfl
  | y :: out, h => by
    obtain ⟨v, hv⟩ := h y (by simp)
    obtain ⟨k, id⟩ := y
    rw [withVals_cons hv]
    simp only [List.map_cons]
    rw [fst_withVals fun y hy => h y (by simp [hy])]

/-- the values, as a get reports them -/
def gots (l : List (Str × Val)) : List (Str × Got) := l.map fun x => (x.1, x.2.got)

theorem nullData_iff (v : Val) : nullData v = true ↔ NullRef v.got := by
  simp [nullData, NullRef, Val.got]

theorem reports {P : Str → Prop} (h : Inv Rb s m free L) {out : List (Str × Nat)} (hn : (out.map Prod.fst).Nodup)
    (hm : ∀ k id, (k, id) ∈ out ↔ (∃ n, m k = some (id, n)) ∧ P k) :
    Reports (cont s m) P (gots (withVals s out)) := by
  have hl : ∀ y ∈ out, ∃ v, s.vals y.2 = some v := by
    rintro ⟨k, id⟩ hy
    obtain ⟨⟨n, e⟩, -⟩ := (hm k id).mp hy
    exact h.live k _ e (notFree _)
  refine ⟨?_, ?_⟩
  · simp only [gots, List.map_map]
    rw [show (Prod.fst ∘ fun x : Str × Val => (x.1, x.2.got)) = Prod.fst from rfl, fst_withVals hl]
    exact hn
  · intro k g
    simp only [gots, List.mem_map, Prod.mk.injEq]
    constructor
    · rintro ⟨⟨k', v⟩, h1, rfl, rfl⟩
      obtain ⟨id, h2, h3⟩ := mem_withVals.mp h1
      obtain ⟨⟨n, e⟩, hP⟩ := (hm _ _).mp h2
      exact ⟨by simp [cont, e, h3], hP⟩
    · rintro ⟨h1, hP⟩
      simp only [cont, Option.bind_eq_some_iff, Option.map_eq_some_iff] at h1
      obtain ⟨p, e, v, hv, rfl⟩ := h1
      exact ⟨(k, v), mem_withVals.mpr ⟨p.1, (hm _ _).mpr ⟨⟨p.2, e⟩, hP⟩, hv⟩, rfl, rfl⟩

theorem gots_untilNull (l : List (Str × Val)) : gots (untilNull l) = beforeNull (gots l) := by
  induction l with
  | nil => rfl
  | cons x l ih =>
    obtain ⟨k, v⟩ := x
    rw [untilNull_cons]
    simp only [gots, beforeNull, List.map_cons, List.takeWhile_cons]
    by_cases hz : nullData v = true
    · simp [hz, (nullData_iff v).mp hz]
    · have : ¬ NullRef v.got := fun e => hz ((nullData_iff v).mpr e)
      simp only [hz, this, decide_false, Bool.not_false, if_true, Bool.false_eq_true, if_false, List.map_cons]
      rw [show List.map (fun x : Str × Val => (x.1, x.2.got)) (untilNull l) = gots (untilNull l) from rfl, ih]
      rfl

/-- the tree's entries as pairs of key and address -/
theorem bpt_pairs {b : Bpt.Bpt} {m : StrMap.Map} (h : BptR b m) {P : Str → Prop} {out : List (Str × Bpt.Rec)} (ha : Ascending out)
    (hm : ∀ k x, (k, x) ∈ out ↔ Bpt.lookup b k = some (some x) ∧ P k) :
    ((out.map fun y => (y.1, y.2.data)).map Prod.fst).Nodup ∧
      ∀ k id, (k, id) ∈ (out.map fun y => (y.1, y.2.data)) ↔ (∃ n, m k = some (id, n)) ∧ P k := by
  refine ⟨?_, ?_⟩
  · rw [List.map_map]
    rw [show (Prod.fst ∘ fun y : Str × Bpt.Rec => (y.1, y.2.data)) = Prod.fst from rfl]
    have : (out.map Prod.fst).Pairwise fun x y => strLt x y = true := List.pairwise_map.mpr ha
    refine this.imp fun {x y} hxy e => ?_
    subst e
    rw [strLt_irrefl] at hxy
    cases hxy
  · intro k id
    simp only [List.mem_map, Prod.mk.injEq]
    constructor
    · rintro ⟨⟨k', x⟩, h1, rfl, rfl⟩
      obtain ⟨h2, h3⟩ := (hm _ _).mp h1
      obtain ⟨o, g1, g2⟩ := h.lookup k'
      rw [h2] at g1
      cases g1
      exact ⟨⟨x.size, by simpa using g2⟩, h3⟩
    · rintro ⟨⟨n, e⟩, hP⟩
      obtain ⟨o, g1, g2⟩ := h.lookup k
      rw [e] at g2
      cases o with
      | none => cases g2
      | some x =>
        simp only [Option.map_some, Option.some.injEq, Prod.mk.injEq] at g2
        exact ⟨(k, x), (hm _ _).mpr ⟨g1, hP⟩, rfl, g2.1.symm⟩

theorem asc_gots {s : Store Bpt.Bpt} {out : List (Str × Bpt.Rec)} (ha : Ascending out)
    (hl : ∀ y ∈ out.map fun y => (y.1, y.2.data), ∃ v, s.vals y.2 = some v) :
    Ascending (gots (withVals s (out.map fun y => (y.1, y.2.data)))) := by
  have h1 : ((gots (withVals s (out.map fun y => (y.1, y.2.data)))).map Prod.fst) = out.map Prod.fst := by
    simp only [gots, List.map_map]
    rw [show (Prod.fst ∘ fun x : Str × Val => (x.1, x.2.got)) = Prod.fst from rfl, fst_withVals hl, List.map_map]
    rfl
  have h2 : (out.map Prod.fst).Pairwise fun x y => strLt x y = true := List.pairwise_map.mpr ha
  rw [← h1] at h2
  exact List.pairwise_map.mp h2

/-- an iteration of the tree, seen through the store -/
theorem bpt_seen {s : Store Bpt.Bpt} {m : StrMap.Map} {L : List Nat} (h : Inv BptR s m free L)
    {P : Str → Prop} {it : Bpt.Iter} {N : Nat} {out : List (Str × Bpt.Rec)}
    (hi : ∀ fuel, N ≤ fuel → Bpt.iterAll s.back fuel it = some out) (ha : Ascending out)
    (hm : ∀ k x, (k, x) ∈ out ↔ Bpt.lookup s.back k = some (some x) ∧ P k) :
    ∃ all, ReportsInOrder (cont s m) P all ∧
      ∀ fuel, N ≤ fuel → iterSeen bptWalker s fuel it = some (beforeNull all) := by
  obtain ⟨g1, g2⟩ := bpt_pairs h.back ha hm
  have hl : ∀ y ∈ out.map fun y => (y.1, y.2.data), ∃ v, s.vals y.2 = some v := by
    rintro ⟨k, id⟩ hy
    obtain ⟨⟨n, e⟩, -⟩ := (g2 k id).mp hy
    exact h.live k _ e (notFree _)
  refine ⟨_, ⟨asc_gots ha hl, reports h g1 g2⟩, ?_⟩
  intro fuel hf
  rw [iterSeen, bpt_loop fuel it out (hi fuel hf) fun y hy => hl _ (List.mem_map_of_mem hy), Option.map_some,
    ← gots_untilNull]
  rfl

end Sid.Kvs
