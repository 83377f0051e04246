import Verif.Proof.UbrIdx
import Verif.Proof.BpIter
import Verif.Spec.UbrIdx
namespace Sid.Props
open Sid.Ubr Sid.UbrIdx
open Sid.Spec.UbrIdx
open Sid.Ifc (txt)

/-! ### C101 -/

theorem c101_main {s : St} {db : Db} (h : Inv s db none) (hi : ∀ k, db.idx k = false) (l : List (Str × Call)) (hl : OnlyReserves l)
    {db' : Db} (hr : Ubr.calls false db l = some db') :
    (∃ s', UbrIdx.calls false s l = some s' ∧ Inv s' db' none) ∧ ∀ k, db'.idx k = false := by
  induction l generalizing s db with
  | nil => cases hr; exact ⟨⟨s, rfl, h⟩, hi⟩
  | cons x l ih =>
    obtain ⟨owner, x⟩ := x
    simp only [Ubr.calls, Option.bind_eq_some_iff] at hr
    obtain ⟨⟨rc, db1⟩, hc, hr⟩ := hr
    have hi1 : ∀ k, db1.idx k = false := by
      intro k
      cases x with
      | set c a => exact absurd rfl (hl (owner, .set c a) (List.mem_cons_self ..) c a)
      | reserve c ns name flags =>
        simp only [Ubr.call, Ubr.kvReserve, Ubr.doReserve] at hc
        split at hc
        · rw [if_neg (by simp)] at hc
          split at hc
          · cases hc
          · split at hc
            · cases hc; exact hi k
            · cases hc; exact hi k
        · cases hc; exact hi k
      | unreserve c ns name =>
        simp only [Ubr.call, Ubr.kvUnreserve, Ubr.doReserve] at hc
        split at hc
        · rw [if_pos (by simp)] at hc
          split at hc
          · cases hc; exact hi k
          · cases hc; exact hi k
        · cases hc; exact hi k
    obtain ⟨s1, e1, h1⟩ := h.call hc (fun k hk => by rw [hi k] at hk; cases hk) (fun _ => hi)
    obtain ⟨⟨s2, e2, h2⟩, h3⟩ := ih h1 hi1 (fun y hy => hl y (List.mem_cons_of_mem _ hy)) hr
    exact ⟨⟨s2, by simp only [UbrIdx.calls, e1, Option.bind_some, e2], h2⟩, h3⟩

theorem c101_worker {s : St} {db : Db} (h : Inv s db none) (l : List (Str × Call)) (hg : NeverUnmarked db l)
    {db' : Db} (hr : Ubr.calls true db l = some db') : ∃ s', UbrIdx.calls true s l = some s' ∧ Inv s' db' none := by
  induction l generalizing s db with
  | nil => cases hr; exact ⟨s, rfl, h⟩
  | cons x l ih =>
    obtain ⟨owner, x⟩ := x
    simp only [Ubr.calls, Option.bind_eq_some_iff] at hr
    obtain ⟨⟨rc, db1⟩, hc, hr⟩ := hr
    obtain ⟨hg1, hg2⟩ := hg _ hc
    obtain ⟨s1, e1, h1⟩ := h.call hc hg1 (by simp)
    obtain ⟨s2, e2, h2⟩ := ih h1 hg2 hr
    exact ⟨s2, by simp only [UbrIdx.calls, e1, Option.bind_some, e2], h2⟩

/-- C101 for the main process: whatever modules reserve and give back, the store answers every get as the map does -/
theorem C101_main {o : Nat} {s0 : St} (hs : init o = some s0) (l : List (Str × Call)) (hl : OnlyReserves l) {db : Db}
    (hr : Ubr.calls false Db.empty l = some db) :
    ∃ s, UbrIdx.calls false s0 l = some s ∧ ∀ c owner a, UbrIdx.kvGet s c owner a = some (Ubr.kvGet db c owner a) := by
  obtain ⟨⟨s, e, h⟩, _⟩ := c101_main (init_inv hs) (fun _ => rfl) l hl hr
  exact ⟨s, e, fun c owner a => h.get c owner a⟩

/-- C101 for workers: after the reservations of the main process, and then any calls of modules in a worker that never take a
    record out of the index, the store answers every get as the map does.
    Missing: calls that overwrite a marked record by an unmarked one (see the counterexample). -/
theorem C101_get_partial {o : Nat} {s0 : St} (hs : init o = some s0) (l0 l : List (Str × Call)) (hl : OnlyReserves l0) {db0 db : Db}
    (hr0 : Ubr.calls false Db.empty l0 = some db0) (hr : Ubr.calls true db0 l = some db) (hg : NeverUnmarked db0 l) :
    ∃ s1 s, UbrIdx.calls false s0 l0 = some s1 ∧ UbrIdx.calls true s1 l = some s ∧
      ∀ c owner a, UbrIdx.kvGet s c owner a = some (Ubr.kvGet db c owner a) := by
  obtain ⟨⟨s1, e, h⟩, _⟩ := c101_main (init_inv hs) (fun _ => rfl) l0 hl hr0
  obtain ⟨s, e2, h2⟩ := c101_worker h l hg hr
  exact ⟨s1, s, e, e2, fun c owner a => h2.get c owner a⟩

theorem strLt_cons (c : UInt8) (a b : Str) : strLt (c :: a) (c :: b) = strLt a b := by simp [strLt]

/-- C101: the walk over the index that collects what the worker sends reports exactly the marked records -/
theorem C101_index_partial {o : Nat} {s0 : St} (hs : init o = some s0) (l0 l : List (Str × Call)) (hl : OnlyReserves l0) {db0 db : Db}
    (hr0 : Ubr.calls false Db.empty l0 = some db0) (hr : Ubr.calls true db0 l = some db) (hg : NeverUnmarked db0 l) :
    ∃ s1 s, UbrIdx.calls false s0 l0 = some s1 ∧ UbrIdx.calls true s1 l = some s ∧
      ∃ N out, (∀ fuel, N ≤ fuel → walkIndex s fuel = some out) ∧ ListsMarked db out := by
  obtain ⟨⟨s1, e, h⟩, _⟩ := c101_main (init_inv hs) (fun _ => rfl) l0 hl hr0
  obtain ⟨s, e2, S, h2⟩ := c101_worker h l hg hr
  refine ⟨s1, s, e, e2, ?_⟩
  obtain ⟨N, out, h3, h4, h5⟩ := Bpt.iter_prefix h2.b opSync
  have hlook : ∀ k x, Bpt.lookup s.tree k = some (some x) → ∃ q, Spec.Aliased.denotes S k = some q ∧ x.data = (S.val q).1 := by
    intro k x hk
    obtain ⟨o, eo, ho⟩ := h2.R.lookup h2.b k
    rw [hk] at eo; cases eo
    simp only [Spec.Aliased.look, Option.map_some] at ho
    obtain ⟨q, hq, hv⟩ := Option.map_eq_some_iff.mp ho.symm
    simp only [Bpt.view, Prod.mk.injEq] at hv
    exact ⟨q, hq, hv.1.symm⟩
  have hlook' : ∀ k q, Spec.Aliased.denotes S k = some q → ∃ x, Bpt.lookup s.tree k = some (some x) ∧ x.data = (S.val q).1 := by
    intro k q hk
    obtain ⟨o, eo, ho⟩ := h2.R.lookup h2.b k
    simp only [Spec.Aliased.look, hk, Option.map_some] at ho
    obtain ⟨x, hx, hv⟩ := Option.map_eq_some_iff.mp ho
    simp only [Bpt.view, Prod.mk.injEq] at hv
    exact ⟨x, by rw [eo, hx], hv.1⟩
  have hplain : ∀ k, db.idx k = true → Plain k := by
    intro k hk
    obtain ⟨_, c, t, rfl, hc⟩ := h2.idxk k hk
    simp only [Plain, List.head?_cons, ne_eq, Option.some.injEq]
    rintro rfl; exact absurd hc (by decide)
  -- every entry is '>' ++ a marked key, and its value is the record of that key
  have hent : ∀ x ∈ out, ∃ k r, x.1 = 62 :: k ∧ s.vals x.2.data = some r ∧ db.idx k = true ∧ db.recs k = some r := by
    rintro ⟨n, x⟩ hx
    obtain ⟨hx1, t, rfl⟩ := (h5 n x).mp hx
    obtain ⟨q, hq, hd⟩ := hlook _ _ hx1
    have hq : Spec.Aliased.denotes S (62 :: t) = some q := hq
    have hi := h2.idx t
    rw [hq] at hi
    by_cases hit : db.idx t = true
    · rw [if_pos hit] at hi
      have hr := h2.recs t (hplain t hit)
      rw [← hi, Option.bind_some] at hr
      cases ev : s.vals (S.val q).1 with
      | none => exact absurd ev (h2.live _ _ hq)
      | some r => exact ⟨t, r, rfl, by show s.vals x.data = _; rw [hd, ev], hit, by rw [hr, ev]⟩
    · rw [if_neg hit] at hi; cases hi
  have hmap : ∀ L : List (Str × Bpt.Rec), (∀ x ∈ L, x ∈ out) → L.Pairwise (fun x y => strLt x.1 y.1 = true) →
      ∃ R, (L.mapM fun x => (s.vals x.2.data).map fun r => (x.1.drop 1, r)) = some R ∧ R.Pairwise (fun x y => strLt x.1 y.1 = true) ∧
        (∀ k r, (k, r) ∈ R ↔ ∃ x, (62 :: k, x) ∈ L ∧ s.vals x.data = some r) := by
    intro L hL hp
    induction L with
    | nil => exact ⟨[], rfl, List.Pairwise.nil, by simp⟩
    | cons y L ih =>
      obtain ⟨R, e, hp2, hm⟩ := ih (fun x hx => hL x (List.mem_cons_of_mem _ hx)) (List.pairwise_cons.mp hp).2
      obtain ⟨k, r, e1, e2, _, _⟩ := hent y (hL y (List.mem_cons_self ..))
      obtain ⟨n, x⟩ := y
      simp only at e1 e2
      subst e1
      refine ⟨(k, r) :: R, by rw [List.mapM_cons]; simp only [e2, e]; rfl, List.pairwise_cons.mpr ⟨?_, hp2⟩, ?_⟩
      · rintro ⟨k', r'⟩ hk'
        obtain ⟨x', hx', _⟩ := (hm k' r').mp hk'
        have := (List.pairwise_cons.mp hp).1 _ hx'
        rw [strLt_cons] at this
        exact this
      · intro k' r'
        rw [List.mem_cons, hm]
        constructor
        · rintro (e | ⟨x', hx', hv⟩)
          · cases e; exact ⟨x, List.mem_cons_self .., e2⟩
          · exact ⟨x', List.mem_cons_of_mem _ hx', hv⟩
        · rintro ⟨x', hx', hv⟩
          rcases List.mem_cons.mp hx' with e | e
          · cases e
            rw [e2] at hv; cases hv
            exact Or.inl rfl
          · exact Or.inr ⟨x', e, hv⟩
  obtain ⟨R, e6, h6, h7⟩ := hmap out (fun _ h => h) h4
  refine ⟨N, R, fun fuel hf => by simp only [walkIndex, h3 fuel hf, Option.bind_some, e6], h6, fun k r => ?_⟩
  rw [h7]
  constructor
  · rintro ⟨x, hx, hv⟩
    obtain ⟨k', r', e1, e2, e3, e4⟩ := hent _ hx
    cases e1
    simp only at e2
    rw [hv] at e2; cases e2
    exact ⟨e3, e4⟩
  · rintro ⟨hi, hr⟩
    have hrr := h2.recs k (hplain k hi)
    rw [hr] at hrr
    cases hd : Spec.Aliased.denotes S k with
    | none => rw [hd] at hrr; cases hrr
    | some q =>
      rw [hd, Option.bind_some] at hrr
      obtain ⟨x, hx, hv⟩ := hlook' (62 :: k) q (by rw [h2.idx k, if_pos hi, hd])
      exact ⟨x, (h5 _ _).mpr ⟨hx, k, rfl⟩, by rw [hv, hrr]⟩

/-- C101: every value in memory is the record of exactly one key (none is lost, none is shared by two records), and every key
    leads to a value in memory -/
theorem C101_memory_partial {o : Nat} {s0 : St} (hs : init o = some s0) (l0 l : List (Str × Call)) (hl : OnlyReserves l0) {db0 db : Db}
    (hr0 : Ubr.calls false Db.empty l0 = some db0) (hr : Ubr.calls true db0 l = some db) (hg : NeverUnmarked db0 l) :
    ∃ s1 s, UbrIdx.calls false s0 l0 = some s1 ∧ UbrIdx.calls true s1 l = some s ∧
      (∀ a r, s.vals a = some r → ∃ k, k.head? ≠ some 62 ∧ addrOf s k = some (some a) ∧
        ∀ k', k'.head? ≠ some 62 → addrOf s k' = some (some a) → k' = k) ∧
      ∀ k a, addrOf s k = some (some a) → ∃ r, s.vals a = some r := by
  obtain ⟨⟨s1, e, h⟩, _⟩ := c101_main (init_inv hs) (fun _ => rfl) l0 hl hr0
  obtain ⟨s, e2, S, h2⟩ := c101_worker h l hg hr
  refine ⟨s1, s, e, e2, ?_, ?_⟩
  · intro a r ha
    have haddr : ∀ k, addrOf s k = some (some a) → ∃ q, Spec.Aliased.denotes S k = some q ∧ (S.val q).1 = a := by
      intro k hk
      rw [Inv.addr h2, Option.some.injEq] at hk
      exact Option.map_eq_some_iff.mp hk
    obtain ⟨k, q, hk, hp, hv⟩ : ∃ k q, Spec.Aliased.denotes S k = some q ∧ Plain k ∧ (S.val q).1 = a := by
      rcases h2.kept a (by rw [ha]; simp) with h9 | ⟨k, q, hk, hv⟩
      · cases h9
      · by_cases hp : Plain k
        · exact ⟨k, q, hk, hp, hv⟩
        · simp only [Plain, ne_eq, Decidable.not_not] at hp
          obtain ⟨t, rfl⟩ : ∃ t, k = 62 :: t := by
            cases k with
            | nil => cases hp
            | cons c t => simp at hp; exact ⟨t, by rw [hp]⟩
          rw [h2.idx t] at hk
          by_cases hit : db.idx t = true
          · rw [if_pos hit] at hk
            obtain ⟨_, c, t', ht, hc⟩ := h2.idxk t hit
            refine ⟨t, q, hk, ?_, hv⟩
            subst ht; simp only [Plain, List.head?_cons, ne_eq, Option.some.injEq]
            rintro rfl; exact absurd hc (by decide)
          · rw [if_neg hit] at hk; cases hk
    refine ⟨k, hp, by rw [Inv.addr h2, hk, Option.map_some, hv], fun k' hp' hk' => ?_⟩
    obtain ⟨q', hq', hv'⟩ := haddr k' hk'
    have := h2.ainj k' k q' q hq' hk (by rw [hv, hv'])
    subst this
    exact h2.rinj k' k q' hp' hp hq' hk
  · intro k a hk
    rw [Inv.addr h2, Option.some.injEq] at hk
    obtain ⟨q, hq, hv⟩ := Option.map_eq_some_iff.mp hk
    have := h2.live k q hq
    rw [hv] at this
    cases ev : s.vals a with
    | none => exact absurd ev this
    | some r => exact ⟨r, rfl⟩

/-! the counterexample -/

theorem strLt_append (p a b : Str) : strLt (p ++ a) (p ++ b) = strLt a b := by
  induction p with
  | nil => rfl
  | cons c p ih => rw [List.cons_append, List.cons_append, strLt_cons, ih]

theorem matchFrom_self (n : Nat) (a : Str) : matchFrom n a a = .same := by
  induction a generalizing n with
  | nil => simp [matchFrom, matchRest]
  | cons c a ih => simp [matchFrom, ih]

theorem wrAllowed_self (r : Rec) : wrAllowed (some r) r.owner = 1 := by
  simp only [wrAllowed, modMatch]
  by_cases h : r.owner = core
  · rw [if_pos h]
  · rw [if_neg h, matchFrom_self]

set_option maxRecDepth 5000 in
/-- on an empty store of order 4: the record at a key is marked, another one is stored at a greater key, then the first is
    overwritten without the mark -/
theorem c101_exchanged (ta tb o : Str) (r1 r2 r3 : Rec) (h1 : strLt (58 :: ta) (58 :: tb) = true) (hw : 0 ≤ wrAllowed (some r1) o)
    (g1 : has r1.flags flAr = false) (g2 : has r2.flags flAr = false) (g3 : has r3.flags flAr = false)
    (f1 : has r1.flags flSync = true) (f2 : has r2.flags flSync = false) (f3 : has r3.flags flSync = false) :
    ((init 4).bind fun s => (UbrIdx.writeRec s (58 :: ta) o r1).bind fun x => (UbrIdx.writeRec x.2 (58 :: tb) o r2).bind fun y =>
      (UbrIdx.writeRec y.2 (58 :: ta) o r3).bind fun z =>
        (fetch z.2 (58 :: ta)).bind fun u => (fetch z.2 (58 :: tb)).map fun v => (z.1, u, v)) = some (true, some r2, some r3) := by
  have hca := canon_cons ta
  have hcb := canon_cons tb
  have hci : ∀ t, Kvs.canon (opSync ++ t) = 62 :: t := fun t => rfl
  have h3 : strLt (58 :: ta) (62 :: 58 :: ta) = true := by simp [strLt]
  have h2 : strLt (58 :: tb) (62 :: 58 :: ta) = true := by simp [strLt]
  have h4 := strLt_asymm h1
  have h6 := strLt_asymm h3
  have n1 := strLt_ne h1
  have n2 := strLt_ne h2
  have n3 := strLt_ne h3
  have w0 : wrAllowed none o = 0 := rfl
  generalize ea : (58 :: ta : Str) = a at *
  generalize eb : (58 :: tb : Str) = b at *
  have hi := hci a
  generalize (62 :: a : Str) = i at *
  simp [init, UbrIdx.writeRec, UbrIdx.kvsSet, UbrIdx.fetch, UbrIdx.addrOf, UbrIdx.alloc, UbrIdx.point, UbrIdx.release, UbrIdx.release?,
    UbrIdx.retire, UbrIdx.manageIndex, UbrIdx.synced, UbrIdx.kvsUnset, UbrIdx.addAlias, hca, hcb, hi, w0, hw, g1, g2, g3, f1, f2, f3,
    UbrIdx.lastName, Bpt.lookup, Bpt.create, Bpt.update, Bpt.add, Bpt.addAlias, Bpt.find, Bpt.findLeaf, Bpt.searchLeaf,
    List.findIdx?_cons, Bpt.makeRec, Bpt.setRec, Bpt.insertRef, Bpt.refRec, Bpt.insert, Bpt.insertAt, Bpt.insertIntoLeaf, Bpt.insPoint,
    Bpt.growRoot, Bpt.deleteEntry, Bpt.deleteAt, Bpt.removeFromLeaf, Bpt.adjustRoot, Bpt.unrefRec, Bpt.writeRec,
    List.idxOf?_cons, h2, h4, h6, n1, n2, n3, n2.symm]

theorem c101_set {s : St} {db : Db} (h : Inv s db none) (c : Ctx) (owner name v : Str) (f : Flags) (ha : argsOk .module name = true) :
    UbrIdx.kvSet s c owner ⟨.module, name, some v, f⟩ =
      (UbrIdx.writeRec s ((composeKey (setSpec c owner (domOf .module) .module name)).drop 1) owner ⟨c.seqnum, f, c.gennum, owner, .scalar v⟩).bind
        fun x => if x.1 = false then none else some (0, x.2) := by
  simp only [UbrIdx.kvSet, ha, if_true, UbrIdx.doKvSet, h.globalRs, Ubr.globalRs, setRec, Option.getD_some, Option.isSome_some, true_and]
  rw [if_neg (by simp), if_pos (by simp), if_neg (by simp)]
  simp only [Option.bind_some]
  rw [if_neg (by omega)]

/-- C101 fails without the guard, for every module and all names `a` < `b`: `a` is set with SID_KV_FL_SYNC, `b` is set, `a` is
    set again without the flag.  All calls succeed; then `a` reads the value of `b`, and `b` that of `a`. -/
theorem C101_counterexample_exchanged (c : Ctx) (owner a b va vb va' : Str) (ha : argsOk .module a = true) (hb : argsOk .module b = true)
    (hlt : strLt a b = true) :
    ∃ s0 s, init 4 = some s0 ∧
      UbrIdx.calls true s0 [(owner, .set c ⟨.module, a, some va, flSync⟩), (owner, .set c ⟨.module, b, some vb, 0⟩),
        (owner, .set c ⟨.module, a, some va', 0⟩)] = some s ∧
      UbrIdx.kvGet s c owner ⟨.module, a, none, none, 0⟩ = some (.ok ⟨c.seqnum, 0, c.gennum, owner, .scalar vb⟩) ∧
      UbrIdx.kvGet s c owner ⟨.module, b, none, none, 0⟩ = some (.ok ⟨c.seqnum, 0, c.gennum, owner, .scalar va'⟩) := by
  obtain ⟨s0, hs0⟩ : ∃ s0, init 4 = some s0 := ⟨_, rfl⟩
  have hkey : ∀ n : Str, composeKey (setSpec c owner (domOf .module) .module n) =
      32 :: 58 :: (domUser ++ [join] ++ nsPrefix .module ++ [join] ++ owner ++ [join] ++ [] ++ [join] ++ [] ++ [join]) ++ n := by
    intro n
    simp [composeKey, doComposeKey, setSpec, domOf, orNull, nsPartOf, opPrefix, opBlank]
    rfl
  have hget : ∀ n : Str, composeKey (getSpec c owner (domOf .module) .module n none none 0) =
      composeKey (setSpec c owner (domOf .module) .module n) := by
    intro n
    simp [composeKey, doComposeKey, setSpec, getSpec, orNull]
  obtain ⟨pre, hpre⟩ : ∃ pre : Str, ∀ n : Str, composeKey (setSpec c owner (domOf .module) .module n) = 32 :: 58 :: (pre ++ n) :=
    ⟨_, fun n => by rw [hkey]; rfl⟩
  have hk58 : strLt (58 :: (pre ++ a)) (58 :: (pre ++ b)) = true := by rw [strLt_cons, strLt_append]; exact hlt
  have key := c101_exchanged (pre ++ a) (pre ++ b) owner ⟨c.seqnum, flSync, c.gennum, owner, .scalar va⟩
    ⟨c.seqnum, 0, c.gennum, owner, .scalar vb⟩ ⟨c.seqnum, 0, c.gennum, owner, .scalar va'⟩ hk58
    (by rw [wrAllowed_self ⟨c.seqnum, flSync, c.gennum, owner, .scalar va⟩]; decide)
    (show has flSync flAr = false by decide) (show has 0 flAr = false by decide) (show has 0 flAr = false by decide)
    (show has flSync flSync = true by decide) (show has 0 flSync = false by decide) (show has 0 flSync = false by decide)
  rw [hs0, Option.bind_some] at key
  have i0 := init_inv hs0
  obtain ⟨⟨k1, s1⟩, e1, key⟩ := Option.bind_eq_some_iff.mp key
  obtain ⟨⟨k2, s2⟩, e2, key⟩ := Option.bind_eq_some_iff.mp key
  obtain ⟨⟨k3, s3⟩, e3, key⟩ := Option.bind_eq_some_iff.mp key
  simp only at e2 e3 key
  obtain ⟨u, e4, key⟩ := Option.bind_eq_some_iff.mp key
  obtain ⟨v, e5, key⟩ := Option.map_eq_some_iff.mp key
  simp only [Prod.mk.injEq] at key
  obtain ⟨hk3, hu, hv⟩ := key
  subst hk3 hu hv
  obtain ⟨s1', e1', h1⟩ := i0.write (pre ++ a) owner ⟨c.seqnum, flSync, c.gennum, owner, .scalar va⟩ (fun hx => by cases hx)
  have t0 : decide (0 ≤ wrAllowed (Db.empty.recs (58 :: (pre ++ a))) owner) = true := rfl
  rw [t0, e1] at e1'
  simp only [Option.some.injEq, Prod.mk.injEq] at e1'
  obtain ⟨hk1, hs1⟩ := e1'
  subst hk1 hs1
  rw [if_pos (of_decide_eq_true t0)] at h1
  have hne : (58 :: (pre ++ b) : Str) ≠ 58 :: (pre ++ a) := (strLt_ne hk58).symm
  have hdb1 : (Ubr.writeRec Db.empty (58 :: (pre ++ a)) ⟨c.seqnum, flSync, c.gennum, owner, .scalar va⟩) =
      (Db.empty.put (58 :: (pre ++ a)) (some ⟨c.seqnum, flSync, c.gennum, owner, .scalar va⟩)).mark (58 :: (pre ++ a)) true := by
    have f1 : has flSync flAr = false := by decide
    have f2 : has flSync flSync = true := by decide
    simp [Ubr.writeRec, Ubr.manageIndex, Db.empty, f1, f2]
  rw [hdb1] at h1
  generalize hdb : (Db.empty.put (58 :: (pre ++ a)) (some (⟨c.seqnum, flSync, c.gennum, owner, .scalar va⟩ : Rec))).mark (58 :: (pre ++ a)) true = db at h1
  have hrb : db.recs (58 :: (pre ++ b)) = none := by
    rw [← hdb]; show (if (58 :: (pre ++ b) : Str) = 58 :: (pre ++ a) then _ else _) = none; rw [if_neg hne]; rfl
  have hib : db.idx (58 :: (pre ++ b)) = false := by
    rw [← hdb]; show (if (58 :: (pre ++ b) : Str) = 58 :: (pre ++ a) then _ else _) = false; rw [if_neg hne]; rfl
  obtain ⟨s2', e2', h2⟩ := h1.write (pre ++ b) owner ⟨c.seqnum, 0, c.gennum, owner, .scalar vb⟩ (fun hx => by rw [hib] at hx; cases hx)
  rw [hrb, e2] at e2'
  simp only [Option.some.injEq, Prod.mk.injEq] at e2'
  obtain ⟨hk2, hs2⟩ := e2'
  have hk2 : k2 = true := hk2
  subst hk2 hs2
  refine ⟨s0, s3, hs0, ?_, ?_, ?_⟩
  · have d : ∀ n : Str, (composeKey (setSpec c owner (domOf .module) .module n)).drop 1 = 58 :: (pre ++ n) := fun n => by rw [hpre]; rfl
    simp only [UbrIdx.calls, UbrIdx.call, c101_set i0 c owner a va flSync ha, d, e1, Option.bind_some, Bool.true_eq_false, if_false,
      c101_set h1 c owner b vb 0 hb, e2, c101_set h2 c owner a va' 0 ha, e3]
  · have : fetch s3 (32 :: 58 :: (pre ++ a)) = fetch s3 (58 :: (pre ++ a)) := by simp only [fetch, canon_blank, canon_cons]
    simp only [UbrIdx.kvGet, ha, if_true, hget, hpre, this, e4, Option.map_some]
    simp only [doKvGet, getRec, found, rdAllowed, modMatch]
    by_cases h : owner = core
    · simp [h]
    · simp [h, matchFrom_self]
  · have : fetch s3 (32 :: 58 :: (pre ++ b)) = fetch s3 (58 :: (pre ++ b)) := by simp only [fetch, canon_blank, canon_cons]
    simp only [UbrIdx.kvGet, hb, if_true, hget, hpre, this, e5, Option.map_some]
    simp only [doKvGet, getRec, found, rdAllowed, modMatch]
    by_cases h : owner = core
    · simp [h]
    · simp [h, matchFrom_self]

/-! the guards are met: histories in which every set in the worker carries the mark -/

theorem c101_marked_kept {db : Db} {owner : Str} {c : Ctx} {a : SetArgs} (hf : has (setRec c owner a).flags flSync = true) {r : Int × Db}
    (hr : Ubr.call true db owner (.set c a) = some r) : ∀ k, db.idx k = true → r.2.idx k = true := by
  intro k hk
  simp only [Ubr.call, Ubr.kvSet] at hr
  split at hr
  · simp only [Ubr.doKvSet, Option.bind_eq_some_iff] at hr
    obtain ⟨g, _, hr⟩ := hr
    split at hr
    · cases hr; exact hk
    · split at hr
      · split at hr
        · cases hr
        · cases hr; exact hk
      · cases hr
        simp only [Ubr.writeRec, Ubr.manageIndex, Bool.false_eq_true, if_false, Option.any_some, hf]
        split
        · next h => simp at h
        · simp only [Db.mark]; split
          · rfl
          · split <;> exact hk
        · split <;> exact hk
  · cases hr; exact hk

theorem c101_marked (db : Db) (l : List (Str × Call)) (hl : ∀ x ∈ l, ∃ c a, x.2 = .set c a ∧ has (setRec c x.1 a).flags flSync = true) :
    NeverUnmarked db l := by
  induction l generalizing db with
  | nil => trivial
  | cons x l ih =>
    obtain ⟨owner, x⟩ := x
    obtain ⟨c, a, e, hf⟩ := hl (owner, x) (List.mem_cons_self ..)
    simp only at e; subst e
    intro r hr
    exact ⟨c101_marked_kept hf hr, ih r.2 fun y hy => hl y (List.mem_cons_of_mem _ hy)⟩

/-- a module reserves a name in the main process; in a worker it sets a device's value of that name twice, and one of its own -/
def c101Main : List (Str × Call) := [(txt "/m", .reserve {} .device (txt "k") 0)]
def c101Dev : Ctx := { num := some (txt "8_0"), uid := some (txt "u") }
def c101Worker : List (Str × Call) :=
  [(txt "/m", .set c101Dev ⟨.device, txt "k", some [49], flSync⟩), (txt "/m", .set c101Dev ⟨.module, txt "z", some [50], flSyncP⟩),
   (txt "/m", .set c101Dev ⟨.device, txt "k", some [51], flSync ||| flAr⟩)]

example : OnlyReserves c101Main := by
  intro x hx c a
  simp only [c101Main, List.mem_singleton] at hx
  subst hx; simp

example (db : Db) : NeverUnmarked db c101Worker := by
  refine c101_marked db c101Worker fun x hx => ?_
  simp only [c101Worker, List.mem_cons, List.not_mem_nil, or_false] at hx
  rcases hx with rfl | rfl | rfl
  · exact ⟨_, _, rfl, show has flSync flSync = true by decide⟩
  · exact ⟨_, _, rfl, show has flSyncP flSync = true by decide⟩
  · exact ⟨_, _, rfl, show has (flSync ||| flAr) flSync = true by decide⟩

set_option maxRecDepth 4000 in
example : ∃ db0 db, Ubr.calls false Db.empty c101Main = some db0 ∧ Ubr.calls true db0 c101Worker = some db ∧
    db.idx (txt ":USR:D:u:::k") = true ∧ db.idx (txt ":USR:M:/m:::z") = true ∧
    db.recs (txt "~:USR:D:u:::k") = some ⟨0, flSync, 0, txt "/m", .scalar [49]⟩ := by
  refine ⟨_, _, rfl, rfl, by decide +kernel, by decide +kernel, by decide +kernel⟩

end Sid.Props
