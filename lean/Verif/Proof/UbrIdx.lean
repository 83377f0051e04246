import Verif.Model.UbrIdx
import Verif.Proof.BpRefine
import Verif.Proof.UbrKey
/-
The store with aliases behaves as a map with an index, as long as no alias is removed.
-/
namespace Sid.UbrIdx
open Sid.Ubr Sid.Spec Sid.Spec.Aliased

/-! ### names and what they denote -/

theorem denotes_add_old {S : Store} {s : Str} {r : Nat} (h : denotes S s = some r) (d n : Nat) (x : Str) :
    denotes (Aliased.add S s d n) x = denotes S x := by
  simp only [Aliased.add, h]; rfl

theorem val_add_old {S : Store} {s : Str} {r : Nat} (h : denotes S s = some r) (d n q : Nat) :
    (Aliased.add S s d n).val q = if q = r then (d, n) else S.val q := by
  simp only [Aliased.add, h, setVal]

theorem next_add_old {S : Store} {s : Str} {r : Nat} (h : denotes S s = some r) (d n : Nat) :
    (Aliased.add S s d n).next = S.next := by
  simp only [Aliased.add, h, setVal]

theorem denotes_add_new {S : Store} {s : Str} (h : denotes S s = none) (d n : Nat) (x : Str) :
    denotes (Aliased.add S s d n) x = if x = s then some S.next else denotes S x := by
  simp only [Aliased.add, h]
  simp only [denotes, List.find?_cons]
  by_cases e : x = s
  · subst e; simp
  · have : (s == x) = false := by simp; exact fun h => e h.symm
    simp only [this, if_neg e]

theorem val_add_new {S : Store} {s : Str} (h : denotes S s = none) (d n q : Nat) :
    (Aliased.add S s d n).val q = if q = S.next then (d, n) else S.val q := by
  simp only [Aliased.add, h, setVal]

theorem next_add_new {S : Store} {s : Str} (h : denotes S s = none) (d n : Nat) :
    (Aliased.add S s d n).next = S.next + 1 := by
  simp only [Aliased.add, h, setVal]

theorem denotes_del (S : Store) (s x : Str) : denotes (Aliased.del S s) x = if x = s then none else denotes S x := by
  simp only [Aliased.del, denotes]
  by_cases e : x = s
  · subst e
    rw [if_pos rfl, Option.map_eq_none_iff, List.find?_eq_none]
    intro p hp
    have := (List.mem_filter.mp hp).2
    simpa using this
  · rw [if_neg e, List.find?_filter]
    congr 2
    funext p
    by_cases h : p.1 = x
    · have : ¬ p.1 = s := fun h2 => e (h ▸ h2)
      simp [h, e]
    · simp [h]

theorem val_del (S : Store) (s : Str) : (Aliased.del S s).val = S.val := rfl
theorem next_del (S : Store) (s : Str) : (Aliased.del S s).next = S.next := rfl

theorem denotes_alias {S : Store} {k a : Str} {r : Nat} (hk : denotes S k = some r) (ha : denotes S a = none ∨ denotes S a = some r)
    (x : Str) : denotes (Aliased.alias S k a false).2 x = if x = a then some r else denotes S x := by
  simp only [Aliased.alias, hk]
  rcases ha with ha | ha
  · simp only [ha]
    simp only [denotes, List.find?_cons]
    by_cases e : x = a
    · subst e; simp
    · have : (a == x) = false := by simp; exact fun h => e h.symm
      simp only [this, if_neg e]
  · simp only [ha, if_true]
    by_cases e : x = a
    · subst e; simp [ha]
    · simp [e]

theorem val_alias {S : Store} {k a : Str} {r : Nat} (hk : denotes S k = some r) (ha : denotes S a = none ∨ denotes S a = some r) :
    (Aliased.alias S k a false).2.val = S.val ∧ (Aliased.alias S k a false).2.next = S.next := by
  simp only [Aliased.alias, hk]
  rcases ha with ha | ha <;> simp [ha]

theorem one_name {L : List (Str × Nat)} (hn : (L.map Prod.fst).Nodup) {k : Str} {q : Nat} (hm : (k, q) ∈ L)
    (hu : ∀ k', (k', q) ∈ L → k' = k) : (L.filter fun p => p.2 == q).length = 1 := by
  induction L with
  | nil => cases hm
  | cons p L ih =>
    simp only [List.map_cons, List.nodup_cons] at hn
    by_cases hp : p.2 = q
    · have e : p.1 = k := hu p.1 (by rw [← hp]; exact List.mem_cons_self ..)
      have : L.filter (fun p => p.2 == q) = [] := by
        rw [List.filter_eq_nil_iff]
        intro x hx hq
        have hq : x.2 = q := by simpa using hq
        have e2 : x.1 = k := hu x.1 (by rw [← hq]; exact List.mem_cons_of_mem _ hx)
        exact hn.1 (by rw [e, ← e2]; exact List.mem_map_of_mem hx)
      simp [List.filter_cons, hp, this]
    · have hm' : (k, q) ∈ L := by
        rcases List.mem_cons.mp hm with e | e
        · exact absurd (by rw [← e]) hp
        · exact e
      have hp' : (p.2 == q) = false := by simpa using hp
      rw [List.filter_cons, hp']
      exact ih hn.2 hm' fun k' h => hu k' (List.mem_cons_of_mem _ h)

/-! ### the invariant -/

/-- a key that is no entry of the index -/
def Plain (k : Str) : Prop := k.head? ≠ some 62

theorem not_plain (k : Str) : ¬ Plain (62 :: k) := by simp [Plain]

theorem Plain.ne {k x : Str} (h : Plain k) : (62 :: x) ≠ k := by rintro rfl; exact not_plain x h

/-- `L`: an address whose value is in memory but not in the tree -/
structure InvS (s : St) (db : Db) (L : Option Nat) (S : Store) : Prop where
  b : Bpt.BInv s.tree
  R : Bpt.Rep s.tree S
  lt : ∀ k q, denotes S k = some q → q < S.next
  fresh : ∀ a, s.next ≤ a → s.vals a = none
  recs : ∀ k, Plain k → db.recs k = (denotes S k).bind fun q => s.vals (S.val q).1
  live : ∀ k q, denotes S k = some q → s.vals (S.val q).1 ≠ none
  idx : ∀ k, denotes S (62 :: k) = if db.idx k then denotes S k else none
  idxk : ∀ k, db.idx k = true → denotes S k ≠ none ∧ ∃ c t, k = c :: t ∧ c < 62
  rinj : ∀ k k' q, Plain k → Plain k' → denotes S k = some q → denotes S k' = some q → k = k'
  ainj : ∀ k k' q q', denotes S k = some q → denotes S k' = some q' → (S.val q).1 = (S.val q').1 → q = q'
  loose : ∀ a, L = some a → ∀ k q, denotes S k = some q → (S.val q).1 ≠ a
  kept : ∀ a, s.vals a ≠ none → L = some a ∨ ∃ k q, denotes S k = some q ∧ (S.val q).1 = a

def Inv (s : St) (db : Db) (L : Option Nat) : Prop := ∃ S, InvS s db L S

theorem Inv.addr {s db L S} (h : InvS s db L S) (k : Str) : addrOf s k = some ((denotes S k).map fun q => (S.val q).1) := by
  obtain ⟨o, e, hv⟩ := h.R.lookup h.b k
  simp only [addrOf, e, Option.map_some]
  congr 1
  have : o.map (·.data) = (o.map Bpt.view).map (·.1) := by rw [Option.map_map]; rfl
  rw [this, hv, look, Option.map_map]
  rfl

theorem Inv.fetch {s db L} (h : Inv s db L) {k : Str} (hk : Plain (Kvs.canon k)) : fetch s k = some (db.recs (Kvs.canon k)) := by
  obtain ⟨S, h⟩ := h
  rw [UbrIdx.fetch, Inv.addr h, h.recs _ hk]
  cases e : denotes S (Kvs.canon k) with
  | none => rfl
  | some q =>
    have := h.live _ _ e
    simp only [Option.map_some, Option.bind_some]
    cases e2 : s.vals (S.val q).1 with
    | none => exact absurd e2 this
    | some r => rfl

theorem Inv.alloc {s db} (h : Inv s db none) (r : Rec) : Inv (alloc s r) db (some s.next) ∧ (alloc s r).vals s.next = some r := by
  obtain ⟨S, h⟩ := h
  have hne : ∀ k q, denotes S k = some q → (S.val q).1 ≠ s.next := fun k q e e2 =>
    h.live k q e (h.fresh _ (by omega))
  refine ⟨⟨S, h.b, h.R, h.lt, ?_, ?_, ?_, h.idx, h.idxk, h.rinj, h.ainj, ?_, ?_⟩, by simp [UbrIdx.alloc]⟩
  · intro a ha
    simp only [UbrIdx.alloc] at ha ⊢
    rw [if_neg (by omega)]
    exact h.fresh a (by omega)
  · intro k hk
    rw [h.recs k hk]
    cases e : denotes S k with
    | none => rfl
    | some q => simp only [Option.bind_some, UbrIdx.alloc, if_neg (hne k q e)]
  · intro k q e
    simp only [UbrIdx.alloc, if_neg (hne k q e)]
    exact h.live k q e
  · intro a ha k q e
    cases ha
    exact hne k q e
  · intro a ha
    simp only [UbrIdx.alloc] at ha
    by_cases e : a = s.next
    · exact Or.inl (by rw [e])
    · rw [if_neg e] at ha
      rcases h.kept a ha with h1 | h1
      · cases h1
      · exact Or.inr h1

theorem Inv.release {s db a} (h : Inv s db (some a)) (ha : s.vals a ≠ none) :
    ∃ s', release s a = some s' ∧ Inv s' db none := by
  obtain ⟨S, h⟩ := h
  cases e : s.vals a with
  | none => exact absurd e ha
  | some r =>
    refine ⟨{ s with vals := fun i => if i = a then none else s.vals i }, by simp [UbrIdx.release, e], S, h.b, h.R, h.lt, ?_, ?_, ?_, h.idx, h.idxk, h.rinj, h.ainj, ?_, ?_⟩
    · intro i hi
      show (if i = a then none else s.vals i) = none
      split
      · rfl
      · exact h.fresh i hi
    · intro k hk
      rw [h.recs k hk]
      cases e : denotes S k with
      | none => rfl
      | some q =>
        show s.vals _ = if _ then none else s.vals _
        rw [if_neg (h.loose a rfl k q e)]
    · intro k q e
      show (if _ then none else s.vals _) ≠ none
      rw [if_neg (h.loose a rfl k q e)]
      exact h.live k q e
    · intro a ha; cases ha
    · intro i hi
      replace hi : (if i = a then none else s.vals i) ≠ none := hi
      by_cases e : i = a
      · rw [if_pos e] at hi; exact absurd rfl hi
      · rw [if_neg e] at hi
        rcases h.kept i hi with h1 | h1
        · cases h1; exact absurd rfl e
        · exact Or.inr h1

theorem Inv.release? {s db L} (h : Inv s db L) (ha : ∀ a, L = some a → s.vals a ≠ none) :
    ∃ s', release? s L = some s' ∧ Inv s' db none := by
  cases L with
  | none => exact ⟨s, rfl, h⟩
  | some a => exact h.release (ha a rfl)

theorem put_recs (db : Db) (k x : Str) (r : Option Rec) : (db.put k r).recs x = if x = k then r else db.recs x := rfl
theorem put_idx (db : Db) (k : Str) (r : Option Rec) : (db.put k r).idx = db.idx := rfl

/-- the key `k` leads to the value at the loose address; what it led to is loose now -/
theorem Inv.point {s db a r} (h : Inv s db (some a)) (ha : s.vals a = some r) {k : Str} (hk : Plain k) :
    ∃ s' old, point s k a = some s' ∧ s'.vals = s.vals ∧ s'.next = s.next ∧ addrOf s k = some old ∧ (∀ o, old = some o → s.vals o = db.recs k) ∧ (old = none ↔ db.recs k = none) ∧ Inv s' (db.put k (some r)) old := by
  obtain ⟨S, h⟩ := h
  obtain ⟨b', h1, h2, h3⟩ := h.R.update h.b k (fun _ => .write a 0) trivial
  have h1' : Bpt.update s.tree k (fun _ => .write a 0) = some b' := h1
  simp only [Aliased.step] at h3
  have hr := h.recs k hk
  have hadd := Inv.addr h k
  refine ⟨{ s with tree := b' }, _, by simp [UbrIdx.point, h1'], rfl, rfl, hadd, ?_⟩
  cases e : denotes S k with
  | some q =>
    rw [e] at hr
    simp only [Option.bind_some] at hr
    refine ⟨fun o ho => ?_, ?_, Aliased.add S k a 0, h2, h3, ?_, h.fresh, ?_, ?_, ?_, ?_, ?_, ?_, ?_, ?_⟩
    · simp only [Option.map_some, Option.some.injEq] at ho; rw [← ho, hr]
    · have := h.live k q e
      simp only [Option.map_some, reduceCtorEq, false_iff, hr]; exact this
    · intro x p; rw [denotes_add_old e, next_add_old e]; exact h.lt x p
    · intro x hx
      rw [denotes_add_old e, put_recs]
      by_cases ex : x = k
      · subst ex; rw [if_pos rfl, e]; simp only [Option.bind_some, val_add_old e, if_true, ha]
      · rw [if_neg ex, h.recs x hx]
        cases ed : denotes S x with
        | none => rfl
        | some p =>
          have : p ≠ q := fun hpq => ex (h.rinj x k q hx hk (by rw [ed, hpq]) e)
          simp only [Option.bind_some, val_add_old e, if_neg this]
    · intro x p hx
      rw [denotes_add_old e] at hx
      rw [val_add_old e]
      by_cases hpq : p = q
      · rw [if_pos hpq]; show s.vals a ≠ none; rw [ha]; simp
      · rw [if_neg hpq]; exact h.live x p hx
    · intro x; rw [denotes_add_old e, denotes_add_old e, put_idx]; exact h.idx x
    · intro x; rw [denotes_add_old e, put_idx]; exact h.idxk x
    · intro x y p; rw [denotes_add_old e, denotes_add_old e]; exact h.rinj x y p
    · intro x y p p' hx hy
      rw [denotes_add_old e] at hx hy
      rw [val_add_old e, val_add_old e]
      by_cases h1 : p = q <;> by_cases h2 : p' = q
      · intro _; rw [h1, h2]
      · rw [if_pos h1, if_neg h2]; intro he; exact absurd he.symm (h.loose a rfl y p' hy)
      · rw [if_neg h1, if_pos h2]; intro he; exact absurd he (h.loose a rfl x p hx)
      · rw [if_neg h1, if_neg h2]; exact h.ainj x y p p' hx hy
    · intro o ho x p hx
      simp only [Option.map_some, Option.some.injEq] at ho
      rw [denotes_add_old e] at hx
      rw [val_add_old e]
      by_cases h1 : p = q
      · rw [if_pos h1, ← ho]; intro he; exact h.loose a rfl k q e he.symm
      · rw [if_neg h1, ← ho]; intro he; exact h1 (h.ainj x k p q hx e he)
    · intro i hi
      rcases h.kept i hi with h1 | ⟨x, p, hx, hv⟩
      · refine Or.inr ⟨k, q, by rw [denotes_add_old e]; exact e, ?_⟩
        rw [val_add_old e, if_pos rfl]
        simpa using h1
      · by_cases h1 : p = q
        · left; simp only [Option.map_some, ← hv, h1]
        · exact Or.inr ⟨x, p, by rw [denotes_add_old e]; exact hx, by rw [val_add_old e, if_neg h1]; exact hv⟩
  | none =>
    rw [e] at hr
    simp only [Option.bind_none] at hr
    have hlt : ∀ x p, denotes S x = some p → p ≠ S.next := fun x p hx => by have := h.lt x p hx; omega
    refine ⟨fun o ho => by simp at ho, by simp [hr], Aliased.add S k a 0, h2, h3, ?_, h.fresh, ?_, ?_, ?_, ?_, ?_, ?_, ?_, ?_⟩
    · intro x p; rw [denotes_add_new e, next_add_new e]
      by_cases ex : x = k
      · rw [if_pos ex]; intro hp; simp at hp; omega
      · rw [if_neg ex]; intro hp; have := h.lt x p hp; omega
    · intro x hx
      rw [denotes_add_new e, put_recs]
      by_cases ex : x = k
      · rw [if_pos ex, if_pos ex]; simp only [Option.bind_some, val_add_new e, if_true, ha]
      · rw [if_neg ex, if_neg ex, h.recs x hx]
        cases ed : denotes S x with
        | none => rfl
        | some p => simp only [Option.bind_some, val_add_new e, if_neg (hlt x p ed)]
    · intro x p hx
      rw [denotes_add_new e] at hx
      rw [val_add_new e]
      by_cases ex : x = k
      · rw [if_pos ex] at hx; simp at hx; rw [if_pos hx.symm]; show s.vals a ≠ none; rw [ha]; simp
      · rw [if_neg ex] at hx; rw [if_neg (hlt x p hx)]; exact h.live x p hx
    · intro x
      rw [denotes_add_new e, denotes_add_new e, put_idx, if_neg hk.ne, h.idx x]
      by_cases hi : db.idx x = true
      · rw [if_pos hi, if_pos hi]
        by_cases ex : x = k
        · exact absurd (ex ▸ e) (h.idxk x hi).1
        · rw [if_neg ex]
      · rw [if_neg hi, if_neg hi]
    · intro x hi
      rw [denotes_add_new e]
      refine ⟨?_, (h.idxk x hi).2⟩
      split
      · simp
      · exact (h.idxk x hi).1
    · intro x y p hx hy
      rw [denotes_add_new e, denotes_add_new e]
      by_cases h1 : x = k <;> by_cases h2 : y = k
      · intro _ _; rw [h1, h2]
      · rw [if_pos h1, if_neg h2]; intro e1 e2; simp at e1; exact absurd e1.symm (hlt y p e2)
      · rw [if_neg h1, if_pos h2]; intro e1 e2; simp at e2; exact absurd e2.symm (hlt x p e1)
      · rw [if_neg h1, if_neg h2]; exact h.rinj x y p hx hy
    · intro x y p p' hx hy
      rw [denotes_add_new e] at hx hy
      rw [val_add_new e, val_add_new e]
      by_cases h1 : x = k <;> by_cases h2 : y = k
      · rw [if_pos h1] at hx; rw [if_pos h2] at hy; simp at hx hy; intro _; rw [← hx, ← hy]
      · rw [if_pos h1] at hx; rw [if_neg h2] at hy; simp at hx
        rw [if_pos hx.symm, if_neg (hlt y p' hy)]; intro he; exact absurd he.symm (h.loose a rfl y p' hy)
      · rw [if_neg h1] at hx; rw [if_pos h2] at hy; simp at hy
        rw [if_pos hy.symm, if_neg (hlt x p hx)]; intro he; exact absurd he (h.loose a rfl x p hx)
      · rw [if_neg h1] at hx; rw [if_neg h2] at hy
        rw [if_neg (hlt x p hx), if_neg (hlt y p' hy)]; exact h.ainj x y p p' hx hy
    · intro o ho; simp at ho
    · intro i hi
      rcases h.kept i hi with h1 | ⟨x, p, hx, hv⟩
      · refine Or.inr ⟨k, S.next, by rw [denotes_add_new e, if_pos rfl], ?_⟩
        rw [val_add_new e, if_pos rfl]
        simpa using h1
      · refine Or.inr ⟨x, p, ?_, by rw [val_add_new e, if_neg (hlt x p hx)]; exact hv⟩
        rw [denotes_add_new e, if_neg (fun ex => by rw [ex, e] at hx; cases hx)]; exact hx

/-! ### set, unset and alias -/

theorem canon_plain {k : Str} {c : UInt8} {t : Str} (e : k = c :: t) (hc : Kvs.isSpace c = false) : Kvs.canon k = k := by
  subst e; simp [Kvs.canon, List.dropWhile_cons, hc]

theorem Inv.isSome {s db L} {k : Str} {o : Nat} (_h : Inv s db L) (h1 : s.vals o = db.recs k) (h2 : (some o : Option Nat) = none ↔ db.recs k = none) :
    s.vals o ≠ none := by
  rw [h1]; intro e; exact absurd (h2.mpr e) (by simp)

theorem Inv.retire_none {s db old} (h : Inv s db old) (ho : ∀ o, old = some o → s.vals o ≠ none) :
    ∃ s', retire s none old = some s' ∧ Inv s' db none := h.release? ho

theorem Inv.retire_some {s db old} (h : Inv s db old) {ro : Rec} {ak : Str} (hak : Plain (Kvs.canon ak))
    (ho : ∀ o, old = some o → s.vals o = some ro) :
    ∃ s', retire s (some ak) old = some s' ∧ Inv s' (if old.isSome then db.put (Kvs.canon ak) (some ro) else db) none := by
  cases old with
  | none => exact ⟨s, rfl, h⟩
  | some o =>
    obtain ⟨s1, oa, e1, e2, e3, e4, h5, h6, h7⟩ := h.point (ho o rfl) hak
    obtain ⟨s2, e8, h8⟩ := h7.release? (fun a ha => by
      rw [e2, h5 a ha]; intro hn; rw [h6.mpr hn] at ha; cases ha)
    refine ⟨s2, ?_, h8⟩
    simp only [retire, e4, Option.bind_some, e1, e8]

/-- the map after an accepted set -/
def putArch (db : Db) (key : Str) (arch : Option Str) (r : Rec) : Db :=
  match arch with
  | none => db.put key (some r)
  | some ak => if (db.recs key).isSome then (db.put key (some r)).put ak (db.recs key) else db.put key (some r)

theorem Inv.set {s db} (h : Inv s db none) {key : Str} (hk : Plain (Kvs.canon key)) {arch : Option Str}
    (ha : ∀ a, arch = some a → Plain (Kvs.canon a)) (ok : Option Rec → Bool) (r : Rec) :
    ∃ s', kvsSet s key arch ok r = some (db.recs (Kvs.canon key), ok (db.recs (Kvs.canon key)), s') ∧
      Inv s' (if ok (db.recs (Kvs.canon key)) then putArch db (Kvs.canon key) (arch.map Kvs.canon) r else db) none := by
  obtain ⟨h1, hv⟩ := h.alloc r
  obtain ⟨s1, old, e1, e2, e3, e4, h5, h6, h7⟩ := h1.point hv hk
  have e4' : addrOf s (Kvs.canon key) = some old := e4
  simp only [kvsSet, h.fetch hk, Option.bind_some, e4']
  by_cases hok : ok (db.recs (Kvs.canon key)) = true
  · simp only [hok, if_true, e1, Option.bind_some]
    have hlive : ∀ o, old = some o → s1.vals o ≠ none := fun o ho => by
      rw [e2, h5 o ho]; intro hn; rw [h6.mpr hn] at ho; cases ho
    cases arch with
    | none =>
      obtain ⟨s2, e8, h8⟩ := h7.retire_none hlive
      exact ⟨s2, by rw [e8]; rfl, h8⟩
    | some ak =>
      cases er : db.recs (Kvs.canon key) with
      | none =>
        have eo := h6.mpr er
        subst eo
        refine ⟨s1, rfl, ?_⟩
        simp only [putArch, Option.map_some, er]
        exact h7
      | some ro =>
        obtain ⟨s2, e8, h8⟩ := h7.retire_some (ro := ro) (ha ak rfl) (fun o ho => by rw [e2, h5 o ho, er])
        refine ⟨s2, by rw [e8]; rfl, ?_⟩
        have ho : old.isSome = true := by
          cases old with
          | none => rw [h6.mp rfl] at er; cases er
          | some o => rfl
        simp only [putArch, Option.map_some, er, Option.isSome_some, if_true]
        rw [if_pos ho] at h8
        exact h8
  · have hok' : ok (db.recs (Kvs.canon key)) = false := by simpa using hok
    simp only [hok', Bool.false_eq_true, if_false]
    obtain ⟨s2, e8, h8⟩ := h1.release (by rw [hv]; simp)
    exact ⟨s2, by rw [e8]; rfl, h8⟩

/-- a key without an entry in the index is removed -/
theorem Inv.unset {s db} (h : Inv s db none) {key : Str} (hk : Plain (Kvs.canon key)) (hi : db.idx (Kvs.canon key) = false)
    (ok : Option Rec → Bool) :
    ∃ s', kvsUnset s key ok = some (ok (db.recs (Kvs.canon key)), s') ∧
      Inv s' (if ok (db.recs (Kvs.canon key)) then db.put (Kvs.canon key) none else db) none := by
  have hf := h.fetch hk
  have hinv := h
  obtain ⟨S, h⟩ := h
  obtain ⟨o, eo, ho⟩ := h.R.lookup h.b (Kvs.canon key)
  simp only [kvsUnset, hf, eo, Option.bind_some]
  generalize hkk : Kvs.canon key = k at *
  by_cases hok : ok (db.recs k) = true
  · simp only [hok, if_true]
    cases e : denotes S k with
    | none =>
      have : o = none := by
        simp only [look, e, Option.map_none, Option.map_eq_none_iff] at ho; exact ho
      subst this
      obtain ⟨b', h1, h2, h3⟩ := h.R.update h.b k (fun _ => .remove) (by
        simp only [SafeCall, LeastName, e]; intro r s' hr; cases hr)
      have h1' : Bpt.update s.tree k (fun _ => .remove) = some b' := h1
      refine ⟨{ s with tree := b' }, by simp [UbrIdx.release?, h1'], ?_⟩
      simp only [Aliased.step] at h3
      have hd : ∀ x, denotes (Aliased.del S k) x = denotes S x := fun x => by
        rw [denotes_del]; split
        · next ex => rw [ex, e]
        · rfl
      have hp : db.put k none = db := by
        have := h.recs k hk
        rw [e] at this
        simp only [Db.put]
        congr 1
        funext x; split
        · next ex => rw [ex, this]; rfl
        · rfl
      rw [hp]
      refine ⟨Aliased.del S k, h2, h3, ?_, h.fresh, ?_, ?_, ?_, ?_, ?_, ?_, ?_, ?_⟩
      all_goals simp only [hd, val_del, next_del]
      · exact h.lt
      · exact h.recs
      · exact h.live
      · exact h.idx
      · exact h.idxk
      · exact h.rinj
      · exact h.ainj
      · exact h.loose
      · exact h.kept
    | some q =>
      have honly : ∀ x, denotes S x = some q → x = k := by
        intro x hx
        by_cases hp : Plain x
        · exact h.rinj x k q hp hk hx e
        · simp only [Plain, ne_eq, Decidable.not_not] at hp
          obtain ⟨t, rfl⟩ : ∃ t, x = 62 :: t := by
            cases x with
            | nil => cases hp
            | cons c t => simp at hp; exact ⟨t, by rw [hp]⟩
          rw [h.idx t] at hx
          by_cases hit : db.idx t = true
          · rw [if_pos hit] at hx
            obtain ⟨_, c, t', ht, hc⟩ := h.idxk t hit
            have hpt : Plain t := by
              subst ht; simp only [Plain, List.head?_cons, ne_eq, Option.some.injEq]
              intro hc2; rw [hc2] at hc; exact absurd hc (by decide)
            have := h.rinj t k q hpt hk hx e
            rw [this, hi] at hit; cases hit
          · rw [if_neg hit] at hx; cases hx
      have hnodup := h.R.nodup h.b
      have hcount : nameCount S q = 1 :=
        one_name hnodup ((Bpt.denotes_iff hnodup).mp e) fun k' hk' => honly k' ((Bpt.denotes_iff hnodup).mpr hk')
      obtain ⟨x, rfl, hx⟩ : ∃ x, o = some x ∧ Bpt.view x = ((S.val q).1, (S.val q).2, 1) := by
        simp only [look, e, Option.map_some, hcount] at ho
        exact Option.map_eq_some_iff.mp ho
      have hxr : lastName x = some (S.val q).1 := by
        simp only [Bpt.view, Prod.mk.injEq] at hx
        simp [lastName, hx.1, hx.2.2]
      simp only [Option.bind_some, hxr, UbrIdx.release?]
      cases ev : s.vals (S.val q).1 with
      | none => exact absurd ev (h.live k q e)
      | some r =>
      obtain ⟨b', h1, h2, h3⟩ := h.R.update h.b k (fun _ => .remove) (by
        simp only [SafeCall, LeastName, e]; intro r s' hr hs'
        cases hr
        rw [honly s' hs']
        exact Sid.strLt_irrefl k)
      have h1' : Bpt.update s.tree k (fun _ => .remove) = some b' := h1
      simp only [UbrIdx.release, ev, Option.map_some, Option.bind_some, h1']
      refine ⟨_, rfl, ?_⟩
      simp only [Aliased.step] at h3
      have hne : ∀ y p, y ≠ k → denotes S y = some p → (S.val p).1 ≠ (S.val q).1 := fun y p hy hp he => by
        have := h.ainj y k p q hp e he
        subst this
        exact hy (honly y hp)
      refine ⟨Aliased.del S k, h2, h3, ?_, ?_, ?_, ?_, ?_, ?_, ?_, ?_, ?_, ?_⟩
      all_goals simp only [denotes_del, val_del, next_del, put_idx, put_recs]
      · intro y p; split
        · intro hp; cases hp
        · exact h.lt y p
      · intro a ha; split
        · rfl
        · exact h.fresh a ha
      · intro y hy
        by_cases ey : y = k
        · simp [ey]
        · rw [if_neg ey, if_neg ey, h.recs y hy]
          cases ed : denotes S y with
          | none => rfl
          | some p => exact (if_neg (hne y p ey ed)).symm
      · intro y p; by_cases ey : y = k
        · simp [ey]
        · rw [if_neg ey]; intro hp; show (if (S.val p).1 = (S.val q).1 then none else s.vals (S.val p).1) ≠ none; rw [if_neg (hne y p ey hp)]; exact h.live y p hp
      · intro y
        rw [if_neg hk.ne, h.idx y]
        by_cases hit : db.idx y = true
        · rw [if_pos hit, if_pos hit, if_neg (fun ey => by rw [ey, hi] at hit; cases hit)]
        · rw [if_neg hit, if_neg hit]
      · intro y hit
        rw [if_neg (fun ey => by rw [ey, hi] at hit; cases hit)]
        exact h.idxk y hit
      · intro y z p hy hz
        split
        · intro hp; cases hp
        · intro hp; split
          · intro hp; cases hp
          · exact h.rinj y z p hy hz hp
      · intro y z p p'
        split
        · intro hp; cases hp
        · intro hp; split
          · intro hp; cases hp
          · exact h.ainj y z p p' hp
      · intro a ha; cases ha
      · intro i hit
        by_cases ei : i = (S.val q).1
        · rw [if_pos ei] at hit; exact absurd rfl hit
        · rw [if_neg ei] at hit
          rcases h.kept i hit with h9 | ⟨y, p, hy, hv⟩
          · cases h9
          · refine Or.inr ⟨y, p, ?_, hv⟩
            rw [if_neg]
            · exact hy
            · rintro rfl
              rw [e] at hy
              cases hy
              exact ei hv.symm
  · have hok' : ok (db.recs k) = false := by simpa using hok
    simp only [hok', Bool.false_eq_true, if_false]
    exact ⟨s, rfl, hinv⟩

/-- removing an entry of the index that is not there changes nothing -/
theorem Inv.unset_absent {s db} (h : Inv s db none) {k : Str} (hi : db.idx k = false) :
    ∃ s', kvsUnset s (opSync ++ k) (fun _ => true) = some (true, s') ∧ Inv s' db none := by
  have hc : Kvs.canon (opSync ++ k) = 62 :: k := rfl
  obtain ⟨S, h⟩ := h
  have e : denotes S (62 :: k) = none := by rw [h.idx k, hi]; rfl
  obtain ⟨o, eo, ho⟩ := h.R.lookup h.b (62 :: k)
  have : o = none := by
    simp only [look, e, Option.map_none, Option.map_eq_none_iff] at ho; exact ho
  subst this
  obtain ⟨b', h1, h2, h3⟩ := h.R.update h.b (62 :: k) (fun _ => .remove) (by
    simp only [SafeCall, LeastName, e]; intro r s' hr; cases hr)
  have h1' : Bpt.update s.tree (62 :: k) (fun _ => .remove) = some b' := h1
  have hf : UbrIdx.fetch s (opSync ++ k) = some none := by
    simp only [UbrIdx.fetch, hc, addrOf, eo, Option.map_some, Option.map_none, Option.bind_some]
  refine ⟨{ s with tree := b' }, by simp [kvsUnset, hf, hc, eo, UbrIdx.release?, h1'], ?_⟩
  simp only [Aliased.step] at h3
  have hd : ∀ x, denotes (Aliased.del S (62 :: k)) x = denotes S x := fun x => by
    rw [denotes_del]; split
    · next ex => rw [ex, e]
    · rfl
  refine ⟨Aliased.del S (62 :: k), h2, h3, ?_, h.fresh, ?_, ?_, ?_, ?_, ?_, ?_, ?_, ?_⟩
  all_goals simp only [hd, val_del, next_del]
  · exact h.lt
  · exact h.recs
  · exact h.live
  · exact h.idx
  · exact h.idxk
  · exact h.rinj
  · exact h.ainj
  · exact h.loose
  · exact h.kept

theorem Inv.alias {s db} (h : Inv s db none) {k t : Str} {c : UInt8} (ek : k = c :: t) (hc : c < 62) (hs : Kvs.isSpace c = false)
    (hr : (db.recs k).isSome) :
    ∃ s', addAlias s k (opSync ++ k) = some s' ∧ Inv s' (db.mark k true) none := by
  have hcan : Kvs.canon (opSync ++ k) = 62 :: k := rfl
  have hcan' : Kvs.canon k = k := canon_plain ek hs
  have hp : Plain k := by
    subst ek; simp only [Plain, List.head?_cons, ne_eq, Option.some.injEq]
    intro hc2; rw [hc2] at hc; exact absurd hc (by decide)
  obtain ⟨S, h⟩ := h
  cases e : denotes S k with
  | none => rw [h.recs k hp, e] at hr; cases hr
  | some q =>
  have ha : denotes S (62 :: k) = none ∨ denotes S (62 :: k) = some q := by
    rw [h.idx k]; split
    · exact Or.inr e
    · exact Or.inl rfl
  obtain ⟨b', h1, h2, h3⟩ := h.R.alias h.b k (62 :: k) false
  obtain ⟨hv, hn⟩ := val_alias e ha
  refine ⟨{ s with tree := b' }, by simp [addAlias, hcan, hcan', h1], ?_⟩
  have hd := denotes_alias e ha
  have hold : ∀ x p, (if x = 62 :: k then some q else denotes S x) = some p → ∃ y, denotes S y = some p := fun x p hx => by
    split at hx
    · exact ⟨k, by rw [e]; exact hx⟩
    · exact ⟨x, hx⟩
  refine ⟨(Aliased.alias S k (62 :: k) false).2, h2, h3, ?_, h.fresh, ?_, ?_, ?_, ?_, ?_, ?_, ?_, ?_⟩
  all_goals simp only [hd, hv, hn, Db.mark]
  · intro x p hx; obtain ⟨y, hy⟩ := hold x p hx; exact h.lt y p hy
  · intro x hx
    rw [if_neg (fun e2 : x = 62 :: k => not_plain k (e2 ▸ hx))]
    exact h.recs x hx
  · intro x p hx; obtain ⟨y, hy⟩ := hold x p hx; exact h.live y p hy
  · intro x
    by_cases ex : x = k
    · subst ex; rw [if_pos rfl, if_pos rfl, if_pos rfl, if_neg hp.ne.symm, e]
    · rw [if_neg (by simpa using ex), if_neg ex, h.idx x]
      by_cases hit : db.idx x = true
      · rw [if_pos hit, if_pos hit]
        obtain ⟨_, c', t', ht, hc'⟩ := h.idxk x hit
        rw [if_neg]
        intro e2; rw [e2] at ht; simp at ht; rw [← ht.1] at hc'; exact absurd hc' (by decide)
      · rw [if_neg hit, if_neg hit]
  · intro x hit
    by_cases ex : x = k
    · subst ex; rw [if_neg hp.ne.symm, e]; exact ⟨by simp, c, t, ek, hc⟩
    · rw [if_neg ex] at hit
      refine ⟨?_, (h.idxk x hit).2⟩
      split
      · simp
      · exact (h.idxk x hit).1
  · intro x y p hx hy
    rw [if_neg (fun e2 : x = 62 :: k => not_plain k (e2 ▸ hx)), if_neg (fun e2 : y = 62 :: k => not_plain k (e2 ▸ hy))]
    exact h.rinj x y p hx hy
  · intro x y p p' hx hy
    obtain ⟨x', hx'⟩ := hold x p hx
    obtain ⟨y', hy'⟩ := hold y p' hy
    exact h.ainj x' y' p p' hx' hy'
  · intro a ha; cases ha
  · intro i hit
    rcases h.kept i hit with h9 | ⟨y, p, hy, hv2⟩
    · cases h9
    · by_cases ey : y = 62 :: k
      · refine Or.inr ⟨k, p, ?_, hv2⟩
        rw [if_neg hp.ne.symm]
        rw [ey] at hy
        rcases ha with ha | ha
        · rw [ha] at hy; cases hy
        · rw [e, ← ha]; exact hy
      · exact Or.inr ⟨y, p, by rw [if_neg ey]; exact hy, hv2⟩

theorem mark_false {db : Db} {k : Str} (h : db.idx k = false) : db.mark k false = db := by
  simp only [Db.mark]
  congr 1
  funext x; split
  · next e => rw [e, h]
  · rfl

/-- the index follows, unless an entry would have to go -/
theorem Inv.manage {s db} (h : Inv s db none) (isSync : Bool) {k t : Str} {c : UInt8} (ek : k = c :: t) (hc : c < 62)
    (hs : Kvs.isSpace c = false) (old : Option Rec) {r : Rec} (hr : db.recs k = some r)
    (hg : db.idx k = true → (Ubr.manageIndex db isSync k old (some r)).idx k = true) :
    ∃ s', manageIndex s isSync k old (some r) = some s' ∧ Inv s' (Ubr.manageIndex db isSync k old (some r)) none := by
  cases isSync with
  | true => exact ⟨s, rfl, h⟩
  | false =>
    simp only [manageIndex, Ubr.manageIndex, synced] at hg ⊢
    generalize (old.any fun r => has r.flags flSync) = o at hg ⊢
    generalize ((some r).any fun r => has r.flags flSync) = n at hg ⊢
    cases o <;> cases n
    · exact ⟨s, rfl, h⟩
    · exact h.alias ek hc hs (by rw [hr]; rfl)
    · have hi : db.idx k = false := by
        cases e : db.idx k with
        | false => rfl
        | true => exact absurd (hg e) (by simp [Db.mark])
      obtain ⟨s', e1, h1⟩ := h.unset_absent hi
      exact ⟨s', by simp [e1], by simp only [Bool.false_eq_true, if_false]; rw [mark_false hi]; exact h1⟩
    · exact ⟨s, rfl, h⟩

/-! ### calls of modules -/

theorem compose_cons (s : KeySpec) (h1 : s.extraOp = none) (h2 : s.op = .set) : ∃ t, composeKey s = 32 :: 58 :: t := by
  simp only [composeKey, doComposeKey, h1, h2, Bool.false_eq_true, if_false, opPrefix]
  exact ⟨_, rfl⟩

theorem canon_cons (t : Str) : Kvs.canon (58 :: t) = 58 :: t := by
  have : Kvs.isSpace 58 = false := by decide
  simp [Kvs.canon, this]

theorem canon_blank (t : Str) : Kvs.canon (32 :: 58 :: t) = 58 :: t := by
  have : Kvs.isSpace 32 = true := by decide
  have h2 : Kvs.isSpace 58 = false := by decide
  simp [Kvs.canon, this, h2]

theorem canon_arch (t : Str) : Kvs.canon (126 :: t) = 126 :: t := by
  have : Kvs.isSpace 126 = false := by decide
  simp [Kvs.canon, this]

theorem Inv.globalRs {s db L} (h : Inv s db L) (owner : Str) (dom : Option Str) (ns : Ns) (key : Str) :
    globalRs s owner dom ns key = Ubr.globalRs db owner dom ns key := by
  obtain ⟨t, e⟩ := compose_cons (rsvSpec dom ns key) rfl rfl
  have hp : Plain (Kvs.canon (composeKey (rsvSpec dom ns key))) := by rw [e, canon_blank]; simp [Plain]
  simp only [UbrIdx.globalRs, h.fetch hp, Option.bind_some, Ubr.globalRs, found]

theorem manageIndex_recs (db : Db) (b : Bool) (k : Str) (o n : Option Rec) : (Ubr.manageIndex db b k o n).recs = db.recs := by
  simp only [Ubr.manageIndex]
  split
  · rfl
  · split <;> rfl

theorem Inv.write {s db} (h : Inv s db none) (t owner : Str) (r : Rec)
    (hg : db.idx (58 :: t) = true → (Ubr.writeRec db (58 :: t) r).idx (58 :: t) = true) :
    ∃ s', writeRec s (58 :: t) owner r = some (decide (0 ≤ wrAllowed (db.recs (58 :: t)) owner), s') ∧
      Inv s' (if 0 ≤ wrAllowed (db.recs (58 :: t)) owner then Ubr.writeRec db (58 :: t) r else db) none := by
  have hcan := canon_cons t
  obtain ⟨s1, e1, h1⟩ := h.set (key := 58 :: t) (by rw [hcan]; simp [Plain])
    (arch := if has r.flags flAr then some (opArchive ++ 58 :: t) else none)
    (by
      intro a ha
      split at ha
      · cases ha; show Plain (Kvs.canon (126 :: 58 :: t)); rw [canon_arch]; simp [Plain]
      · cases ha)
    (fun old => decide (0 ≤ wrAllowed old owner)) r
  rw [hcan] at e1 h1
  simp only [UbrIdx.writeRec, e1, Option.bind_some]
  by_cases hw : 0 ≤ wrAllowed (db.recs (58 :: t)) owner
  · simp only [hw, decide_true, if_true] at h1 ⊢
    have hdb : putArch db (58 :: t) ((if has r.flags flAr then some (opArchive ++ 58 :: t) else none).map Kvs.canon) r =
        (if has r.flags flAr && (db.recs (58 :: t)).isSome then (db.put (58 :: t) (some r)).put (opArchive ++ 58 :: t) (db.recs (58 :: t))
          else db.put (58 :: t) (some r)) := by
      by_cases ha : has r.flags flAr = true
      · simp only [ha, if_true, Option.map_some, putArch, Bool.true_and]
        have : Kvs.canon (opArchive ++ 58 :: t) = opArchive ++ 58 :: t := canon_arch _
        rw [this]
      · have ha : has r.flags flAr = false := by simpa using ha
        simp only [ha, Bool.false_and, Bool.false_eq_true, if_false, Option.map_none, putArch]
    rw [hdb] at h1
    have hr : (if has r.flags flAr && (db.recs (58 :: t)).isSome then (db.put (58 :: t) (some r)).put (opArchive ++ 58 :: t) (db.recs (58 :: t))
          else db.put (58 :: t) (some r)).recs (58 :: t) = some r := by
      split
      · rw [put_recs, if_neg, put_recs, if_pos rfl]
        show ¬ (58 :: t : Str) = 126 :: 58 :: t
        intro e; have := (List.cons.inj e).1; revert this; decide
      · rw [put_recs, if_pos rfl]
    have hi : (if has r.flags flAr && (db.recs (58 :: t)).isSome then (db.put (58 :: t) (some r)).put (opArchive ++ 58 :: t) (db.recs (58 :: t))
          else db.put (58 :: t) (some r)).idx = db.idx := by split <;> rfl
    obtain ⟨s2, e2, h2⟩ := h1.manage false rfl (by decide) (by decide) (db.recs (58 :: t)) hr (by rw [hi]; exact hg)
    exact ⟨s2, by rw [e2]; rfl, h2⟩
  · simp only [hw, decide_false, Bool.false_eq_true, if_false] at h1 ⊢
    exact ⟨s1, rfl, h1⟩

theorem Inv.doKvSet {s db} (h : Inv s db none) {c : Ctx} {owner : Str} {dom : Option Str} {a : SetArgs} {rc : Int} {db' : Db}
    (hc : Ubr.doKvSet db c owner dom a = some (rc, db')) (hg : ∀ k, db.idx k = true → db'.idx k = true) :
    ∃ s', doKvSet s c owner dom a = some (rc, s') ∧ Inv s' db' none := by
  simp only [Ubr.doKvSet] at hc
  simp only [UbrIdx.doKvSet, h.globalRs]
  generalize (if a.ns = .udev ∧ owner = core then some 0 else Ubr.globalRs db owner dom a.ns a.key) = g at hc ⊢
  cases g with
  | none => cases hc
  | some g =>
    simp only [Option.bind_some] at hc ⊢
    by_cases hg0 : g < 0
    · rw [if_pos hg0] at hc ⊢
      cases hc
      exact ⟨s, rfl, h⟩
    · rw [if_neg hg0] at hc ⊢
      obtain ⟨t, e⟩ := compose_cons (setSpec c owner dom a.ns a.key) rfl rfl
      have e' : (composeKey (setSpec c owner dom a.ns a.key)).drop 1 = 58 :: t := by rw [e]; rfl
      rw [e'] at hc ⊢
      by_cases hw : wrAllowed (db.recs (58 :: t)) owner < 0
      · rw [if_pos hw] at hc
        obtain ⟨s1, e1, h1⟩ : ∃ s', writeRec s (58 :: t) owner (setRec c owner a) = some (false, s') ∧ Inv s' db none := by
          have hcan := canon_cons t
          obtain ⟨s1, e1, h1⟩ := h.set (key := 58 :: t) (by rw [hcan]; simp [Plain])
            (arch := if has (setRec c owner a).flags flAr then some (opArchive ++ 58 :: t) else none)
            (by
              intro a ha
              split at ha
              · cases ha; show Plain (Kvs.canon (126 :: 58 :: t)); rw [canon_arch]; simp [Plain]
              · cases ha)
            (fun old => decide (0 ≤ wrAllowed old owner)) (setRec c owner a)
          rw [hcan] at e1 h1
          have hn : ¬ 0 ≤ wrAllowed (db.recs (58 :: t)) owner := by omega
          simp only [hn, decide_false, Bool.false_eq_true, if_false] at e1 h1
          exact ⟨s1, by simp only [UbrIdx.writeRec, e1, Option.bind_some, Bool.false_eq_true, if_false], h1⟩
        rw [e1, Option.bind_some]
        by_cases hv : a.value.isSome = true
        · rw [if_pos hv] at hc; cases hc
        · rw [if_neg hv] at hc; cases hc
          rw [if_neg (fun x => hv x.1)]
          exact ⟨s1, rfl, h1⟩
      · rw [if_neg hw] at hc
        cases hc
        obtain ⟨s1, e1, h1⟩ := h.write t owner (setRec c owner a) (hg _)
        have hw' : 0 ≤ wrAllowed (db.recs (58 :: t)) owner := by omega
        simp only [hw', decide_true, if_true] at e1 h1
        rw [e1, Option.bind_some, if_neg (fun x => absurd x.2 (by simp))]
        exact ⟨s1, rfl, h1⟩

theorem Inv.doReserve {s db} (h : Inv s db none) {c : Ctx} {w : Bool} {owner : Str} {dom : Option Str} {ns : Ns} {name : Str}
    {flags : Flags} {unset : Bool} {rc : Int} {db' : Db}
    (hc : Ubr.doReserve db c w owner dom ns name flags unset = some (rc, db')) (hg : ∀ k, db.idx k = true → db'.idx k = true)
    (hm : w = false → ∀ k, db.idx k = false) :
    ∃ s', doReserve s c w owner dom ns name flags unset = some (rc, s') ∧ Inv s' db' none := by
  obtain ⟨t, e⟩ := compose_cons (rsvSpec dom ns name) rfl rfl
  have hk : Kvs.canon (composeKey (rsvSpec dom ns name)) = 58 :: t := by rw [e, canon_blank]
  have hp : Plain (Kvs.canon (composeKey (rsvSpec dom ns name))) := by rw [hk]; simp [Plain]
  simp only [Ubr.doReserve] at hc
  simp only [UbrIdx.doReserve]
  by_cases hu : (unset && !w) = true
  · rw [if_pos hu] at hc ⊢
    simp only [Bool.and_eq_true, Bool.not_eq_true'] at hu
    obtain ⟨s1, e1, h1⟩ := h.unset hp (hm hu.2 _) (fun old => rsvAllowed old owner)
    refine ⟨s1, ?_⟩
    rw [e1]
    by_cases hr : rsvAllowed (db.recs (Kvs.canon (composeKey (rsvSpec dom ns name)))) owner = true
    · rw [if_pos hr] at hc h1; cases hc
      rw [hr]
      exact ⟨rfl, h1⟩
    · rw [if_neg hr] at hc h1; cases hc
      rw [show rsvAllowed (db.recs (Kvs.canon (composeKey (rsvSpec dom ns name)))) owner = false by simpa using hr]
      exact ⟨rfl, h1⟩
  · rw [if_neg hu] at hc ⊢
    by_cases ha : has flags flAlign = true
    · rw [if_pos ha] at hc; cases hc
    · rw [if_neg ha] at hc ⊢
      obtain ⟨s1, e1, h1⟩ := h.set (key := composeKey (rsvSpec dom ns name)) hp (arch := none) (by simp) (fun old => rsvAllowed old owner)
        (rsvRec c owner flags unset)
      simp only [reserveRec, e1, Option.bind_some]
      rw [hk] at hc h1 ⊢
      by_cases hr : rsvAllowed (db.recs (58 :: t)) owner = true
      · rw [if_pos hr] at hc ⊢
        rw [if_pos hr] at h1
        cases hc
        have hd : (composeKey (rsvSpec dom ns name)).drop 1 = 58 :: t := by rw [e]; rfl
        rw [hd]
        obtain ⟨s2, e2, h2⟩ := h1.manage (!w) rfl (by decide) (by decide) (db.recs (58 :: t)) (r := rsvRec c owner flags unset)
          (by simp [putArch, put_recs]) (hg _)
        exact ⟨s2, by rw [e2]; rfl, h2⟩
      · rw [if_neg hr] at hc ⊢
        rw [if_neg hr] at h1
        cases hc
        exact ⟨s1, rfl, h1⟩

/-- a call of a worker, or a reservation in the main process -/
theorem Inv.call {s db} (h : Inv s db none) {w : Bool} {owner : Str} {x : Ubr.Call} {rc : Int} {db' : Db}
    (hc : Ubr.call w db owner x = some (rc, db')) (hg : ∀ k, db.idx k = true → db'.idx k = true)
    (hm : w = false → ∀ k, db.idx k = false) :
    ∃ s', call w s owner x = some (rc, s') ∧ Inv s' db' none := by
  cases x with
  | set c a =>
    simp only [Ubr.call, Ubr.kvSet] at hc
    simp only [UbrIdx.call, UbrIdx.kvSet]
    by_cases ho : argsOk a.ns a.key = true
    · rw [if_pos ho] at hc ⊢; exact h.doKvSet hc hg
    · rw [if_neg ho] at hc ⊢; cases hc; exact ⟨s, rfl, h⟩
  | reserve c ns name flags =>
    simp only [Ubr.call, Ubr.kvReserve] at hc
    simp only [UbrIdx.call, UbrIdx.kvReserve]
    by_cases ho : (name != [] && name.head? != some sysChar) = true
    · rw [if_pos ho] at hc ⊢; exact h.doReserve hc hg hm
    · rw [if_neg ho] at hc ⊢; cases hc; exact ⟨s, rfl, h⟩
  | unreserve c ns name =>
    simp only [Ubr.call, Ubr.kvUnreserve] at hc
    simp only [UbrIdx.call, UbrIdx.kvReserve]
    by_cases ho : (name != [] && name.head? != some sysChar) = true
    · rw [if_pos ho] at hc ⊢; exact h.doReserve hc hg hm
    · rw [if_neg ho] at hc ⊢; cases hc; exact ⟨s, rfl, h⟩

theorem init_inv {o : Nat} {s : St} (h : init o = some s) : Inv s Db.empty none := by
  simp only [init, Option.map_eq_some_iff] at h
  obtain ⟨t, ht, rfl⟩ := h
  refine ⟨Aliased.empty, Bpt.create_binv ht, Bpt.create_rep ht, ?_, ?_, ?_, ?_, ?_, ?_, ?_, ?_, ?_, ?_⟩
  · intro k q e; cases e
  · intro a _; rfl
  · intro k _; rfl
  · intro k q e; cases e
  · intro k; rfl
  · intro k e; cases e
  · intro k k' q _ _ e; cases e
  · intro k k' q q' e; cases e
  · intro a e; cases e
  · intro a e; exact absurd rfl e

theorem Inv.get {s db} (h : Inv s db none) (c : Ctx) (owner : Str) (a : GetArgs) :
    kvGet s c owner a = some (Ubr.kvGet db c owner a) := by
  simp only [UbrIdx.kvGet, Ubr.kvGet]
  split
  · have hp : Plain (Kvs.canon (composeKey (getSpec c owner (domOf a.ns) a.ns a.key a.fmod a.fdev a.archive))) := by
      simp only [composeKey, doComposeKey, getSpec, Bool.false_eq_true, if_false, Option.getD_some, opPrefix]
      split
      · show Plain (Kvs.canon (126 :: _)); rw [canon_arch]; simp [Plain]
      · show Plain (Kvs.canon (32 :: 58 :: _)); rw [canon_blank]; simp [Plain]
    rw [h.fetch hp]
    rfl
  · rfl

end Sid.UbrIdx
