import Verif.Proof.HashMem
/-
C106: the memory of a hash table.
-/
namespace Sid.Props
open Sid.Hash Sid.Spec.HashMem

theorem runMem_fits {z : Sizes} {b : Heap} (ops : List Op) {t : Table} {m : Heap} (h : Fits z b t m) :
    ∃ rs t' m', runMem z t m ops = some (rs, t', m') ∧ Fits z b t' m' ∧ m'.answers <:+ m.answers ∧
      (Plenty m → rs = List.replicate ops.length 0 ∧ t' = run t ops) := by
  induction ops generalizing t m with
  | nil => exact ⟨_, _, _, rfl, h, List.suffix_refl _, fun _ => ⟨rfl, rfl⟩⟩
  | cons op ops ih =>
    obtain ⟨r, t1, m1, e, d, -, -⟩ := step_did h op
    obtain ⟨rs, t2, m2, e2, f2, s2, p2⟩ := ih d.fits
    refine ⟨r :: rs, t2, m2, ?_, f2, s2.trans d.suffix, fun hp => ?_⟩
    · unfold runMem
      rw [e]
      dsimp only
      rw [e2]
      rfl
    · obtain ⟨h1, h2⟩ := p2 fun hh => hp (d.suffix.subset hh)
      rcases d.res with ⟨hr, hd | hd⟩ | ⟨-, hd⟩
      · rw [h1, h2, hr, hd]
        exact ⟨rfl, rfl⟩
      · exact absurd hd hp
      · exact absurd hd hp

/-- C106: whatever calls are made on a table and whichever allocations fail, the calls do nothing undefined, and what is allocated is
    exactly what the table's entries take: one block for each entry beside two for the table, and the bytes it reports.  Destroying it
    gives back everything allocated since before it was created. -/
theorem C106_exact (z : Sizes) (hint : Nat) (m0 m1 : Heap) (t0 : Table) (h : createMem z hint m0 = some (some t0, m1)) (ops : List Op) :
    ∃ rs t m, runMem z t0 m1 ops = some (rs, t, m) ∧ Holds z m0 m t ∧ SameUse m0 (destroyMem z t m) := by
  obtain ⟨rs, t, m, e, f, -, -⟩ := runMem_fits ops (create_fits h).1
  refine ⟨rs, t, m, e, f.holds, ?_⟩
  obtain ⟨h1, h2, -⟩ := freeNodes_spec z t m
  have h3 := f.blocks
  have h4 := f.bytes
  unfold destroyMem free SameUse
  dsimp only
  push_cast
  constructor <;> omega

/-- C106: if a table cannot be created, that is for lack of memory, and as much is in use as before. -/
theorem C106_not_created (z : Sizes) (hint : Nat) (m0 m1 : Heap) (h : createMem z hint m0 = some (none, m1)) :
    SameUse m0 m1 ∧ false ∈ m0.answers := by
  unfold createMem at h
  have h1 := malloc_cases z.table m0
  generalize malloc z.table m0 = x at h h1
  obtain ⟨a, m2⟩ := x
  rcases h1 with ⟨e1, e2, e3, e4⟩ | ⟨e1, e2, e3, e4, e5⟩
  · dsimp only at e1 e2 e3 e4
    subst e1
    dsimp only at h
    cases hc : create hint with
    | none => rw [hc] at h; cases h
    | some t =>
      rw [hc] at h
      dsimp only at h
      have h2 := malloc_cases (z.ptr * t.slots.length) m2
      generalize malloc (z.ptr * t.slots.length) m2 = y at h h2
      obtain ⟨a2, m3⟩ := y
      rcases h2 with ⟨f1, f2, f3, f4⟩ | ⟨f1, f2, f3, f4, f5⟩
      · dsimp only at f1
        subst f1
        cases h
      · dsimp only at f1 f2 f3
        subst f1
        cases h
        refine ⟨⟨?_, ?_⟩, e4.subset f5⟩
        · show m3.blocks - 1 = _; omega
        · show m3.bytes - _ = _; omega
  · dsimp only at e1 e2 e3
    subst e1
    cases h
    exact ⟨⟨e2, e3⟩, e5⟩

/-- C106: all or nothing: at any point of any history, a call succeeds and changes the table as it does with enough memory, or it
    reports -1 as an allocation failed; then the table is as before
    and as much memory is in use as before (calls that the callback of an update made aside). -/
theorem C106_all_or_nothing (z : Sizes) (hint : Nat) (m0 m1 : Heap) (t0 : Table) (h : createMem z hint m0 = some (some t0, m1))
    (ops : List Op) (rs : List Int) (t : Table) (m : Heap) (hr : runMem z t0 m1 ops = some (rs, t, m)) (op : Op) :
    ∃ r t' m', stepMem z t m op = some (r, t', m') ∧
      ((r = 0 ∧ (Plain op → t' = step t op)) ∨ (r = -1 ∧ false ∈ m.answers ∧ (Plain op → t' = t ∧ SameUse m m'))) := by
  obtain ⟨rs', t', m', e, f, -, -⟩ := runMem_fits ops (create_fits h).1
  rw [hr] at e
  cases e
  obtain ⟨r, t1, m2, e, d, hf, hok⟩ := step_did f op
  refine ⟨r, t1, m2, e, ?_⟩
  rcases d.res with ⟨hr, -⟩ | ⟨hr, hd⟩
  · exact .inl ⟨hr, hok hr⟩
  · exact .inr ⟨hr, hd, hf hr⟩

/-- C106: with enough memory, a table is created for every size asked for up to 2^31, all calls succeed, and the table is the one of the
    model without memory, to which the claims on its contents (C12, C13, C56) apply. -/
theorem C106_enough (z : Sizes) (hint : Nat) (hh : hint ≤ 2 ^ 31) (m0 : Heap) (hp : Plenty m0) (ops : List Op) :
    ∃ t0 m1 m, create hint = some t0 ∧ createMem z hint m0 = some (some t0, m1) ∧
      runMem z t0 m1 ops = some (List.replicate ops.length 0, run t0 ops, m) := by
  have hc : ∃ t, create hint = some t := by
    obtain ⟨n, hn⟩ := roundSize_exists (fuel := 29) (e := 4) hh rfl (by omega)
    unfold create
    rw [show (2 : Nat) ^ 4 = 16 from rfl] at hn
    rw [hn]
    exact ⟨_, rfl⟩
  obtain ⟨t, ht⟩ := hc
  cases hm : createMem z hint m0 with
  | none =>
    exfalso
    unfold createMem at hm
    rw [ht] at hm
    split at hm
    · cases hm
    · dsimp only at hm
      split at hm <;> cases hm
  | some x =>
    obtain ⟨o, m1⟩ := x
    cases o with
    | none => exact absurd (C106_not_created _ _ _ _ hm).2 hp
    | some t0 =>
      obtain ⟨f, e, s⟩ := create_fits hm
      obtain ⟨rs, t', m', e2, -, -, p⟩ := runMem_fits ops f
      obtain ⟨rfl, rfl⟩ := p fun hh => hp (s.subset hh)
      exact ⟨t0, m1, m', e, rfl, e2⟩

/-- memory whose third allocation fails -/
def shortHeap : Heap := { answers := [true, true, false], blocks := 5, bytes := 100 }

/-- hypotheses of the theorems can be met; the failing call is met, too -/
example : ∃ t m, createMem ⟨32, 24, 8⟩ 20 shortHeap = some (some t, m) ∧ t.slots.length = 32 := by
  refine ⟨{ numNodes := 0, slots := List.replicate 32 [] }, { answers := [false], blocks := 7, bytes := 380 }, by decide +kernel, rfl⟩

example : stepMem ⟨32, 24, 8⟩ { numNodes := 0, slots := List.replicate 32 [] } { answers := [false], blocks := 7, bytes := 380 }
    (.add [1, 2] 3 4) = some (-1, { numNodes := 0, slots := List.replicate 32 [] }, { answers := [], blocks := 7, bytes := 380 }) := by
  decide +kernel

example : createMem ⟨32, 24, 8⟩ 20 { shortHeap with answers := [true, false] } = some (none, { shortHeap with answers := [] }) := by
  decide +kernel

example : Plenty { shortHeap with answers := [] } := by simp [Plenty]

end Sid.Props
