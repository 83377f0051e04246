import Verif.Proof.Bitmap
/-
C04: bitmap = set of positions.
-/
namespace Sid.Props
open Sid.Bmp

/-- C04.  For every size up to 2^37 bits, creation mode and sequence of set/unset calls: no call misbehaves,
    a position is reported set iff the most recent call for it set it (or it was never touched and the bitmap was
    created inverted), the count is the number of set positions, out-of-range queries give -ERANGE. -/
theorem C04_bitmap_is_set_of_positions (n : Nat) (inv : Bool) (ops : List Op) (hn0 : 0 < n) (hn : n ≤ 2 ^ 37) :
    ∃ b0 b, create n inv = .ok b0 ∧ run b0 ops = some b ∧
      (∀ p < n, isSet b p = .ok (Spec.Bitmap.isSet inv (ops.map Op.call) p)) ∧
      (∀ p, n ≤ p → isSet b p = .err .ERANGE ∧ setBit b p = .err .ERANGE ∧ unsetBit b p = .err .ERANGE) ∧
      b.setCount = Spec.Bitmap.count n inv (ops.map Op.call) ∧ b.bitCount = n := by
  obtain ⟨b0, h0⟩ : ∃ b0, create n inv = .ok b0 := by
    unfold create
    rw [if_neg (by omega)]
    cases inv <;> simp
  have R0 := (create_rep h0).2
  obtain ⟨b, h1, R⟩ := run_rep hn (inv := inv) ops [] b0 (by
    apply rep_congr R0; intro p _; rfl)
  simp only [List.nil_append] at R
  refine ⟨b0, b, h0, h1, fun p hp => isSet_rep R hn hp, ?_, R.num, R.cnt⟩
  intro p hp
  simp [isSet, setBit, unsetBit, getCoord_ge R hp]

/-- C04.  A refused call leaves the bitmap exactly as it was. -/
theorem C04_out_of_range_changes_nothing (b : Bmp) (o : Op) (h : b.bitCount ≤ o.call.1) : step b o = some b := by
  cases o <;> simp only [Op.call] at h <;> simp [step, setBit, unsetBit, getCoord, h]

/-- C04.  A zero-sized bitmap is refused. -/
theorem C04_create_zero (inv : Bool) : create 0 inv = .err .EINVAL := rfl

/-- C04, limit of the claim: beyond 2^37 bits the block number is truncated to 32 bits, so setting position 0
    makes position 2^37 read as set although no call touched it. -/
theorem C04_truncation_beyond_2_37 (n : Nat) (hn : 2 ^ 37 < n) :
    ∃ b0 b, create n false = .ok b0 ∧ setBit b0 0 = .ok b ∧ isSet b (2 ^ 37) = .ok true := by
  have hlen : 0 < (n - 1) / 32 + 1 := by omega
  refine ⟨⟨n, 0, List.replicate ((n - 1) / 32 + 1) 0#32⟩,
    ⟨n, 1, (List.replicate ((n - 1) / 32 + 1) 0#32).set 0 1#32⟩, ?_, ?_, ?_⟩
  · unfold create; rw [if_neg (by omega)]; rfl
  · have : getCoord ⟨n, 0, List.replicate ((n - 1) / 32 + 1) 0#32⟩ 0 = .ok (0, 1#32) := by
      unfold getCoord; rw [if_neg (by simp; omega)]; rfl
    unfold setBit
    simp [this]
  · have : getCoord ⟨n, 1, (List.replicate ((n - 1) / 32 + 1) 0#32).set 0 1#32⟩ (2 ^ 37) = .ok (0, 1#32) := by
      unfold getCoord; rw [if_neg (by simp; omega)]; rfl
    unfold isSet
    rw [this]
    simp [List.replicate_succ]

example : ∃ b0 b, create 40 true = .ok b0 ∧ run b0 [.unset 3, .set 39, .unset 33, .set 3, .unset 100] = some b ∧
    isSet b 33 = .ok false ∧ b.setCount = 39 := by
  refine ⟨⟨40, 40, [0xffffffff#32, 0xffffffff#32]⟩, ⟨40, 39, [0xffffffff#32, 0xfffffffd#32]⟩, ?_, ?_, ?_, rfl⟩ <;> decide

end Sid.Props
