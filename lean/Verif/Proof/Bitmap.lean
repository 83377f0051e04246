import Verif.Model.Bitmap
import Verif.Spec.Bitmap

namespace Sid.Bmp

/-- Representation: `b` is the bitmap with content `f` on `0..n-1`. -/
structure Rep (n : Nat) (f : Nat → Bool) (b : Bmp) : Prop where
  cnt : b.bitCount = n
  len : b.mem.length = (n - 1) / 32 + 1
  bits : ∀ p < n, ∀ m, b.mem[p / 32]? = some m → m.getLsbD (p % 32) = f p
  num : b.setCount = ((List.range n).filter f).length

theorem and_bit_eq_zero (m : BitVec 32) (k : Nat) (hk : k < 32) :
    (m &&& 1#32 <<< k = 0#32) ↔ m.getLsbD k = false := by
  have e : (1#32 <<< k) = BitVec.twoPow 32 k := by rw [BitVec.twoPow_eq]
  rw [e, BitVec.and_twoPow]
  cases h : m.getLsbD k
  · simp
  · simp only [if_true, Bool.true_eq_false, iff_false]
    intro hc
    have : (BitVec.twoPow 32 k).getLsbD k = (0#32).getLsbD k := by rw [hc]
    simp [hk] at this

theorem getLsbD_or_bit (m : BitVec 32) (k j : Nat) (hk : k < 32) :
    (m ||| 1#32 <<< k).getLsbD j = (m.getLsbD j || decide (j = k)) := by
  have e : (1#32 <<< k) = BitVec.twoPow 32 k := by rw [BitVec.twoPow_eq]
  rw [e, BitVec.getLsbD_or, BitVec.getLsbD_twoPow]
  by_cases h : j = k
  · subst h; simp [hk]
  · simp [h, Ne.symm h]

theorem getLsbD_andnot_bit (m : BitVec 32) (k j : Nat) (hk : k < 32) (hj : j < 32) :
    (m &&& ~~~(1#32 <<< k)).getLsbD j = (m.getLsbD j && decide (j ≠ k)) := by
  have e : (1#32 <<< k) = BitVec.twoPow 32 k := by rw [BitVec.twoPow_eq]
  rw [e, BitVec.getLsbD_and, BitVec.getLsbD_not, BitVec.getLsbD_twoPow]
  by_cases h : j = k
  · subst h; simp [hk]
  · simp [h, Ne.symm h, hj]

theorem getCoord_lt {n f b} (R : Rep n f b) (hn : n ≤ 2 ^ 37) {p : Nat} (hp : p < n) :
    getCoord b p = .ok (p / 32, 1#32 <<< (p % 32)) := by
  have e1 : p >>> 5 = p / 32 := by rw [Nat.shiftRight_eq_div_pow]
  have e2 : p &&& 31 = p % 32 := Nat.and_two_pow_sub_one_eq_mod p 5
  have e3 : p / 32 % 2 ^ 32 = p / 32 := Nat.mod_eq_of_lt (by omega)
  unfold getCoord
  rw [if_neg (by rw [R.cnt]; omega), e1, e2, e3]

theorem getCoord_ge {n f b} (R : Rep n f b) {p : Nat} (hp : n ≤ p) : getCoord b p = .err .ERANGE := by
  unfold getCoord
  rw [if_pos (by rw [R.cnt]; exact hp)]

theorem block_get {n f b} (R : Rep n f b) {p : Nat} (hp : p < n) : ∃ m, b.mem[p / 32]? = some m := by
  have : p / 32 < b.mem.length := by rw [R.len]; omega
  exact ⟨_, List.getElem?_eq_getElem this⟩

/-- The content with one position changed. -/
def upd (f : Nat → Bool) (p : Nat) (v : Bool) : Nat → Bool := fun q => if q = p then v else f q

theorem filter_upd_ge (n : Nat) (f : Nat → Bool) (p : Nat) (v : Bool) (h : n ≤ p) :
    (List.range n).filter (upd f p v) = (List.range n).filter f := by
  apply List.filter_congr
  intro q hq
  have := List.mem_range.mp hq
  unfold upd
  rw [if_neg (by omega)]

theorem filter_upd_true (n : Nat) (f : Nat → Bool) (p : Nat) (h : p < n) (hf : f p = false) :
    ((List.range n).filter (upd f p true)).length = ((List.range n).filter f).length + 1 := by
  induction n with
  | zero => omega
  | succ n ih =>
    rw [List.range_succ, List.filter_append, List.filter_append, List.length_append, List.length_append]
    by_cases hp : p = n
    · subst hp
      rw [filter_upd_ge _ _ _ _ (Nat.le_refl _)]
      simp [upd, hf]
    · rw [ih (by omega)]
      have : upd f p true n = f n := by unfold upd; rw [if_neg (Ne.symm hp)]
      simp only [List.filter_cons, this, List.filter_nil]
      omega

theorem filter_upd_false (n : Nat) (f : Nat → Bool) (p : Nat) (h : p < n) (hf : f p = true) :
    ((List.range n).filter (upd f p false)).length + 1 = ((List.range n).filter f).length := by
  induction n with
  | zero => omega
  | succ n ih =>
    rw [List.range_succ, List.filter_append, List.filter_append, List.length_append, List.length_append]
    by_cases hp : p = n
    · subst hp
      rw [filter_upd_ge _ _ _ _ (Nat.le_refl _)]
      simp [upd, hf]
    · have := ih (by omega)
      have e : upd f p false n = f n := by unfold upd; rw [if_neg (Ne.symm hp)]
      simp only [List.filter_cons, e, List.filter_nil]
      omega

theorem upd_same (f : Nat → Bool) (p : Nat) (v : Bool) (h : f p = v) : upd f p v = f := by
  funext q
  unfold upd
  split
  · rename_i e; rw [e, h]
  · rfl

theorem setBit_rep {n f b} (R : Rep n f b) (hn : n ≤ 2 ^ 37) {p : Nat} (hp : p < n) :
    ∃ b', setBit b p = .ok b' ∧ Rep n (upd f p true) b' := by
  obtain ⟨m, hm⟩ := block_get R hp
  have hbit := R.bits p hp m hm
  have hk : p % 32 < 32 := Nat.mod_lt _ (by decide)
  unfold setBit
  simp only [getCoord_lt R hn hp, hm, and_bit_eq_zero m _ hk, hbit]
  cases hf : f p
  · refine ⟨_, if_pos rfl, R.cnt, by simpa using R.len, ?_, ?_⟩
    · intro q hq m' hm'
      rw [List.getElem?_set] at hm'
      split at hm'
      · rename_i e
        split at hm'
        · injection hm' with hm'
          subst hm'
          rw [getLsbD_or_bit _ _ _ hk, R.bits q hq m (by rw [← e]; exact hm)]
          unfold upd
          by_cases hqp : q = p
          · simp [hqp]
          · have : q % 32 ≠ p % 32 := by omega
            simp [hqp, this]
        · cases hm'
      · rename_i e
        have : q ≠ p := by rintro rfl; exact e rfl
        rw [R.bits q hq m' hm', upd, if_neg this]
    · rw [filter_upd_true n f p hp hf, ← R.num]
  · refine ⟨b, if_neg (by simp), ?_⟩
    rw [upd_same f p true hf]
    exact R

theorem unsetBit_rep {n f b} (R : Rep n f b) (hn : n ≤ 2 ^ 37) {p : Nat} (hp : p < n) :
    ∃ b', unsetBit b p = .ok b' ∧ Rep n (upd f p false) b' := by
  obtain ⟨m, hm⟩ := block_get R hp
  have hbit := R.bits p hp m hm
  have hk : p % 32 < 32 := Nat.mod_lt _ (by decide)
  unfold unsetBit
  simp only [getCoord_lt R hn hp, hm, ne_eq, and_bit_eq_zero m _ hk, hbit]
  cases hf : f p
  · refine ⟨b, if_neg (by simp), ?_⟩
    rw [upd_same f p false hf]
    exact R
  · refine ⟨_, if_pos (by simp), R.cnt, by simpa using R.len, ?_, ?_⟩
    · intro q hq m' hm'
      rw [List.getElem?_set] at hm'
      split at hm'
      · rename_i e
        split at hm'
        · injection hm' with hm'
          subst hm'
          rw [getLsbD_andnot_bit _ _ _ hk (Nat.mod_lt _ (by decide)), R.bits q hq m (by rw [← e]; exact hm)]
          unfold upd
          by_cases hqp : q = p
          · simp [hqp]
          · have : q % 32 ≠ p % 32 := by omega
            simp [hqp, this]
        · cases hm'
      · rename_i e
        have : q ≠ p := by rintro rfl; exact e rfl
        rw [R.bits q hq m' hm', upd, if_neg this]
    · have := filter_upd_false n f p hp hf
      have := R.num
      show b.setCount - 1 = _
      omega

theorem create_rep {n : Nat} {inv : Bool} {b : Bmp} (h : create n inv = .ok b) :
    0 < n ∧ Rep n (fun _ => inv) b := by
  unfold create at h
  split at h
  · cases h
  · rename_i hn
    refine ⟨Nat.pos_of_ne_zero hn, ?_⟩
    cases inv
    · simp at h
      subst h
      refine ⟨rfl, by simp, ?_, by rw [List.filter_eq_nil_iff.mpr (by simp)]; rfl⟩
      intro p hp m hm
      rw [List.getElem?_replicate] at hm
      split at hm <;> cases hm
      simp
    · simp at h
      subst h
      refine ⟨rfl, by simp, ?_, by rw [List.filter_eq_self.mpr (by simp)]; simp⟩
      intro p hp m hm
      rw [List.getElem?_replicate] at hm
      split at hm <;> cases hm
      have : (4294967295#32) = BitVec.allOnes 32 := by decide
      rw [this, BitVec.getLsbD_allOnes]
      simp [Nat.mod_lt]

theorem lastTouch_append (cs : List Spec.Bitmap.Call) (c : Spec.Bitmap.Call) (p : Nat) :
    Spec.Bitmap.lastTouch (cs ++ [c]) p = if c.1 = p then some c.2 else Spec.Bitmap.lastTouch cs p := by
  unfold Spec.Bitmap.lastTouch
  rw [List.filter_append]
  by_cases h : c.1 = p
  · simp [h]
  · simp [h]

theorem spec_upd (inv : Bool) (cs : List Spec.Bitmap.Call) (p : Nat) (v : Bool) :
    (fun q => Spec.Bitmap.isSet inv (cs ++ [(p, v)]) q) = upd (fun q => Spec.Bitmap.isSet inv cs q) p v := by
  funext q
  unfold upd Spec.Bitmap.isSet
  rw [lastTouch_append]
  by_cases h : p = q
  · simp [h]
  · simp [h, Ne.symm h]

/-- The specification call made by an operation. -/
def Op.call : Op → Spec.Bitmap.Call
  | .set p => (p, true)
  | .unset p => (p, false)

theorem rep_congr {n f g b} (R : Rep n f b) (h : ∀ p < n, f p = g p) : Rep n g b := by
  refine ⟨R.cnt, R.len, fun p hp m hm => by rw [R.bits p hp m hm, h p hp], ?_⟩
  rw [R.num]
  congr 1
  apply List.filter_congr
  intro q hq
  exact h q (List.mem_range.mp hq)

theorem step_rep {n f b} (R : Rep n f b) (hn : n ≤ 2 ^ 37) (o : Op) :
    ∃ b', step b o = some b' ∧ Rep n (upd f o.call.1 o.call.2) b' := by
  cases o with
  | set p =>
    by_cases hp : p < n
    · obtain ⟨b', h, R'⟩ := setBit_rep R hn hp
      exact ⟨b', by simp [step, h], R'⟩
    · refine ⟨b, ?_, rep_congr R ?_⟩
      · simp [step, setBit, getCoord_ge R (Nat.le_of_not_lt hp)]
      · intro q hq; have : q ≠ p := by omega
        simp [upd, Op.call, this]
  | unset p =>
    by_cases hp : p < n
    · obtain ⟨b', h, R'⟩ := unsetBit_rep R hn hp
      exact ⟨b', by simp [step, h], R'⟩
    · refine ⟨b, ?_, rep_congr R ?_⟩
      · simp [step, unsetBit, getCoord_ge R (Nat.le_of_not_lt hp)]
      · intro q hq; have : q ≠ p := by omega
        simp [upd, Op.call, this]

theorem run_rep {n : Nat} {inv : Bool} (hn : n ≤ 2 ^ 37) (ops : List Op) : ∀ (cs : List Spec.Bitmap.Call) (b : Bmp),
    Rep n (fun q => Spec.Bitmap.isSet inv cs q) b →
    ∃ b', run b ops = some b' ∧ Rep n (fun q => Spec.Bitmap.isSet inv (cs ++ ops.map Op.call) q) b' := by
  induction ops with
  | nil => intro cs b R; exact ⟨b, rfl, by simpa using R⟩
  | cons o os ih =>
    intro cs b R
    obtain ⟨b1, h1, R1⟩ := step_rep R hn o
    have R1' : Rep n (fun q => Spec.Bitmap.isSet inv (cs ++ [o.call]) q) b1 := by
      have := spec_upd inv cs o.call.1 o.call.2
      rw [show o.call = (o.call.1, o.call.2) from rfl, this]; exact R1
    obtain ⟨b', h2, R2⟩ := ih (cs ++ [o.call]) b1 R1'
    refine ⟨b', by simp [run, h1, h2], ?_⟩
    simpa [List.append_assoc] using R2

theorem isSet_rep {n f b} (R : Rep n f b) (hn : n ≤ 2 ^ 37) {p : Nat} (hp : p < n) : isSet b p = .ok (f p) := by
  obtain ⟨m, hm⟩ := block_get R hp
  have hk : p % 32 < 32 := Nat.mod_lt _ (by decide)
  unfold isSet
  simp only [getCoord_lt R hn hp, hm, ne_eq, and_bit_eq_zero m _ hk, R.bits p hp m hm]
  cases f p <;> simp

end Sid.Bmp
